import Verif.Model.Greedy

/-!
# Vocabulary for the properties of the greedy solver

Sums over a list of matches and the conditions on the exchange graph.  Nothing here refers to the
functions of the solver.
-/

namespace Cyclus.Exchange.Spec

/-- What a list of matches puts on constraint `i` of node group `grp`: the sum of quantity times
unit capacity over all ends of matches in the group. -/
def load (g : Graph) (ms : List (Arc × ℚ)) (grp i : ℕ) : ℚ :=
  (ms.map fun m =>
    (if (g.node m.1.u).group = some grp
      then m.2 * ((g.node m.1.u).unitCaps (m.1.u, m.1.v)).getD i 0 else 0) +
    (if (g.node m.1.v).group = some grp
      then m.2 * ((g.node m.1.v).unitCaps (m.1.u, m.1.v)).getD i 0 else 0)).sum

/-- The flow through a node. -/
def flow (ms : List (Arc × ℚ)) (n : ℕ) : ℚ :=
  (ms.map fun m => (if m.1.u = n then m.2 else 0) + (if m.1.v = n then m.2 else 0)).sum

/-- The flow into the request nodes of a group. -/
def groupFlow (g : Graph) (ms : List (Arc × ℚ)) (r : ℕ) : ℚ :=
  (ms.map fun m => if (g.node m.1.u).group = some r then m.2 else 0).sum

/-- The total flow. -/
def totalFlow (ms : List (Arc × ℚ)) : ℚ := (ms.map Prod.snd).sum

/-- The total cost: quantity divided by the requester's preference for the arc. -/
def totalCost (g : Graph) (ms : List (Arc × ℚ)) : ℚ :=
  (ms.map fun m => m.2 / (((g.node m.1.u).prefs.lookup (m.1.u, m.1.v)).getD 0)).sum

/-- The graph is bipartite and consistent, as the exchange translator builds it: no request group
is listed twice, request and supply groups are different, the nodes of a request group point to
it, the ends of every arc are in a request group and a supply group, and every arc end has one
unit capacity per capacity of its group. -/
structure WF (g : Graph) : Prop where
  nodup : g.reqs.Nodup
  disj : ∀ r ∈ g.reqs, r ∉ g.sups
  member : ∀ r ∈ g.reqs, ∀ n ∈ (g.group r).nodes, (g.node n).group = some r
  req : ∀ a ∈ g.arcs, ∃ r ∈ g.reqs, (g.node a.u).group = some r ∧
    ((g.node a.u).unitCaps (a.u, a.v)).length = (g.group r).caps.length
  sup : ∀ a ∈ g.arcs, ∃ r ∈ g.sups, (g.node a.v).group = some r ∧
    ((g.node a.v).unitCaps (a.u, a.v)).length = (g.group r).caps.length

/-- `n` is an end of the arc `a` and `u` the unit capacity of that end for constraint `i` of group
`grp`. -/
def UnitCap (g : Graph) (a : Arc) (grp i : ℕ) (u : ℚ) : Prop :=
  ∃ n, (n = a.u ∨ n = a.v) ∧ (g.node n).group = some grp ∧
    ((g.node n).unitCaps (a.u, a.v))[i]? = some u

/-- No unit capacity is negative and no capacity is above `dmax` (the value that stands for an
unlimited capacity). -/
structure Nonneg (dmax : ℚ) (g : Graph) : Prop where
  cap : ∀ (grp i : ℕ) (c : ℚ), (g.group grp).caps[i]? = some c → c ≤ dmax
  unit : ∀ a ∈ g.arcs, ∀ grp i u, UnitCap g a grp i u → 0 ≤ u

/-- Every capacity is positive, and no limited constraint mixes zero and positive unit
capacities. -/
structure Uniform (dmax : ℚ) (g : Graph) : Prop where
  pos : ∀ (grp i : ℕ) (c : ℚ), (g.group grp).caps[i]? = some c → 0 < c
  unif : ∀ (grp i : ℕ) (c : ℚ), (g.group grp).caps[i]? = some c → c ≠ dmax →
    (∀ a ∈ g.arcs, ∀ u, UnitCap g a grp i u → 0 < u) ∨
    (∀ a ∈ g.arcs, ∀ u, UnitCap g a grp i u → u = 0)

/-- What is used of `float_distance`: `tol b` is (at least) the distance of `b` to the next
smaller `double`, so that a distance of less than 2 means `b ≤ a + tol b`. -/
structure Ulp (p : Params) (tol : ℚ → ℚ) : Prop where
  near : ∀ a b, p.dist a b < 2 → b ≤ a + tol b

/-- The load of a constraint is within the capacity, or above it by no more than the tolerance of
an exclusive match of the group. -/
def CapOK (g : Graph) (tol : ℚ → ℚ) (ms : List (Arc × ℚ)) (grp i : ℕ) (c : ℚ) : Prop :=
  load g ms grp i ≤ c ∨ ∃ m ∈ ms, m.1.exclusive = true ∧ ∃ u, UnitCap g m.1 grp i u ∧
    load g ms grp i ≤ c + tol m.2 * u

/-- The flow through a node is within its quantity, or above it by no more than the tolerance of
an exclusive match of the node. -/
def NodeOK (g : Graph) (tol : ℚ → ℚ) (ms : List (Arc × ℚ)) (n : ℕ) : Prop :=
  flow ms n ≤ (g.node n).qty ∨ ∃ m ∈ ms, m.1.exclusive = true ∧ (m.1.u = n ∨ m.1.v = n) ∧
    flow ms n ≤ (g.node n).qty + tol m.2

/-- The groups whose capacities are upper bounds: all supply groups, and request groups with a
single capacity. -/
def Limited (g : Graph) (grp : ℕ) : Prop :=
  grp ∈ g.sups ∨ (grp ∈ g.reqs ∧ (g.group grp).caps.length ≤ 1)

/-- The flow into a request group is within its quantity, or above it by no more than the
tolerance of an exclusive match of the group. -/
def GroupOK (g : Graph) (tol : ℚ → ℚ) (ms : List (Arc × ℚ)) (r : ℕ) : Prop :=
  groupFlow g ms r ≤ (g.group r).qty ∨ ∃ m ∈ ms, m.1.exclusive = true ∧
    (g.node m.1.u).group = some r ∧ groupFlow g ms r ≤ (g.group r).qty + tol m.2

/-- `x` more units fit on the arc `a` as far as nodes and capacities are concerned: both nodes have
room, every limited capacity of the supply group has room, and, if the request group has
capacities at all, at least one of them has room. -/
structure Fits (dmax : ℚ) (g : Graph) (ms : List (Arc × ℚ)) (a : Arc) (x : ℚ) : Prop where
  u : flow ms a.u + x ≤ (g.node a.u).qty
  v : flow ms a.v + x ≤ (g.node a.v).qty
  sup : ∀ (sg i : ℕ) (c y : ℚ), (g.node a.v).group = some sg → (g.group sg).caps[i]? = some c →
    c ≠ dmax → ((g.node a.v).unitCaps (a.u, a.v))[i]? = some y → load g ms sg i + x * y ≤ c
  req : ∀ r, (g.node a.u).group = some r → (g.group r).caps = [] ∨
    ∃ (i : ℕ) (c y : ℚ), (g.group r).caps[i]? = some c ∧
      ((g.node a.u).unitCaps (a.u, a.v))[i]? = some y ∧ (c = dmax ∨ load g ms r i + x * y ≤ c)

/-- The request nodes of all arcs are listed, once, in their request group. -/
structure Listed (g : Graph) : Prop where
  mem : ∀ a ∈ g.arcs, ∀ r, (g.node a.u).group = some r → a.u ∈ (g.group r).nodes
  nodup : ∀ r ∈ g.reqs, (g.group r).nodes.Nodup

end Cyclus.Exchange.Spec
