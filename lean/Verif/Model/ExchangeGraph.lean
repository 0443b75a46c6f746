import Verif.Model.Basic

/-!
# Model of the resource exchange graph

Models `/repo/src/exchange_graph.h` and `/repo/src/exchange_graph.cc`.

Nodes and node groups are addressed by natural numbers in place of `shared_ptr`s; an arc is
addressed by the pair of its nodes, which is what `Arc::operator<` and `operator==`
(`exchange_graph.h:86-94`) compare.
-/

namespace Cyclus.Exchange

/-- The key of an arc in `std::map<Arc, …>`: request node, bid node
(`exchange_graph.h:86-94`). -/
abbrev ArcKey := ℕ × ℕ

/-- Models `struct ExchangeNode` (`exchange_graph.h:27-60`).  `unitCaps` is the map
`unit_capacities` with `operator[]`'s empty vector for absent arcs; `prefs` is the map `prefs` as
a list of entries.  `group = none` is a null pointer. -/
structure Node where
  group : Option ℕ
  unitCaps : ArcKey → List ℚ
  prefs : List (ArcKey × ℚ)
  exclusive : Bool
  commod : String
  agent : ℤ
  qty : ℚ

/-- Models `class Arc` (`exchange_graph.h:67-107`). -/
structure Arc where
  u : ℕ
  v : ℕ
  exclusive : Bool
  exclVal : ℚ
  pref : ℚ
  deriving DecidableEq, Repr

/-- The key an arc is looked up with. -/
def Arc.key (a : Arc) : ArcKey := (a.u, a.v)

/-- Models `ExchangeNodeGroup` and `RequestGroup` (`exchange_graph.h:115-192`).  `qty` is
`RequestGroup::qty_` (unused for supply groups); `exclGroups` is `excl_node_groups_`. -/
structure Group where
  nodes : List ℕ
  caps : List ℚ
  exclGroups : List (List ℕ)
  qty : ℚ
  deriving DecidableEq, Repr

/-- Models `class ExchangeGraph` (`exchange_graph.h:204-289`): all nodes, all groups, the vectors
of request and supply groups, and the arcs in insertion order.  The arc id maps are dropped. The
matches are part of the solver state in `Verif.Model.Greedy`. -/
structure Graph where
  node : ℕ → Node
  group : ℕ → Group
  reqs : List ℕ
  sups : List ℕ
  arcs : List Arc

/-- `float_ulp_eq` (`cyc_limits.h.in:35`). -/
def floatUlpEq : ℚ := 2

/-- Models `Arc::Arc(unode, vnode)` (`exchange_graph.cc:58-79`), followed by `arc.pref(pref)`.
`dist` stands for `boost::math::float_distance`. -/
def mkArc (dist : ℚ → ℚ → ℚ) (node : ℕ → Node) (u v : ℕ) (pref : ℚ) : Arc :=
  let U := node u
  let V := node v
  let d := dist U.qty V.qty
  { u := u
    v := v
    exclusive := U.exclusive || V.exclusive
    exclVal :=
      if U.exclusive && V.exclusive then (if |d| ≤ floatUlpEq then U.qty else 0)
      else if U.exclusive then (if -floatUlpEq ≤ d then U.qty else 0)
      else if V.exclusive then (if d ≤ floatUlpEq then V.qty else 0)
      else 0
    pref := pref }

/-- Models the vector `node_arc_map()[n]` as `ExchangeGraph::AddArc` (`exchange_graph.cc:127-134`)
builds it: every arc is appended to the vector of its request node and then to the vector of its
bid node. -/
def Graph.nodeArcs (g : Graph) (n : ℕ) : List Arc :=
  g.arcs.flatMap fun a => (if a.u = n then [a] else []) ++ (if a.v = n then [a] else [])

/-- `prefs[a]` (`std::map::operator[]`): an absent entry reads as 0.  The insertion of that entry
is not modelled. -/
def Node.pref (n : Node) (k : ArcKey) : ℚ := ((n.prefs.lookup k).getD 0)

/-- Models `AvgPref` (`greedy_preconditioner.cc:17-26`). -/
def Node.avgPref (n : Node) : ℚ :=
  if n.prefs.length > 0 then (n.prefs.map Prod.snd).sum / n.prefs.length else 0

/-- Insertion into a sorted list in front of the first element that is not before `x`. -/
def insertBy {α : Type} (lt : α → α → Bool) (x : α) : List α → List α
  | [] => [x]
  | y :: ys => if lt y x then y :: insertBy lt x ys else x :: y :: ys

/-- Models `std::stable_sort` with comparator `lt` (insertion sort; elements that are equivalent
keep their order). -/
def stableSort {α : Type} (lt : α → α → Bool) : List α → List α
  | [] => []
  | x :: xs => insertBy lt x (stableSort lt xs)

end Cyclus.Exchange
