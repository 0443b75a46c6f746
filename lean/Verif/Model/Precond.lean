import Verif.Model.ExchangeGraph

/-!
# Model of the greedy preconditioner

Models `/repo/src/greedy_preconditioner.h` and `/repo/src/greedy_preconditioner.cc`.
-/

namespace Cyclus.Exchange

/-- The map `commod_weights_`. -/
abbrev Weights := List (String × ℚ)

/-- Models `NodeWeight` (`greedy_preconditioner.cc:133-145`).  `(*weights)[n->commod]` reads 0 for
a commodity that is not in the map (the documented `KeyError` is not thrown); the entry it then
inserts has weight 0 and changes no later lookup.  Division by zero (an average preference of -1)
is 0 here. -/
def nodeWeight (w : Weights) (n : Node) (avgPref : ℚ) : ℚ :=
  let cw := if w.length ≠ 0 then (w.lookup n.commod).getD 0 else 1
  cw * (1 + avgPref / (1 + avgPref))

/-- The weight by which `NodeComp` (`greedy_preconditioner.h:80-85`) compares; `avg_prefs_[n]` is
`AvgPref(n)` (`greedy_preconditioner.cc:56-59`). -/
def nodeKey (w : Weights) (g : Graph) (n : ℕ) : ℚ := nodeWeight w (g.node n) (g.node n).avgPref

/-- Models `GroupWeight` (`greedy_preconditioner.cc:118-130`). -/
def groupWeight (w : Weights) (g : Graph) (nodes : List ℕ) : ℚ :=
  if nodes.length > 0 then (nodes.map (nodeKey w g)).sum / nodes.length else 0

/-- Sorting by descending key: the comparators `NodeComp` and `GroupComp`
(`greedy_preconditioner.h:78-93`). -/
def descBy {α : Type} (key : α → ℚ) (l r : α) : Bool := decide (key r < key l)

/-- The loop body of `Condition` (`greedy_preconditioner.cc:52-65`): the nodes of one group. -/
def sortNodes (w : Weights) (g : Graph) (nodes : List ℕ) : List ℕ :=
  stableSort (descBy (nodeKey w g)) nodes

/-- Models `GreedyPreconditioner::Condition` (`greedy_preconditioner.cc:45-79`). -/
def condition (w : Weights) (g : Graph) : Graph :=
  let grp := fun r =>
    if r ∈ g.reqs then { g.group r with nodes := sortNodes w g (g.group r).nodes } else g.group r
  { g with
    group := grp
    reqs := stableSort (descBy fun r => groupWeight w g (grp r).nodes) g.reqs }

/-- Models `GreedyPreconditioner::ProcessWeights_` (`greedy_preconditioner.cc:82-115`): with
`REVERSE` every weight becomes `max + min - weight`.  The constructor calls it only for a nonempty
map (`greedy_preconditioner.cc:30-43`); the assertion `min >= 0` aborts (`none`). -/
def processWeights (reverse : Bool) (w : Weights) : Option Weights :=
  match w.map Prod.snd with
  | [] => some w
  | x :: xs =>
    let mn := xs.foldl (fun b y => if y < b then y else b) x
    let mx := xs.foldl (fun b y => if b < y then y else b) x
    if 0 ≤ mn then
      some (if reverse then w.map fun e => (e.1, mx + mn - e.2) else w)
    else none

end Cyclus.Exchange
