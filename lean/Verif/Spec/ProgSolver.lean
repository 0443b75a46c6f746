import Verif.Spec.Greedy
import Verif.Model.ExchangeGraph

/-!
# Specification of the mathematical programming solver

The cost of a use of the arcs of an exchange graph: what flows is divided by the preference of its
arc, and what the requests miss is charged with the pseudo cost.
-/

namespace Cyclus.Prog.Spec

open Cyclus.Exchange Cyclus.Exchange.Spec

/-- How much the constraints of a request group miss under the flow `f`: the largest difference of a
capacity and its load.  Capacities count up to `big` only. -/
def shortfall (big : ℚ) (g : Graph) (f : Arc → ℚ) (r : ℕ) : ℚ :=
  ((g.group r).caps.zipIdx.map fun c =>
    min c.1 big - load g (g.arcs.map fun a => (a, f a)) r c.2).foldr max 0

/-- The request groups for which there is a bid. -/
def wanted (g : Graph) : List ℕ :=
  g.reqs.filter fun r => decide (∃ n ∈ (g.group r).nodes, (g.node n).prefs ≠ [])

/-- The cost of the flow `f`. -/
def cost (big pseudo : ℚ) (g : Graph) (f : Arc → ℚ) : ℚ :=
  (g.arcs.map fun a => f a / a.pref).sum + pseudo * ((wanted g).map (shortfall big g f)).sum

end Cyclus.Prog.Spec
