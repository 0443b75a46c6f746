import Verif.Model.PyInv

/-!
# What the inventories of agents written in Python should do

Vocabulary for C121.
-/

namespace Cyclus.PyInv

open InfileGen (Str PyVal)
open ResBuf (Kind)

/-- The resources in a box. -/
def Box.contents : Box → List ℕ
  | .buf _ s => s.rs
  | .map s _ => s.res.filterMap Prod.snd

/-- The resources recorded under a name. -/
def recorded (r : List (Str × List ℕ)) (n : Str) : List ℕ := (r.lookup n).getD []

/-- Nothing is in the box. -/
def Box.Empty : Box → Prop
  | .buf _ s => s.rs = []
  | .map s _ => s.res = []

/-- The capacity that a box has. -/
inductive HasCapacity : Box → Option ℚ → Prop
  | buf (k : Kind) (s : ResBuf.St) : HasCapacity (.buf k s) s.cap
  | map (s : ResMap.St) (q : ℚ) : HasCapacity (.map s (some q)) (some q)

/-- The total of what the entries of a map hold. -/
def total (heap : ℕ → ℚ) (l : List (ℕ × Option ℕ)) : ℚ := (l.map fun e => (e.2.map heap).getD 0).sum

end Cyclus.PyInv
