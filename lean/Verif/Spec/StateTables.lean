import Verif.Model.StateTables

/-!
# What agents should find in their tables
-/

namespace Cyclus.StateTables

/-- What an agent recorded for itself under a title, as archetype or as `Agent`, at a time or at any time, in order. -/
def own {A : Type} (l : List (Write A)) (full : Bool) (id : ℤ) (time : Option ℤ) (title : Txt) : List A :=
  l.filterMap fun w => match w with
    | .state f m t ti a => if f = full ∧ m.id = id ∧ ti = title ∧ (time = none ∨ time = some t) then some a else none
    | .inv _ _ _ => none

/-- The inventories that an agent recorded at a time. -/
def ownInv {A : Type} (l : List (Write A)) (id : ℤ) (time : ℤ) : List A :=
  l.filterMap fun w => match w with
    | .state _ _ _ _ _ => none
    | .inv m t a => if m.id = id ∧ t = time then some a else none

/-- Who wrote. -/
def Write.agent {A : Type} : Write A → Agent
  | .state _ m _ _ _ => m
  | .inv m _ _ => m

/-- Agents with the same number are the same. -/
def Consistent {A : Type} (l : List (Write A)) (m : Agent) : Prop := ∀ w ∈ l, w.agent.id = m.id → w.agent = m

/-- As in the code, the class `Agent` writes only under titles without an underscore. -/
def BaseTitles {A : Type} (l : List (Write A)) : Prop := ∀ w ∈ l, ∀ m t ti a, w = .state false m t ti a → '_' ∉ ti ∧ ti ≠ "Inventories".toList

end Cyclus.StateTables
