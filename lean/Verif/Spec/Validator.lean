import Verif.Model.Validator

/-!
# What validation means
-/

namespace Cyclus.Validator

/-- The schema that counts after some calls: that of the last text that was parsed, if it is a schema. -/
def Current {S D : Type} (L : Lib S D) (l : List (Op D)) (s : S) : Prop :=
  ∃ a t b, l = a ++ .parse t :: b ∧ (∀ o ∈ b, ∃ d, o = .validate d) ∧ L.schema t = some s

/-- Every object that was made is freed, and once. -/
def AllFreed {S : Type} (v : Val S) : Prop := v.freed.Nodup ∧ ∀ n, n ∈ v.freed ↔ n < v.next

end Cyclus.Validator
