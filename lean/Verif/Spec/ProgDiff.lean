import Verif.Model.ProgDiff

/-!
# When two programs are the same
-/

namespace Cyclus.ProgDiff

/-- Two numbers are the same up to the tolerance. -/
def Near (a b : ℚ) : Prop := |a - b| ≤ 1 / 10000000000 * (1 + max |a| |b|)

/-- Two programs are the same up to the tolerance: rows, columns, kinds of columns, and matrices. -/
def Same {M : Type} (equiv : M → M → Bool) (l r : Prog M) : Prop :=
  List.Forall₂ (fun x y => Near x.1 y.1 ∧ Near x.2 y.2) l.rows r.rows ∧
  List.Forall₂ (fun x y => Near x.lower y.lower ∧ Near x.upper y.upper ∧ Near x.obj y.obj ∧ x.isInt = y.isInt) l.cols r.cols ∧
  l.elements = r.elements ∧ equiv l.matrix r.matrix = true

end Cyclus.ProgDiff
