import Verif.Model.Basic
import Mathlib.Analysis.SpecialFunctions.Log.Basic

/-!
# Model of the enrichment functions

Models `/repo/src/toolkit/enrichment.cc:85-130`.  Doubles are real numbers; a division by zero, whose
result is infinite or not a number, and what follows from it is `none`.
-/

namespace Cyclus.Enrich

/-- `Assays` (`enrichment.cc:15-33`). -/
structure Assays where
  feed : ℝ
  product : ℝ
  tails : ℝ

/-- Division of doubles. -/
noncomputable def div (a b : ℝ) : Option ℝ := if b = 0 then none else some (a / b)

/-- `FeedQty` (`enrichment.cc:85-91`). -/
noncomputable def feedQty (q : ℝ) (a : Assays) : Option ℝ :=
  (div (a.product - a.tails) (a.feed - a.tails)).map fun f => q * f

/-- `TailsQty` (`enrichment.cc:94-100`). -/
noncomputable def tailsQty (q : ℝ) (a : Assays) : Option ℝ :=
  (div (a.product - a.feed) (a.feed - a.tails)).map fun f => q * f

/-- `ValueFunc` (`enrichment.cc:103-119`).  For the fraction 0 the argument of the logarithm is
infinite, and so is the value. -/
noncomputable def valueFunc (x : ℝ) : Except Err (Option ℝ) :=
  if x < 0 then .error .value
  else if x ≥ 1 then .error .value
  else .ok ((div 1 x).map fun y => (1 - 2 * x) * Real.log (y - 1))

/-- `SwuRequired` (`enrichment.cc:122-130`).  The order in which the terms are evaluated has no
influence: they all throw the same kind of error. -/
noncomputable def swuRequired (q : ℝ) (a : Assays) : Except Err (Option ℝ) :=
  match valueFunc a.product, valueFunc a.tails, valueFunc a.feed with
  | .error e, _, _ => .error e
  | _, .error e, _ => .error e
  | _, _, .error e => .error e
  | .ok vp, .ok vt, .ok vf =>
    match feedQty q a, tailsQty q a, vp, vt, vf with
    | some f, some t, some vp, some vt, some vf => .ok (some (q * vp + t * vt - f * vf))
    | _, _, _, _, _ => .ok none

end Cyclus.Enrich
