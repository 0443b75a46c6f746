import Verif.Model.LMatrix
import Mathlib.Analysis.SpecialFunctions.Exp

/-!
# Model of `UniformTaylor`

Models `/repo/src/uniform_taylor.cc` on the model of `LMatrix` with real elements.  The results of
`exp` that are rounded to zero or to infinity are the ones that two arbitrary predicates choose.
Assignments (`operator=`, see `LMatrix.assign`) are plain copies here.
-/

namespace Cyclus.LMat

open Real

/-- Which values of `exp` a `long double` represents as zero and as infinity. -/
structure Limits where
  zero : ℝ → Bool
  inf : ℝ → Bool

/-- The loop of `MaxAbsDiag`.  Models `/repo/src/uniform_taylor.cc:53-60`. -/
noncomputable def maxAbsLoop (A : LMatrix ℝ) : List ℕ → ℝ → Option ℝ
  | [], m => some m
  | i :: is, m =>
    match A.get i i with
    | none => none
    | some a => maxAbsLoop A is (if |a| > m then |a| else m)

/-- `MaxAbsDiag`.  Models `/repo/src/uniform_taylor.cc:43-63`. -/
noncomputable def maxAbsDiag (A : LMatrix ℝ) : Option ℝ :=
  match A.get 1 1 with
  | none => none
  | some a => maxAbsLoop A (List.range' 2 (A.rows - 1)) |a|

/-- The loop of `MaxNumTerms`; out of fuel is `none`.
Models `/repo/src/uniform_taylor.cc:132-151`. -/
noncomputable def termsLoop (at_ lower : ℝ) : ℕ → ℝ → ℝ → ℕ → Option ℕ
  | 0, _, _, _ => none
  | fuel + 1, sum, prev, p =>
    if sum ≥ lower then some p
    else termsLoop at_ lower fuel (sum + at_ / p * prev) (at_ / p * prev) (p + 1)

/-- `MaxNumTerms`.  Models `/repo/src/uniform_taylor.cc:111-154`. -/
noncomputable def maxNumTerms (lim : Limits) (fuel : ℕ) (at_ eps : ℝ) : Option (Except Err ℕ) :=
  if lim.inf (exp at_) then some (.error .value)
  else
    match termsLoop at_ (exp at_ * (1 - eps)) fuel 1 1 1 with
    | none => none
    | some p => some (.ok p)

/-- The loop that adds the terms: `C_next = (t / k) * B; C_next *= C_prev; Ck_sum += C_next`.
Models `/repo/src/uniform_taylor.cc:92-104`. -/
noncomputable def sumLoop (B : LMatrix ℝ) (t : ℝ) :
    List ℕ → LMatrix ℝ → LMatrix ℝ → Option (LMatrix ℝ)
  | [], _, sum => some sum
  | k :: ks, prev, sum =>
    match B.scale (t / k) with
    | none => none
    | some S =>
      match S.mul prev with
      | none => none
      | some next =>
        match sum.add next with
        | none => none
        | some sum' => sumLoop B t ks next sum'

/-- `GetSolutionVector`.  Models `/repo/src/uniform_taylor.cc:66-108`. -/
noncomputable def getSolutionVector (lim : Limits) (fuel : ℕ) (B x0 : LMatrix ℝ)
    (alpha t tol : ℝ) : Option (Except Err (LMatrix ℝ)) :=
  if lim.zero (exp (-(alpha * t))) then some (.error .value)
  else
    match x0.scale (exp (-(alpha * t))) with
    | none => none
    | some C =>
      match maxNumTerms lim fuel (alpha * t) tol with
      | none => none
      | some (.error e) => some (.error e)
      | some (.ok p) =>
        match sumLoop B t (List.range' 1 (p - 1)) C C with
        | none => none
        | some y => some (.ok y)

/-- `MatrixExpSolver`.  Models `/repo/src/uniform_taylor.cc:12-40`. -/
noncomputable def matrixExpSolver (lim : Limits) (fuel : ℕ) (A x0 : LMatrix ℝ) (t : ℝ) :
    Option (Except Err (LMatrix ℝ)) :=
  if x0.rows ≠ A.rows then some (.error .value)
  else
    match maxAbsDiag A with
    | none => none
    | some alpha =>
      match identity A.rows with
      | none => none
      | some I =>
        match I.scale alpha with
        | none => none
        | some aI =>
          match aI.add A with
          | none => none
          | some B => getSolutionVector lim fuel B x0 alpha t (1 / 1000)

end Cyclus.LMat
