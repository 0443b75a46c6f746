import Mathlib.Data.Rat.Defs
import Mathlib.Algebra.Order.Ring.Rat
import Mathlib.Algebra.Order.Group.Unbundled.Abs

/-!
# Model of the comparison of programs for COIN

Models `differentAgent` (`/repo/src/coin_helpers.cc:20-121`), with which the translation of exchanges to programs is tested
(`/repo/tests/prog_translator_tests.cc:231`).

Simplifications.
* Doubles are rational numbers; bounds are finite.  The counters are unbounded.
* `CoinRelFltEq` is modelled with its default of 1e-10.  Whether two matrices are equivalent under it is arbitrary.
* What is printed is left out, as is the hint (lines 24-30), which is not used.
-/

namespace Cyclus.ProgDiff

/-- A column. -/
structure Col where
  lower : ℚ
  upper : ℚ
  obj : ℚ
  isInt : Bool
  deriving DecidableEq

/-- A program, with matrices of type `M`. -/
structure Prog (M : Type) where
  /-- The bounds of the rows. -/
  rows : List (ℚ × ℚ)
  cols : List Col
  matrix : M
  /-- `getNumElements`. -/
  elements : ℕ
  /-- The names of rows and columns. -/
  names : List String

/-- `CoinRelFltEq`. -/
def close (a b : ℚ) : Bool := decide (a = b) || decide (|a - b| ≤ 1 / 10000000000 * (1 + max |a| |b|))

/-- `getNumIntegers`. -/
def integers {M : Type} (p : Prog M) : ℕ := p.cols.countP (·.isInt)

/-- Lines 81-88: the number of different bounds of rows. -/
def rowDiffs (a b : List (ℚ × ℚ)) : ℕ :=
  (a.zip b).countP (fun x => !close x.1.1 x.2.1) + (a.zip b).countP (fun x => !close x.1.2 x.2.2)

/-- Lines 94-104. -/
def colDiffs (a b : List Col) : ℕ :=
  (a.zip b).countP (fun x => !close x.1.lower x.2.lower) + (a.zip b).countP (fun x => !close x.1.upper x.2.upper) +
    (a.zip b).countP (fun x => !close x.1.obj x.2.obj)

/-- Lines 50-58: the columns that are integers in the first program only, and in the second only. -/
def intErrors (a b : List Col) : ℕ × ℕ :=
  ((a.zip b).countP (fun x => x.1.isInt && !x.2.isInt), (a.zip b).countP (fun x => !x.1.isInt && x.2.isInt))

/-- Lines 108-119. -/
def matrixDiffs {M : Type} (equiv : M → M → Bool) (l r : Prog M) : ℕ :=
  if l.elements = r.elements then (if !equiv l.matrix r.matrix then 100 else 0) else 200

/-- `differentAgent` (20-121). -/
def different {M : Type} (equiv : M → M → Bool) (l r : Prog M) (_ignoreNames : Bool) : ℕ :=
  if l.rows.length ≠ r.rows.length ∨ l.cols.length ≠ r.cols.length then 1000
  else if integers l ≠ integers r then 1001
  else if (intErrors l.cols r.cols).1 ≠ 0 ∨ (intErrors l.cols r.cols).2 ≠ 0 then 1002
  else rowDiffs l.rows r.rows + colDiffs l.cols r.cols + matrixDiffs equiv l r

end Cyclus.ProgDiff
