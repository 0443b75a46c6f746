import Verif.Model.Basic
import Mathlib.Algebra.Ring.Defs

/-!
# Model of `LMatrix`

Models `/repo/src/l_matrix.{h,cc}`.  The elements (`long double`) are in any ring; sizes are natural
numbers (`int` in the code).  Access outside of a vector is undefined behaviour: `none`.
-/

namespace Cyclus.LMat

variable {α : Type}

/-- `M_[i][j]`: undefined outside of the vectors. -/
def at0 (M : List (List α)) (i j : ℕ) : Option α :=
  match M[i]? with
  | none => none
  | some r => r[j]?

/-- `M_[i][j] = v`: undefined outside of the vectors. -/
def setAt (M : List (List α)) (i j : ℕ) (v : α) : Option (List (List α)) :=
  match M[i]? with
  | none => none
  | some r => if j < r.length then some (M.set i (r.set j v)) else none

/-- The pairs `(i, j)` in the order of `for (i < n) for (j < m)`. -/
def cells (n m : ℕ) : List (ℕ × ℕ) :=
  (List.range n).flatMap fun i => (List.range m).map fun j => (i, j)

/-- The members of the class.  Models `/repo/src/l_matrix.h:46-49`. -/
structure LMatrix (α : Type) where
  M : List (List α)
  rows : ℕ
  cols : ℕ
  deriving DecidableEq, Repr

/-- `LMatrix(n, m)`.  Models `/repo/src/l_matrix.cc:50-55`; `zeros 1 1` is the default constructor
(42-47). -/
def zeros [Zero α] (n m : ℕ) : LMatrix α :=
  { M := List.replicate n (List.replicate m 0), rows := n, cols := m }

/-- `A(i, j)`, counted from one.  Models `/repo/src/l_matrix.cc:69-71, 79-81`. -/
def LMatrix.get (A : LMatrix α) (i j : ℕ) : Option α :=
  if i = 0 ∨ j = 0 then none else at0 A.M (i - 1) (j - 1)

/-- `SetElement`, and `A(i, j) = v`.  Models `/repo/src/l_matrix.cc:74-76, 79-81`. -/
def LMatrix.setElement (A : LMatrix α) (i j : ℕ) (v : α) : Option (LMatrix α) :=
  if i = 0 ∨ j = 0 then none
  else
    match setAt A.M (i - 1) (j - 1) v with
    | none => none
    | some M => some { A with M := M }

/-- `AddRow`.  Models `/repo/src/l_matrix.cc:85-91`. -/
def LMatrix.addRow (A : LMatrix α) (row : List α) : LMatrix α :=
  if row.length = A.cols then { A with M := A.M ++ [row], rows := A.rows + 1 } else A

/-- `M_[i][j] = rhs.M_[i][j]`.  Models `/repo/src/l_matrix.cc:132`. -/
def copyCell (rhs : List (List α)) (M : List (List α)) (c : ℕ × ℕ) : Option (List (List α)) :=
  match at0 rhs c.1 c.2 with
  | none => none
  | some b => setAt M c.1 c.2 b

/-- `operator=`.  Models `/repo/src/l_matrix.cc:118-138`. -/
def LMatrix.assign [Zero α] (rhs : LMatrix α) : Option (LMatrix α) :=
  match (cells rhs.rows rhs.cols).foldlM (copyCell rhs.M) (zeros rhs.rows rhs.cols).M with
  | none => none
  | some M => some { M := M, rows := rhs.rows, cols := rhs.cols }

/-- `M_[i][j] = op(M_[i][j], rhs.M_[i][j])`.  Models `/repo/src/l_matrix.cc:147, 162`. -/
def combineCell (op : α → α → α) (rhs : List (List α)) (M : List (List α)) (c : ℕ × ℕ) :
    Option (List (List α)) :=
  match at0 M c.1 c.2 with
  | none => none
  | some a =>
    match at0 rhs c.1 c.2 with
    | none => none
    | some b => setAt M c.1 c.2 (op a b)

/-- The shared shape of `operator+=` and `operator-=`: unchanged if the sizes differ. -/
def LMatrix.combine (op : α → α → α) (A rhs : LMatrix α) : Option (LMatrix α) :=
  if A.rows = rhs.rows ∧ A.cols = rhs.cols then
    match (cells A.rows A.cols).foldlM (combineCell op rhs.M) A.M with
    | none => none
    | some M => some { A with M := M }
  else some A

/-- `operator+=`, and `A + B` by a copy.  Models `/repo/src/l_matrix.cc:142-153, 210-214`. -/
def LMatrix.add [Add α] (A rhs : LMatrix α) : Option (LMatrix α) := A.combine (· + ·) rhs

/-- `operator-=`, and `A - B` by a copy.  Models `/repo/src/l_matrix.cc:157-168, 218-222`. -/
def LMatrix.sub [Sub α] (A rhs : LMatrix α) : Option (LMatrix α) := A.combine (· - ·) rhs

/-- The inner sum `aij = aij + M_[i][k] * rhs.M_[k][j]` over `k < rows_`.
Models `/repo/src/l_matrix.cc:190-196`: the bound is the number of *rows* of `A`. -/
def dot [Add α] [Mul α] (A B : List (List α)) (i j : ℕ) : List ℕ → α → Option α
  | [], acc => some acc
  | k :: ks, acc =>
    match at0 A i k with
    | none => none
    | some a =>
      match at0 B k j with
      | none => none
      | some b => dot A B i j ks (acc + a * b)

/-- `temp.M_[i][j] = aij`.  Models `/repo/src/l_matrix.cc:190-198`. -/
def mulCell [Zero α] [Add α] [Mul α] (A rhs : LMatrix α) (M : List (List α)) (c : ℕ × ℕ) :
    Option (List (List α)) :=
  match dot A.M rhs.M c.1 c.2 (List.range A.rows) 0 with
  | none => none
  | some v => setAt M c.1 c.2 v

/-- `operator*=`, and `A * B` by a copy: unchanged if the sizes do not fit.
Models `/repo/src/l_matrix.cc:176-206, 226-230`. -/
def LMatrix.mul [Zero α] [Add α] [Mul α] (A rhs : LMatrix α) : Option (LMatrix α) :=
  if A.cols = rhs.rows then
    match (cells A.rows rhs.cols).foldlM (mulCell A rhs) (zeros A.rows rhs.cols).M with
    | none => none
    | some M => LMatrix.assign { M := M, rows := A.rows, cols := rhs.cols }
  else some A

/-- `aij = A(i + 1, j + 1) * k; ans.M_[i][j] = aij`.  Models `/repo/src/l_matrix.cc:241-242`. -/
def scaleCell [Mul α] (A : LMatrix α) (k : α) (M : List (List α)) (c : ℕ × ℕ) :
    Option (List (List α)) :=
  match A.get (c.1 + 1) (c.2 + 1) with
  | none => none
  | some a => setAt M c.1 c.2 (a * k)

/-- `k * A` and `A * k`.  Models `/repo/src/l_matrix.cc:234-247, 251-264`. -/
def LMatrix.scale [Mul α] (A : LMatrix α) (k : α) : Option (LMatrix α) :=
  match (cells A.rows A.cols).foldlM (scaleCell A k) A.M with
  | none => none
  | some M => some { A with M := M }

/-- `ans *= A`, `n` times. -/
def mulTimes [Zero α] [Add α] [Mul α] (A : LMatrix α) : ℕ → LMatrix α → Option (LMatrix α)
  | 0, ans => some ans
  | n + 1, ans =>
    match ans.mul A with
    | none => none
    | some ans' => mulTimes A n ans'

/-- `A ^ k`: the loop runs `k - 1` times; unchanged if `A` is not square.
Models `/repo/src/l_matrix.cc:269-280`. -/
def LMatrix.pow [Zero α] [Add α] [Mul α] (A : LMatrix α) (k : ℤ) : Option (LMatrix α) :=
  if A.cols = A.rows then mulTimes A (k - 1).toNat A else some A

/-- `I.SetElement(i + 1, i + 1, 1)`.  Models `/repo/src/l_matrix.cc:287-289`. -/
def diagStep [One α] (A : LMatrix α) (i : ℕ) : Option (LMatrix α) :=
  A.setElement (i + 1) (i + 1) 1

/-- `identity(n)`.  Models `/repo/src/l_matrix.cc:284-292`. -/
def identity [Zero α] [One α] (n : ℕ) : Option (LMatrix α) :=
  (List.range n).foldlM diagStep (zeros n n)

end Cyclus.LMat
