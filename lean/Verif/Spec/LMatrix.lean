import Verif.Model.LMatrix
import Mathlib.Data.Matrix.Mul

/-!
# What an `LMatrix` stands for
-/

namespace Cyclus.LMat

/-- `A` stands for the `n × m` matrix `F`. -/
def Denotes {α : Type} {n m : ℕ} (A : LMatrix α) (F : Matrix (Fin n) (Fin m) α) : Prop :=
  A.rows = n ∧ A.cols = m ∧ A.M = List.ofFn fun i => List.ofFn fun j => F i j

/-- The matrix with the single column `x`. -/
def colOf {α : Type} {n : ℕ} (x : Fin n → α) : Matrix (Fin n) (Fin 1) α := fun i _ => x i

/-- `V` stands for the column `x`. -/
def IsVec {α : Type} {n : ℕ} (V : LMatrix α) (x : Fin n → α) : Prop := Denotes V (colOf x)

end Cyclus.LMat
