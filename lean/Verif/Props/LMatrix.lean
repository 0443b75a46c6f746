import Verif.Lemmas.LMatrix
import Mathlib.Tactic.NormNum
import Mathlib.LinearAlgebra.Matrix.Notation

/-!
# C90: the matrices of the decay calculation
-/

namespace Cyclus.LMat

variable {α : Type}

/-- C90: a new matrix is zero, `identity(n)` is the identity, `A(i, j)` is the element, `A(i, j) = v`
changes that element alone, `A = B` copies, and `AddRow` appends a row of the right length. -/
theorem C90_elements [Zero α] [One α] {n m : ℕ} :
    Denotes (zeros n m : LMatrix α) (0 : Matrix (Fin n) (Fin m) α) ∧
    (∃ I, (identity n : Option (LMatrix α)) = some I ∧
      Denotes I (1 : Matrix (Fin n) (Fin n) α)) ∧
    ∀ (A : LMatrix α) (F : Matrix (Fin n) (Fin m) α), Denotes A F →
      (∀ (i : Fin n) (j : Fin m), A.get (i + 1) (j + 1) = some (F i j)) ∧
      (∀ i j, (i = 0 ∨ j = 0 ∨ n < i ∨ m < j) → A.get i j = none) ∧
      (∀ (i : Fin n) (j : Fin m) (v : α), ∃ A', A.setElement (i + 1) (j + 1) v = some A' ∧
        ∃ F' : Matrix (Fin n) (Fin m) α, Denotes A' F' ∧ F' i j = v ∧
          ∀ a b, (a, b) ≠ (i, j) → F' a b = F a b) ∧
      A.assign = some A ∧
      ∀ row : Fin m → α, Denotes (A.addRow (List.ofFn row))
        (fun (i : Fin (n + 1)) j => if h : (i : ℕ) < n then F ⟨i, h⟩ j else row j) := by
  refine ⟨denotes_zeros n m, denotes_identity n, fun A F h => ⟨denotes_get h, ?_, ?_,
    denotes_assign h, ?_⟩⟩
  · intro i j hij
    obtain ⟨h1, h2, h3⟩ := denotes_iff.mp h
    unfold LMatrix.get
    by_cases h0 : i = 0 ∨ j = 0
    · rw [if_pos h0]
    · rw [if_neg h0]
      rcases hij with e | e | e | e
      · exact absurd (Or.inl e) h0
      · exact absurd (Or.inr e) h0
      · have : A.M[i - 1]? = none := by
          rw [List.getElem?_eq_none_iff, h3.1]
          omega
        simp [at0, this]
      · exact h3.at0_row (by omega)
  · intro i j v
    obtain ⟨A', h1, h2⟩ := denotes_set h i j v
    refine ⟨A', h1, _, h2, ?_, ?_⟩
    · exact if_pos ⟨rfl, rfl⟩
    · intro a b hab
      exact if_neg fun e => hab (Prod.ext e.1 e.2)
  · intro row
    obtain ⟨h1, h2, h3⟩ := h
    unfold LMatrix.addRow
    rw [if_pos (by simp [h2])]
    refine ⟨by simp [h1], h2, ?_⟩
    simp only [h3]
    rw [List.ofFn_succ' (f := fun i => _)]
    simp [List.concat_eq_append]

example : Denotes (⟨[[1, 2]], 1, 2⟩ : LMatrix ℤ) !![1, 2] := by
  refine ⟨rfl, rfl, ?_⟩
  decide

/-- C90: `A + B`, `A - B` and `k * A` are the sum, the difference and the multiple. -/
theorem C90_sums [CommRing α] {n m : ℕ} {A B : LMatrix α} {F G : Matrix (Fin n) (Fin m) α}
    (hA : Denotes A F) (hB : Denotes B G) (k : α) :
    (∃ C, A.add B = some C ∧ Denotes C (F + G)) ∧
    (∃ C, A.sub B = some C ∧ Denotes C (F - G)) ∧
    ∃ C, A.scale k = some C ∧ Denotes C (k • F) := by
  refine ⟨denotes_combine (· + ·) hA hB, denotes_combine (· - ·) hA hB, ?_⟩
  obtain ⟨C, h1, h2⟩ := denotes_scale hA k
  refine ⟨C, h1, ?_⟩
  have e : k • F = fun i j => F i j * k := by
    funext i j
    simp [mul_comm]
  rw [e]
  exact h2

example : ∃ A B : LMatrix ℤ, Denotes A !![1, 2; 3, 4] ∧ Denotes B !![0, 5; -1, 7] :=
  ⟨⟨[[1, 2], [3, 4]], 2, 2⟩, ⟨[[0, 5], [-1, 7]], 2, 2⟩, ⟨rfl, rfl, by decide⟩,
    ⟨rfl, rfl, by decide⟩⟩

/-- C90: matrices whose sizes do not fit are left as they are. -/
theorem C90_sizes [CommRing α] (A B : LMatrix α) (row : List α) (k : ℤ) :
    ((A.rows ≠ B.rows ∨ A.cols ≠ B.cols) → A.add B = some A ∧ A.sub B = some A) ∧
    (A.cols ≠ B.rows → A.mul B = some A) ∧
    (row.length ≠ A.cols → A.addRow row = A) ∧
    (A.cols ≠ A.rows → A.pow k = some A) := by
  refine ⟨fun h => ?_, fun h => if_neg h, fun h => if_neg h, fun h => if_neg h⟩
  have h' : ¬ (A.rows = B.rows ∧ A.cols = B.cols) := by
    rintro ⟨e1, e2⟩
    rcases h with h | h
    · exact h e1
    · exact h e2
  exact ⟨if_neg h', if_neg h'⟩

example : (⟨[[1, 2]], 1, 2⟩ : LMatrix ℤ).cols ≠ (⟨[[3]], 1, 1⟩ : LMatrix ℤ).rows := by decide

/-- C90, in part: `A * B` is the product if `A` is square.  Missing: a matrix `A` that is not square
(`C90_fails_wide`, `C90_fails_tall`). -/
theorem C90_product_partial [CommRing α] {n p : ℕ} {A B : LMatrix α}
    {F : Matrix (Fin n) (Fin n) α} {G : Matrix (Fin n) (Fin p) α} (hA : Denotes A F)
    (hB : Denotes B G) : ∃ C, A.mul B = some C ∧ Denotes C (F * G) :=
  denotes_mul hA hB

example : ∃ A B : LMatrix ℤ, Denotes A !![1, 2; 3, 4] ∧ Denotes B !![5; 6] :=
  ⟨⟨[[1, 2], [3, 4]], 2, 2⟩, ⟨[[5], [6]], 2, 1⟩, ⟨rfl, rfl, by decide⟩, ⟨rfl, rfl, by decide⟩⟩

/-- C90, in part: `A ^ k` is the power of a square matrix for `k ≥ 1`.  Missing: `k = 0`
(`C90_fails_power`). -/
theorem C90_power_partial [CommRing α] {n : ℕ} {A : LMatrix α} {F : Matrix (Fin n) (Fin n) α}
    (hA : Denotes A F) (k : ℕ) (hk : 1 ≤ k) : ∃ C, A.pow k = some C ∧ Denotes C (F ^ k) := by
  obtain ⟨C, h1, h2⟩ := denotes_mulTimes hA (k - 1) A F hA
  refine ⟨C, ?_, ?_⟩
  · unfold LMatrix.pow
    rw [if_pos (hA.2.1.trans hA.1.symm), show ((k : ℤ) - 1).toNat = k - 1 by omega]
    exact h1
  · rw [← pow_succ', Nat.sub_add_cancel hk] at h2
    exact h2

example : Denotes (⟨[[1, 1], [0, 1]], 2, 2⟩ : LMatrix ℤ) !![1, 1; 0, 1] := ⟨rfl, rfl, by decide⟩

/-- C90 fails: the product of a matrix with fewer rows than columns leaves terms out. -/
theorem C90_fails_wide :
    ∃ (A B C : LMatrix ℤ) (F : Matrix (Fin 1) (Fin 2) ℤ) (G : Matrix (Fin 2) (Fin 1) ℤ),
      Denotes A F ∧ Denotes B G ∧ A.mul B = some C ∧ ¬ Denotes C (F * G) :=
  ⟨⟨[[1, 2]], 1, 2⟩, ⟨[[10], [100]], 2, 1⟩, ⟨[[10]], 1, 1⟩, !![1, 2], !![10; 100],
    ⟨rfl, rfl, by decide⟩, ⟨rfl, rfl, by decide⟩, by decide, fun h => by
      have := h.2.2
      revert this
      decide⟩

/-- C90 fails: the product of a matrix with more rows than columns reads outside of its rows. -/
theorem C90_fails_tall [CommRing α] {n m p : ℕ} {A B : LMatrix α}
    {F : Matrix (Fin n) (Fin m) α} {G : Matrix (Fin m) (Fin p) α} (hA : Denotes A F)
    (hB : Denotes B G) (hnm : m < n) (hp : 0 < p) : A.mul B = none :=
  mul_undefined hA hB hnm hp

example : ∃ A B : LMatrix ℤ, Denotes A !![1; 3] ∧ Denotes B !![5, 6] :=
  ⟨⟨[[1], [3]], 2, 1⟩, ⟨[[5, 6]], 1, 2⟩, ⟨rfl, rfl, by decide⟩, ⟨rfl, rfl, by decide⟩⟩

/-- C90 fails: `A ^ 0` is `A`, not the identity. -/
theorem C90_fails_power : ∃ (A C : LMatrix ℤ) (F : Matrix (Fin 1) (Fin 1) ℤ),
    Denotes A F ∧ A.pow 0 = some C ∧ ¬ Denotes C (F ^ 0) :=
  ⟨⟨[[2]], 1, 1⟩, ⟨[[2]], 1, 1⟩, !![2], ⟨rfl, rfl, by decide⟩, by decide, fun h => by
    have := h.2.2
    rw [pow_zero] at this
    revert this
    decide⟩

end Cyclus.LMat
