import Verif.Spec.LMatrix
import Mathlib.Data.Fintype.BigOperators
import Mathlib.Algebra.BigOperators.Fin

/-!
# Lemmas about `LMatrix`
-/

namespace Cyclus.LMat

variable {α : Type}

/-- `M` has `n` rows of `m` elements, that are `f i j`. -/
def Shape (M : List (List α)) (n m : ℕ) (f : ℕ → ℕ → α) : Prop :=
  M.length = n ∧ ∀ i, i < n → M[i]? = some ((List.range m).map (f i))

theorem Shape.at0 {M : List (List α)} {n m : ℕ} {f : ℕ → ℕ → α} (h : Shape M n m f) {i j : ℕ}
    (hi : i < n) (hj : j < m) : at0 M i j = some (f i j) := by
  simp [LMat.at0, h.2 i hi, hj]

theorem Shape.at0_row {M : List (List α)} {n m : ℕ} {f : ℕ → ℕ → α} (h : Shape M n m f) {i j : ℕ}
    (hj : m ≤ j) : LMat.at0 M i j = none := by
  rcases Nat.lt_or_ge i n with hi | hi
  · simp [LMat.at0, h.2 i hi, hj]
  · have : M[i]? = none := by simp [h.1, hi]
    simp [LMat.at0, this]

theorem Shape.congr {M : List (List α)} {n m : ℕ} {f g : ℕ → ℕ → α} (h : Shape M n m f)
    (hfg : ∀ i j, i < n → j < m → f i j = g i j) : Shape M n m g := by
  refine ⟨h.1, fun i hi => ?_⟩
  rw [h.2 i hi]
  congr 1
  apply List.map_congr_left
  intro j hj
  exact hfg i j hi (List.mem_range.mp hj)

theorem Shape.set {M : List (List α)} {n m : ℕ} {f : ℕ → ℕ → α} (h : Shape M n m f) {i j : ℕ}
    (hi : i < n) (hj : j < m) (v : α) :
    ∃ M', setAt M i j v = some M' ∧
      Shape M' n m (fun a b => if (a, b) = (i, j) then v else f a b) := by
  refine ⟨M.set i (((List.range m).map (f i)).set j v), ?_, ?_, ?_⟩
  · simp [setAt, h.2 i hi, hj]
  · simp [h.1]
  · intro a ha
    rw [List.getElem?_set]
    by_cases hia : i = a
    · subst hia
      rw [if_pos rfl, if_pos (by rw [h.1]; exact hi)]
      congr 1
      apply List.ext_getElem
      · simp
      · intro k hk hk'
        simp only [List.getElem_set, List.getElem_map, List.getElem_range, Prod.mk.injEq]
        by_cases hjk : j = k
        · subst hjk; simp
        · rw [if_neg hjk, if_neg (fun e => hjk e.2.symm)]
    · rw [if_neg hia, h.2 a ha]
      congr 1
      apply List.map_congr_left
      intro k _
      have : ¬ (a, k) = (i, j) := by
        simp only [Prod.mk.injEq, not_and]
        exact fun e => absurd e.symm hia
      simp only [this, if_false]

theorem Shape.zeros [Zero α] (n m : ℕ) : Shape (zeros n m : LMatrix α).M n m (fun _ _ => 0) := by
  refine ⟨by simp [LMat.zeros], fun i hi => ?_⟩
  rw [List.map_const', List.length_range]
  simp [LMat.zeros, hi]

theorem mem_cells {n m : ℕ} {c : ℕ × ℕ} : c ∈ cells n m ↔ c.1 < n ∧ c.2 < m := by
  obtain ⟨a, b⟩ := c
  simp [cells]

theorem nodup_cells (n m : ℕ) : (cells n m).Nodup := by
  unfold cells
  rw [List.nodup_flatMap]
  refine ⟨fun i _ => ?_, ?_⟩
  · exact List.Nodup.map (fun a b h => (Prod.mk.injEq .. ▸ h).2) List.nodup_range
  · apply List.Pairwise.imp _ (List.nodup_range (n := n))
    intro a b hab c h1 h2
    simp only [List.mem_map, List.mem_range] at h1 h2
    obtain ⟨j, _, rfl⟩ := h1
    obtain ⟨k, _, e⟩ := h2
    exact hab (Prod.mk.injEq .. ▸ e).1.symm

/-- A loop that writes every cell of a list of different cells once. -/
theorem fold_cells {n m : ℕ} (step : List (List α) → ℕ × ℕ → Option (List (List α)))
    (g : ℕ → ℕ → α → α)
    (hstep : ∀ M f i j, i < n → j < m → Shape M n m f → step M (i, j) = setAt M i j (g i j (f i j))) :
    ∀ (L : List (ℕ × ℕ)), L.Nodup → (∀ c ∈ L, c.1 < n ∧ c.2 < m) → ∀ M f, Shape M n m f →
      ∃ M', L.foldlM step M = some M' ∧
        Shape M' n m (fun i j => if (i, j) ∈ L then g i j (f i j) else f i j)
  | [], _, _, M, f, h => ⟨M, rfl, by simpa using h⟩
  | (i, j) :: L, hn, hL, M, f, h => by
    obtain ⟨hi, hj⟩ := hL (i, j) (by simp)
    obtain ⟨M1, h1, s1⟩ := h.set hi hj (g i j (f i j))
    rw [List.nodup_cons] at hn
    obtain ⟨M2, h2, s2⟩ := fold_cells step g hstep L hn.2
      (fun c hc => hL c (List.mem_cons_of_mem _ hc)) M1 _ s1
    refine ⟨M2, ?_, ?_⟩
    · rw [List.foldlM_cons, hstep M f i j hi hj h, h1]
      exact h2
    · refine s2.congr fun a b _ _ => ?_
      by_cases hab : (a, b) = (i, j)
      · obtain ⟨rfl, rfl⟩ := Prod.mk.injEq .. ▸ hab
        simp [hn.1]
      · simp [hab]

/-- The loop over all cells. -/
theorem fold_all {n m : ℕ} (step : List (List α) → ℕ × ℕ → Option (List (List α)))
    (g : ℕ → ℕ → α → α)
    (hstep : ∀ M f i j, i < n → j < m → Shape M n m f → step M (i, j) = setAt M i j (g i j (f i j)))
    {M : List (List α)} {f : ℕ → ℕ → α} (h : Shape M n m f) :
    ∃ M', (cells n m).foldlM step M = some M' ∧ Shape M' n m (fun i j => g i j (f i j)) := by
  obtain ⟨M', h1, s1⟩ := fold_cells step g hstep (cells n m) (nodup_cells n m)
    (fun c hc => mem_cells.mp hc) M f h
  refine ⟨M', h1, s1.congr fun i j hi hj => ?_⟩
  rw [if_pos (mem_cells.mpr ⟨hi, hj⟩)]

/-- A matrix of numbers as a function of natural numbers. -/
def ext [Zero α] {n m : ℕ} (F : Matrix (Fin n) (Fin m) α) (i j : ℕ) : α :=
  if h : i < n ∧ j < m then F ⟨i, h.1⟩ ⟨j, h.2⟩ else 0

theorem ext_fin [Zero α] {n m : ℕ} (F : Matrix (Fin n) (Fin m) α) (i : Fin n) (j : Fin m) :
    ext F i j = F i j := by
  simp [ext]

theorem denotes_iff [Zero α] {n m : ℕ} {A : LMatrix α} {F : Matrix (Fin n) (Fin m) α} :
    Denotes A F ↔ A.rows = n ∧ A.cols = m ∧ Shape A.M n m (ext F) := by
  unfold Denotes Shape
  have row : ∀ i : Fin n, (List.ofFn fun j => F i j) = (List.range m).map (ext F i) := by
    intro i
    apply List.ext_getElem
    · simp
    · intro k hk hk'
      simp only [List.length_ofFn] at hk
      simp only [List.getElem_ofFn, List.getElem_map, List.getElem_range]
      exact (ext_fin F i ⟨k, hk⟩).symm
  constructor
  · rintro ⟨h1, h2, h3⟩
    refine ⟨h1, h2, by simp [h3], fun i hi => ?_⟩
    rw [h3, List.getElem?_ofFn, dif_pos hi, row ⟨i, hi⟩]
  · rintro ⟨h1, h2, h3, h4⟩
    refine ⟨h1, h2, ?_⟩
    apply List.ext_getElem?
    intro i
    rw [List.getElem?_ofFn]
    by_cases hi : i < n
    · rw [dif_pos hi, h4 i hi, row ⟨i, hi⟩]
    · rw [dif_neg hi]
      simp [h3]; omega

theorem denotes_of [Zero α] {n m : ℕ} {M : List (List α)} {f : ℕ → ℕ → α}
    {F : Matrix (Fin n) (Fin m) α} (h : Shape M n m f) (hF : ∀ (i : Fin n) (j : Fin m), f i j = F i j) :
    Denotes (⟨M, n, m⟩ : LMatrix α) F := by
  rw [denotes_iff]
  refine ⟨rfl, rfl, h.congr fun i j hi hj => ?_⟩
  rw [hF ⟨i, hi⟩ ⟨j, hj⟩]
  exact (ext_fin F ⟨i, hi⟩ ⟨j, hj⟩).symm

theorem denotes_zeros [Zero α] (n m : ℕ) :
    Denotes (zeros n m : LMatrix α) (0 : Matrix (Fin n) (Fin m) α) :=
  denotes_of (Shape.zeros n m) (fun _ _ => rfl)

theorem denotes_get {n m : ℕ} {A : LMatrix α} {F : Matrix (Fin n) (Fin m) α}
    (h : Denotes A F) (i : Fin n) (j : Fin m) : A.get (i + 1) (j + 1) = some (F i j) := by
  unfold LMatrix.get LMat.at0
  rw [if_neg (by omega), h.2.2]
  simp

theorem denotes_set {n m : ℕ} {A : LMatrix α} {F : Matrix (Fin n) (Fin m) α} [Zero α]
    (h : Denotes A F) (i : Fin n) (j : Fin m) (v : α) :
    ∃ A', A.setElement (i + 1) (j + 1) v = some A' ∧
      Denotes A' (fun a b => if a = i ∧ b = j then v else F a b) := by
  obtain ⟨h1, h2, h3⟩ := denotes_iff.mp h
  obtain ⟨M, hM, sM⟩ := h3.set i.2 j.2 v
  refine ⟨⟨M, n, m⟩, ?_, denotes_of sM fun a b => ?_⟩
  · unfold LMatrix.setElement
    rw [if_neg (by omega), Nat.add_sub_cancel, Nat.add_sub_cancel, hM, ← h1, ← h2]
  · simp only [Prod.mk.injEq, ext_fin, Fin.val_inj]

theorem denotes_assign [Zero α] {n m : ℕ} {A : LMatrix α} {F : Matrix (Fin n) (Fin m) α}
    (h : Denotes A F) : A.assign = some A := by
  have h' := h
  obtain ⟨h1, h2, h3⟩ := denotes_iff.mp h
  obtain ⟨M, hM, sM⟩ := fold_all (n := n) (m := m) (copyCell A.M) (fun i j _ => ext F i j)
    (by
      intro M f i j hi hj _
      simp only [copyCell, h3.at0 hi hj])
    (Shape.zeros n m)
  have d := denotes_of (F := F) sM (fun i j => ext_fin F i j)
  unfold LMatrix.assign
  rw [h1, h2, hM]
  simp only [Option.some.injEq]
  obtain ⟨B, r, c⟩ := A
  simp only at h1 h2
  subst h1 h2
  simp only [LMatrix.mk.injEq, and_true]
  exact d.2.2.trans h'.2.2.symm

theorem denotes_combine [Zero α] (op : α → α → α) {n m : ℕ} {A B : LMatrix α}
    {F G : Matrix (Fin n) (Fin m) α} (hA : Denotes A F) (hB : Denotes B G) :
    ∃ C, A.combine op B = some C ∧ Denotes C (fun i j => op (F i j) (G i j)) := by
  obtain ⟨h1, h2, h3⟩ := denotes_iff.mp hA
  obtain ⟨k1, k2, k3⟩ := denotes_iff.mp hB
  obtain ⟨M, hM, sM⟩ := fold_all (n := n) (m := m) (combineCell op B.M)
    (fun i j a => op a (ext G i j))
    (by
      intro M f i j hi hj s
      simp only [combineCell, s.at0 hi hj, k3.at0 hi hj])
    h3
  refine ⟨⟨M, n, m⟩, ?_, denotes_of sM fun i j => by simp only [ext_fin]⟩
  unfold LMatrix.combine
  rw [if_pos ⟨h1.trans k1.symm, h2.trans k2.symm⟩, h1, h2, hM]

theorem denotes_scale [Zero α] [Mul α] {n m : ℕ} {A : LMatrix α} {F : Matrix (Fin n) (Fin m) α}
    (hA : Denotes A F) (k : α) :
    ∃ C, A.scale k = some C ∧ Denotes C (fun i j => F i j * k) := by
  obtain ⟨h1, h2, h3⟩ := denotes_iff.mp hA
  obtain ⟨M, hM, sM⟩ := fold_all (n := n) (m := m) (scaleCell A k)
    (fun i j _ => ext F i j * k)
    (by
      intro M f i j hi hj s
      have := denotes_get hA ⟨i, hi⟩ ⟨j, hj⟩
      simp only [← ext_fin F] at this
      simp only [scaleCell, this])
    h3
  refine ⟨⟨M, n, m⟩, ?_, denotes_of sM fun i j => by simp only [ext_fin]⟩
  unfold LMatrix.scale
  rw [h1, h2, hM]

theorem dot_some [NonUnitalNonAssocSemiring α] {A B : List (List α)} {i j : ℕ} {f g : ℕ → α} :
    ∀ (ks : List ℕ) (acc : α), (∀ k ∈ ks, at0 A i k = some (f k) ∧ at0 B k j = some (g k)) →
      dot A B i j ks acc = some (acc + (ks.map fun k => f k * g k).sum)
  | [], acc, _ => by simp [dot]
  | k :: ks, acc, h => by
    obtain ⟨h1, h2⟩ := h k (by simp)
    simp only [dot, h1, h2]
    rw [dot_some ks _ fun k hk => h k (List.mem_cons_of_mem _ hk)]
    simp [add_assoc]

theorem dot_none [Add α] [Mul α] {A B : List (List α)} {i j : ℕ} :
    ∀ (ks : List ℕ) (acc : α), (∃ k ∈ ks, at0 A i k = none) → dot A B i j ks acc = none
  | [], _, h => by simp at h
  | k :: ks, acc, h => by
    unfold dot
    cases hk : at0 A i k with
    | none => rfl
    | some a =>
      simp only
      cases at0 B k j with
      | none => rfl
      | some b =>
        simp only
        obtain ⟨k', hk', h'⟩ := h
        refine dot_none ks _ ⟨k', ?_, h'⟩
        rcases List.mem_cons.mp hk' with rfl | h2
        · rw [hk] at h'; cases h'
        · exact h2

theorem sum_range_fin [AddCommMonoid α] (n : ℕ) (f : ℕ → α) :
    ((List.range n).map f).sum = ∑ i : Fin n, f i := by
  rw [← List.sum_ofFn]
  congr 1
  apply List.ext_getElem
  · simp
  · intro k hk hk'
    simp

/-- The product as the code computes it, when `A` has at most as many rows as columns. -/
theorem denotes_mul_le [NonUnitalNonAssocSemiring α] {n m p : ℕ} {A B : LMatrix α}
    {F : Matrix (Fin n) (Fin m) α} {G : Matrix (Fin m) (Fin p) α} (hA : Denotes A F)
    (hB : Denotes B G) (hnm : n ≤ m) :
    ∃ C, A.mul B = some C ∧
      Denotes C (fun i j => ∑ k : Fin n, F i (Fin.castLE hnm k) * G (Fin.castLE hnm k) j) := by
  obtain ⟨h1, h2, h3⟩ := denotes_iff.mp hA
  obtain ⟨k1, k2, k3⟩ := denotes_iff.mp hB
  obtain ⟨M, hM, sM⟩ := fold_all (n := n) (m := p) (mulCell A B)
    (fun i j _ => ((List.range n).map fun k => ext F i k * ext G k j).sum)
    (by
      intro M f i j hi hj _
      have := dot_some (A := A.M) (B := B.M) (i := i) (j := j) (f := fun k => ext F i k)
        (g := fun k => ext G k j) (List.range n) 0 (fun k hk => by
          have hk := List.mem_range.mp hk
          exact ⟨h3.at0 hi (by omega), k3.at0 (by omega) hj⟩)
      simp only [mulCell, h1, this, zero_add])
    (Shape.zeros n p)
  have d : Denotes (⟨M, n, p⟩ : LMatrix α)
      (fun i j => ∑ k : Fin n, F i (Fin.castLE hnm k) * G (Fin.castLE hnm k) j) := by
    refine denotes_of sM fun i j => ?_
    rw [sum_range_fin]
    apply Finset.sum_congr rfl
    intro k _
    rw [← ext_fin F, ← ext_fin G]
    rfl
  refine ⟨_, ?_, d⟩
  unfold LMatrix.mul
  rw [if_pos (h2.trans k1.symm), h1, k2, hM]
  exact denotes_assign d

theorem denotes_mul [NonUnitalNonAssocSemiring α] {n p : ℕ} {A B : LMatrix α}
    {F : Matrix (Fin n) (Fin n) α} {G : Matrix (Fin n) (Fin p) α} (hA : Denotes A F)
    (hB : Denotes B G) : ∃ C, A.mul B = some C ∧ Denotes C (F * G) :=
  denotes_mul_le hA hB (le_refl n)

theorem mul_undefined [NonUnitalNonAssocSemiring α] {n m p : ℕ} {A B : LMatrix α}
    {F : Matrix (Fin n) (Fin m) α} {G : Matrix (Fin m) (Fin p) α} (hA : Denotes A F)
    (hB : Denotes B G) (hnm : m < n) (hp : 0 < p) : A.mul B = none := by
  obtain ⟨h1, h2, h3⟩ := denotes_iff.mp hA
  obtain ⟨k1, k2, k3⟩ := denotes_iff.mp hB
  unfold LMatrix.mul
  rw [if_pos (h2.trans k1.symm), h1, k2]
  obtain ⟨n', rfl⟩ : ∃ n', n = n' + 1 := ⟨n - 1, by omega⟩
  obtain ⟨p', rfl⟩ : ∃ p', p = p' + 1 := ⟨p - 1, by omega⟩
  have hc : ∃ L, cells (n' + 1) (p' + 1) = (0, 0) :: L := by
    unfold cells
    rw [List.range_succ_eq_map (n := n'), List.range_succ_eq_map (n := p')]
    exact ⟨_, rfl⟩
  obtain ⟨L, hL⟩ := hc
  rw [hL, List.foldlM_cons]
  have : mulCell A B (zeros (n' + 1) (p' + 1)).M (0, 0) = none := by
    unfold mulCell
    rw [dot_none]
    exact ⟨m, by rw [h1]; exact List.mem_range.mpr hnm, h3.at0_row (le_refl m)⟩
  rw [this]
  rfl

theorem denotes_mulTimes [Semiring α] {n : ℕ} {A : LMatrix α} {F : Matrix (Fin n) (Fin n) α}
    (hA : Denotes A F) : ∀ (k : ℕ) (B : LMatrix α) (G : Matrix (Fin n) (Fin n) α), Denotes B G →
      ∃ C, mulTimes A k B = some C ∧ Denotes C (G * F ^ k)
  | 0, B, G, hB => ⟨B, rfl, by simpa using hB⟩
  | k + 1, B, G, hB => by
    obtain ⟨C, hC, dC⟩ := denotes_mul hB hA
    obtain ⟨D, hD, dD⟩ := denotes_mulTimes hA k C _ dC
    refine ⟨D, ?_, ?_⟩
    · simp only [mulTimes, hC, hD]
    · rw [pow_succ', ← mul_assoc]
      exact dD

theorem diag_fold [Zero α] [One α] (n : ℕ) : ∀ k, k ≤ n →
    ∃ A, (List.range k).foldlM diagStep (zeros n n : LMatrix α) = some A ∧
      Denotes A (fun i j : Fin n => if i = j ∧ (i : ℕ) < k then (1 : α) else 0)
  | 0, _ => ⟨zeros n n, rfl, by
      have h := denotes_zeros (α := α) n n
      have e : (0 : Matrix (Fin n) (Fin n) α) =
          fun i j : Fin n => if i = j ∧ (i : ℕ) < 0 then (1 : α) else 0 := by
        funext i j
        simp
      exact e ▸ h⟩
  | k + 1, hk => by
    obtain ⟨A, hA, dA⟩ := diag_fold n k (by omega)
    obtain ⟨B, hB, dB⟩ := denotes_set dA ⟨k, by omega⟩ ⟨k, by omega⟩ 1
    refine ⟨B, ?_, ?_⟩
    · rw [List.range_succ, List.foldlM_append, hA]
      have hB' : diagStep A k = some B := hB
      simp [hB']
    · have e : (fun a b : Fin n => if a = ⟨k, by omega⟩ ∧ b = ⟨k, by omega⟩ then (1 : α)
          else if a = b ∧ (a : ℕ) < k then 1 else 0) =
          fun i j : Fin n => if i = j ∧ (i : ℕ) < k + 1 then (1 : α) else 0 := by
        funext a b
        by_cases h : a = b ∧ (a : ℕ) < k + 1
        · obtain ⟨rfl, h⟩ := h
          by_cases h' : (a : ℕ) < k
          · have : ¬ a = (⟨k, by omega⟩ : Fin n) := fun e => by rw [e] at h'; simp at h'
            simp [this, h', h]
          · have : a = (⟨k, by omega⟩ : Fin n) := Fin.ext (by simp; omega)
            simp [this]
        · rw [if_neg h, if_neg, if_neg]
          · exact fun e => h ⟨e.1, by omega⟩
          · rintro ⟨rfl, rfl⟩
            exact h ⟨rfl, by simp⟩
      rw [← e]
      exact dB

theorem denotes_identity [Zero α] [One α] (n : ℕ) :
    ∃ A, (identity n : Option (LMatrix α)) = some A ∧
      Denotes A (1 : Matrix (Fin n) (Fin n) α) := by
  obtain ⟨A, hA, dA⟩ := diag_fold (α := α) n n (le_refl n)
  refine ⟨A, hA, ?_⟩
  have e : (1 : Matrix (Fin n) (Fin n) α) =
      fun i j : Fin n => if i = j ∧ (i : ℕ) < n then (1 : α) else 0 := by
    funext i j
    simp [Matrix.one_apply]
  rw [e]
  exact dA

end Cyclus.LMat
