import Verif.Model.UniformTaylor
import Verif.Lemmas.LMatrix
import Verif.Lemmas.MatrixExp
import Mathlib.Data.Nat.Find
import Mathlib.Tactic.FieldSimp

/-!
# Lemmas about the matrix exponential solver
-/

namespace Cyclus.LMat

open Real

open scoped Nat

variable {n : ℕ}

theorem maxAbsLoop_spec {A : LMatrix ℝ} {F : Matrix (Fin n) (Fin n) ℝ} (hA : Denotes A F) :
    ∀ (k i : ℕ) (m : ℝ), 1 ≤ i → i + k = n + 1 →
      ∃ a, maxAbsLoop A (List.range' i k) m = some a ∧ m ≤ a ∧
        (∀ j : Fin n, i ≤ j + 1 → |F j j| ≤ a) ∧ (a = m ∨ ∃ j : Fin n, a = |F j j|)
  | 0, i, m, _, h => ⟨m, rfl, le_refl m, fun j hj => absurd j.2 (by omega), Or.inl rfl⟩
  | k + 1, i, m, hi, h => by
    have hg : A.get i i = some (F ⟨i - 1, by omega⟩ ⟨i - 1, by omega⟩) := by
      have := denotes_get hA ⟨i - 1, by omega⟩ ⟨i - 1, by omega⟩
      simp only at this
      rwa [Nat.sub_add_cancel hi] at this
    set b := |F ⟨i - 1, by omega⟩ ⟨i - 1, by omega⟩| with hb
    obtain ⟨a, h1, h2, h3, h4⟩ :=
      maxAbsLoop_spec hA k (i + 1) (if b > m then b else m) (by omega) (by omega)
    refine ⟨a, ?_, ?_, ?_, ?_⟩
    · rw [List.range'_succ]
      simp only [maxAbsLoop, hg]
      exact h1
    · refine le_trans ?_ h2
      split <;> rename_i hc
      · exact le_of_lt hc
      · exact le_refl m
    · intro j hj
      rcases Nat.eq_or_lt_of_le hj with e | hlt
      · have hj' : j = ⟨i - 1, by omega⟩ := Fin.ext (by simp; omega)
        rw [hj', ← hb]
        refine le_trans ?_ h2
        split <;> rename_i hc
        · exact le_refl b
        · exact not_lt.mp hc
      · exact h3 j (by omega)
    · rcases h4 with h4 | h4
      · by_cases hc : b > m
        · rw [if_pos hc] at h4
          exact Or.inr ⟨_, h4⟩
        · rw [if_neg hc] at h4
          exact Or.inl h4
      · exact Or.inr h4

theorem maxAbsDiag_spec {A : LMatrix ℝ} {F : Matrix (Fin n) (Fin n) ℝ} (hA : Denotes A F)
    (hn : 0 < n) :
    ∃ a, maxAbsDiag A = some a ∧ IsGreatest (Set.range fun i => |F i i|) a := by
  have hg : A.get 1 1 = some (F ⟨0, hn⟩ ⟨0, hn⟩) := denotes_get hA ⟨0, hn⟩ ⟨0, hn⟩
  obtain ⟨a, h1, h2, h3, h4⟩ := maxAbsLoop_spec hA (n - 1) 2 |F ⟨0, hn⟩ ⟨0, hn⟩| (by omega) (by omega)
  refine ⟨a, ?_, ?_, ?_⟩
  · unfold maxAbsDiag
    rw [hg, hA.1]
    exact h1
  · rcases h4 with h4 | ⟨j, h4⟩
    · exact ⟨_, h4.symm⟩
    · exact ⟨j, h4.symm⟩
  · rintro _ ⟨j, rfl⟩
    by_cases hj : (j : ℕ) = 0
    · have : j = ⟨0, hn⟩ := Fin.ext hj
      rw [this]
      exact h2
    · exact h3 j (by omega)

/-- The sum of the first `p` terms of the series of `exp`. -/
noncomputable def expSum (z : ℝ) (p : ℕ) : ℝ := ∑ k ∈ Finset.range p, z ^ k / (k ! : ℝ)

theorem expSum_succ (z : ℝ) (p : ℕ) : expSum z (p + 1) = expSum z p + z ^ p / (p ! : ℝ) :=
  Finset.sum_range_succ _ _

theorem expSum_tendsto (z : ℝ) : Filter.Tendsto (expSum z) Filter.atTop (nhds (exp z)) := by
  have h := NormedSpace.expSeries_div_hasSum_exp z
  rw [← Real.exp_eq_exp_ℝ] at h
  exact h.tendsto_sum_nat

theorem termsLoop_spec (z lower : ℝ) : ∀ (d fuel p : ℕ), 1 ≤ p →
    (∀ r, p ≤ r → r < p + d → expSum z r < lower) → lower ≤ expSum z (p + d) → d < fuel →
      termsLoop z lower fuel (expSum z p) (z ^ (p - 1) / ((p - 1)! : ℝ)) p = some (p + d)
  | 0, fuel + 1, p, _, _, h, _ => by
    rw [termsLoop, if_pos]
    · rfl
    · exact h
  | d + 1, fuel + 1, p, hp, hlt, h, hf => by
    rw [termsLoop, if_neg (not_le.mpr (hlt p (le_refl p) (by omega)))]
    have e : z / p * (z ^ (p - 1) / ((p - 1)! : ℝ)) = z ^ p / (p ! : ℝ) := by
      obtain ⟨q, rfl⟩ : ∃ q, p = q + 1 := ⟨p - 1, by omega⟩
      rw [Nat.add_sub_cancel, Nat.factorial_succ, pow_succ]
      push_cast
      rw [div_mul_div_comm, mul_comm z]
    have ih := termsLoop_spec z lower d fuel (p + 1) (by omega)
      (fun r h1 h2 => hlt r (by omega) (by omega)) (by rw [show p + 1 + d = p + (d + 1) by omega]; exact h)
      (by omega)
    rw [e, ← expSum_succ, Nat.add_sub_cancel] at *
    rw [ih]
    congr 1
    omega

/-- The number of terms. -/
theorem terms_exist (z eps : ℝ) (he : 0 < eps) :
    ∃ p, 1 ≤ p ∧ exp z * (1 - eps) ≤ expSum z p ∧
      (∀ r, 1 ≤ r → r < p → expSum z r < exp z * (1 - eps)) ∧
      ∃ N, ∀ fuel ≥ N, termsLoop z (exp z * (1 - eps)) fuel 1 1 1 = some p := by
  have hlt : exp z * (1 - eps) < exp z := by
    have := Real.exp_pos z
    nlinarith
  have hev := (expSum_tendsto z).eventually (lt_mem_nhds hlt)
  obtain ⟨N, hN⟩ := Filter.eventually_atTop.mp hev
  have hex : ∃ d, exp z * (1 - eps) ≤ expSum z (1 + d) := ⟨N, le_of_lt (hN _ (by omega))⟩
  classical
  refine ⟨1 + Nat.find hex, by omega, Nat.find_spec hex, ?_, Nat.find hex + 1, ?_⟩
  · intro r h1 h2
    have := Nat.find_min hex (m := r - 1) (by omega)
    rw [not_le] at this
    rwa [show 1 + (r - 1) = r by omega] at this
  · intro fuel hf
    have := termsLoop_spec z (exp z * (1 - eps)) (Nat.find hex) fuel 1 (le_refl 1)
      (by
        intro r h1 h2
        have := Nat.find_min hex (m := r - 1) (by omega)
        rw [not_le] at this
        rwa [show 1 + (r - 1) = r by omega] at this)
      (Nat.find_spec hex) (by omega)
    simpa [expSum] using this

theorem scaled_mul {G : Matrix (Fin n) (Fin n) ℝ} (t c : ℝ) (x0 : Fin n → ℝ) (q : ℕ)
    (H : Matrix (Fin n) (Fin n) ℝ) (hH : ∀ i j, H i j = G i j * (t / ((q + 1 : ℕ) : ℝ))) :
    H * colOf (c • ((t ^ q / (q ! : ℝ)) • (G ^ q).mulVec x0)) =
      colOf (c • ((t ^ (q + 1) / ((q + 1)! : ℝ)) • (G ^ (q + 1)).mulVec x0)) := by
  funext i j
  simp only [Matrix.mul_apply, Pi.smul_apply, smul_eq_mul, colOf, hH]
  have : (G ^ (q + 1)).mulVec x0 i = ∑ l, G i l * (G ^ q).mulVec x0 l := by
    rw [pow_succ', ← Matrix.mulVec_mulVec]
    rfl
  rw [this, Finset.mul_sum, Finset.mul_sum]
  apply Finset.sum_congr rfl
  intro l _
  rw [Nat.factorial_succ, pow_succ]
  push_cast
  have h1 : ((q : ℝ) + 1) ≠ 0 := by positivity
  have h2 : ((q ! : ℕ) : ℝ) ≠ 0 := by positivity
  field_simp

theorem sumLoop_spec {B : LMatrix ℝ} {G : Matrix (Fin n) (Fin n) ℝ} (hB : Denotes B G) (t c : ℝ)
    (x0 : Fin n → ℝ) : ∀ (m q : ℕ) (P S : LMatrix ℝ),
      IsVec P (c • ((t ^ q / (q ! : ℝ)) • (G ^ q).mulVec x0)) →
      IsVec S (c • partialSum G t x0 (q + 1)) →
      ∃ Y, sumLoop B t (List.range' (q + 1) m) P S = some Y ∧
        IsVec Y (c • partialSum G t x0 (q + 1 + m))
  | 0, q, P, S, _, hS => ⟨S, rfl, hS⟩
  | m + 1, q, P, S, hP, hS => by
    obtain ⟨T, h1, d1⟩ := denotes_scale hB (t / ((q + 1 : ℕ) : ℝ))
    obtain ⟨Q, h2, d2⟩ := denotes_mul d1 hP
    rw [scaled_mul t c x0 q _ (fun i j => rfl)] at d2
    obtain ⟨R, h3, d3⟩ := denotes_combine (· + ·) hS d2
    obtain ⟨Y, hY, dY⟩ := sumLoop_spec hB t c x0 m (q + 1) Q R d2
      (by
        unfold IsVec
        have : colOf (c • partialSum G t x0 (q + 1 + 1)) =
            fun (i : Fin n) (j : Fin 1) => colOf (c • partialSum G t x0 (q + 1)) i j +
              colOf (c • ((t ^ (q + 1) / ((q + 1)! : ℝ)) • (G ^ (q + 1)).mulVec x0)) i j := by
          funext i j
          unfold partialSum colOf
          rw [Finset.sum_range_succ]
          simp only [Pi.smul_apply, Pi.add_apply, smul_eq_mul, mul_add]
        rw [this]
        exact d3)
    refine ⟨Y, ?_, ?_⟩
    · rw [List.range'_succ]
      have h3' : S.add Q = some R := h3
      simp only [sumLoop, h1, h2, h3']
      exact hY
    · rw [show q + 1 + (m + 1) = q + 1 + 1 + m by omega]
      exact dY

/-- What the solver computes. -/
theorem solver_series {A X : LMatrix ℝ} {F : Matrix (Fin n) (Fin n) ℝ} {x0 : Fin n → ℝ}
    (hA : Denotes A F) (hX : IsVec X x0) (hn : 0 < n) (t : ℝ) :
    ∃ a, IsGreatest (Set.range fun i => |F i i|) a ∧
    ∃ p, 1 ≤ p ∧ exp (a * t) * (1 - 1 / 1000) ≤ expSum (a * t) p ∧
      (∀ r, 1 ≤ r → r < p → expSum (a * t) r < exp (a * t) * (1 - 1 / 1000)) ∧
      ∃ Y, IsVec Y (exp (-(a * t)) • partialSum (F + a • (1 : Matrix (Fin n) (Fin n) ℝ)) t x0 p) ∧
      ∃ N, ∀ fuel ≥ N, ∀ lim, matrixExpSolver lim fuel A X t =
        some (if lim.zero (exp (-(a * t))) || lim.inf (exp (a * t)) then .error .value
          else .ok Y) := by
  obtain ⟨a, ha, hg⟩ := maxAbsDiag_spec hA hn
  obtain ⟨I, hI, dI⟩ := denotes_identity (α := ℝ) n
  obtain ⟨aI, haI, daI⟩ := denotes_scale dI a
  obtain ⟨B, hB, dB'⟩ := denotes_combine (· + ·) daI hA
  have dB : Denotes B (F + a • (1 : Matrix (Fin n) (Fin n) ℝ)) := by
    have eB : F + a • (1 : Matrix (Fin n) (Fin n) ℝ) =
        fun i j => (1 : Matrix (Fin n) (Fin n) ℝ) i j * a + F i j := by
      funext i j
      simp only [Matrix.add_apply, Matrix.smul_apply, smul_eq_mul]
      ring
    rw [eB]
    exact dB'
  obtain ⟨C, hC, dC⟩ := denotes_scale hX (exp (-(a * t)))
  have dC' : IsVec C (exp (-(a * t)) • x0) := by
    unfold IsVec
    have : colOf (exp (-(a * t)) • x0) =
        fun (i : Fin n) (j : Fin 1) => colOf x0 i j * exp (-(a * t)) := by
      funext i j
      simp only [colOf, Pi.smul_apply, smul_eq_mul]
      ring
    rw [this]
    exact dC
  obtain ⟨p, hp, hp1, hp2, N, hN⟩ := terms_exist (a * t) (1 / 1000) (by norm_num)
  obtain ⟨Y, hY, dY⟩ := sumLoop_spec dB t (exp (-(a * t))) x0 (p - 1) 0 C C
    (by simpa using dC') (by simpa [partialSum] using dC')
  rw [show 0 + 1 + (p - 1) = p by omega] at dY
  refine ⟨a, hg, p, hp, hp1, hp2, Y, dY, N, fun fuel hf lim => ?_⟩
  unfold matrixExpSolver
  have hrows : X.rows = A.rows := hX.1.trans hA.1.symm
  rw [if_neg (by simp [hrows]), ha]
  have hB' : aI.add A = some B := hB
  simp only [hA.1, hI, haI, hB']
  unfold getSolutionVector
  by_cases hz : lim.zero (exp (-(a * t))) = true
  · simp [hz]
  · simp only [hz, hC, maxNumTerms]
    by_cases hi : lim.inf (exp (a * t)) = true
    · simp [hi]
    · have hY' : sumLoop B t (List.range' 1 (p - 1)) C C = some Y := hY
      have hN' := hN fuel hf
      simp only [hi, Bool.false_eq_true, if_false, hN', hY', Bool.or_false]

end Cyclus.LMat
