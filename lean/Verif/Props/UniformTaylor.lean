import Verif.Lemmas.UniformTaylor
import Mathlib.LinearAlgebra.Matrix.Notation
import Mathlib.Tactic.FinCases
import Mathlib.Tactic.NormNum
import Mathlib.Tactic.Linarith

/-!
# C91: the matrix exponential solver
-/

namespace Cyclus.LMat

open Real

open scoped Nat

variable {n : ℕ}

/-- `x` solves `dx/dt = F x` on `[0, T]` with `x(0) = x0`. -/
structure Solves (F : Matrix (Fin n) (Fin n) ℝ) (x0 : Fin n → ℝ) (T : ℝ) (x : ℝ → Fin n → ℝ) :
    Prop where
  start : x 0 = x0
  cont : ∀ i, ContinuousOn (fun s => x s i) (Set.Icc 0 T)
  deriv : ∀ s, 0 ≤ s → s < T → ∀ i,
    HasDerivWithinAt (fun s => x s i) (∑ j, F i j * x s j) (Set.Ici s) s

/-- The matrix of a decay: nothing but the diagonal is negative and no column has a positive sum. -/
def DecayLike (F : Matrix (Fin n) (Fin n) ℝ) : Prop :=
  (∀ i j, i ≠ j → 0 ≤ F i j) ∧ ∀ j, ∑ i, F i j ≤ 0

/-- The call throws since an exponential of the largest diagonal element is out of range. -/
def OutOfRange (lim : Limits) (F : Matrix (Fin n) (Fin n) ℝ) (t : ℝ) : Prop :=
  ∃ a, IsGreatest (Set.range fun i => |F i i|) a ∧
    (lim.zero (exp (-(a * t))) = true ∨ lim.inf (exp (a * t)) = true)

/-- For every range of the numbers the call ends; it throws a `ValueError` if an exponential is out
of range, else it returns a vector with the property `P`. -/
def Returns (A X : LMatrix ℝ) (F : Matrix (Fin n) (Fin n) ℝ) (t : ℝ) (P : (Fin n → ℝ) → Prop) :
    Prop :=
  ∃ N, ∀ fuel ≥ N, ∀ lim,
    (OutOfRange lim F t ∧ matrixExpSolver lim fuel A X t = some (.error .value)) ∨
    (¬ OutOfRange lim F t ∧
      ∃ Y y, matrixExpSolver lim fuel A X t = some (.ok Y) ∧ IsVec Y y ∧ P y)

/-- How a claim about the sum gives one about the call. -/
theorem returns_of {A X : LMatrix ℝ} {F : Matrix (Fin n) (Fin n) ℝ} {x0 : Fin n → ℝ}
    (hA : Denotes A F) (hX : IsVec X x0) (hn : 0 < n) (t : ℝ) {P : (Fin n → ℝ) → Prop}
    (h : ∀ a p, IsGreatest (Set.range fun i => |F i i|) a → 1 ≤ p →
      exp (a * t) * (1 - 1 / 1000) ≤ expSum (a * t) p →
      (∀ r, 1 ≤ r → r < p → expSum (a * t) r < exp (a * t) * (1 - 1 / 1000)) →
      P (exp (-(a * t)) • partialSum (F + a • (1 : Matrix (Fin n) (Fin n) ℝ)) t x0 p)) :
    Returns A X F t P := by
  obtain ⟨a, ha, p, hp, h1, h2, Y, hY, N, hN⟩ := solver_series hA hX hn t
  refine ⟨N, fun fuel hf lim => ?_⟩
  have hN := hN fuel hf lim
  by_cases hz : (lim.zero (exp (-(a * t))) || lim.inf (exp (a * t))) = true
  · rw [if_pos hz] at hN
    exact Or.inl ⟨⟨a, ha, by simpa using hz⟩, hN⟩
  · rw [if_neg hz] at hN
    refine Or.inr ⟨?_, Y, _, hN, hY, h a p ha hp h1 h2⟩
    rintro ⟨b, hb, hr⟩
    rw [hb.unique ha] at hr
    exact hz (by simpa using hr)

/-- C91: for every matrix the result is the series of `exp(-α t) exp(t (A + α))`, cut off as soon as
the series of `exp(α t)` has reached `1 - 10⁻³` of its value, where `α` is the largest absolute value
on the diagonal. -/
theorem C91_series {A X : LMatrix ℝ} {F : Matrix (Fin n) (Fin n) ℝ} {x0 : Fin n → ℝ}
    (hA : Denotes A F) (hX : IsVec X x0) (hn : 0 < n) (t : ℝ) :
    Returns A X F t fun y => ∃ a p, IsGreatest (Set.range fun i => |F i i|) a ∧
      IsLeast {r | 1 ≤ r ∧
        exp (a * t) * (1 - 1 / 1000) ≤ ∑ k ∈ Finset.range r, (a * t) ^ k / (k ! : ℝ)} p ∧
      ∀ i, y i = exp (-(a * t)) * ∑ k ∈ Finset.range p,
        t ^ k / (k ! : ℝ) * ((F + a • (1 : Matrix (Fin n) (Fin n) ℝ)) ^ k).mulVec x0 i := by
  apply returns_of hA hX hn t
  intro a p ha hp h1 h2
  refine ⟨a, p, ha, ⟨⟨hp, h1⟩, ?_⟩, ?_⟩
  · rintro r ⟨hr, h3⟩
    by_contra hlt
    exact absurd (h2 r hr (by omega)) (not_lt.mpr h3)
  · intro i
    simp only [partialSum, Pi.smul_apply, Finset.sum_apply, smul_eq_mul]

example : ∃ A X : LMatrix ℝ, Denotes A !![-1, 0; 1, 0] ∧ IsVec X ![4, 1] :=
  ⟨⟨[[-1, 0], [1, 0]], 2, 2⟩, ⟨[[4], [1]], 2, 1⟩,
    ⟨rfl, rfl, by simp [List.ofFn_succ]⟩, ⟨rfl, rfl, by simp [List.ofFn_succ, colOf]⟩⟩

/-- C91: vectors of another length are rejected. -/
theorem C91_size (lim : Limits) (fuel : ℕ) (A X : LMatrix ℝ) (t : ℝ) (h : X.rows ≠ A.rows) :
    matrixExpSolver lim fuel A X t = some (.error .value) := by
  unfold matrixExpSolver
  rw [if_pos h]

example : (⟨[[4]], 1, 1⟩ : LMatrix ℝ).rows ≠ (⟨[[-1, 0], [1, 0]], 2, 2⟩ : LMatrix ℝ).rows := by
  simp

/-- What the proofs need of a decay. -/
theorem shifted {F : Matrix (Fin n) (Fin n) ℝ} (hF : DecayLike F) {a : ℝ}
    (ha : IsGreatest (Set.range fun i => |F i i|) a) :
    0 ≤ a ∧ (∀ i j, 0 ≤ (F + a • (1 : Matrix (Fin n) (Fin n) ℝ)) i j) ∧
      ∀ j, ∑ i, (F + a • (1 : Matrix (Fin n) (Fin n) ℝ)) i j = (∑ i, F i j) + a := by
  refine ⟨?_, ?_, ?_⟩
  · obtain ⟨i, hi⟩ := ha.1
    rw [← hi]
    exact abs_nonneg _
  · intro i j
    simp only [Matrix.add_apply, Matrix.smul_apply, Matrix.one_apply, smul_eq_mul]
    by_cases h : i = j
    · subst h
      have := ha.2 ⟨i, rfl⟩
      have := neg_le_of_abs_le this
      simp
      linarith
    · simpa [h] using hF.1 i j h
  · intro j
    simp only [Matrix.add_apply, Matrix.smul_apply, Matrix.one_apply, smul_eq_mul,
      Finset.sum_add_distrib, mul_ite, mul_one, mul_zero]
    congr 1
    rw [Finset.sum_eq_single j]
    · simp
    · intro b _ hb
      simp [hb]
    · simp

/-- Solutions are what the series converges to. -/
theorem solves_eq {F : Matrix (Fin n) (Fin n) ℝ} {x0 : Fin n → ℝ} {t : ℝ} {x : ℝ → Fin n → ℝ}
    (hx : Solves F x0 t x) (ht : 0 ≤ t) (a : ℝ) :
    x t = sol (F + a • (1 : Matrix (Fin n) (Fin n) ℝ)) a x0 t := by
  have hd : ∀ s, HasDerivAt (sol (F + a • (1 : Matrix (Fin n) (Fin n) ℝ)) a x0)
      (F.mulVec (sol (F + a • (1 : Matrix (Fin n) (Fin n) ℝ)) a x0 s)) s := by
    intro s
    have := sol_deriv (F + a • (1 : Matrix (Fin n) (Fin n) ℝ)) a x0 s
    rwa [add_sub_cancel_right] at this
  exact sol_unique F (continuousOn_pi.mpr hx.cont)
    (fun s hs => hasDerivWithinAt_pi.mpr fun i => hx.deriv s hs.1 hs.2 i)
    (fun s _ => (hd s).continuousAt.continuousWithinAt)
    (fun s _ => (hd s).hasDerivWithinAt)
    (by rw [hx.start, sol_zero]) ⟨ht, le_refl t⟩

/-- C91, in part: for the matrix of a decay and `t ≥ 0` the result differs from the solution by at
most `10⁻³` of the total (sums of absolute values).  Missing: other matrices
(`C91_fails_general`). -/
theorem C91_accuracy_partial {A X : LMatrix ℝ} {F : Matrix (Fin n) (Fin n) ℝ} {x0 : Fin n → ℝ}
    (hA : Denotes A F) (hX : IsVec X x0) (hn : 0 < n) (hF : DecayLike F) {t : ℝ} (ht : 0 ≤ t)
    {x : ℝ → Fin n → ℝ} (hx : Solves F x0 t x) :
    Returns A X F t fun y => ∑ i, |y i - x t i| ≤ 1 / 1000 * ∑ i, |x0 i| := by
  apply returns_of hA hX hn t
  intro a p ha _ h1 _
  obtain ⟨ha0, hB, hc⟩ := shifted hF ha
  have herr := series_error ha0 ht hB
    (fun j => by rw [hc j]; have := hF.2 j; linarith) x0 p
  rw [solves_eq hx ht a]
  set B := F + a • (1 : Matrix (Fin n) (Fin n) ℝ)
  have e1 : ∑ i, |(exp (-(a * t)) • partialSum B t x0 p) i - sol B a x0 t i| =
      exp (-(a * t)) *
        l1 (fun i => (NormedSpace.exp (t • B)).mulVec x0 i - partialSum B t x0 p i) := by
    unfold l1 sol
    rw [Finset.mul_sum]
    apply Finset.sum_congr rfl
    intro i _
    simp only [Pi.smul_apply, smul_eq_mul]
    rw [← mul_sub, abs_mul, abs_of_pos (exp_pos _), abs_sub_comm]
  rw [e1]
  have h2 : exp (a * t) - ∑ k ∈ Finset.range p, (a * t) ^ k / (k ! : ℝ) ≤
      exp (a * t) * (1 / 1000) := by
    have : expSum (a * t) p = ∑ k ∈ Finset.range p, (a * t) ^ k / (k ! : ℝ) := rfl
    rw [← this]
    linarith
  have h3 := herr.trans (mul_le_mul_of_nonneg_right h2 (l1_nonneg x0))
  have h4 := mul_le_mul_of_nonneg_left h3 (exp_pos (-(a * t))).le
  refine h4.trans (le_of_eq ?_)
  have e : exp (-(a * t)) * exp (a * t) = 1 := by rw [← exp_add]; simp
  calc exp (-(a * t)) * (exp (a * t) * (1 / 1000) * l1 x0)
      = (exp (-(a * t)) * exp (a * t)) * (1 / 1000 * l1 x0) := by ring
    _ = 1 / 1000 * l1 x0 := by rw [e, one_mul]

/-- C91, in part: for the matrix of a decay and `t ≥ 0` no amount is negative or above the exact
one.  Missing: other matrices. -/
theorem C91_sign_partial {A X : LMatrix ℝ} {F : Matrix (Fin n) (Fin n) ℝ} {x0 : Fin n → ℝ}
    (hA : Denotes A F) (hX : IsVec X x0) (hn : 0 < n) (hF : DecayLike F) {t : ℝ} (ht : 0 ≤ t)
    (h0 : ∀ i, 0 ≤ x0 i) {x : ℝ → Fin n → ℝ} (hx : Solves F x0 t x) :
    Returns A X F t fun y => ∀ i, 0 ≤ y i ∧ y i ≤ x t i := by
  apply returns_of hA hX hn t
  intro a p ha _ h1 _ i
  obtain ⟨ha0, hB, hc⟩ := shifted hF ha
  rw [solves_eq hx ht a]
  simp only [sol, Pi.smul_apply, smul_eq_mul]
  exact ⟨mul_nonneg (exp_pos _).le (partialSum_nonneg hB h0 ht p i),
    mul_le_mul_of_nonneg_left (partialSum_le hB h0 ht p i) (exp_pos _).le⟩

/-- C91: a decay that loses nothing (columns that sum up to zero) keeps between `1 - 10⁻³` and all of
the total. -/
theorem C91_total {A X : LMatrix ℝ} {F : Matrix (Fin n) (Fin n) ℝ} {x0 : Fin n → ℝ}
    (hA : Denotes A F) (hX : IsVec X x0) (hn : 0 < n) (hF : DecayLike F)
    (hz : ∀ j, ∑ i, F i j = 0) {t : ℝ} (ht : 0 ≤ t) (h0 : ∀ i, 0 ≤ x0 i) :
    Returns A X F t fun y => (1 - 1 / 1000) * ∑ i, x0 i ≤ ∑ i, y i ∧ ∑ i, y i ≤ ∑ i, x0 i := by
  apply returns_of hA hX hn t
  intro a p ha _ h1 _
  obtain ⟨ha0, hB, hc⟩ := shifted hF ha
  have htot := partialSum_total (B := F + a • (1 : Matrix (Fin n) (Fin n) ℝ)) (a := a)
    (fun j => by rw [hc j, hz j, zero_add]) x0 t p
  have e2 : ∑ i, (exp (-(a * t)) • partialSum (F + a • (1 : Matrix (Fin n) (Fin n) ℝ)) t x0 p) i =
      exp (-(a * t)) * (expSum (a * t) p * ∑ i, x0 i) := by
    simp only [Pi.smul_apply, smul_eq_mul]
    rw [← Finset.mul_sum, htot]
    rfl
  rw [e2]
  have hs : 0 ≤ ∑ i, x0 i := Finset.sum_nonneg fun i _ => h0 i
  have e : exp (-(a * t)) * exp (a * t) = 1 := by rw [← exp_add]; simp
  have hle : expSum (a * t) p ≤ exp (a * t) := Real.sum_le_exp_of_nonneg (mul_nonneg ha0 ht) p
  have hpos := exp_pos (-(a * t))
  constructor
  · have := mul_le_mul_of_nonneg_left (mul_le_mul_of_nonneg_right h1 hs) hpos.le
    calc (1 - 1 / 1000) * ∑ i, x0 i
        = (exp (-(a * t)) * exp (a * t)) * ((1 - 1 / 1000) * ∑ i, x0 i) := by rw [e, one_mul]
      _ = exp (-(a * t)) * (exp (a * t) * (1 - 1 / 1000) * ∑ i, x0 i) := by ring
      _ ≤ _ := this
  · have := mul_le_mul_of_nonneg_left (mul_le_mul_of_nonneg_right hle hs) hpos.le
    refine this.trans (le_of_eq ?_)
    rw [← mul_assoc, e, one_mul]

/-- The hypotheses of the three theorems are met: a nuclide that decays into another one. -/
example : DecayLike (!![-1, 0; 1, 0] : Matrix (Fin 2) (Fin 2) ℝ) ∧
    (∀ j, ∑ i, (!![-1, 0; 1, 0] : Matrix (Fin 2) (Fin 2) ℝ) i j = 0) ∧
    Solves !![-1, 0; 1, 0] ![1, 0] 5 (fun s => ![exp (-s), 1 - exp (-s)]) := by
  have hd : ∀ s : ℝ, HasDerivAt (fun s => exp (-s)) (-exp (-s)) s := by
    intro s
    simpa using (hasDerivAt_neg s).exp
  refine ⟨⟨?_, ?_⟩, ?_, ⟨?_, ?_, ?_⟩⟩
  · intro i j h
    fin_cases i <;> fin_cases j <;> simp_all
  · intro j
    fin_cases j <;> simp [Fin.sum_univ_two]
  · intro j
    fin_cases j <;> simp [Fin.sum_univ_two]
  · simp
  · intro i
    fin_cases i
    · exact (Real.continuous_exp.comp continuous_neg).continuousOn
    · exact (continuous_const.sub (Real.continuous_exp.comp continuous_neg)).continuousOn
  · intro s _ _ i
    fin_cases i
    · simpa [Fin.sum_univ_two] using (hd s).hasDerivWithinAt
    · simpa [Fin.sum_univ_two] using ((hd s).const_sub 1).hasDerivWithinAt

/-- C91 fails: for other matrices the result can be far away from the solution. -/
theorem C91_fails_general :
    ∃ (A X : LMatrix ℝ) (F : Matrix (Fin 2) (Fin 2) ℝ) (x0 : Fin 2 → ℝ) (x : ℝ → Fin 2 → ℝ),
      Denotes A F ∧ IsVec X x0 ∧ Solves F x0 1 x ∧
      Returns A X F 1 fun y => ∑ i, |y i - x 1 i| = ∑ i, |x0 i| ∧ ∑ i, |x0 i| = 1 := by
  have hA : Denotes (⟨[[0, 1], [0, 0]], 2, 2⟩ : LMatrix ℝ) !![0, 1; 0, 0] :=
    ⟨rfl, rfl, by simp [List.ofFn_succ]⟩
  have hX : IsVec (⟨[[0], [1]], 2, 1⟩ : LMatrix ℝ) ![0, 1] :=
    ⟨rfl, rfl, by simp [List.ofFn_succ, colOf]⟩
  refine ⟨_, _, _, _, fun s => ![s, 1], hA, hX, ⟨by simp, ?_, ?_⟩, ?_⟩
  · intro i
    fin_cases i
    · exact continuousOn_id
    · exact continuousOn_const
  · intro s _ _ i
    fin_cases i
    · simpa [Fin.sum_univ_two] using (hasDerivAt_id' s).hasDerivWithinAt
    · simpa [Fin.sum_univ_two] using (hasDerivAt_const s (1 : ℝ)).hasDerivWithinAt
  · apply returns_of hA hX (by norm_num) 1
    intro a p ha hp h1 h2
    have ha0 : a = 0 := by
      obtain ⟨i, hi⟩ := ha.1
      rw [← hi]
      fin_cases i <;> simp
    subst ha0
    have hp1 : p = 1 := by
      by_contra hne
      have := h2 1 (le_refl 1) (by omega)
      simp [expSum] at this
      norm_num at this
    subst hp1
    simp [partialSum, Fin.sum_univ_two]

end Cyclus.LMat
