import Mathlib.Analysis.Normed.Algebra.MatrixExponential
import Mathlib.Analysis.SpecialFunctions.Exponential
import Mathlib.Analysis.ODE.ExistUnique
import Mathlib.Analysis.SpecialFunctions.Exp
import Mathlib.Tactic.Ring
import Mathlib.Tactic.Positivity

/-!
# The linear differential equation, its solution and the error of the truncated series
-/

namespace Cyclus.LMat

open Real Set

open scoped Matrix.Norms.Operator Nat

variable {n : ℕ}

/-- `M ↦ M x` as a continuous linear map. -/
noncomputable def applyVec (x : Fin n → ℝ) : Matrix (Fin n) (Fin n) ℝ →L[ℝ] (Fin n → ℝ) :=
  LinearMap.toContinuousLinearMap
    { toFun := fun M => M.mulVec x
      map_add' := fun M N => Matrix.add_mulVec M N x
      map_smul' := fun c M => Matrix.smul_mulVec c M x }

theorem applyVec_apply (x : Fin n → ℝ) (M : Matrix (Fin n) (Fin n) ℝ) :
    applyVec x M = M.mulVec x := rfl

/-- The solution of `x' = (B - a) x`. -/
noncomputable def sol (B : Matrix (Fin n) (Fin n) ℝ) (a : ℝ) (x0 : Fin n → ℝ) (s : ℝ) : Fin n → ℝ :=
  exp (-(a * s)) • (NormedSpace.exp (s • B)).mulVec x0

theorem sol_zero (B : Matrix (Fin n) (Fin n) ℝ) (a : ℝ) (x0 : Fin n → ℝ) :
    sol B a x0 0 = x0 := by
  simp [sol]

theorem sol_deriv (B : Matrix (Fin n) (Fin n) ℝ) (a : ℝ) (x0 : Fin n → ℝ) (s : ℝ) :
    HasDerivAt (sol B a x0) ((B - a • 1).mulVec (sol B a x0 s)) s := by
  have h1 : HasDerivAt (fun u : ℝ => NormedSpace.exp (u • B)) (B * NormedSpace.exp (s • B)) s :=
    hasDerivAt_exp_smul_const' B s
  have h2 := (applyVec x0).hasFDerivAt.comp_hasDerivAt s h1
  have h3 : HasDerivAt (fun u : ℝ => exp (-(a * u))) (exp (-(a * s)) * (-(a * 1))) s :=
    (((hasDerivAt_id s).const_mul a).neg).exp
  have h4 := h3.smul h2
  refine h4.congr_deriv ?_
  change exp (-(a * s)) • (B * NormedSpace.exp (s • B)).mulVec x0 +
    (exp (-(a * s)) * (-(a * 1))) • (NormedSpace.exp (s • B)).mulVec x0 = _
  unfold sol
  rw [Matrix.sub_mulVec, Matrix.smul_mulVec, Matrix.one_mulVec, Matrix.mulVec_smul,
    Matrix.mulVec_mulVec]
  funext i
  simp only [Pi.add_apply, Pi.sub_apply, Pi.smul_apply, smul_eq_mul]
  ring

/-- Solutions are unique. -/
theorem sol_unique (F : Matrix (Fin n) (Fin n) ℝ) {x y : ℝ → Fin n → ℝ} {T : ℝ}
    (hx : ContinuousOn x (Icc 0 T))
    (hx' : ∀ s ∈ Ico 0 T, HasDerivWithinAt x (F.mulVec (x s)) (Ici s) s)
    (hy : ContinuousOn y (Icc 0 T))
    (hy' : ∀ s ∈ Ico 0 T, HasDerivWithinAt y (F.mulVec (y s)) (Ici s) s)
    (h0 : x 0 = y 0) : EqOn x y (Icc 0 T) := by
  let L : (Fin n → ℝ) →L[ℝ] (Fin n → ℝ) := LinearMap.toContinuousLinearMap F.mulVecLin
  exact ODE_solution_unique (v := fun _ z => F.mulVec z) (K := ‖L‖₊)
    (fun _ => L.lipschitz) hx hx' hy hy' h0

theorem exp_hasSum (B : Matrix (Fin n) (Fin n) ℝ) (t : ℝ) (x0 : Fin n → ℝ) :
    HasSum (fun k : ℕ => (t ^ k / (k ! : ℝ)) • (B ^ k).mulVec x0)
      ((NormedSpace.exp (t • B)).mulVec x0) := by
  have h := NormedSpace.exp_series_hasSum_exp' (𝕂 := ℝ) (t • B)
  have h2 := (applyVec x0).hasSum h
  rw [applyVec_apply] at h2
  have e : (fun k : ℕ => (t ^ k / (k ! : ℝ)) • (B ^ k).mulVec x0) =
      fun b : ℕ => applyVec x0 ((b ! : ℝ)⁻¹ • (t • B) ^ b) := by
    funext k
    rw [smul_pow, applyVec_apply, Matrix.smul_mulVec, Matrix.smul_mulVec, smul_smul]
    congr 1
    ring
  rw [e]
  exact h2

/-- The sum of the absolute values. -/
noncomputable def l1 (x : Fin n → ℝ) : ℝ := ∑ i, |x i|

theorem l1_nonneg (x : Fin n → ℝ) : 0 ≤ l1 x := Finset.sum_nonneg fun _ _ => abs_nonneg _

theorem l1_mulVec {B : Matrix (Fin n) (Fin n) ℝ} {a : ℝ} (hB : ∀ i j, 0 ≤ B i j)
    (hc : ∀ j, ∑ i, B i j ≤ a) (x : Fin n → ℝ) : l1 (B.mulVec x) ≤ a * l1 x := by
  unfold l1
  calc ∑ i, |B.mulVec x i| ≤ ∑ i, ∑ j, B i j * |x j| := by
        apply Finset.sum_le_sum
        intro i _
        unfold Matrix.mulVec dotProduct
        refine (Finset.abs_sum_le_sum_abs _ _).trans (le_of_eq ?_)
        apply Finset.sum_congr rfl
        intro j _
        rw [abs_mul, abs_of_nonneg (hB i j)]
    _ = ∑ j, (∑ i, B i j) * |x j| := by
        rw [Finset.sum_comm]
        apply Finset.sum_congr rfl
        intro j _
        rw [Finset.sum_mul]
    _ ≤ ∑ j, a * |x j| :=
        Finset.sum_le_sum fun j _ => mul_le_mul_of_nonneg_right (hc j) (abs_nonneg _)
    _ = a * ∑ i, |x i| := by rw [Finset.mul_sum]

theorem l1_pow {B : Matrix (Fin n) (Fin n) ℝ} {a : ℝ} (ha : 0 ≤ a) (hB : ∀ i j, 0 ≤ B i j)
    (hc : ∀ j, ∑ i, B i j ≤ a) (x : Fin n → ℝ) : ∀ k : ℕ, l1 ((B ^ k).mulVec x) ≤ a ^ k * l1 x
  | 0 => by simp
  | k + 1 => by
    rw [pow_succ', ← Matrix.mulVec_mulVec, pow_succ', mul_assoc]
    exact (l1_mulVec hB hc _).trans (mul_le_mul_of_nonneg_left (l1_pow ha hB hc x k) ha)

/-- The sum of the first `p` terms. -/
noncomputable def partialSum (B : Matrix (Fin n) (Fin n) ℝ) (t : ℝ) (x0 : Fin n → ℝ) (p : ℕ) :
    Fin n → ℝ :=
  ∑ k ∈ Finset.range p, (t ^ k / (k ! : ℝ)) • (B ^ k).mulVec x0

/-- The error of the truncated series. -/
theorem series_error {B : Matrix (Fin n) (Fin n) ℝ} {a t : ℝ} (ha : 0 ≤ a) (ht : 0 ≤ t)
    (hB : ∀ i j, 0 ≤ B i j) (hc : ∀ j, ∑ i, B i j ≤ a) (x : Fin n → ℝ) (p : ℕ) :
    l1 (fun i => (NormedSpace.exp (t • B)).mulVec x i - partialSum B t x p i) ≤
      (exp (a * t) - ∑ k ∈ Finset.range p, (a * t) ^ k / (k ! : ℝ)) * l1 x := by
  have hlim : Filter.Tendsto
      (fun N => l1 (fun i => partialSum B t x N i - partialSum B t x p i)) Filter.atTop
      (nhds (l1 (fun i => (NormedSpace.exp (t • B)).mulVec x i - partialSum B t x p i))) := by
    have h := (exp_hasSum B t x).tendsto_sum_nat
    unfold l1
    apply tendsto_finsetSum
    intro i _
    apply Filter.Tendsto.abs
    apply Filter.Tendsto.sub_const
    exact (tendsto_pi_nhds.mp h) i
  refine le_of_tendsto hlim ?_
  filter_upwards [Filter.eventually_ge_atTop p] with N hN
  have hd : ∀ i, partialSum B t x N i - partialSum B t x p i =
      ∑ k ∈ Finset.Ico p N, (t ^ k / (k ! : ℝ)) * (B ^ k).mulVec x i := by
    intro i
    unfold partialSum
    rw [Finset.sum_apply, Finset.sum_apply, Finset.sum_Ico_eq_sub _ hN]
    simp only [Pi.smul_apply, smul_eq_mul]
  calc l1 (fun i => partialSum B t x N i - partialSum B t x p i)
      ≤ ∑ k ∈ Finset.Ico p N, (t ^ k / (k ! : ℝ)) * l1 ((B ^ k).mulVec x) := by
        unfold l1
        simp only [hd, Finset.mul_sum]
        rw [Finset.sum_comm]
        apply Finset.sum_le_sum
        intro i _
        refine (Finset.abs_sum_le_sum_abs _ _).trans (le_of_eq ?_)
        apply Finset.sum_congr rfl
        intro k _
        rw [abs_mul, abs_of_nonneg (by positivity)]
    _ ≤ ∑ k ∈ Finset.Ico p N, ((a * t) ^ k / (k ! : ℝ)) * l1 x := by
        apply Finset.sum_le_sum
        intro k _
        have := mul_le_mul_of_nonneg_left (l1_pow ha hB hc x k)
          (by positivity : (0 : ℝ) ≤ t ^ k / (k ! : ℝ))
        refine this.trans (le_of_eq ?_)
        rw [mul_pow]
        ring
    _ = (∑ k ∈ Finset.range N, (a * t) ^ k / (k ! : ℝ) -
          ∑ k ∈ Finset.range p, (a * t) ^ k / (k ! : ℝ)) * l1 x := by
        rw [← Finset.sum_mul, Finset.sum_Ico_eq_sub _ hN]
    _ ≤ _ := by
        apply mul_le_mul_of_nonneg_right _ (l1_nonneg x)
        exact sub_le_sub_right (Real.sum_le_exp_of_nonneg (mul_nonneg ha ht) N) _

theorem pow_nonneg_entries {B : Matrix (Fin n) (Fin n) ℝ} (hB : ∀ i j, 0 ≤ B i j)
    {x : Fin n → ℝ} (hx : ∀ i, 0 ≤ x i) : ∀ (k : ℕ) i, 0 ≤ (B ^ k).mulVec x i
  | 0, i => by simpa using hx i
  | k + 1, i => by
    rw [pow_succ', ← Matrix.mulVec_mulVec]
    unfold Matrix.mulVec
    exact Finset.sum_nonneg fun j _ => mul_nonneg (hB i j) (pow_nonneg_entries hB hx k j)

theorem partialSum_nonneg {B : Matrix (Fin n) (Fin n) ℝ} (hB : ∀ i j, 0 ≤ B i j)
    {x : Fin n → ℝ} (hx : ∀ i, 0 ≤ x i) {t : ℝ} (ht : 0 ≤ t) (p : ℕ) (i : Fin n) :
    0 ≤ partialSum B t x p i := by
  unfold partialSum
  rw [Finset.sum_apply]
  exact Finset.sum_nonneg fun k _ => mul_nonneg (by positivity) (pow_nonneg_entries hB hx k i)

theorem partialSum_le {B : Matrix (Fin n) (Fin n) ℝ} (hB : ∀ i j, 0 ≤ B i j)
    {x : Fin n → ℝ} (hx : ∀ i, 0 ≤ x i) {t : ℝ} (ht : 0 ≤ t) (p : ℕ) (i : Fin n) :
    partialSum B t x p i ≤ (NormedSpace.exp (t • B)).mulVec x i := by
  have h := (Pi.hasSum.mp (exp_hasSum B t x)) i
  unfold partialSum
  rw [Finset.sum_apply]
  exact sum_le_hasSum _ (fun k _ => mul_nonneg (by positivity) (pow_nonneg_entries hB hx k i)) h

theorem pow_total {B : Matrix (Fin n) (Fin n) ℝ} {a : ℝ} (hc : ∀ j, ∑ i, B i j = a)
    (x : Fin n → ℝ) : ∀ k : ℕ, ∑ i, (B ^ k).mulVec x i = a ^ k * ∑ i, x i
  | 0 => by simp
  | k + 1 => by
    rw [pow_succ', ← Matrix.mulVec_mulVec, pow_succ', mul_assoc, ← pow_total hc x k]
    unfold Matrix.mulVec dotProduct
    rw [Finset.sum_comm, Finset.mul_sum]
    apply Finset.sum_congr rfl
    intro j _
    rw [← Finset.sum_mul, hc j]

theorem partialSum_total {B : Matrix (Fin n) (Fin n) ℝ} {a : ℝ} (hc : ∀ j, ∑ i, B i j = a)
    (x : Fin n → ℝ) (t : ℝ) (p : ℕ) :
    ∑ i, partialSum B t x p i =
      (∑ k ∈ Finset.range p, (a * t) ^ k / (k ! : ℝ)) * ∑ i, x i := by
  unfold partialSum
  simp only [Finset.sum_apply, Pi.smul_apply, smul_eq_mul]
  rw [Finset.sum_comm, Finset.sum_mul]
  apply Finset.sum_congr rfl
  intro k _
  rw [← Finset.mul_sum, pow_total hc x k, mul_pow]
  ring

end Cyclus.LMat
