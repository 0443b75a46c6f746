import Verif.Model.Package
import Mathlib.Tactic.Linarith
import Mathlib.Tactic.Positivity
import Mathlib.Tactic.FieldSimp

/-! Helper lemmas for C07. -/

namespace Cyclus.TransportUnit

open Cyclus.Package (intMax)

theorem floor_div_int {q k : ℤ} (hk : 0 < k) : ⌊(q : ℚ) / (k : ℚ)⌋ = q / k := by
  have hk' : (0 : ℚ) < k := by exact_mod_cast hk
  rw [Int.floor_eq_iff]
  have h1 : k * (q / k) ≤ q := Int.mul_ediv_self_le hk.ne'
  have h2 : q < k * (q / k) + k := Int.lt_mul_ediv_self_add hk
  constructor
  · rw [le_div_iff₀ hk']
    exact_mod_cast (by linarith : q / k * k ≤ q)
  · rw [div_lt_iff₀ hk']
    exact_mod_cast (by linarith : q < (q / k + 1) * k)

/-- What `GetTransportUnitFill` returns for the equal and hybrid strategies, in integer terms:
`K` is the least number of units that can take everything. -/
theorem getFill_spec {t : TU} {q : ℤ} (hs : t.strategy ≠ .first) (hm : 1 ≤ t.fillMin)
    (hmM : t.fillMin ≤ t.fillMax) (hq : t.fillMin ≤ q) (hov : q + t.fillMax ≤ intMax) :
    ∃ K : ℤ, 1 ≤ K ∧ (K - 1) * t.fillMax < q ∧ q ≤ K * t.fillMax ∧
      ((K * t.fillMin ≤ q ∧ getFill t q = some (q / K)) ∨
        (q < K * t.fillMin ∧ getFill t q = some t.fillMax)) := by
  have hM : 0 < t.fillMax := by omega
  have hm0 : 0 < t.fillMin := by omega
  have hq0 : 0 ≤ q := by omega
  set K := (q + t.fillMax - 1) / t.fillMax with hK
  have k1 : t.fillMax * K ≤ q + t.fillMax - 1 := Int.mul_ediv_self_le hM.ne'
  have k2 : q + t.fillMax - 1 < t.fillMax * K + t.fillMax := Int.lt_mul_ediv_self_add hM
  have hK1 : 1 ≤ K := by
    by_contra h
    have : K ≤ 0 := by omega
    nlinarith
  refine ⟨K, hK1, by nlinarith, by nlinarith, ?_⟩
  have n1 : t.fillMin * (q / t.fillMin) ≤ q := Int.mul_ediv_self_le hm0.ne'
  have n2 : q < t.fillMin * (q / t.fillMin) + t.fillMin := Int.lt_mul_ediv_self_add hm0
  have hd : ¬ (t.fillMin = 0 ∨ t.fillMax = 0 ∨ q + t.fillMax > intMax) := by omega
  have hunf : getFill t q = if q / t.fillMin ≥ K then
      (if K = 0 then none else some ⌊(q : ℚ) / (K : ℚ)⌋) else some t.fillMax := by
    unfold getFill
    rw [if_neg (by omega)]
    have e1 : Int.tdiv q t.fillMin = q / t.fillMin := Int.tdiv_eq_ediv_of_nonneg hq0
    have e2 : Int.tdiv (q + t.fillMax - 1) t.fillMax = K := by
      rw [Int.tdiv_eq_ediv_of_nonneg (by omega)]
    cases hst : t.strategy with
    | first => exact absurd hst hs
    | equal => simp only [if_neg hd, e1, e2]
    | hybrid => simp only [if_neg hd, e1, e2]
  by_cases hge : q / t.fillMin ≥ K
  · left
    refine ⟨by nlinarith, ?_⟩
    rw [hunf, if_pos hge, if_neg (by omega), floor_div_int (by omega)]
  · right
    refine ⟨by nlinarith, ?_⟩
    rw [hunf, if_neg hge]

/-- The fill is within the limits and not more than what is there. -/
theorem getFill_bounds {t : TU} {q f : ℤ} (hs : t.strategy ≠ .first) (hm : 1 ≤ t.fillMin)
    (hmM : t.fillMin ≤ t.fillMax) (hq : t.fillMin ≤ q) (hov : q + t.fillMax ≤ intMax)
    (hf : getFill t q = some f) : t.fillMin ≤ f ∧ f ≤ t.fillMax ∧ f ≤ q := by
  obtain ⟨K, h1, h2, h3, h4⟩ := getFill_spec hs hm hmM hq hov
  rcases h4 with ⟨h4, h5⟩ | ⟨h4, h5⟩
  · rw [hf, Option.some.injEq] at h5
    subst h5
    have d1 : K * (q / K) ≤ q := Int.mul_ediv_self_le (by omega)
    have d2 : q < K * (q / K) + K := Int.lt_mul_ediv_self_add (by omega)
    have l1 : t.fillMin ≤ q / K := by
      rw [Int.le_ediv_iff_mul_le (by omega)]; linarith
    have l2 : q / K ≤ t.fillMax := by
      by_contra h
      have : t.fillMax + 1 ≤ q / K := by omega
      nlinarith
    refine ⟨l1, l2, ?_⟩
    nlinarith
  · rw [hf, Option.some.injEq] at h5
    subst h5
    refine ⟨hmM, le_refl _, ?_⟩
    by_contra h
    have hK : K = 1 := by
      by_contra hne
      have : 1 ≤ K - 1 := by omega
      nlinarith
    subst hK
    omega

theorem getFill_some {t : TU} {q : ℤ} (hs : t.strategy ≠ .first) (hm : 1 ≤ t.fillMin)
    (hmM : t.fillMin ≤ t.fillMax) (hq : t.fillMin ≤ q) (hov : q + t.fillMax ≤ intMax) :
    ∃ f, getFill t q = some f := by
  obtain ⟨K, -, -, -, h⟩ := getFill_spec hs hm hmM hq hov
  rcases h with ⟨-, h⟩ | ⟨-, h⟩ <;> exact ⟨_, h⟩

/-- The hybrid loop finishes, and what it ships is as large as any feasible shipment. -/
theorem hybridLoop_spec {t : TU} (hs : t.strategy = .hybrid) (hm : 1 ≤ t.fillMin)
    (hmM : t.fillMin ≤ t.fillMax) : ∀ (fuel : ℕ) (p : ℤ), 0 ≤ p → p < fuel →
    p + t.fillMax ≤ intMax → ∃ us, hybridLoop t fuel p = some us ∧
      (∀ u ∈ us, t.fillMin ≤ u ∧ u ≤ t.fillMax) ∧ 0 ≤ us.sum ∧ us.sum ≤ p ∧
      ∀ (k n : ℤ), 0 ≤ k → k * t.fillMin ≤ n → n ≤ k * t.fillMax → n ≤ p → n ≤ us.sum := by
  intro fuel
  induction fuel with
  | zero => intro p h0 h1 _; simp at h1; omega
  | succ fuel ih =>
    intro p h0 h1 hov
    unfold hybridLoop
    by_cases hc : p > 0 ∧ p ≥ t.fillMin
    · rw [if_pos hc]
      have hsf : t.strategy ≠ .first := by rw [hs]; simp
      obtain ⟨f, hf⟩ := getFill_some hsf hm hmM hc.2 hov
      obtain ⟨b1, b2, b3⟩ := getFill_bounds hsf hm hmM hc.2 hov hf
      obtain ⟨us, hus, hlim, hsum0, hsum, hopt⟩ := ih (p - f) (by omega)
        (by push_cast at h1; omega) (by omega)
      rw [hf]
      refine ⟨f :: us, by simp [hus], ?_, by simp; omega, by simp; omega, ?_⟩
      · intro u hu
        rcases List.mem_cons.1 hu with rfl | hu
        · exact ⟨b1, b2⟩
        · exact hlim u hu
      · intro k n hk0 hk1 hk2 hnp
        rw [List.sum_cons]
        obtain ⟨K, g1, g2, g3, g4⟩ := getFill_spec hsf hm hmM hc.2 hov
        rcases g4 with ⟨g4, g5⟩ | ⟨g4, g5⟩
        · rw [hf, Option.some.injEq] at g5
          have d1 : K * (p / K) ≤ p := Int.mul_ediv_self_le (by omega)
          have d2 : p < K * (p / K) + K := Int.lt_mul_ediv_self_add (by omega)
          rw [← g5] at d1 d2
          have hall : p - f ≤ us.sum := by
            refine hopt (K - 1) (p - f) (by omega) ?_ ?_ le_rfl
            · nlinarith
            · rcases lt_or_eq_of_le b2 with hlt | heq
              · have : (K - 1) * (f + 1) ≤ (K - 1) * t.fillMax :=
                  mul_le_mul_of_nonneg_left (by omega) (by omega)
                nlinarith
              · subst heq; nlinarith
          omega
        · rw [hf, Option.some.injEq] at g5
          rcases eq_or_lt_of_le hk0 with hk | hk
          · subst hk; omega
          · have hkK : k < K := by
              by_contra hge
              have hge : K ≤ k := by omega
              have : K * t.fillMin ≤ k * t.fillMin := mul_le_mul_of_nonneg_right hge (by omega)
              omega
            have hle : k * t.fillMax ≤ (K - 1) * t.fillMax :=
              mul_le_mul_of_nonneg_right (by omega) (by omega)
            have := hopt (k - 1) ((k - 1) * t.fillMax) (by omega)
              (mul_le_mul_of_nonneg_left hmM (by omega)) le_rfl (by rw [g5]; nlinarith)
            rw [g5]
            nlinarith
    · rw [if_neg hc]
      refine ⟨[], rfl, by simp, by simp, by simpa using h0, ?_⟩
      intro k n hk0 hk1 hk2 hnp
      simp only [List.sum_nil]
      have hp : p < t.fillMin := by omega
      rcases eq_or_lt_of_le hk0 with hk | hk
      · subst hk; omega
      · have : 1 * t.fillMin ≤ k * t.fillMin := mul_le_mul_of_nonneg_right (by omega) (by omega)
        omega

end Cyclus.TransportUnit
