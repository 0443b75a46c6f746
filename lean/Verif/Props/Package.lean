import Verif.Lemmas.Package
import Verif.Lemmas.TransportUnit
import Mathlib.Algebra.Order.Archimedean.Basic

/-!
# Properties C06 and C07: packages and transport units
-/

namespace Cyclus.Package

/-- **C06.**  For every package type that `Create` accepts, every quantity and every stream of
random draws (uniform draws lying within the limits, normal draws unrestricted): whenever
`GetFillMass` returns, every mass is at least `fill_min - eps` and at most `fill_max`, the masses add
up to at most the quantity, and the rest is less than the smallest package that could still be
filled. -/
theorem C06_fill_masses (a b : ℚ) (st : Strategy) (p : Pkg) (eps : ℚ) (raw : ℕ → ℚ) (fuel : ℕ)
    (qty : ℚ) (pk : List ℚ) (hp : create a b st = .ok p) (heps : 0 < eps)
    (hraw : st = .uniform → ∀ i, a ≤ raw i ∧ raw i ≤ b)
    (h : getFillMass p eps raw fuel qty = some (.ok pk)) :
    (∀ m ∈ pk, a - eps ≤ m ∧ m ≤ b) ∧ pk.sum ≤ max qty 0 ∧ qty - pk.sum < max eps a := by
  unfold create at hp
  split at hp
  · cases hp
  rename_i hnn
  split at hp
  · cases hp
  rename_i hle
  split at hp
  · cases hp
  cases hp
  push Not at hnn hle
  suffices hg : Good ⟨a, b, st⟩ eps qty pk from ⟨hg.limits, hg.total, hg.rest⟩
  unfold getFillMass at h
  split at h
  · rename_i hlt
    simp only [Option.some.injEq, Except.ok.injEq] at h
    subst h
    refine ⟨by simp, by simp, ?_⟩
    simp only [List.sum_nil, sub_zero]
    exact lt_max_of_lt_right (by simp only at hlt; linarith)
  rename_i hlow
  push Not at hlow
  split at h
  · cases h
  rename_i hc
  rw [Bool.not_eq_true] at hc
  have hdet : st ≠ .uniform → st ≠ .normal → Good ⟨a, b, st⟩ eps qty pk := by
    intro hu hn
    have h' : (if exceedsSplitLimits (divFloor qty (min qty (fillMass ⟨a, b, st⟩ qty))) = true
        then some (Except.error Err.value)
        else some (finish ⟨a, b, st⟩ eps (qty - divFloor qty (min qty (fillMass ⟨a, b, st⟩ qty))
          * min qty (fillMass ⟨a, b, st⟩ qty))
          (List.replicate (divFloor qty (min qty (fillMass ⟨a, b, st⟩ qty))).toNat
            (min qty (fillMass ⟨a, b, st⟩ qty))))) = some (Except.ok pk) := by
      cases st <;> first | exact h | exact absurd rfl hu | exact absurd rfl hn
    split at h'
    · cases h'
    rename_i hne
    rw [Bool.not_eq_true] at hne
    rw [Option.some.injEq] at h'
    exact det_good heps hnn.1 hle (by simp only at hlow ⊢; linarith) hc hne h'
  have hrnd : (st = .uniform ∨ st = .normal) → Good ⟨a, b, st⟩ eps qty pk := by
    intro hun
    have h' : (match drawLoop ⟨a, b, st⟩ eps raw fuel 0 qty [] with
      | none => none
      | some (rest, acc) => some (finish ⟨a, b, st⟩ eps rest acc)) = some (Except.ok pk) := by
      rcases hun with rfl | rfl <;> exact h
    split at h'
    · cases h'
    rename_i rest acc hd
    rw [Option.some.injEq] at h'
    have := drawLoop_spec heps (p := ⟨a, b, st⟩) (raw := raw)
      (fun hn => hraw (by rcases hun with h | h; exact h; exact absurd h hn)) fuel 0 qty []
      (by simp) (Or.inr rfl) hd
    refine finish_good this.1 ?_ heps this.2.1 ?_ h'
    · rw [this.2.2.1]; simp
    · intro hge
      have h1 : eps ≤ rest := (le_max_left _ _).trans hge
      rcases lt_max_iff.1 this.2.2.2 with h2 | h2
      · linarith
      · exact h2.le
  cases st with
  | first => exact hdet (by simp) (by simp)
  | equal => exact hdet (by simp) (by simp)
  | uniform => exact hrnd (Or.inl rfl)
  | normal => exact hrnd (Or.inr rfl)

/-- Hypotheses of `C06_fill_masses` are met: 11 kg in packages of 3 to 4, equal strategy. -/
example : create 3 4 .equal = .ok ⟨3, 4, .equal⟩ ∧
    getFillMass ⟨3, 4, .equal⟩ (1/1000000) (fun _ => 0) 0 11 = some (.ok [11/3, 11/3, 11/3]) := by
  decide +kernel

/-- Hypotheses of `C06_fill_masses` are met: a normal strategy with draws outside the limits. -/
example : create 3 5 .normal = .ok ⟨3, 5, .normal⟩ ∧
    getFillMass ⟨3, 5, .normal⟩ (1/1000000) (fun i => (i % 7 : ℕ)) 100 17 = some (.ok [3, 4, 5, 3]) := by
  decide +kernel

/-- **C06 (no spurious failure).**  With a positive quantity that needs fewer packages than the split
limit, the deterministic strategies never throw. -/
theorem C06_deterministic_succeeds (a b : ℚ) (st : Strategy) (p : Pkg) (eps : ℚ) (raw : ℕ → ℚ)
    (fuel : ℕ) (qty : ℚ) (hp : create a b st = .ok p)
    (hst : st = .first ∨ st = .equal) (hq : 0 < qty) (hb : 0 < b)
    (hlim : qty < 214748363 * b) :
    ∃ pk, getFillMass p eps raw fuel qty = some (.ok pk) := by
  unfold create at hp
  split at hp
  · cases hp
  rename_i hnn
  split at hp
  · cases hp
  rename_i hle
  split at hp
  · cases hp
  cases hp
  push Not at hnn hle
  have hfl : ⌊qty / b⌋ < 214748363 := by
    rw [Int.floor_lt, div_lt_iff₀ hb]; exact_mod_cast hlim
  have hfl0 : 0 ≤ ⌊qty / b⌋ := Int.floor_nonneg.2 (div_pos hq hb).le
  have hc : exceedsSplitLimits (divTrunc qty b) = false := by
    rw [divTrunc, if_neg hb.ne', if_pos (div_pos hq hb).le, toInt_of_range]
    · exact exceeds_false hfl0 (by rw [splitLimit_val]; omega)
    · simp only [intMin]; omega
    · simp only [intMax]; omega
  obtain ⟨d1, d2, d3, d4, d5, d6⟩ := det_pos (p := ⟨a, b, st⟩) hnn.1 hle hb hq
    (by simp only; rw [splitLimit_val]; omega)
  set F := min qty (fillMass ⟨a, b, st⟩ qty) with hF
  -- number of packages at the fill mass
  have hn : ⌊qty / F⌋ ≤ 214748363 := by
    rcases hst with rfl | rfl
    · have hF' : F = min qty b := rfl
      rcases min_choice qty b with h | h
      · rw [hF', h, div_self hq.ne']; simp
      · rw [hF', h]; omega
    · have hceil : ⌈qty / b⌉ ≤ 214748363 := (Int.ceil_le_floor_add_one _).trans (by omega)
      have hc1 : 1 ≤ ⌈qty / b⌉ := Int.one_le_ceil_iff.2 (div_pos hq hb)
      have hcp : (0 : ℚ) < (⌈qty / b⌉ : ℤ) := by exact_mod_cast hc1
      have hdc : divCeil qty b = ⌈qty / b⌉ := by
        rw [divCeil, if_neg hb.ne', toInt_of_range] <;> simp only [intMin, intMax] <;> omega
      have hfm : fillMass ⟨a, b, .equal⟩ qty = qty / (⌈qty / b⌉ : ℤ) ∨
          fillMass ⟨a, b, .equal⟩ qty = b := by
        unfold fillMass
        simp only [hdc]
        split
        · left; rw [if_neg (by omega)]
        · right; rfl
      rcases min_choice qty (fillMass ⟨a, b, .equal⟩ qty) with h | h
      · rw [hF, h, div_self hq.ne']; simp
      · rcases hfm with hm | hm
        · rw [hF, h, hm, div_div_cancel₀ hq.ne', Int.floor_intCast]; exact hceil
        · rw [hF, h, hm]; omega
  have hdf : divFloor qty F = ⌊qty / F⌋ := by
    rw [divFloor, if_neg d1.ne', toInt_of_range] <;> simp only [intMin, intMax] <;> omega
  have hex : exceedsSplitLimits (divFloor qty F) = false := by
    rw [hdf]; exact exceeds_false (by omega) (by rw [splitLimit_val]; omega)
  by_cases hlow : qty - a < -eps
  · exact ⟨[], by simp [getFillMass, hlow]⟩
  have hfin : ∃ pk, finish ⟨a, b, st⟩ eps (qty - divFloor qty F * F)
      (List.replicate (divFloor qty F).toNat F) = .ok pk := by
    unfold finish
    simp only
    rw [if_neg]
    · exact ⟨_, rfl⟩
    · rw [Bool.not_eq_true, hdf]
      have hlen : ∀ l : List ℚ, (l.length : ℤ) ≤ 214748364 →
          exceedsSplitLimits (toInt l.length) = false := by
        intro l hl
        rw [toInt_of_range]
        · exact exceeds_false (by omega) (by rw [splitLimit_val]; omega)
        · simp only [intMin]; omega
        · simp only [intMax]; omega
      apply hlen
      split <;> simp <;> omega
  obtain ⟨pk, hpk⟩ := hfin
  refine ⟨pk, ?_⟩
  rcases hst with rfl | rfl
  · simp only [getFillMass, if_neg hlow, hc, Bool.false_eq_true, if_false, ← hF, hex, hpk]
  · simp only [getFillMass, if_neg hlow, hc, Bool.false_eq_true, if_false, ← hF, hex, hpk]

example : create 3 4 .first = .ok ⟨3, 4, .first⟩ ∧ (0 : ℚ) < 11 ∧ (11 : ℚ) < 214748363 * 4 := by
  refine ⟨by decide +kernel, by norm_num, by norm_num⟩

/-- **C06 (termination).**  With a positive minimum fill, `GetFillMass` terminates for every stream
of draws that keeps producing values within the limits. -/
theorem C06_terminates (a b : ℚ) (st : Strategy) (p : Pkg) (eps : ℚ) (raw : ℕ → ℚ) (qty : ℚ)
    (hp : create a b st = .ok p) (ha : 0 < a)
    (hraw : st = .uniform → ∀ i, a ≤ raw i ∧ raw i ≤ b)
    (hio : ∀ i, ∃ j, i ≤ j ∧ a ≤ raw j ∧ raw j ≤ b) :
    ∃ F, ∀ fuel, F ≤ fuel → getFillMass p eps raw fuel qty ≠ none := by
  unfold create at hp
  split at hp
  · cases hp
  split at hp
  · cases hp
  rename_i hle
  split at hp
  · cases hp
  cases hp
  push Not at hle
  obtain ⟨n, hn⟩ := exists_nat_gt (qty / a)
  rw [div_lt_iff₀ ha] at hn
  by_cases hrnd : st = .uniform ∨ st = .normal
  · obtain ⟨F, hF⟩ := drawLoop_total (p := ⟨a, b, st⟩) (eps := eps) (raw := raw) ha hle hio
      (fun hne => hraw (by rcases hrnd with h | h; exact h; exact absurd h hne)) n 0 qty [] hn
    refine ⟨F, fun fuel hf hnone => ?_⟩
    unfold getFillMass at hnone
    split at hnone
    · cases hnone
    split at hnone
    · cases hnone
    have h' : (match drawLoop ⟨a, b, st⟩ eps raw fuel 0 qty [] with
      | none => none
      | some (rest, acc) => some (finish ⟨a, b, st⟩ eps rest acc)) = none := by
      rcases hrnd with rfl | rfl <;> exact hnone
    split at h'
    · rename_i hd; exact hF fuel hf hd
    · cases h'
  · refine ⟨0, fun fuel _ hnone => ?_⟩
    unfold getFillMass at hnone
    split at hnone
    · cases hnone
    split at hnone
    · cases hnone
    cases st with
    | first => simp only at hnone; split at hnone <;> cases hnone
    | equal => simp only at hnone; split at hnone <;> cases hnone
    | uniform => exact hrnd (Or.inl rfl)
    | normal => exact hrnd (Or.inr rfl)

example : create 3 5 .normal = .ok ⟨3, 5, .normal⟩ ∧
    ∀ i : ℕ, ∃ j, i ≤ j ∧ (3 : ℚ) ≤ (fun k : ℕ => if k % 2 = 0 then 4 else 9 : ℕ → ℚ) j ∧
      (fun k : ℕ => if k % 2 = 0 then 4 else 9 : ℕ → ℚ) j ≤ 5 := by
  refine ⟨by decide +kernel, fun i => ⟨2 * i, by omega, ?_, ?_⟩⟩ <;> norm_num

/-- With a zero minimum the loop need not end: draws of 0 (allowed by the limits) go on forever. -/
theorem C06_zero_min_may_loop (fuel : ℕ) :
    getFillMass ⟨0, 1, .uniform⟩ (1/1000000) (fun _ => 0) fuel 2 = none := by
  have key : ∀ (f pos : ℕ) (acc : List ℚ),
      drawLoop ⟨0, 1, .uniform⟩ (1/1000000) (fun _ => 0) f pos 2 acc = none := by
    intro f
    induction f with
    | zero => intro pos acc; rfl
    | succ f ih =>
      intro pos acc
      unfold drawLoop
      rw [if_pos (by norm_num)]
      simp only [sample, sub_zero]
      exact ih _ _
  have h1 : ¬ ((2 : ℚ) - 0 < -(1/1000000)) := by norm_num
  have h2 : exceedsSplitLimits (divTrunc 2 1) = false := by decide +kernel
  simp only [getFillMass, if_neg h1, h2, Bool.false_eq_true, if_false, key]

end Cyclus.Package

namespace Cyclus.TransportUnit

open Cyclus.Package (intMax)

/-- Specification: `n` packages can be divided into transport units within the limits. -/
def Divisible (t : TU) (n : ℤ) : Prop :=
  ∃ units : List ℤ, (∀ u ∈ units, t.fillMin ≤ u ∧ u ≤ t.fillMax) ∧ units.sum = n

/-- The arguments for which the computation has no division by zero and no signed overflow. -/
def Defined (t : TU) (pkgs : ℤ) : Prop :=
  t.strategy = .first ∨ (1 ≤ t.fillMin ∧ pkgs + t.fillMax ≤ intMax)

/-- C07 in full: for every unit type that can be created and every number of packages. -/
def C07 : Prop := ∀ a b st t, create a b st false = .ok t → b ≤ intMax → ∀ (pkgs : ℤ) (fuel : ℕ), 0 ≤ pkgs →
  pkgs < fuel → pkgs ≤ intMax → ∃ n, maxShippable t fuel pkgs = some n ∧
    0 ≤ n ∧ n ≤ pkgs ∧ Divisible t n ∧ (pkgs < a → n = 0)

theorem divisible_mul {t : TU} {k f : ℤ} (hk : 0 ≤ k) (h1 : t.fillMin ≤ f) (h2 : f ≤ t.fillMax) :
    Divisible t (k * f) := by
  refine ⟨List.replicate k.toNat f, ?_, ?_⟩
  · intro u hu
    rw [List.eq_of_mem_replicate hu]; exact ⟨h1, h2⟩
  · rw [List.sum_replicate, nsmul_eq_mul]
    congr 1
    exact Int.toNat_of_nonneg hk

theorem divisible_zero (t : TU) : Divisible t 0 := ⟨[], by simp, rfl⟩

/-- **C07 (partial).**  Where the computation is defined, the number of packages shipped is between
0 and the number available and can be divided into units within the limits; fewer packages than
`fill_min` ship nothing.  Missing: `fill_min = 0` (the default of `Create`) or sums above `INT_MAX`
with the equal or hybrid strategy, where the code divides by zero or overflows
(`C07_fails_zero_min`). -/
theorem C07_shippable_partial (a b : ℤ) (st : Strategy) (t : TU) (hc : create a b st false = .ok t)
    (pkgs : ℤ) (fuel : ℕ) (h0 : 0 ≤ pkgs) (hf : pkgs < fuel) (hd : Defined t pkgs) :
    ∃ n, maxShippable t fuel pkgs = some n ∧ 0 ≤ n ∧ n ≤ pkgs ∧ Divisible t n ∧
      (pkgs < a → n = 0) := by
  unfold create at hc
  split at hc
  · cases hc
  rename_i hnn
  split at hc
  · cases hc
  rename_i hle
  cases hc
  have ha : 0 ≤ a := by omega
  have hb : 0 ≤ b := by omega
  have hab : a ≤ b := by omega
  unfold maxShippable
  by_cases hz : pkgs = 0 ∨ pkgs < a
  · rw [if_pos hz]
    exact ⟨0, rfl, le_rfl, h0, divisible_zero _, fun _ => rfl⟩
  rw [if_neg hz]
  simp only [Bool.false_eq_true, if_false]
  have hnlt : ¬ pkgs < a := fun h => hz (Or.inr h)
  have hcut : ∀ f : ℤ, a ≤ f → f ≤ b → 0 < f →
      0 ≤ min pkgs (Int.tdiv pkgs f * f) ∧ min pkgs (Int.tdiv pkgs f * f) ≤ pkgs ∧
      Divisible ⟨a, b, st, false⟩ (min pkgs (Int.tdiv pkgs f * f)) := by
    intro f h1 h2 h3
    rw [Int.tdiv_eq_ediv_of_nonneg h0]
    have hdle : pkgs / f * f ≤ pkgs := by
      have := Int.mul_ediv_self_le (x := pkgs) h3.ne'
      linarith
    have hdnn : 0 ≤ pkgs / f := Int.ediv_nonneg h0 h3.le
    rw [min_eq_right hdle]
    exact ⟨mul_nonneg hdnn h3.le, hdle, divisible_mul hdnn h1 h2⟩
  cases st with
  | first =>
    have hg : getFill ⟨a, b, .first, false⟩ pkgs = some b := by
      simp [getFill, hnlt]
    simp only [hg]
    split
    · exact ⟨0, rfl, le_rfl, h0, divisible_zero _, fun _ => rfl⟩
    · obtain ⟨c1, c2, c3⟩ := hcut b hab le_rfl (by omega)
      exact ⟨_, rfl, c1, c2, c3, fun h => absurd h hnlt⟩
  | equal =>
    rcases hd with hd | ⟨hd1, hd2⟩
    · cases hd
    obtain ⟨f, hgf⟩ := getFill_some (t := ⟨a, b, .equal, false⟩) (q := pkgs) (by simp) hd1 hab
      (by simpa using hnlt) hd2
    obtain ⟨b1, b2, b3⟩ := getFill_bounds (t := ⟨a, b, .equal, false⟩) (by simp) hd1 hab
      (by simpa using hnlt) hd2 hgf
    simp only at hd1 b1 b2
    simp only [hgf]
    rw [if_neg (by omega)]
    obtain ⟨c1, c2, c3⟩ := hcut f b1 b2 (by omega)
    exact ⟨_, rfl, c1, c2, c3, fun h => absurd h hnlt⟩
  | hybrid =>
    rcases hd with hd | ⟨hd1, hd2⟩
    · cases hd
    obtain ⟨us, e1, e2, e3, e4, -⟩ := hybridLoop_spec (t := ⟨a, b, .hybrid, false⟩) rfl hd1 hab fuel
      pkgs h0 hf hd2
    simp only [e1, Option.map_some]
    exact ⟨_, rfl, e3, e4, ⟨us, e2, rfl⟩, fun h => absurd h hnlt⟩

example : create 3 4 .equal false = .ok ⟨3, 4, .equal, false⟩ ∧ Defined ⟨3, 4, .equal, false⟩ 7 ∧
    maxShippable ⟨3, 4, .equal, false⟩ 8 7 = some 6 :=
  ⟨by decide, Or.inr (by decide), by decide +kernel⟩

/-- **C07 (hybrid is optimal).**  The hybrid strategy ships the largest number of packages that can
be divided into transport units within the limits. -/
theorem C07_hybrid_optimal (a b : ℤ) (t : TU) (hc : create a b .hybrid false = .ok t) (ha : 1 ≤ a)
    (pkgs : ℤ) (fuel : ℕ) (h0 : 0 ≤ pkgs) (hf : pkgs < fuel) (hov : pkgs + b ≤ intMax) :
    ∃ n, maxShippable t fuel pkgs = some n ∧ Divisible t n ∧ n ≤ pkgs ∧
      ∀ n', Divisible t n' → n' ≤ pkgs → n' ≤ n := by
  unfold create at hc
  split at hc
  · cases hc
  split at hc
  · cases hc
  rename_i hle
  cases hc
  have hab : a ≤ b := by omega
  have hcount : ∀ us : List ℤ, (∀ u ∈ us, a ≤ u ∧ u ≤ b) →
      (us.length : ℤ) * a ≤ us.sum ∧ us.sum ≤ us.length * b := by
    intro us
    induction us with
    | nil => intro _; simp
    | cons u us ih =>
      intro h
      have h1 := h u (by simp)
      have h2 := ih (fun v hv => h v (by simp [hv]))
      simp only [List.length_cons, List.sum_cons, Nat.cast_add, Nat.cast_one]
      constructor <;> nlinarith
  unfold maxShippable
  by_cases hz : pkgs = 0 ∨ pkgs < a
  · rw [if_pos hz]
    refine ⟨0, rfl, divisible_zero _, h0, ?_⟩
    rintro n' ⟨us, h1, rfl⟩ hn
    obtain ⟨h2, h3⟩ := hcount us h1
    cases us with
    | nil => simp
    | cons u us =>
      exfalso
      simp only [List.length_cons, Nat.cast_add, Nat.cast_one] at h2
      have : (0 : ℤ) ≤ us.length := by omega
      have h4 : 1 * a ≤ ((us.length : ℤ) + 1) * a := mul_le_mul_of_nonneg_right (by omega) (by omega)
      omega
  rw [if_neg hz]
  simp only [Bool.false_eq_true, if_false]
  obtain ⟨us, e1, e2, e3, e4, e5⟩ := hybridLoop_spec (t := ⟨a, b, .hybrid, false⟩) rfl ha hab fuel
    pkgs h0 hf hov
  simp only [e1, Option.map_some]
  refine ⟨_, rfl, ⟨us, e2, rfl⟩, e4, ?_⟩
  rintro n' ⟨vs, h1, rfl⟩ hn
  obtain ⟨h2, h3⟩ := hcount vs h1
  exact e5 vs.length vs.sum (by omega) h2 h3 hn

example : create 3 4 .hybrid false = .ok ⟨3, 4, .hybrid, false⟩ ∧
    maxShippable ⟨3, 4, .hybrid, false⟩ 11 10 = some 10 := ⟨by decide, by decide +kernel⟩

/-- **C07 (unrestricted).**  The unrestricted unit ships everything. -/
theorem C07_unrestricted (a b : ℤ) (st : Strategy) (t : TU) (hc : create a b st true = .ok t)
    (pkgs : ℤ) (fuel : ℕ) (h : a ≤ pkgs) : maxShippable t fuel pkgs = some pkgs := by
  unfold create at hc
  split at hc
  · cases hc
  split at hc
  · cases hc
  cases hc
  unfold maxShippable
  by_cases hz : pkgs = 0 ∨ pkgs < a
  · have : pkgs = 0 := by omega
    simp [this]
  · simp [hz]

example : create 0 intMax .first true = .ok ⟨0, intMax, .first, true⟩ := by decide

/-- C07 fails for the equal strategy with the default minimum 0: the computation divides by zero. -/
theorem C07_fails_zero_min : ¬ C07 := by
  intro h
  obtain ⟨n, hn, -⟩ := h 0 5 .equal ⟨0, 5, .equal, false⟩ (by decide) (by decide) 3 10 (by decide)
    (by decide) (by decide)
  have h' : maxShippable ⟨0, 5, .equal, false⟩ 10 3 = none := by decide +kernel
  rw [h'] at hn
  cases hn

end Cyclus.TransportUnit
