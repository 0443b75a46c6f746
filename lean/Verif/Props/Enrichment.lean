import Verif.Model.Enrichment
import Mathlib.Analysis.SpecialFunctions.Log.Basic
import Mathlib.Tactic.FieldSimp
import Mathlib.Tactic.Ring
import Mathlib.Tactic.Linarith
import Mathlib.Tactic.NormNum
import Mathlib.Tactic.Positivity

/-!
# Enrichment (C46)
-/

namespace Cyclus.Enrich

namespace Spec

/-- Mass and fissile mass are balanced. -/
def Balanced (a : Assays) (feed product tails : ℝ) : Prop :=
  feed = product + tails ∧ a.feed * feed = a.product * product + a.tails * tails

/-- The value of a unit of material of the given assay, as defined in the literature. -/
noncomputable def potential (x : ℝ) : ℝ := (2 * x - 1) * Real.log (x / (1 - x))

end Spec

open Spec

/-- **C46, balances**: feed is product plus tails, and the fissile mass of the feed is that of
product and tails; the quantities are not negative. -/
theorem C46_balance {a : Assays} {q : ℝ} (h1 : a.tails < a.feed) (h2 : a.feed < a.product)
    (hq : 0 ≤ q) : ∃ f t, feedQty q a = some f ∧ tailsQty q a = some t ∧ Balanced a f q t ∧
      q ≤ f ∧ 0 ≤ t := by
  have hne : a.feed - a.tails ≠ 0 := by intro h; linarith
  have hpos : 0 < a.feed - a.tails := by linarith
  refine ⟨q * ((a.product - a.tails) / (a.feed - a.tails)),
    q * ((a.product - a.feed) / (a.feed - a.tails)), ?_, ?_, ⟨?_, ?_⟩, ?_, ?_⟩
  · simp [feedQty, div, hne]
  · simp [tailsQty, div, hne]
  · field_simp; ring
  · field_simp; ring
  · have : 1 ≤ (a.product - a.tails) / (a.feed - a.tails) := by
      rw [le_div_iff₀ hpos]; linarith
    nlinarith
  · exact mul_nonneg hq (div_nonneg (by linarith) (le_of_lt hpos))

/-- **C46, uniqueness**: no other quantities of feed and tails balance. -/
theorem C46_unique {a : Assays} {q f t : ℝ} (h1 : a.tails ≠ a.feed) (h : Balanced a f q t) :
    feedQty q a = some f ∧ tailsQty q a = some t := by
  have hne : a.feed - a.tails ≠ 0 := sub_ne_zero.2 (Ne.symm h1)
  obtain ⟨rfl, h⟩ := h
  have ht : t = q * ((a.product - a.feed) / (a.feed - a.tails)) := by
    field_simp
    linarith
  constructor
  · simp only [feedQty, div, if_neg hne, Option.map_some, Option.some.injEq]
    rw [ht]
    field_simp
    ring
  · simp only [tailsQty, div, if_neg hne, Option.map_some, Option.some.injEq]
    exact ht.symm

theorem valueFunc_eq {x : ℝ} (h0 : 0 < x) (h1 : x < 1) :
    valueFunc x = .ok (some (potential x)) := by
  have : 1 / x - 1 = (x / (1 - x))⁻¹ := by
    have : 1 - x ≠ 0 := by intro h; linarith
    field_simp
  simp only [valueFunc, not_lt.2 (le_of_lt h0), if_false, ge_iff_le, not_le.2 h1, div, h0.ne',
    Option.map_some, potential]
  rw [this, Real.log_inv]
  congr 2
  ring

/-- Tangent of `a * log (a / b)`. -/
theorem tangent {a b r : ℝ} (ha : 0 < a) (hb : 0 < b) (hr : 0 < r) :
    a * Real.log r + a - b * r ≤ a * Real.log (a / b) ∧
      (a ≠ b * r → a * Real.log r + a - b * r < a * Real.log (a / b)) := by
  have hx : 0 < b * r / a := by positivity
  have hlog : Real.log (a / b) = Real.log r - Real.log (b * r / a) := by
    rw [Real.log_div ha.ne' hb.ne', Real.log_div (by positivity) ha.ne',
      Real.log_mul hb.ne' hr.ne']
    ring
  have key : a * (b * r / a - 1) = b * r - a := by field_simp
  constructor
  · have := mul_le_mul_of_nonneg_left (Real.log_le_sub_one_of_pos hx) ha.le
    rw [hlog]
    linarith
  · intro hne
    have hne' : b * r / a ≠ 1 := by
      intro h
      rw [div_eq_one_iff_eq ha.ne'] at h
      exact hne h.symm
    have := mul_lt_mul_of_pos_left (Real.log_lt_sub_one_of_pos hx hne') ha
    rw [hlog]
    linarith

/-- The tangent of the potential at `x`. -/
noncomputable def line (x y : ℝ) : ℝ :=
  y * Real.log (x / (1 - x)) + y - (1 - y) * (x / (1 - x)) +
    ((1 - y) * Real.log ((1 - x) / x) + (1 - y) - y * ((1 - x) / x))

theorem potential_split {y : ℝ} (h0 : 0 < y) (h1 : y < 1) :
    potential y = y * Real.log (y / (1 - y)) + (1 - y) * Real.log ((1 - y) / y) := by
  have : (1 - y) / y = (y / (1 - y))⁻¹ := by rw [inv_div]
  rw [this, Real.log_inv, potential]
  ring

theorem potential_ge {x y : ℝ} (hx0 : 0 < x) (hx1 : x < 1) (hy0 : 0 < y) (hy1 : y < 1) :
    line x y ≤ potential y ∧ (x ≠ y → line x y < potential y) := by
  have h1x : 0 < 1 - x := by linarith
  have h1y : 0 < 1 - y := by linarith
  rw [potential_split hy0 hy1]
  have t1 := tangent hy0 h1y (div_pos hx0 h1x)
  have t2 := (tangent h1y hy0 (div_pos h1x hx0)).1
  refine ⟨by unfold line; linarith [t1.1], fun hne => ?_⟩
  have := t1.2 (by
    intro h
    apply hne
    field_simp at h
    linarith)
  unfold line
  linarith

theorem line_self {x : ℝ} (hx0 : 0 < x) (hx1 : x < 1) : line x x = potential x := by
  have h1x : 1 - x ≠ 0 := by intro h; linarith
  rw [potential_split hx0 hx1, line]
  field_simp
  ring

/-- **C46, separative work**: for assays strictly between 0 and 1 the separative work is that of
the potential, is not negative, and positive if there is product. -/
theorem C46_swu {a : Assays} {q : ℝ} (h0 : 0 < a.tails) (h1 : a.tails < a.feed)
    (h2 : a.feed < a.product) (h3 : a.product < 1) (hq : 0 ≤ q) :
    ∃ f t s, Balanced a f q t ∧ swuRequired q a = .ok (some s) ∧
      s = q * potential a.product + t * potential a.tails - f * potential a.feed ∧
      0 ≤ s ∧ (0 < q → 0 < s) := by
  obtain ⟨f, t, hf, ht, hb, hqf, ht0⟩ := C46_balance h1 h2 hq
  refine ⟨f, t, _, hb, ?_, rfl, ?_⟩
  · simp [swuRequired, valueFunc_eq (x := a.product) (by linarith) h3,
      valueFunc_eq (x := a.tails) h0 (by linarith),
      valueFunc_eq (x := a.feed) (by linarith) (by linarith), hf, ht]
  have hp := potential_ge (x := a.feed) (y := a.product) (by linarith) (by linarith) (by linarith) h3
  have htl := potential_ge (x := a.feed) (y := a.tails) (by linarith) (by linarith) h0 (by linarith)
  have hs := line_self (x := a.feed) (by linarith) (by linarith)
  have hlin : q * line a.feed a.product + t * line a.feed a.tails = f * line a.feed a.feed := by
    obtain ⟨rfl, hb⟩ := hb
    unfold line
    generalize Real.log (a.feed / (1 - a.feed)) = L
    generalize a.feed / (1 - a.feed) = R
    generalize Real.log ((1 - a.feed) / a.feed) = L'
    generalize (1 - a.feed) / a.feed = R'
    linear_combination (-(L + 1 + R - L' - 1 - R')) * hb
  rw [hs] at hlin
  have m1 := mul_le_mul_of_nonneg_left hp.1 hq
  have m2 := mul_le_mul_of_nonneg_left htl.1 ht0
  refine ⟨by linarith, fun hq' => ?_⟩
  have m3 := mul_lt_mul_of_pos_left (hp.2 (ne_of_lt h2)) hq'
  linarith

/-- **C46, range**: separative work is refused exactly if an assay is outside of [0, 1). -/
theorem C46_range (a : Assays) (q : ℝ) : (∃ e, swuRequired q a = .error e) ↔
    ¬ ((0 ≤ a.product ∧ a.product < 1) ∧ (0 ≤ a.tails ∧ a.tails < 1) ∧
      (0 ≤ a.feed ∧ a.feed < 1)) := by
  have hv : ∀ x : ℝ, (∃ v, valueFunc x = .ok v ∧ 0 ≤ x ∧ x < 1) ∨
      (valueFunc x = .error .value ∧ ¬ (0 ≤ x ∧ x < 1)) := by
    intro x
    unfold valueFunc
    by_cases h1 : x < 0
    · right; rw [if_pos h1]; exact ⟨rfl, fun h => by linarith [h.1]⟩
    · by_cases h2 : x ≥ 1
      · right; rw [if_neg h1, if_pos h2]; exact ⟨rfl, fun h => by linarith [h.2]⟩
      · left; rw [if_neg h1, if_neg h2]; exact ⟨_, rfl, not_lt.1 h1, not_le.1 h2⟩
  unfold swuRequired
  rcases hv a.product with ⟨vp, hp, hp'⟩ | ⟨hp, hp'⟩
  · rcases hv a.tails with ⟨vt, ht, ht'⟩ | ⟨ht, ht'⟩
    · rcases hv a.feed with ⟨vf, hf, hf'⟩ | ⟨hf, hf'⟩
      · simp only [hp, ht, hf]
        constructor
        · rintro ⟨e, he⟩
          split at he <;> cases he
        · intro h; exact absurd ⟨hp', ht', hf'⟩ h
      · simp only [hp, ht, hf]
        exact ⟨fun _ h => hf' h.2.2, fun _ => ⟨_, rfl⟩⟩
    · simp only [hp, ht]
      exact ⟨fun _ h => ht' h.2.1, fun _ => ⟨_, rfl⟩⟩
  · simp only [hp]
    exact ⟨fun _ h => hp' h.1, fun _ => ⟨_, rfl⟩⟩

/-- Natural uranium to 5 %, with tails of 0.2 %: the hypotheses of the theorems hold, and 1 unit of
product takes 48 / 5 units of feed with these numbers. -/
example : (0 : ℝ) < 2 / 1000 ∧ (2 / 1000 : ℝ) < 7 / 1000 ∧ (7 / 1000 : ℝ) < 50 / 1000 ∧
    (50 / 1000 : ℝ) < 1 ∧ feedQty 1 ⟨7 / 1000, 50 / 1000, 2 / 1000⟩ = some (48 / 5) := by
  refine ⟨by norm_num, by norm_num, by norm_num, by norm_num, ?_⟩
  unfold feedQty div
  norm_num

/-- Tails without any fissile nuclide are within the range that the documentation of `ValueFunc`
admits, but the separative work is not a number. -/
theorem C46_fails_depleted : ∃ a : Assays, 0 ≤ a.tails ∧ a.tails < a.feed ∧ a.feed < a.product ∧
    a.product < 1 ∧ swuRequired 1 a = .ok none := by
  refine ⟨⟨1 / 4, 1 / 2, 0⟩, le_refl _, by norm_num, by norm_num, by norm_num, ?_⟩
  have h0 : valueFunc 0 = .ok none := by simp [valueFunc, div]
  simp only [swuRequired, h0, valueFunc_eq (x := 1 / 4) (by norm_num) (by norm_num),
    valueFunc_eq (x := 1 / 2) (by norm_num) (by norm_num)]
  split
  · rename_i h _
    cases h
  · rfl

/-- With feed equal to tails there is no exception, and no number. -/
theorem C46_fails_equal : ∃ a : Assays, a.feed = a.tails ∧ feedQty 1 a = none ∧
    swuRequired 1 a = .ok none := by
  refine ⟨⟨1 / 4, 1 / 2, 1 / 4⟩, rfl, by simp [feedQty, div], ?_⟩
  simp only [swuRequired, valueFunc_eq (x := 1 / 4) (by norm_num) (by norm_num),
    valueFunc_eq (x := 1 / 2) (by norm_num) (by norm_num)]
  simp [feedQty, div]

end Cyclus.Enrich
