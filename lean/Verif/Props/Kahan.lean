import Verif.Model.Kahan
import Mathlib.Tactic.Linarith
import Mathlib.Tactic.Ring
import Mathlib.Tactic.LinearCombination
import Mathlib.Algebra.BigOperators.Group.List.Basic
import Mathlib.Algebra.Order.BigOperators.Group.List
import Mathlib.Data.List.Sort

/-! # C108: sums are accurate whatever the number of terms -/

namespace Cyclus.Kahan.C108

/-! ## Specification -/

/-- Numbers up to `M` are rounded to a double with relative error at most `u` (for doubles and sums,
`u = 2^-53` and `M` below `2^1024`: additions have no underflow). -/
def Rounds (fl : ℚ → Dbl) (u M : ℚ) : Prop := ∀ q, |q| ≤ M → ∃ r, fl q = .num r ∧ |r - q| ≤ u * |q|

/-- The sum of the absolute values. -/
def mag (l : List ℚ) : ℚ := (l.map fun x => |x|).sum

/-- What a caller wants of a sum: its error is a few units in the last place of the values, and a multiple
of the number of terms appears only with the square of the unit. -/
def Accurate (u : ℚ) (l : List ℚ) (s : ℚ) : Prop :=
  |s - l.sum| ≤ u * |l.sum| + (2 * u + 12 * l.length * u ^ 2) * mag l

/-! ## One turn of the loop -/

/-- The values of one turn, and the invariant before it.  `p` stands for `u * T`. -/
private structure Turn (u T p A S s c x k : ℚ) : Prop where
  u0 : 0 ≤ u
  u1 : u ≤ 1 / 32
  pT : p = u * T
  S0 : |S| ≤ A
  AT : A + |x| ≤ T
  c0 : |c| ≤ 3 * p
  k0 : 0 ≤ k
  k1 : (k + 1) * u ≤ 1 / 12
  inv : |s - c - S| ≤ 2 * (u * A) + 12 * (k * (u * p))

section
variable {u T p A S s c x k : ℚ} (h : Turn u T p A S s c x k)
include h

private theorem T0 : 0 ≤ T := by
  have := h.S0; have := h.AT; have := abs_nonneg S; have := abs_nonneg x; linarith

private theorem p0 : 0 ≤ p := by rw [h.pT]; exact mul_nonneg h.u0 (T0 h)

private theorem up0 : 0 ≤ u * p := mul_nonneg h.u0 (p0 h)

private theorem p1 : p ≤ T / 32 := by
  have := mul_le_mul_of_nonneg_right h.u1 (T0 h); rw [← h.pT] at this; linarith

private theorem up1 : u * p ≤ p / 32 := by
  have := mul_le_mul_of_nonneg_right h.u1 (p0 h); linarith

private theorem uup1 : u * (u * p) ≤ u * p / 32 := by
  have := mul_le_mul_of_nonneg_right h.u1 (up0 h); linarith

private theorem ux0 : 0 ≤ u * |x| := mul_nonneg h.u0 (abs_nonneg x)

private theorem uuA : u * A + u * |x| ≤ p := by
  have := mul_le_mul_of_nonneg_left h.AT h.u0; rw [← h.pT] at this; linarith

private theorem uA0 : 0 ≤ u * A := mul_nonneg h.u0 ((abs_nonneg S).trans h.S0)

private theorem uux : u * (u * |x|) ≤ u * p := by
  have h1 : u * |x| ≤ p := by have := uuA h; have := uA0 h; linarith
  exact mul_le_mul_of_nonneg_left h1 h.u0

private theorem xT : |x| ≤ T := by have := h.AT; have := h.S0; have := abs_nonneg S; linarith

private theorem kp : 12 * (k * (u * p)) + 12 * (u * p) ≤ p := by
  have := mul_le_mul_of_nonneg_right h.k1 (p0 h)
  linear_combination 12 * this

private theorem kp0 : 0 ≤ k * (u * p) := mul_nonneg h.k0 (up0 h)

private theorem b1 : |x - c| ≤ |x| + 3 * p ∧ u * |x - c| ≤ u * |x| + 3 * (u * p) := by
  have h1 : |x - c| ≤ |x| + 3 * p := (abs_sub x c).trans (by linarith [h.c0])
  refine ⟨h1, ?_⟩
  have := mul_le_mul_of_nonneg_left h1 h.u0
  linarith

private theorem r1 : |x - c| ≤ 4 * T := by
  have := (b1 h).1; have := xT h; have := p1 h; have := T0 h; linarith

variable {y : ℚ} (hy : |y - (x - c)| ≤ u * |x - c|)
include hy

private theorem b2 : |y| ≤ |x| + 3 * p + u * |x| + 3 * (u * p) := by
  have h1 : |y| ≤ |y - (x - c)| + |x - c| := by
    have := abs_add_le (y - (x - c)) (x - c); rwa [sub_add_cancel] at this
  have := b1 h; linarith [hy]

private theorem b3 : |s + y - (S + x)| ≤ 2 * (u * A) + 12 * (k * (u * p)) + u * |x| + 3 * (u * p) := by
  have h1 : s + y - (S + x) = (s - c - S) + (y - (x - c)) := by ring
  rw [h1]
  refine (abs_add_le _ _).trans ?_
  have := h.inv; have := (b1 h).2; linarith [hy]

private theorem b4 : |s + y| ≤ |S + x| + 4 * p := by
  have h1 : |s + y| ≤ |s + y - (S + x)| + |S + x| := by
    have := abs_add_le (s + y - (S + x)) (S + x); rwa [sub_add_cancel] at this
  have := b3 h hy; have := uuA h; have := kp h; have := ux0 h; have := up0 h
  have := uA0 h; have := p0 h
  linarith

private theorem SxT : |S + x| ≤ T := (abs_add_le _ _).trans (by linarith [h.S0, h.AT])

private theorem b5 : u * |s + y| ≤ u * |S + x| + 4 * (u * p) ∧ u * |s + y| ≤ p + 4 * (u * p) := by
  have h1 := mul_le_mul_of_nonneg_left (b4 h hy) h.u0
  have h2 := mul_le_mul_of_nonneg_left (SxT h hy) h.u0
  rw [← h.pT] at h2
  constructor <;> linarith

private theorem r2 : |s + y| ≤ 4 * T := by
  have := b4 h hy; have := SxT h hy; have := p1 h; have := T0 h; linarith

variable {t : ℚ} (ht : |t - (s + y)| ≤ u * |s + y|)
include ht

private theorem b6 : |t - s| ≤ |x| + 4 * p + u * |x| + 7 * (u * p) := by
  have h1 : |t - s| ≤ |t - (s + y)| + |y| := by
    have := abs_add_le (t - (s + y)) y
    rwa [show t - (s + y) + y = t - s by ring] at this
  have := b2 h hy; have := (b5 h hy).2; linarith

private theorem b7 : u * |t - s| ≤ u * |x| + 6 * (u * p) := by
  have h1 := mul_le_mul_of_nonneg_left (b6 h hy ht) h.u0
  have := uux h; have := uup1 h; have := up0 h
  linarith

private theorem r3 : |t - s| ≤ 4 * T := by
  have := b6 h hy ht; have := xT h; have := p1 h; have := up1 h; have := uuA h; have := uA0 h
  have := T0 h
  linarith

variable {w : ℚ} (hw : |w - (t - s)| ≤ u * |t - s|)
include hw

private theorem b8 : |w - y| ≤ 2 * p + 10 * (u * p) := by
  have h1 : |w - y| ≤ |w - (t - s)| + |t - (s + y)| := by
    have := abs_add_le (w - (t - s)) (t - (s + y))
    rwa [show w - (t - s) + (t - (s + y)) = w - y by ring] at this
  have := b7 h hy ht; have := (b5 h hy).2; have := uuA h; have := uA0 h
  linarith

private theorem b9 : u * |w - y| ≤ 3 * (u * p) := by
  have h1 := mul_le_mul_of_nonneg_left (b8 h hy ht hw) h.u0
  have := uup1 h; have := up0 h
  linarith

private theorem r4 : |w - y| ≤ 4 * T := by
  have := b8 h hy ht hw; have := p1 h; have := up1 h; have := T0 h; linarith

variable {c' : ℚ} (hc : |c' - (w - y)| ≤ u * |w - y|)
include hc

private theorem b10 : |c'| ≤ 3 * p := by
  have h1 : |c'| ≤ |c' - (w - y)| + |w - y| := by
    have := abs_add_le (c' - (w - y)) (w - y); rwa [sub_add_cancel] at this
  have := b8 h hy ht hw; have := b9 h hy ht hw; have := up1 h; have := p0 h
  linarith

private theorem b11 : |t - c' - (S + x)| ≤ 2 * (u * (A + |x|)) + 12 * ((k + 1) * (u * p)) := by
  have e : t - c' - (S + x) =
      (s - c - S) + (y - (x - c)) + -(w - (t - s)) + -(c' - (w - y)) := by ring
  rw [e]
  refine (abs_add_le _ _).trans ?_
  rw [abs_neg]
  have h1 := abs_add_le (s - c - S + (y - (x - c))) (-(w - (t - s)))
  rw [abs_neg] at h1
  have h2 := abs_add_le (s - c - S) (y - (x - c))
  have := h.inv; have := (b1 h).2; have := b7 h hy ht; have := b9 h hy ht hw
  linarith

omit hw hc in
private theorem b12 : |t - (S + x)| ≤
    u * |S + x| + 2 * (u * (A + |x|)) + 12 * ((k + 1) * (u * p)) := by
  have h1 : |t - (S + x)| ≤ |t - (s + y)| + |s + y - (S + x)| := by
    have := abs_add_le (t - (s + y)) (s + y - (S + x))
    rwa [sub_add_sub_cancel] at this
  have := b3 h hy; have := (b5 h hy).1; have := ux0 h; have := up0 h
  linarith

end

/-! ## The loop -/

private theorem mag_cons (x : ℚ) (l : List ℚ) : mag (x :: l) = |x| + mag l := by simp [mag]

private theorem mag_nonneg (l : List ℚ) : 0 ≤ mag l := by
  induction l with
  | nil => simp [mag]
  | cons x l ih => rw [mag_cons]; have := abs_nonneg x; linarith

private theorem step_num {fl : ℚ → Dbl} {u M a b : ℚ} (hf : Rounds fl u M) (h : |a - b| ≤ M) :
    ∃ r, sub fl (.num a) (.num b) = .num r ∧ |r - (a - b)| ≤ u * |a - b| := by
  obtain ⟨r, h1, h2⟩ := hf (a - b) h
  exact ⟨r, by rw [← h1, sub_eq_add_neg a b]; rfl, h2⟩

private theorem loop_ok {fl : ℚ → Dbl} {u M T p : ℚ} (hf : Rounds fl u M) (u0 : 0 ≤ u) (u1 : u ≤ 1 / 32)
    (hp : p = u * T) (hM : 4 * T ≤ M) :
    ∀ (l : List ℚ) (s c S A k : ℚ), |S| ≤ A → A + mag l ≤ T → |c| ≤ 3 * p → 0 ≤ k →
      (k + l.length) * u ≤ 1 / 12 →
      |s - c - S| ≤ 2 * (u * A) + 12 * (k * (u * p)) →
      |s - S| ≤ u * |S| + 2 * (u * A) + 12 * (k * (u * p)) →
      ∃ r, loop fl (l.map .num) (.num s) (.num c) = .num r ∧
        |r - (S + l.sum)| ≤
          u * |S + l.sum| + 2 * (u * (A + mag l)) + 12 * ((k + l.length) * (u * p)) := by
  intro l
  induction l with
  | nil =>
    intro s c S A k _ _ _ _ _ _ h
    exact ⟨s, rfl, by simpa [mag] using h⟩
  | cons x l ih =>
    intro s c S A k hS hT hc hk hn hi _
    have hl := mag_nonneg l
    rw [mag_cons] at hT
    have hlen : ((x :: l).length : ℚ) = l.length + 1 := by simp
    have hl0 : (0 : ℚ) ≤ l.length := Nat.cast_nonneg _
    have hk1 : (k + 1) * u ≤ 1 / 12 := by
      rw [hlen] at hn
      have := mul_nonneg hl0 u0
      linarith
    have h : Turn u T p A S s c x k := ⟨u0, u1, hp, hS, by linarith, hc, hk, hk1, hi⟩
    obtain ⟨y, ey, hy⟩ := step_num hf ((r1 h).trans hM)
    obtain ⟨t, et, ht⟩ := hf (s + y) ((r2 h hy).trans hM)
    have et' : add fl (.num s) (.num y) = .num t := et
    obtain ⟨w, ew, hw⟩ := step_num hf ((r3 h hy ht).trans hM)
    obtain ⟨c', ec, hc'⟩ := step_num hf ((r4 h hy ht hw).trans hM)
    obtain ⟨r, hr, hb⟩ := ih t c' (S + x) (A + |x|) (k + 1)
      ((abs_add_le _ _).trans (by linarith)) (by linarith) (b10 h hy ht hw hc') (by linarith)
      (by rw [hlen] at hn; linarith) (b11 h hy ht hw hc') (b12 h hy ht)
    refine ⟨r, ?_, ?_⟩
    · rw [← hr, List.map_cons, loop]
      simp only [ey, et', ew, ec]
    · rw [List.sum_cons, mag_cons, hlen]
      have e1 : S + (x + l.sum) = S + x + l.sum := by ring
      have e2 : A + (|x| + mag l) = A + |x| + mag l := by ring
      have e3 : k + ((l.length : ℚ) + 1) = k + 1 + l.length := by ring
      rw [e1, e2, e3]; exact hb

/-! ## Sorting -/

private theorem insert_perm (x : Dbl) (l : List Dbl) : (insert x l).Perm (x :: l) := by
  induction l with
  | nil => exact List.Perm.refl _
  | cons y l ih =>
    unfold insert; split
    · exact (ih.cons y).trans (List.Perm.swap x y l)
    · exact List.Perm.refl _

private theorem sort_perm (l : List Dbl) : (sort l).Perm l := by
  induction l with
  | nil => exact List.Perm.refl _
  | cons x l ih => exact (insert_perm x (sort l)).trans (ih.cons x)

private theorem exists_nums {l' : List Dbl} {l : List ℚ} (h : l'.Perm (l.map .num)) :
    ∃ k : List ℚ, l' = k.map .num ∧ k.Perm l := by
  have hn : ∀ d ∈ l', ∃ q, d = Dbl.num q := by
    intro d hd
    obtain ⟨q, _, hq⟩ := List.mem_map.1 (h.mem_iff.1 hd)
    exact ⟨q, hq.symm⟩
  have : ∃ k : List ℚ, l' = k.map .num := by
    clear h
    induction l' with
    | nil => exact ⟨[], rfl⟩
    | cons d l' ih =>
      obtain ⟨q, hq⟩ := hn d (by simp)
      obtain ⟨k, hk⟩ := ih fun e he => hn e (by simp [he])
      exact ⟨q :: k, by rw [hq, hk, List.map_cons]⟩
  obtain ⟨k, hk⟩ := this
  refine ⟨k, hk, ?_⟩
  rw [hk] at h
  have hinj : Function.Injective Dbl.num := fun a b hab => by injection hab
  exact (List.map_perm_map_iff hinj).1 h

private theorem mag_perm {k l : List ℚ} (h : k.Perm l) : mag k = mag l := (h.map _).sum_eq

private theorem nan_notMem (l : List ℚ) : Dbl.nan ∉ l.map Dbl.num := by simp

/-- The sum of finite values is accurate: it needs no assumption about their order or signs, and the number
of terms appears only in a term of second order. -/
theorem C108_accurate {fl : ℚ → Dbl} {u M : ℚ} (hf : Rounds fl u M) (u0 : 0 ≤ u) (u1 : u ≤ 1 / 32)
    (l : List ℚ) (hn : l.length * u ≤ 1 / 12) (hM : 4 * mag l ≤ M) :
    ∃ s, kahanSum fl (l.map .num) = some (.num s) ∧ Accurate u l s := by
  obtain ⟨k, hk, hp⟩ := exists_nums (sort_perm (l.map .num))
  have hlen := hp.length_eq
  obtain ⟨r, hr, hb⟩ := loop_ok hf u0 u1 (T := mag l) rfl hM k 0 0 0 0 0 (by simp)
    (by rw [mag_perm hp]; simp) (by simpa using mul_nonneg u0 (mag_nonneg l)) le_rfl
    (by rw [hlen]; simpa using hn) (by simp) (by simp)
  refine ⟨r, ?_, ?_⟩
  · rw [kahanSum, if_neg (nan_notMem l), hk, hr]
  · rw [mag_perm hp, hp.sum_eq, hlen] at hb
    unfold Accurate
    simp only [zero_add] at hb
    refine hb.trans (le_of_eq ?_)
    ring

/-- A rounding that is always off, by one part in 1024. -/
private def off (q : ℚ) : Dbl := .num (q + q / 1024)

private theorem off_rounds (M : ℚ) : Rounds off (1 / 1024) M := by
  intro q _
  refine ⟨_, rfl, le_of_eq ?_⟩
  rw [show q + q / 1024 - q = 1 / 1024 * q by ring, abs_mul, abs_of_pos (by decide +kernel : (0 : ℚ) < 1 / 1024)]

example : Rounds off (1 / 1024) 100 ∧ (0 : ℚ) ≤ 1 / 1024 ∧ (1 / 1024 : ℚ) ≤ 1 / 32 ∧
    (([3, -1, 7] : List ℚ).length : ℚ) * (1 / 1024) ≤ 1 / 12 ∧ 4 * mag [3, -1, 7] ≤ 100 ∧
    ∃ s, kahanSum off (([3, -1, 7] : List ℚ).map .num) = some (.num s) ∧ s ≠ 9 ∧
      Accurate (1 / 1024) [3, -1, 7] s :=
  ⟨off_rounds 100, by decide +kernel, by decide +kernel, by decide +kernel, by decide +kernel, _,
    rfl, by decide +kernel, by unfold Accurate; decide +kernel⟩

/-- Amounts, which are not negative, are added with a relative error below four units, for up to `1/(12u)`
terms. -/
theorem C108_relative {fl : ℚ → Dbl} {u M : ℚ} (hf : Rounds fl u M) (u0 : 0 ≤ u) (u1 : u ≤ 1 / 32)
    (l : List ℚ) (hpos : ∀ x ∈ l, 0 ≤ x) (hn : l.length * u ≤ 1 / 12) (hM : 4 * l.sum ≤ M) :
    ∃ s, kahanSum fl (l.map .num) = some (.num s) ∧ |s - l.sum| ≤ 4 * u * l.sum := by
  have hmag : mag l = l.sum := by
    unfold mag
    congr 1
    calc l.map (fun x => |x|) = l.map id :=
          List.map_congr_left fun x hx => abs_of_nonneg (hpos x hx)
      _ = l := List.map_id l
  obtain ⟨s, h1, h2⟩ := C108_accurate hf u0 u1 l hn (by rw [hmag]; exact hM)
  refine ⟨s, h1, h2.trans ?_⟩
  have h0 : 0 ≤ l.sum := hmag ▸ mag_nonneg l
  rw [hmag, abs_of_nonneg h0]
  have h3 := mul_le_mul_of_nonneg_right hn (mul_nonneg u0 h0)
  have : (12 * (l.length : ℚ) * u ^ 2) * l.sum = 12 * ((l.length * u) * (u * l.sum)) := by ring
  linarith

example : Rounds off (1 / 1024) 100 ∧ (∀ x ∈ ([3, 1 / 2, 7] : List ℚ), 0 ≤ x) ∧
    (([3, 1 / 2, 7] : List ℚ).length : ℚ) * (1 / 1024) ≤ 1 / 12 ∧ 4 * ([3, 1 / 2, 7] : List ℚ).sum ≤ 100 :=
  ⟨off_rounds 100, by decide +kernel, by decide +kernel, by decide +kernel⟩

/-! ## Order -/

private theorem lt_trans' {a b c : Dbl} (hb : b ≠ .nan) (h1 : lt b a = false) (h2 : lt c b = false)
    : lt c a = false := by
  cases a <;> cases b <;> cases c <;> simp_all [lt]
  linarith

private theorem lt_asymm' {a b : Dbl} (h : lt a b = true) : lt b a = false := by
  cases a <;> cases b <;> simp_all [lt]
  exact h.le

private theorem le_antisymm' {a b : Dbl} (ha : a ≠ .nan) (hb : b ≠ .nan) (h1 : lt b a = false)
    (h2 : lt a b = false) : a = b := by
  cases a <;> cases b <;> simp_all [lt]
  exact le_antisymm h1 h2

private theorem insert_sorted {x : Dbl} (hx : x ≠ .nan) {l : List Dbl} (hl : Dbl.nan ∉ l)
    (h : l.Pairwise fun a b => lt b a = false) : (insert x l).Pairwise fun a b => lt b a = false := by
  induction l with
  | nil => simp [insert]
  | cons y l ih =>
    rw [List.pairwise_cons] at h
    simp only [List.mem_cons, not_or] at hl
    unfold insert; split
    · rename_i hlt
      refine List.pairwise_cons.2 ⟨?_, ih hl.2 h.2⟩
      intro z hz
      rcases List.mem_cons.1 ((insert_perm x l).mem_iff.1 hz) with rfl | hz
      · exact lt_asymm' hlt
      · exact h.1 z hz
    · rename_i hlt
      have hlt : lt y x = false := by simpa using hlt
      refine List.pairwise_cons.2 ⟨?_, List.pairwise_cons.2 h⟩
      intro z hz
      rcases List.mem_cons.1 hz with rfl | hz
      · exact hlt
      · exact lt_trans' (Ne.symm hl.1) hlt (h.1 z hz)

private theorem sort_sorted {l : List Dbl} (hl : Dbl.nan ∉ l) :
    (sort l).Pairwise fun a b => lt b a = false := by
  induction l with
  | nil => exact List.Pairwise.nil
  | cons x l ih =>
    simp only [List.mem_cons, not_or] at hl
    exact insert_sorted (Ne.symm hl.1) (fun h => hl.2 ((sort_perm l).mem_iff.1 h)) (ih hl.2)

/-- The sum does not depend on the order of the values, whatever the rounding: the quantity of a
composition or of a buffer is the same in every run that puts the same values into it. -/
theorem C108_order (fl : ℚ → Dbl) {l l' : List Dbl} (h : l.Perm l') : kahanSum fl l = kahanSum fl l' := by
  unfold kahanSum
  by_cases hn : Dbl.nan ∈ l
  · rw [if_pos hn, if_pos (h.mem_iff.1 hn)]
  · have hn' : Dbl.nan ∉ l' := fun h' => hn (h.mem_iff.2 h')
    rw [if_neg hn, if_neg hn']
    have : sort l = sort l' := by
      refine List.Perm.eq_of_pairwise ?_ (sort_sorted hn) (sort_sorted hn')
        ((sort_perm l).trans (h.trans (sort_perm l').symm))
      intro a b ha hb h1 h2
      refine le_antisymm' ?_ ?_ h1 h2
      · rintro rfl; exact hn ((sort_perm l).mem_iff.1 ha)
      · rintro rfl; exact hn' ((sort_perm l').mem_iff.1 hb)
    rw [this]

example : ([.num 1, .num 2, .pinf] : List Dbl).Perm [.pinf, .num 1, .num 2] ∧
    kahanSum off [.num 1, .num 2, .pinf] = some .pinf := by decide +kernel

/-! ## Exact sums -/

private theorem loop_int {fl : ℚ → Dbl} {N : ℚ} (hf : ∀ z : ℤ, |(z : ℚ)| ≤ N → fl z = .num z) :
    ∀ (l : List ℤ) (s : ℤ), |(s : ℚ)| + mag (l.map fun z : ℤ => (z : ℚ)) ≤ N →
      loop fl (l.map fun z : ℤ => .num z) (.num s) (.num 0) = .num ((s + l.sum : ℤ) : ℚ) := by
  intro l
  induction l with
  | nil => intro s _; simp [loop]
  | cons x l ih =>
    intro s h
    rw [List.map_cons, mag_cons] at h
    have hl := mag_nonneg (l.map fun z : ℤ => (z : ℚ))
    have hs := abs_nonneg (s : ℚ)
    have hx := abs_nonneg (x : ℚ)
    have e1 : sub fl (.num x) (.num 0) = .num x := by
      have : sub fl (.num x) (.num 0) = fl ((x : ℚ) + -0) := rfl
      rw [this, neg_zero, add_zero]; exact hf x (by linarith)
    have hsx : |((s + x : ℤ) : ℚ)| ≤ |(s : ℚ)| + |(x : ℚ)| := by push_cast; exact abs_add_le _ _
    have e2 : add fl (.num s) (.num x) = .num ((s + x : ℤ) : ℚ) := by
      have : add fl (.num s) (.num x) = fl ((s : ℚ) + x) := rfl
      rw [this, show ((s : ℚ) + x) = ((s + x : ℤ) : ℚ) by push_cast; rfl]
      exact hf _ (by linarith)
    have e3 : sub fl (.num ((s + x : ℤ) : ℚ)) (.num s) = .num x := by
      have : sub fl (.num ((s + x : ℤ) : ℚ)) (.num s) = fl (((s + x : ℤ) : ℚ) + -s) := rfl
      rw [this, show (((s + x : ℤ) : ℚ) + -s) = (x : ℚ) by push_cast; ring]
      exact hf x (by linarith)
    have e4 : sub fl (.num x) (.num x) = .num 0 := by
      have : sub fl (.num x) (.num x) = fl ((x : ℚ) + -x) := rfl
      rw [this, add_neg_cancel]
      have := hf 0 (by simp; linarith)
      simpa using this
    rw [List.map_cons, loop]
    simp only [e1, e2, e3, e4]
    rw [ih (s + x) (by linarith), List.sum_cons, add_assoc]

/-- Whole numbers (of products, for example) are added without any error as long as doubles hold whole
numbers of that size. -/
theorem C108_whole {fl : ℚ → Dbl} {N : ℚ} (hf : ∀ z : ℤ, |(z : ℚ)| ≤ N → fl z = .num z) (l : List ℤ)
    (h : mag (l.map fun z : ℤ => (z : ℚ)) ≤ N) :
    kahanSum fl (l.map fun z : ℤ => .num z) = some (.num (l.sum : ℤ)) := by
  have hperm := sort_perm (l.map fun z : ℤ => Dbl.num z)
  have hz : ∀ d ∈ sort (l.map fun z : ℤ => Dbl.num z), ∃ z : ℤ, d = .num z := by
    intro d hd
    obtain ⟨q, _, hq⟩ := List.mem_map.1 (hperm.mem_iff.1 hd)
    exact ⟨q, hq.symm⟩
  have : ∀ l' : List Dbl, (∀ d ∈ l', ∃ z : ℤ, d = .num z) → ∃ k : List ℤ, l' = k.map fun z : ℤ => Dbl.num z := by
    intro l' hn
    induction l' with
    | nil => exact ⟨[], rfl⟩
    | cons d l' ih =>
      obtain ⟨q, hq⟩ := hn d (by simp)
      obtain ⟨k, hk⟩ := ih fun e he => hn e (by simp [he])
      exact ⟨q :: k, by rw [hq, hk, List.map_cons]⟩
  obtain ⟨k, hk⟩ := this _ hz
  rw [hk] at hperm
  have hinj : Function.Injective fun z : ℤ => Dbl.num z := fun a b hab => by
    injection hab with hab; exact_mod_cast hab
  have hp : k.Perm l := (List.map_perm_map_iff hinj).1 hperm
  have hnn : Dbl.nan ∉ l.map fun z : ℤ => Dbl.num z := by simp
  have := loop_int hf k 0 (by rw [mag_perm (hp.map _)]; simpa using h)
  rw [kahanSum, if_neg hnn, hk]
  simp only [Int.cast_zero, zero_add] at this
  rw [this, hp.sum_eq]

/-- Rounding to whole numbers, with infinities beyond 10. -/
private def small (q : ℚ) : Dbl :=
  if 10 < q then .pinf else if q < -10 then .ninf else .num q.floor

example : (∀ z : ℤ, |(z : ℚ)| ≤ 10 → small z = .num z) ∧
    mag (([4, -3, 2] : List ℤ).map fun z : ℤ => (z : ℚ)) ≤ 10 := by
  refine ⟨fun z hz => ?_, by decide +kernel⟩
  have := abs_le.1 hz
  simp [small, not_lt.2 this.2, not_lt.2 this.1]

/-! ## The callers -/

/-- The sum of a composition and the quantity of a resource map are such sums; an empty map has
quantity 0. -/
theorem C108_callers {fl : ℚ → Dbl} {u M : ℚ} (hf : Rounds fl u M) (u0 : 0 ≤ u) (u1 : u ≤ 1 / 32)
    (v : List (ℕ × ℚ)) (hpos : ∀ e ∈ v, 0 ≤ e.2) (hn : v.length * u ≤ 1 / 12)
    (hM : 4 * (v.map Prod.snd).sum ≤ M) :
    ∃ s, compSum fl (v.map fun e => (e.1, .num e.2)) = some (.num s) ∧
      updateQuantity fl (v.map fun e => (e.1, .num e.2)) = some (.num s) ∧
      |s - (v.map Prod.snd).sum| ≤ 4 * u * (v.map Prod.snd).sum := by
  obtain ⟨s, h1, h2⟩ := C108_relative hf u0 u1 (v.map Prod.snd)
    (by intro x hx; obtain ⟨e, he, rfl⟩ := List.mem_map.1 hx; exact hpos e he)
    (by simpa using hn) hM
  have e : (v.map fun e => (e.1, Dbl.num e.2)).map Prod.snd = (v.map Prod.snd).map .num := by
    simp [Function.comp_def]
  refine ⟨s, by rw [compSum, e, h1], ?_, h2⟩
  unfold updateQuantity
  split
  · rename_i h0
    have : v = [] := by simpa using h0
    subst this
    simpa [kahanSum, sort, loop] using h1
  · rw [e, h1]

example : (∀ e ∈ ([(92235, 1 / 4), (92238, 3 / 4)] : List (ℕ × ℚ)), 0 ≤ e.2) ∧
    4 * ((([(92235, 1 / 4), (92238, 3 / 4)] : List (ℕ × ℚ)).map Prod.snd).sum) ≤ 100 ∧
    Rounds off (1 / 1024) 100 := ⟨by decide +kernel, by decide +kernel, off_rounds 100⟩

/-! ## Infinities -/

private theorem sub_nan (fl : ℚ → Dbl) (a : Dbl) : sub fl a .nan = .nan := by cases a <;> rfl

private theorem add_nan (fl : ℚ → Dbl) (a : Dbl) : add fl a .nan = .nan := by cases a <;> rfl

private theorem loop_nan (fl : ℚ → Dbl) : ∀ l : List Dbl, loop fl l .nan .nan = .nan := by
  intro l
  induction l with
  | nil => rfl
  | cons x l ih =>
    rw [loop]; simp only [sub_nan, add_nan]; exact ih

/-- The values of one infinity and others do not add up to that infinity: after a value of minus infinity
the sum is no number. -/
theorem C108_fails_infinite (fl : ℚ → Dbl) {l : List Dbl} (hn : Dbl.nan ∉ l) (hi : Dbl.ninf ∈ l)
    (h2 : 2 ≤ l.length) : kahanSum fl l = some .nan := by
  have hs := sort_sorted hn
  have hp := sort_perm l
  rw [kahanSum, if_neg hn]
  cases hk : sort l with
  | nil => rw [hk] at hp; have := hp.length_eq; simp at this; omega
  | cons a k =>
    rw [hk] at hs hp
    have ha : a = .ninf := by
      rcases List.mem_cons.1 (hp.mem_iff.2 hi) with h | h
      · exact h.symm
      · have := (List.pairwise_cons.1 hs).1 _ h
        have hna : a ≠ .nan := by rintro rfl; exact hn (hp.mem_iff.1 (by simp))
        cases a <;> simp_all [lt]
    subst ha
    cases k with
    | nil => have := hp.length_eq; simp at this; omega
    | cons b k =>
      have h1 : sub fl .ninf (.num 0) = .ninf := rfl
      have h3 : add fl (.num 0) .ninf = .ninf := rfl
      have h4 : sub fl .ninf .ninf = .nan := rfl
      rw [loop]; simp only [h1, h3, h4]
      rw [loop]; simp only [sub_nan, add_nan]
      rw [loop_nan]

example : Dbl.nan ∉ [Dbl.ninf, .num 3] ∧ Dbl.ninf ∈ [Dbl.ninf, .num 3] ∧ 2 ≤ [Dbl.ninf, .num 3].length := by
  decide

/-- Two positive infinities are not added to infinity either. -/
theorem C108_fails_infinities (fl : ℚ → Dbl) : kahanSum fl [.pinf, .pinf] = some .nan := rfl

/-- The values may be added in an order that leaves the range although their sum is in it: there is a correct
rounding with which the sum of four values, which is 0, is no number. -/
theorem C108_fails_range : ∃ fl, Rounds fl 0 1 ∧ (∀ q, 1 < |q| → fl q = .pinf ∨ fl q = .ninf) ∧
    (([1, 1, -1, -1] : List ℚ).sum = 0) ∧
    kahanSum fl (([1, 1, -1, -1] : List ℚ).map .num) = some .nan := by
  refine ⟨fun q => if |q| ≤ 1 then .num q else if 0 < q then .pinf else .ninf, ?_, ?_, ?_, ?_⟩
  · intro q hq; exact ⟨q, by simp [hq], by simp⟩
  · intro q hq; simp only [not_le.2 hq, if_false]; split <;> simp
  · decide +kernel
  · decide +kernel

/-- A value that is no number makes the sorting, and with it the sum, undefined. -/
theorem C108_fails_nan (fl : ℚ → Dbl) {l : List Dbl} (h : Dbl.nan ∈ l) : kahanSum fl l = none := by
  rw [kahanSum, if_pos h]

example : Dbl.nan ∈ [Dbl.num 1, .nan] := by decide

end Cyclus.Kahan.C108
