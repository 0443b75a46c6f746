import Verif.Model.Position
import Mathlib.Geometry.Euclidean.Angle.Unoriented.TriangleInequality
import Mathlib.Analysis.InnerProductSpace.PiL2
import Mathlib.Tactic.Linarith
import Mathlib.Tactic.Positivity
import Mathlib.Tactic.NormNum
import Mathlib.Tactic.Ring
import Mathlib.Tactic.FieldSimp

/-!
# Properties C85, C86: geographic positions
-/

namespace Cyclus.Position

/-! ### C85: coordinates -/

theorem setPrecision_err (x : ℚ) (n : ℕ) : |setPrecision x n - x| ≤ 1 / (2 * 10 ^ n) := by
  unfold setPrecision
  have h10 : (0 : ℚ) < 10 ^ n := by positivity
  have h1 := Int.floor_le (x * 10 ^ n + 1 / 2)
  have h2 := Int.lt_floor_add_one (x * 10 ^ n + 1 / 2)
  have e : (⌊x * 10 ^ n + 1 / 2⌋ : ℚ) / 10 ^ n - x
      = ((⌊x * 10 ^ n + 1 / 2⌋ : ℚ) - x * 10 ^ n) / 10 ^ n := by field_simp
  have e2 : 1 / (2 * 10 ^ n) = (1 / 2 : ℚ) / 10 ^ n := by field_simp
  rw [e, e2, abs_div, abs_of_pos h10]
  refine div_le_div_of_nonneg_right ?_ h10.le
  rw [abs_le]
  constructor <;> linarith

theorem setPrecision_mono {x y : ℚ} (h : x ≤ y) (n : ℕ) : setPrecision x n ≤ setPrecision y n := by
  unfold setPrecision
  have h10 : (0 : ℚ) < 10 ^ n := by positivity
  refine div_le_div_of_nonneg_right ?_ h10.le
  have := mul_le_mul_of_nonneg_right h h10.le
  exact Int.cast_le.2 (Int.floor_le_floor (by linarith))

/-- The tenths of seconds that are stored. -/
theorem store_eq (x : ℚ) : store x = (⌊x * 36000 + 1 / 2⌋ : ℤ) / 10 := by
  unfold store setPrecision
  norm_num
  ring_nf

/-- **C85.**  A coordinate is accepted exactly if it is in its range (-90 to 90, -180 to 180); otherwise
a `ValueError` is thrown and the position is unchanged. -/
theorem C85_range (p : Pos) (lat lon : ℚ) :
    ((-90 ≤ lat ∧ lat ≤ 90) ∧ (-180 ≤ lon ∧ lon ≤ 180) →
      (setPosition p lat lon).2 = .ok () ∧ (setLat p lat).2 = .ok () ∧ (setLon p lon).2 = .ok ()) ∧
    (¬ (-90 ≤ lat ∧ lat ≤ 90) → setPosition p lat lon = (p, .error .value) ∧
      setLat p lat = (p, .error .value)) ∧
    (¬ (-180 ≤ lon ∧ lon ≤ 180) → setPosition p lat lon = (p, .error .value) ∧
      setLon p lon = (p, .error .value)) := by
  have hlat : (-90 ≤ lat ∧ lat ≤ 90) ↔ ¬ (lat > 90 ∨ lat < -90) := by
    rw [not_or, not_lt, not_lt]; exact And.comm
  have hlon : (-180 ≤ lon ∧ lon ≤ 180) ↔ ¬ (lon > 180 ∨ lon < -180) := by
    rw [not_or, not_lt, not_lt]; exact And.comm
  unfold setPosition setLat setLon latCheck lonCheck
  rw [hlat, hlon]
  by_cases h1 : lat > 90 ∨ lat < -90 <;> by_cases h2 : lon > 180 ∨ lon < -180 <;> simp [h1, h2]

/-- **C85.**  A coordinate that is set reads back within a twentieth of a second and half a millionth of
a degree; the ends of the ranges read back exactly, and nothing reads back outside of them. -/
theorem C85_roundtrip (x : ℚ) :
    |load (store x) - x| ≤ 1 / 72000 + 1 / 2000000 ∧
    (∀ b : ℤ, x ≤ b → load (store x) ≤ b) ∧ (∀ b : ℤ, b ≤ x → b ≤ load (store x)) := by
  have hex : ∀ b : ℤ, load (store b) = b := by
    intro b
    have h1 : store (b : ℚ) = b * 3600 := by
      unfold store setPrecision
      have : ((b : ℚ) * 3600 * 10 ^ 1 + 1 / 2) = ((b * 36000 : ℤ) : ℚ) + 1 / 2 := by push_cast; ring
      rw [this, Int.floor_intCast_add]
      norm_num
      ring
    unfold load
    rw [h1]
    unfold setPrecision
    have : ((b : ℚ) * 3600 / 3600 * 10 ^ 6 + 1 / 2) = ((b * 1000000 : ℤ) : ℚ) + 1 / 2 := by
      push_cast; ring
    rw [this, Int.floor_intCast_add]
    norm_num
  have hmono : ∀ {x y : ℚ}, x ≤ y → load (store x) ≤ load (store y) := fun {x y} h => by
    unfold load store
    refine setPrecision_mono ?_ 6
    refine div_le_div_of_nonneg_right (setPrecision_mono ?_ 1) (by norm_num)
    linarith
  refine ⟨?_, fun b hb => ?_, fun b hb => ?_⟩
  · have h1 := setPrecision_err (x * 3600) 1
    have h2 := setPrecision_err (store x / 3600) 6
    change |store x - x * 3600| ≤ _ at h1
    change |load (store x) - store x / 3600| ≤ _ at h2
    rw [abs_le] at h1 h2 ⊢
    norm_num at h1 h2 ⊢
    constructor <;> linarith [h1.1, h1.2, h2.1, h2.2]
  · rw [← hex b]; exact hmono hb
  · rw [← hex b]; exact hmono hb

/-- **C85.**  What was read can be set again without change, as often as one likes. -/
theorem C85_stable (x : ℚ) : store (load (store x)) = store x := by
  rw [store_eq (load (store x))]
  have h0 := store_eq x
  set k := ⌊x * 36000 + 1 / 2⌋ with hk
  have h2 := setPrecision_err (store x / 3600) 6
  change |load (store x) - store x / 3600| ≤ _ at h2
  rw [h0] at h2 ⊢
  have hfl : ⌊load (↑k / 10) * 36000 + 1 / 2⌋ = k := by
    rw [Int.floor_eq_iff]
    rw [abs_le] at h2
    norm_num at h2
    constructor <;> linarith [h2.1, h2.2]
  rw [hfl]

example : setPosition ⟨0, 0⟩ (52.3702) (4.8952) = (⟨188532.7, 17622.7⟩, .ok ()) := by decide +kernel

/-! ### C85: distance -/

/-- The point of the unit sphere at a latitude and longitude, in radians. -/
noncomputable def onSphere (lat lon : ℝ) : EuclideanSpace ℝ (Fin 3) :=
  !₂[Real.cos lat * Real.cos lon, Real.cos lat * Real.sin lon, Real.sin lat]

/-- The point of a position. -/
noncomputable def point (p : Pos) : EuclideanSpace ℝ (Fin 3) :=
  onSphere (rad (load p.lat)) (rad (load p.lon))

theorem onSphere_norm (a b : ℝ) : ‖onSphere a b‖ = 1 := by
  rw [EuclideanSpace.norm_eq, Real.sqrt_eq_one]
  simp only [Fin.sum_univ_three, onSphere, Real.norm_eq_abs, sq_abs]
  simp
  have h1 := Real.sin_sq_add_cos_sq a
  have h2 := Real.sin_sq_add_cos_sq b
  nlinarith

theorem onSphere_inner (a b c d : ℝ) : inner ℝ (onSphere a b) (onSphere c d)
    = 1 - 2 * halfChordSq a b c d := by
  have hs : ∀ x : ℝ, Real.sin (x / 2) ^ 2 = (1 - Real.cos x) / 2 := by
    intro x
    have h := Real.cos_sq' (x / 2)
    have h2 := Real.cos_two_mul (x / 2)
    rw [show 2 * (x / 2) = x by ring] at h2
    linarith
  unfold halfChordSq
  rw [hs, hs, Real.cos_sub, Real.cos_sub]
  simp only [PiLp.inner_apply, Fin.sum_univ_three, onSphere]
  simp
  ring

theorem distance_angle (p q : Pos) :
    distance p q = 6372.8 * InnerProductGeometry.angle (point p) (point q) := by
  set θ := InnerProductGeometry.angle (point p) (point q) with hθ
  have h0 := InnerProductGeometry.angle_nonneg (point p) (point q)
  have hpi := InnerProductGeometry.angle_le_pi (point p) (point q)
  rw [← hθ] at h0 hpi
  have hc : Real.cos θ = 1 - 2 * halfChordSq (rad (load p.lat)) (rad (load p.lon))
      (rad (load q.lat)) (rad (load q.lon)) := by
    rw [hθ, InnerProductGeometry.cos_angle]
    unfold point
    rw [onSphere_norm, onSphere_norm, onSphere_inner]
    simp
  have hh := Real.cos_two_mul (θ / 2)
  rw [show 2 * (θ / 2) = θ by ring, hc] at hh
  have hsc := Real.sin_sq_add_cos_sq (θ / 2)
  have hcos : 0 ≤ Real.cos (θ / 2) :=
    Real.cos_nonneg_of_mem_Icc ⟨by linarith [Real.pi_pos], by linarith⟩
  have hsin : 0 ≤ Real.sin (θ / 2) := Real.sin_nonneg_of_nonneg_of_le_pi (by linarith)
    (by linarith [Real.pi_pos])
  unfold distance
  simp only
  set h := halfChordSq (rad (load p.lat)) (rad (load p.lon)) (rad (load q.lat)) (rad (load q.lon))
  have e1 : h = Real.sin (θ / 2) ^ 2 := by linarith
  have e2 : 1 - h = Real.cos (θ / 2) ^ 2 := by linarith
  rw [e2, e1, Real.sqrt_sq hsin, Real.sqrt_sq hcos]
  unfold atan2
  have harg := Complex.arg_cos_add_sin_mul_I (θ := θ / 2)
    ⟨by linarith [Real.pi_pos], by linarith [Real.pi_pos]⟩
  push_cast at harg ⊢
  rw [harg]
  ring

/-- **C85.**  `Distance` is the length of the arc between the two points on a sphere of radius
6372.8 km: the angle between their directions, times the radius. -/
theorem C85_distance (p q : Pos) :
    let φ₁ : ℝ := load p.lat * (Real.pi / 180)
    let φ₂ : ℝ := load q.lat * (Real.pi / 180)
    let dl : ℝ := (load p.lon - load q.lon) * (Real.pi / 180)
    distance p q = 6372.8 * Real.arccos (
      Real.sin φ₁ * Real.sin φ₂ + Real.cos φ₁ * Real.cos φ₂ * Real.cos dl) := by
  intro φ₁ φ₂ dl
  have e1 : φ₁ = rad (load p.lat) := by unfold rad; simp only [φ₁]; ring
  have e2 : φ₂ = rad (load q.lat) := by unfold rad; simp only [φ₂]; ring
  have e3 : dl = rad (load p.lon) - rad (load q.lon) := by unfold rad; simp only [dl]; ring
  rw [distance_angle, e1, e2, e3]
  unfold InnerProductGeometry.angle
  congr 2
  unfold point
  rw [onSphere_norm, onSphere_norm]
  simp only [PiLp.inner_apply, Fin.sum_univ_three, onSphere]
  simp
  rw [Real.cos_sub]
  ring

/-- **C85.**  Distances are symmetric, not negative, at most half the circumference, 0 from a position
to itself, and satisfy the triangle inequality; the square roots are of numbers between 0 and 1. -/
theorem C85_metric (p q r : Pos) :
    distance p q = distance q p ∧ 0 ≤ distance p q ∧ distance p q ≤ 6372.8 * Real.pi ∧
    distance p p = 0 ∧ distance p r ≤ distance p q + distance q r ∧
    (let h := halfChordSq (rad (load p.lat)) (rad (load p.lon)) (rad (load q.lat)) (rad (load q.lon))
     0 ≤ h ∧ h ≤ 1) := by
  have hn : ∀ a : Pos, ‖point a‖ = 1 := fun a => onSphere_norm _ _
  refine ⟨?_, ?_, ?_, ?_, ?_, ?_⟩
  · rw [distance_angle, distance_angle, InnerProductGeometry.angle_comm]
  · rw [distance_angle]
    exact mul_nonneg (by norm_num) (InnerProductGeometry.angle_nonneg _ _)
  · rw [distance_angle]
    exact mul_le_mul_of_nonneg_left (InnerProductGeometry.angle_le_pi _ _) (by norm_num)
  · rw [distance_angle, InnerProductGeometry.angle_self, mul_zero]
    intro h
    have := hn p
    rw [h] at this
    simp at this
  · simp only [distance_angle]
    have := InnerProductGeometry.angle_le_angle_add_angle (point p) (point q) (point r)
    linarith
  · intro h
    have hi : inner ℝ (point p) (point q) = 1 - 2 * h := onSphere_inner _ _ _ _
    have hb := abs_real_inner_le_norm (point p) (point q)
    rw [hn, hn, hi, abs_le] at hb
    constructor <;> linarith [hb.1, hb.2]

/-! ### C86: text -/

/-- Two digits. -/
def two (n : ℕ) : List Char := Nat.toDigits 10 (n / 10) ++ Nat.toDigits 10 (n % 10)

/-- Degrees, minutes and seconds of `k` tenths of a second, as ISO 6709 writes them: a sign that is `+`
north of and on the equator (east of and on the meridian), degrees, two digits of minutes, two digits
of seconds and a decimal. -/
def isoText (degrees : ℕ → List Char) (k : ℤ) : List Char :=
  let n := k.natAbs
  (if 0 ≤ k then '+' else '-') :: (degrees (n / 36000) ++ two (n / 600 % 60) ++ two (n / 10 % 60) ++
    '.' :: Nat.toDigits 10 (n % 10))

theorem load_near (k : ℤ) : |load (k / 10) * 36000 - k| ≤ 9 / 500 := by
  have h := setPrecision_err ((k : ℚ) / 10 / 3600) 6
  change |load (k / 10) - _| ≤ _ at h
  rw [abs_le] at h ⊢
  norm_num at h ⊢
  constructor <;> linarith [h.1, h.2]

theorem abs_near (k : ℤ) : |(|load (k / 10)|) * 36000 - (k.natAbs : ℚ)| ≤ 9 / 500 := by
  have h := load_near k
  have e1 : (k.natAbs : ℚ) = |(k : ℚ)| := by
    have h := Int.natCast_natAbs k
    have h2 : ((k.natAbs : ℤ) : ℚ) = ((|k| : ℤ) : ℚ) := by rw [h]
    rw [Int.cast_natCast, Int.cast_abs] at h2
    exact h2
  have e2 : |load (k / 10)| * 36000 = |load (k / 10) * 36000| := by
    rw [abs_mul]; norm_num
  rw [e1, e2]
  exact (abs_abs_sub_abs_le_abs_sub _ _).trans h

/-- **C86.**  The value of the text is the stored coordinate: degrees, minutes and seconds that are
written add up to the tenths of seconds stored (`k`), for every coordinate. -/
theorem C86_value (k : ℤ) :
    let x := |load (k / 10)|
    let v := (x - ⌊x⌋) * 60
    let tenths := ⌊((v - ⌊v⌋) * 60) * 10 + 1 / 2⌋
    ⌊x⌋ * 36000 + ⌊v⌋ * 600 + tenths = k.natAbs := by
  intro x v tenths
  have h := abs_near k
  change |x * 36000 - _| ≤ _ at h
  rw [abs_le] at h
  have e : ((v - ⌊v⌋) * 60) * 10 + 1 / 2
      = (x * 36000 + 1 / 2) - ((⌊x⌋ * 36000 + ⌊v⌋ * 600 : ℤ) : ℚ) := by
    push_cast
    simp only [v]
    ring
  have ht : tenths = ⌊x * 36000 + 1 / 2⌋ - (⌊x⌋ * 36000 + ⌊v⌋ * 600) := by
    simp only [tenths]
    rw [e, Int.floor_sub_intCast]
  have hf : ⌊x * 36000 + 1 / 2⌋ = (k.natAbs : ℤ) := by
    rw [Int.floor_eq_iff, Int.cast_natCast]
    constructor <;> linarith [h.1, h.2]
  rw [ht, hf]
  ring

/-- What the text of a coordinate consists of, when its seconds are neither 0 nor 10. -/
theorem dms_parts (k : ℤ) (h0 : k.natAbs % 600 ≠ 0) (h1 : k.natAbs % 600 ≠ 100) :
    let n := k.natAbs
    let x := |load (k / 10)|
    let v := (x - ⌊x⌋) * 60
    ⌊x⌋ = ((n / 36000 : ℕ) : ℤ) ∧ ⌊v⌋ = ((n / 600 % 60 : ℕ) : ℤ) ∧
    ⌊((v - ⌊v⌋) * 60) * 10 + 1 / 2⌋ = ((n % 600 : ℕ) : ℤ) ∧
    (⌊(v - ⌊v⌋) * 60⌋.toNat / 10 = 0 ↔ n % 600 / 10 / 10 = 0) := by
  intro n x v
  have h := abs_near k
  change |x * 36000 - (n : ℚ)| ≤ _ at h
  rw [abs_le] at h
  have hv := C86_value k
  change ⌊x⌋ * 36000 + ⌊v⌋ * 600 + ⌊((v - ⌊v⌋) * 60) * 10 + 1 / 2⌋ = (n : ℤ) at hv
  change n % 600 ≠ 0 at h0
  change n % 600 ≠ 100 at h1
  have hd : ⌊x⌋ = ((n / 36000 : ℕ) : ℤ) := by
    rw [Int.floor_eq_iff]
    have e1 : n / 36000 * 36000 + 1 ≤ n := by omega
    have e2 : n + 1 ≤ (n / 36000 + 1) * 36000 := by omega
    have e1' : ((n / 36000 : ℕ) : ℚ) * 36000 + 1 ≤ n := by exact_mod_cast e1
    have e2' : (n : ℚ) + 1 ≤ (((n / 36000 : ℕ) : ℚ) + 1) * 36000 := by exact_mod_cast e2
    rw [Int.cast_natCast]
    constructor <;> linarith [h.1, h.2]
  have hm : ⌊v⌋ = ((n / 600 % 60 : ℕ) : ℤ) := by
    rw [Int.floor_eq_iff]
    have ev : v = x * 60 - ((n / 36000 : ℕ) : ℚ) * 60 := by
      simp only [v]; rw [hd, Int.cast_natCast]; ring
    have e1 : n / 36000 * 36000 + n / 600 % 60 * 600 + 1 ≤ n := by omega
    have e2 : n + 1 ≤ n / 36000 * 36000 + (n / 600 % 60 + 1) * 600 := by omega
    have e1' : ((n / 36000 : ℕ) : ℚ) * 36000 + ((n / 600 % 60 : ℕ) : ℚ) * 600 + 1 ≤ n := by
      exact_mod_cast e1
    have e2' : (n : ℚ) + 1 ≤ ((n / 36000 : ℕ) : ℚ) * 36000 + (((n / 600 % 60 : ℕ) : ℚ) + 1) * 600 := by
      exact_mod_cast e2
    rw [Int.cast_natCast, ev]
    constructor <;> linarith [h.1, h.2]
  have ht : ⌊((v - ⌊v⌋) * 60) * 10 + 1 / 2⌋ = ((n % 600 : ℕ) : ℤ) := by
    generalize ⌊((v - ⌊v⌋) * 60) * 10 + 1 / 2⌋ = t at hv ⊢
    rw [hd, hm] at hv
    have e : n / 36000 * 36000 + n / 600 % 60 * 600 + n % 600 = n := by omega
    omega
  refine ⟨hd, hm, ht, ?_⟩
  have es : ((v - ⌊v⌋) * 60) * 10 = x * 36000 - ((n / 36000 : ℕ) : ℚ) * 36000
      - ((n / 600 % 60 : ℕ) : ℚ) * 600 := by
    rw [hm]; simp only [v]; rw [hd, Int.cast_natCast, Int.cast_natCast]; ring
  have e : n / 36000 * 36000 + n / 600 % 60 * 600 + n % 600 = n := by omega
  have e' : ((n / 36000 : ℕ) : ℚ) * 36000 + ((n / 600 % 60 : ℕ) : ℚ) * 600 + ((n % 600 : ℕ) : ℚ) = n := by
    exact_mod_cast e
  have hs1 : ((n % 600 : ℕ) : ℚ) - 9 / 500 ≤ ((v - ⌊v⌋) * 60) * 10 := by rw [es]; linarith [h.1]
  have hs2 : ((v - ⌊v⌋) * 60) * 10 ≤ ((n % 600 : ℕ) : ℚ) + 9 / 500 := by rw [es]; linarith [h.2]
  have key : ⌊(v - ⌊v⌋) * 60⌋ < 10 ↔ n % 600 < 100 := by
    rw [Int.floor_lt]
    push_cast
    constructor
    · intro hlt
      by_contra hge
      have h2 : 101 ≤ n % 600 := by omega
      have h2' : (101 : ℚ) ≤ ((n % 600 : ℕ) : ℚ) := by exact_mod_cast h2
      linarith
    · intro hlt
      have h2 : n % 600 ≤ 99 := by omega
      have h2' : ((n % 600 : ℕ) : ℚ) ≤ 99 := by exact_mod_cast h2
      linarith
  generalize ⌊(v - ⌊v⌋) * 60⌋ = z at key ⊢
  omega

theorem load_sign (k : ℤ) : 0 < load (k / 10) ↔ 0 < k := by
  have h := load_near k
  rw [abs_le] at h
  constructor
  · intro hp
    by_contra hn
    rcases lt_or_eq_of_le (not_lt.1 hn) with hk | hk
    · have : (k : ℚ) ≤ -1 := by exact_mod_cast (by omega : k ≤ -1)
      linarith [h.2]
    · subst hk
      revert hp
      have : load (((0 : ℤ) : ℚ) / 10) = 0 := by decide +kernel
      rw [this]
      exact lt_irrefl _
  · intro hk
    have : (1 : ℚ) ≤ k := by exact_mod_cast hk
    linarith [h.1]

theorem pad_two {n : ℕ} (hn : n < 100) {b : Bool} (hb : b = true ↔ n / 10 = 0) :
    pad b ++ digits n = two n := by
  have : ∀ m < 100, pad (decide (m / 10 = 0)) ++ digits m = two m := by decide
  have hb' : b = decide (n / 10 = 0) := by
    rw [Bool.eq_iff_iff, hb]; simp
  rw [hb']
  exact this n hn

theorem dms_text (k : ℤ) (h0 : k.natAbs % 600 ≠ 0) (h1 : k.natAbs % 600 ≠ 100) :
    dmsText (|load (k / 10)| - ⌊|load (k / 10)|⌋)
      = two (k.natAbs / 600 % 60) ++ two (k.natAbs / 10 % 60) ++
        '.' :: Nat.toDigits 10 (k.natAbs % 10) := by
  obtain ⟨-, p2, p3, p4⟩ := dms_parts k h0 h1
  set n := k.natAbs
  set x := |load (k / 10)|
  have hfr : |x - ⌊x⌋| = x - ⌊x⌋ := abs_of_nonneg (sub_nonneg.2 (Int.floor_le x))
  unfold dmsText
  simp only [hfr]
  rw [p2] at p3 p4 ⊢
  rw [p3]
  simp only [Int.toNat_natCast]
  have e1 : n % 600 / 10 = n / 10 % 60 := by omega
  have e2 : n % 600 % 10 = n % 10 := by omega
  rw [e1, e2, pad_two (n := n / 600 % 60) (by omega) (by simp), List.append_assoc (two _),
    pad_two (n := n / 10 % 60) (by omega) (by rw [decide_eq_true_iff, p4, e1])]
  rfl

/-- Three digits. -/
def three (n : ℕ) : List Char := Nat.toDigits 10 (n / 100) ++ two (n % 100)

/-- **C86 (partial).**  For every coordinate in range whose seconds are not 0 or 10, the text is the one of ISO
6709: sign, two (longitude: three) digits of degrees, two of minutes, two of seconds and a decimal.
Missing: coordinates with 0 or 10 seconds (`C86_fails_sixty`, `C86_fails_pad`, `C86_fails_zero`). -/
theorem C86_text_partial (k : ℤ) (h0 : k.natAbs % 600 ≠ 0) (h1 : k.natAbs % 600 ≠ 100) :
    (k.natAbs ≤ 90 * 36000 → latText (load (k / 10)) = isoText two k) ∧
    (k.natAbs ≤ 180 * 36000 → lonText (load (k / 10)) = isoText three k) := by
  obtain ⟨p1, -, -, -⟩ := dms_parts k h0 h1
  have hs : signText (load (k / 10)) = [if 0 ≤ k then '+' else '-'] := by
    unfold signText
    by_cases hk : 0 < k
    · rw [if_pos ((load_sign k).2 hk), if_pos hk.le]
    · rw [if_neg (fun h => hk ((load_sign k).1 h)), if_neg]
      intro h
      have : k = 0 := by omega
      subst this
      exact h0 rfl
  have h3 : ∀ m < 200, pad (decide (m / 10 = 0)) ++ pad (decide (m / 100 = 0)) ++ digits m
      = three m := by decide +kernel
  constructor
  · intro hr
    unfold latText isoText
    simp only
    rw [hs, dms_text k h0 h1, p1, Int.toNat_natCast]
    rw [List.append_assoc ([_] : List Char), pad_two (n := k.natAbs / 36000) (by omega) (by simp)]
    simp
  · intro hr
    unfold lonText isoText
    simp only
    rw [hs, dms_text k h0 h1, p1, Int.toNat_natCast]
    rw [List.append_assoc ([_] : List Char), List.append_assoc ([_] : List Char),
      h3 (k.natAbs / 36000) (by omega)]
    simp

example : (188532 : ℤ).natAbs % 600 ≠ 0 ∧ (188532 : ℤ).natAbs % 600 ≠ 100 := by decide

example : latText (load 18853.2) = isoText two 188532 ∧ isoText two 188532 = "+051413.2".toList := by
  decide +kernel

/-- The code contradicts C86: two minutes of latitude are written as one minute and sixty seconds. -/
theorem C86_fails_sixty : latText (load (store (2 / 60))) = "+000160.0".toList ∧
    isoText two 1200 = "+000200.0".toList := by decide +kernel

/-- The code contradicts C86: one minute and ten seconds are written with a digit too many. -/
theorem C86_fails_pad : latText (load (store (70 / 3600))) = "+0001010.0".toList ∧
    isoText two 700 = "+000110.0".toList := by decide +kernel

/-- The code contradicts C86: the equator is written with a minus sign. -/
theorem C86_fails_zero : latText (load (store 0)) = "-000000.0".toList ∧
    isoText two 0 = "+000000.0".toList := by decide +kernel

end Cyclus.Position
