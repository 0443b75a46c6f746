import Verif.Model.Random
import Mathlib.Tactic.Linarith
import Mathlib.Tactic.NormNum
import Mathlib.Tactic.IntervalCases

/-!
# C93: random numbers respect their limits and are reproducible

`variate` enumerates the normal variates that the engine produces from a state on; `Documented` is
what Boost.Random promises.  The specification speaks of these two only.
-/

namespace Cyclus.Random

variable {σ : Type}

/-- The engine after `n` normal variates. -/
def after (b : Boost σ) (mean sd : ℚ) (s : σ) : ℕ → σ
  | 0 => s
  | n + 1 => (b.normal mean sd (after b mean sd s n)).2

/-- Normal variate number `n` (from 0) after state `s`. -/
def variate (b : Boost σ) (mean sd : ℚ) (s : σ) (n : ℕ) : ℚ :=
  (b.normal mean sd (after b mean sd s n)).1

/-- Variate number `n` is the first one between the limits. -/
def FirstWithin (b : Boost σ) (mean sd lo hi : ℚ) (s : σ) (n : ℕ) : Prop :=
  (lo ≤ variate b mean sd s n ∧ variate b mean sd s n ≤ hi) ∧
    ∀ k < n, ¬ (lo ≤ variate b mean sd s k ∧ variate b mean sd s k ≤ hi)

/-- What Boost.Random documents of the draws. -/
structure Documented (b : Boost σ) : Prop where
  raw : ∀ s, (b.raw s).1 < 2 ^ 32
  uniform01 : ∀ s, 0 ≤ (b.uniform01 s).1 ∧ (b.uniform01 s).1 < 1
  uniformInt : ∀ lo hi s, lo ≤ hi → lo ≤ (b.uniformInt lo hi s).1 ∧ (b.uniformInt lo hi s).1 ≤ hi
  uniformReal : ∀ lo hi s, lo < hi →
    lo ≤ (b.uniformReal lo hi s).1 ∧ (b.uniformReal lo hi s).1 < hi
  binomial : ∀ n p s, 0 ≤ n → 0 ≤ p → p ≤ 1 →
    0 ≤ (b.binomial n p s).1 ∧ (b.binomial n p s).1 ≤ n
  negBinomial : ∀ k p s, 0 ≤ (b.negBinomial k p s).1
  poisson : ∀ m s, 0 ≤ (b.poisson m s).1
  exponential : ∀ l s, 0 ≤ (b.exponential l s).1

/-- A concrete engine: a counter, whose draws walk through small numbers. -/
def counter : Boost ℕ where
  seed n := n
  raw s := (s % 2 ^ 32, s + 1)
  uniform01 s := (((s % 4 : ℕ) : ℚ) / 4, s + 1)
  uniformInt lo hi s := (if lo ≤ hi then lo + (s : ℤ) % (hi - lo + 1) else lo, s + 1)
  uniformReal lo hi s := (lo + (hi - lo) * (((s % 4 : ℕ) : ℚ) / 4), s + 1)
  normal mean sd s := (mean + sd * ((((s % 5 : ℕ) : ℚ) - 2) / 2), s + 1)
  binomial n p s := (if p = 1 then n else if p = 0 ∨ n < 0 then 0 else (s : ℤ) % (n + 1), s + 1)
  negBinomial k p s := (if p = 1 then 0 else (s : ℤ) % 7, s + 1)
  poisson _ s := ((s : ℤ) % 7, s + 1)
  exponential _ s := (((s % 7 : ℕ) : ℚ) / 2, s + 1)

/-- The counter keeps what Boost documents. -/
theorem counter_documented : Documented counter where
  raw s := Nat.mod_lt _ (by norm_num)
  uniform01 s := by
    have h : ((s % 4 : ℕ) : ℚ) < 4 := by exact_mod_cast Nat.mod_lt s (by norm_num : 4 > 0)
    have h0 : (0 : ℚ) ≤ ((s % 4 : ℕ) : ℚ) := Nat.cast_nonneg _
    constructor <;> simp only [counter] <;> linarith
  uniformInt lo hi s h := by
    have h1 := Int.emod_nonneg (s : ℤ) (show hi - lo + 1 ≠ 0 by omega)
    have h2 := Int.emod_lt_of_pos (s : ℤ) (show 0 < hi - lo + 1 by omega)
    simp only [counter, if_pos h]
    omega
  uniformReal lo hi s h := by
    have h1 : ((s % 4 : ℕ) : ℚ) < 4 := by exact_mod_cast Nat.mod_lt s (by norm_num : 4 > 0)
    have h0 : (0 : ℚ) ≤ ((s % 4 : ℕ) : ℚ) := Nat.cast_nonneg _
    have h2 : 0 < hi - lo := by linarith
    constructor
    · simp only [counter]
      have := mul_nonneg h2.le (show 0 ≤ ((s % 4 : ℕ) : ℚ) / 4 by linarith)
      linarith
    · simp only [counter]
      have := mul_lt_mul_of_pos_left (show ((s % 4 : ℕ) : ℚ) / 4 < 1 by linarith) h2
      linarith
  binomial n p s hn _ _ := by
    simp only [counter]
    have h1 := Int.emod_nonneg (s : ℤ) (show n + 1 ≠ 0 by omega)
    have h2 := Int.emod_lt_of_pos (s : ℤ) (show 0 < n + 1 by omega)
    split
    · omega
    · split <;> omega
  negBinomial k p s := by
    simp only [counter]
    split <;> omega
  poisson m s := by simp only [counter]; omega
  exponential l s := by
    have h0 : (0 : ℚ) ≤ ((s % 7 : ℕ) : ℚ) := Nat.cast_nonneg _
    simp only [counter]; linarith

/-! ## Truncated normal distributions -/

theorem after_shift (b : Boost σ) (mean sd : ℚ) (s : σ) (n : ℕ) :
    after b mean sd (b.normal mean sd s).2 n = after b mean sd s (n + 1) := by
  induction n with
  | zero => rfl
  | succ n ih => rw [after, ih]; rfl

theorem variate_shift (b : Boost σ) (mean sd : ℚ) (s : σ) (n : ℕ) :
    variate b mean sd (b.normal mean sd s).2 n = variate b mean sd s (n + 1) := by
  rw [variate, after_shift]; rfl

theorem truncated_spec (b : Boost σ) (mean sd lo hi : ℚ) :
    ∀ (fuel : ℕ) (s : σ) (v : ℚ × σ),
      truncated b mean sd lo hi fuel s = some v ↔
        ∃ n < fuel, FirstWithin b mean sd lo hi s n ∧ v.1 = variate b mean sd s n ∧
          v.2 = after b mean sd s (n + 1)
  | 0, s, v => by simp [truncated]
  | fuel + 1, s, v => by
    rw [truncated]
    by_cases h : (b.normal mean sd s).1 < lo ∨ (b.normal mean sd s).1 > hi
    · rw [if_pos h, truncated_spec b mean sd lo hi fuel]
      have h0 : ¬ (lo ≤ variate b mean sd s 0 ∧ variate b mean sd s 0 ≤ hi) := by
        rintro ⟨h1, h2⟩
        rcases h with h | h
        · exact absurd h (not_lt.mpr h1)
        · exact absurd h (not_lt.mpr h2)
      constructor
      · rintro ⟨n, hn, ⟨hw, hb⟩, h1, h2⟩
        refine ⟨n + 1, by omega, ⟨?_, ?_⟩, ?_, ?_⟩
        · rw [← variate_shift]; exact hw
        · intro k hk
          cases k with
          | zero => exact h0
          | succ k => rw [← variate_shift]; exact hb k (by omega)
        · rw [h1, variate_shift]
        · rw [h2, after_shift]
      · rintro ⟨n, hn, ⟨hw, hb⟩, h1, h2⟩
        cases n with
        | zero => exact absurd hw h0
        | succ n =>
          refine ⟨n, by omega, ⟨?_, ?_⟩, ?_, ?_⟩
          · rw [variate_shift]; exact hw
          · intro k hk; rw [variate_shift]; exact hb (k + 1) (by omega)
          · rw [h1, variate_shift]
          · rw [h2, after_shift]
    · rw [if_neg h]
      have hw : lo ≤ variate b mean sd s 0 ∧ variate b mean sd s 0 ≤ hi := by
        constructor
        · exact not_lt.mp fun h' => h (Or.inl h')
        · exact not_lt.mp fun h' => h (Or.inr h')
      constructor
      · intro h1
        injection h1 with h1
        subst h1
        exact ⟨0, by omega, ⟨hw, by omega⟩, rfl, rfl⟩
      · rintro ⟨n, _, ⟨_, hb⟩, h1, h2⟩
        cases n with
        | zero => obtain ⟨v1, v2⟩ := v; simp only at h1 h2; subst h1; subst h2; rfl
        | succ n => exact absurd hw (hb 0 (by omega))

/-- C93 (truncation).  `random_normal_real` and a sample of `NormalDoubleDist` return exactly the
first normal variate that lies between the limits, both of which are included, and use up the
variates before it and it; this holds for all parameters, limits and states of the engine. -/
theorem C93_truncated (b : Boost σ) (mean sd lo hi : ℚ) (s : σ) (v : ℚ) (s' : σ) :
    ((∃ fuel, normalReal b mean sd lo hi fuel s = some (v, s')) ↔
      ∃ n, FirstWithin b mean sd lo hi s n ∧ v = variate b mean sd s n ∧
        s' = after b mean sd s (n + 1)) ∧
    (∀ fuel, (DDist.normal mean sd lo hi).sample b fuel s = normalReal b mean sd lo hi fuel s) ∧
    ((∃ fuel, normalReal b mean sd lo hi fuel s = some (v, s')) → lo ≤ v ∧ v ≤ hi) := by
  have key : (∃ fuel, normalReal b mean sd lo hi fuel s = some (v, s')) ↔
      ∃ n, FirstWithin b mean sd lo hi s n ∧ v = variate b mean sd s n ∧
        s' = after b mean sd s (n + 1) := by
    constructor
    · rintro ⟨fuel, h⟩
      obtain ⟨n, _, h1, h2, h3⟩ := (truncated_spec b mean sd lo hi fuel s _).mp h
      exact ⟨n, h1, h2, h3⟩
    · rintro ⟨n, h1, h2, h3⟩
      exact ⟨n + 1, (truncated_spec b mean sd lo hi (n + 1) s _).mpr ⟨n, by omega, h1, h2, h3⟩⟩
  refine ⟨key, fun _ => rfl, fun h => ?_⟩
  obtain ⟨n, h1, h2, _⟩ := key.mp h
  rw [h2]
  exact h1.1

/-- A case of `C93_truncated`: from state 0 the counter gives -1, -1/2, 0; the last is accepted. -/
example : (∃ fuel, normalReal counter 0 1 0 1 fuel 0 = some (0, 3)) ∧
    FirstWithin counter 0 1 0 1 0 2 := by
  refine ⟨⟨3, by decide +kernel⟩, ⟨by decide +kernel, ?_⟩⟩
  intro k hk
  interval_cases k <;> decide +kernel

/-- C93 (termination).  A truncated normal distribution answers exactly if one of the variates to
come lies between the limits; with the lower limit above the upper one it never answers. -/
theorem C93_ends (b : Boost σ) (mean sd lo hi : ℚ) (s : σ) :
    ((∃ fuel v, normalReal b mean sd lo hi fuel s = some v) ↔
      ∃ n, lo ≤ variate b mean sd s n ∧ variate b mean sd s n ≤ hi) ∧
    (hi < lo → ∀ fuel, normalReal b mean sd lo hi fuel s = none) := by
  have key : (∃ fuel v, normalReal b mean sd lo hi fuel s = some v) ↔
      ∃ n, lo ≤ variate b mean sd s n ∧ variate b mean sd s n ≤ hi := by
    constructor
    · rintro ⟨fuel, v, h⟩
      obtain ⟨n, _, h1, _⟩ := (truncated_spec b mean sd lo hi fuel s v).mp h
      exact ⟨n, h1.1⟩
    · intro h
      classical
      refine ⟨Nat.find h + 1, (variate b mean sd s (Nat.find h), after b mean sd s (Nat.find h + 1)),
        (truncated_spec b mean sd lo hi _ s _).mpr ⟨Nat.find h, by omega, ⟨Nat.find_spec h, ?_⟩,
          rfl, rfl⟩⟩
      intro k hk
      exact Nat.find_min h hk
  refine ⟨key, fun hlt fuel => ?_⟩
  cases hv : normalReal b mean sd lo hi fuel s with
  | none => rfl
  | some v =>
    obtain ⟨n, h1, h2⟩ := key.mp ⟨fuel, v, hv⟩
    linarith

/-- A case of `C93_ends`: limits which variate number 2 meets, and limits which no number meets. -/
example : (0 ≤ variate counter 0 1 0 2 ∧ variate counter 0 1 0 2 ≤ 1) ∧ (1 : ℚ) < 2 := by
  decide +kernel

theorem lrint_spec (x : ℚ) : |x - lrint x| ≤ 1 / 2 ∧
    (|x - lrint x| = 1 / 2 → lrint x % 2 = 0) := by
  have h1 := Int.floor_le x
  have h2 := Int.lt_floor_add_one x
  unfold lrint
  split
  · rename_i h
    rw [abs_of_nonneg (by linarith)]
    exact ⟨by linarith, fun h' => by linarith⟩
  · split
    · rename_i h h'
      push_cast
      rw [abs_of_nonpos (by linarith)]
      exact ⟨by linarith, fun h' => by linarith⟩
    · have he : x - ⌊x⌋ = 1 / 2 := by linarith
      split
      · rename_i hev
        rw [abs_of_nonneg (by linarith)]
        exact ⟨by linarith, fun _ => hev⟩
      · push_cast
        rw [abs_of_nonpos (by linarith)]
        exact ⟨by linarith, fun _ => by omega⟩

theorem lrint_le {x : ℚ} {hi : ℤ} (h : x ≤ hi) : lrint x ≤ hi := by
  by_contra hc
  have h1 : (hi : ℚ) + 1 ≤ lrint x := by exact_mod_cast (not_le.mp hc)
  have h2 := abs_le.mp (lrint_spec x).1
  linarith [h2.1]

theorem le_lrint {x : ℚ} {lo : ℤ} (h : (lo : ℚ) ≤ x) : lo ≤ lrint x := by
  by_contra hc
  have h1 : (lrint x : ℚ) + 1 ≤ lo := by exact_mod_cast (not_le.mp hc)
  have h2 := abs_le.mp (lrint_spec x).1
  linarith [h2.2]

/-- C93 (integers).  `random_normal_int` and a sample of `NormalIntDist` return the integer nearest
to the first variate between the limits, the even one in case of a tie; rounding does not lead out
of the limits. -/
theorem C93_int (b : Boost σ) (mean sd : ℚ) (lo hi : ℤ) (fuel : ℕ) (s s' : σ) (v : ℤ)
    (h : normalInt b mean sd lo hi fuel s = some (v, s')) :
    lo ≤ v ∧ v ≤ hi ∧ (IDist.normal mean sd lo hi).sample b fuel s = some (v, s') ∧
    ∃ n, FirstWithin b mean sd lo hi s n ∧ s' = after b mean sd s (n + 1) ∧
      |variate b mean sd s n - v| ≤ 1 / 2 ∧ (|variate b mean sd s n - v| = 1 / 2 → Even v) := by
  have h' := h
  rw [normalInt] at h
  cases ht : truncated b mean sd lo hi fuel s with
  | none => rw [ht] at h; exact absurd h (by simp)
  | some r =>
    rw [ht] at h
    injection h with h
    injection h with ha hb
    obtain ⟨n, _, h1, h2, h3⟩ := (truncated_spec b mean sd lo hi fuel s r).mp ht
    have hw := h1.1
    rw [← h2] at hw
    subst ha
    refine ⟨le_lrint hw.1, lrint_le hw.2, h', n, h1, ?_, ?_, ?_⟩
    · rw [← hb, h3]
    · rw [← h2]; exact (lrint_spec r.1).1
    · rw [← h2]; exact fun he => Int.even_iff.mpr ((lrint_spec r.1).2 he)

/-- A case of `C93_int`: the variates are 3/2 and 3, the limits 0 and 3; 3/2 is a tie and gives 2. -/
example : normalInt counter (9 / 2) 3 0 3 5 0 = some (2, 1) ∧
    variate counter (9 / 2) 3 0 0 = 3 / 2 := by decide +kernel

/-! ## Ranges, constructors, reproducibility -/

/-- C93 (ranges).  Provided Boost keeps its promises: a sample of a distribution object never
exceeds what its `max` reports, for uniform objects with `min < max`; integer samples lie between
the limits, at most at the number of trials, at one of the two choices, and are not negative where
the distribution has no negative values. -/
theorem C93_ranges (b : Boost σ) (hb : Documented b) (fuel : ℕ) (s s' : σ) :
    (∀ (d : DDist) (v : ℚ), (∀ lo hi, d = .uniform lo hi → lo < hi) →
      d.sample b fuel s = some (v, s') → v ≤ d.max) ∧
    (∀ lo hi (v : ℤ), lo ≤ hi → (IDist.uniform lo hi).sample b fuel s = some (v, s') →
      lo ≤ v ∧ v ≤ hi) ∧
    (∀ n p (d : IDist) (v : ℤ), newBinomial n p = .ok d → d.sample b fuel s = some (v, s') →
      0 ≤ v ∧ v ≤ n) ∧
    (∀ k p (d : IDist) (v : ℤ), newNegBinomial k p = .ok d → d.sample b fuel s = some (v, s') →
      0 ≤ v) ∧
    (∀ l (d : IDist) (v : ℤ), newExponential l = .ok d → d.sample b fuel s = some (v, s') →
      0 ≤ v) ∧
    (∀ junk p x y (d : IDist) (v : ℤ), newBinary junk p x y = .ok d →
      d.sample b fuel s = some (v, s') → v = x ∨ v = y) ∧
    (∀ v : ℤ, random b s = (v, s') → -2 ^ 31 ≤ v ∧ v < 2 ^ 31 ∧ v % 2 ^ 32 = (b.raw s).1) := by
  refine ⟨?_, ?_, ?_, ?_, ?_, ?_, ?_⟩
  · intro d v hu h
    cases d with
    | fixed w =>
      injection h with h
      injection h with h _
      exact h.symm.le
    | uniform lo hi =>
      injection h with h
      have h1 := hb.uniformReal lo hi s (hu lo hi rfl)
      rw [h] at h1
      exact h1.2.le
    | normal m sd lo hi => exact ((C93_truncated b m sd lo hi s v s').2.2 ⟨fuel, h⟩).2
  · intro lo hi v hlh h
    injection h with h
    have h1 := hb.uniformInt lo hi s hlh
    rw [h] at h1
    exact h1
  · intro n p d v hd h
    unfold newBinomial at hd
    split at hd
    · exact absurd hd (by simp)
    · split at hd
      · exact absurd hd (by simp)
      · rename_i h1 h2
        injection hd with hd
        subst hd
        injection h with h
        push Not at h1 h2
        have h3 := hb.binomial n p s (by omega) h2.2 h2.1
        rw [h] at h3
        exact h3
  · intro k p d v hd h
    unfold newNegBinomial at hd
    split at hd
    · exact absurd hd (by simp)
    · split at hd
      · exact absurd hd (by simp)
      · injection hd with hd
        subst hd
        injection h with h
        have h3 := hb.negBinomial k p s
        rw [h] at h3
        exact h3
  · intro l d v hd h
    unfold newExponential at hd
    split at hd
    · exact absurd hd (by simp)
    · injection hd with hd
      subst hd
      injection h with h
      injection h with h _
      have h3 := hb.exponential l s
      rw [trunc, if_pos h3] at h
      rw [← h]
      exact Int.floor_nonneg.mpr h3
  · intro junk p x y d v hd h
    unfold newBinary at hd
    split at hd
    · exact absurd hd (by simp)
    · injection hd with hd
      subst hd
      injection h with h
      injection h with h _
      subst h
      split
      · exact Or.inr rfl
      · exact Or.inl rfl
  · intro v h
    injection h with h _
    have h1 := hb.raw s
    subst h
    unfold toInt32
    split <;> omega

/-- A case of `C93_ranges`: the counter and objects of each kind. -/
example : Documented counter ∧
    (∃ d, newBinomial 3 (1 / 2) = .ok d ∧ d.sample counter 0 6 = some (2, 7)) ∧
    (∃ d, newNegBinomial 3 (1 / 2) = .ok d ∧ d.sample counter 0 6 = some (6, 7)) ∧
    (∃ d, newExponential (1 / 2) = .ok d ∧ d.sample counter 0 3 = some (1, 4)) ∧
    (∃ d, newBinary 0 (1 / 2) 4 9 = .ok d ∧ d.sample counter 0 3 = some (4, 4)) ∧
    random counter (2 ^ 31) = (-2 ^ 31, 2 ^ 31 + 1) := by
  refine ⟨counter_documented, ⟨.binomial 3 (1 / 2), ?_, ?_⟩, ⟨.negBinomial 3 (1 / 2), ?_, ?_⟩,
    ⟨.exponential (1 / 2), ?_, ?_⟩, ⟨.binary (1 / 2) 0 4 9, ?_, ?_⟩, ?_⟩ <;>
    decide +kernel

/-- C93 (uses).  A use of the generator through the context gives the number that the distribution
gives, in its range, and leaves the engine where the draw left it: nothing is drawn twice. -/
theorem C93_uses (b : Boost σ) (hb : Documented b) (fuel : ℕ) (s : σ) (v : ℚ) (s' : σ) :
    (Call.run b fuel s .random01 = some (v, s') → 0 ≤ v ∧ v < 1 ∧ s' = (b.uniform01 s).2) ∧
    (Call.run b fuel s .random = some (v, s') → -2 ^ 31 ≤ v ∧ v < 2 ^ 31 ∧ s' = (b.raw s).2) ∧
    (∀ lo hi, lo ≤ hi → Call.run b fuel s (.uniformInt lo hi) = some (v, s') →
      (lo : ℚ) ≤ v ∧ v ≤ hi ∧ s' = (b.uniformInt lo hi s).2) ∧
    (∀ lo hi, lo < hi → Call.run b fuel s (.uniformReal lo hi) = some (v, s') →
      lo ≤ v ∧ v < hi ∧ s' = (b.uniformReal lo hi s).2) ∧
    (∀ m sd lo hi, Call.run b fuel s (.normalReal m sd lo hi) = some (v, s') →
      ∃ n, FirstWithin b m sd lo hi s n ∧ v = variate b m sd s n ∧
        s' = after b m sd s (n + 1)) ∧
    (∀ m sd lo hi, Call.run b fuel s (.normalInt m sd lo hi) = some (v, s') →
      ∃ n, FirstWithin b m sd lo hi s n ∧ |variate b m sd s n - v| ≤ 1 / 2 ∧
        s' = after b m sd s (n + 1)) ∧
    (∀ d, Call.run b fuel s (.sampleD d) = some (v, s') ↔ d.sample b fuel s = some (v, s')) ∧
    (∀ d, Call.run b fuel s (.sampleI d) = some (v, s') ↔
      ∃ i : ℤ, v = i ∧ d.sample b fuel s = some (i, s')) := by
  have hmap : ∀ o : Option (ℤ × σ), o.map num = some (v, s') ↔
      ∃ i : ℤ, v = i ∧ o = some (i, s') := by
    intro o
    cases o with
    | none => simp
    | some r =>
      obtain ⟨i, t⟩ := r
      simp only [Option.map_some, num, Option.some.injEq, Prod.mk.injEq]
      constructor
      · rintro ⟨h1, h2⟩; exact ⟨i, h1.symm, rfl, h2⟩
      · rintro ⟨j, h1, h2, h3⟩; exact ⟨by rw [h1, h2], h3⟩
  refine ⟨?_, ?_, ?_, ?_, ?_, ?_, fun d => Iff.rfl, fun d => hmap _⟩
  · intro h
    have := hb.uniform01 s
    simp only [Call.run, Option.some.injEq] at h
    rw [h] at this ⊢
    exact ⟨this.1, this.2, rfl⟩
  · intro h
    simp only [Call.run, num, Option.some.injEq, Prod.mk.injEq] at h
    obtain ⟨h1, h2⟩ := h
    obtain ⟨r1, r2, _⟩ := (C93_ranges b hb fuel s (random b s).2).2.2.2.2.2.2 (random b s).1 rfl
    rw [← h1]
    exact ⟨by exact_mod_cast r1, by exact_mod_cast r2, h2.symm⟩
  · intro lo hi hl h
    have := hb.uniformInt lo hi s hl
    simp only [Call.run, num, Option.some.injEq, Prod.mk.injEq] at h
    rw [← h.1, ← h.2]
    exact ⟨by exact_mod_cast this.1, by exact_mod_cast this.2, rfl⟩
  · intro lo hi hl h
    have := hb.uniformReal lo hi s hl
    simp only [Call.run, Option.some.injEq] at h
    rw [h] at this ⊢
    exact ⟨this.1, this.2, rfl⟩
  · intro m sd lo hi h
    exact ((C93_truncated b m sd lo hi s v s').1).mp ⟨fuel, h⟩
  · intro m sd lo hi h
    obtain ⟨i, hi', h⟩ := (hmap _).mp h
    obtain ⟨_, _, _, n, h1, h2, h3, _⟩ := C93_int b m sd lo hi fuel s s' i h
    exact ⟨n, h1, by rw [hi']; exact h3, h2⟩

/-- A case of `C93_uses`. -/
example : Documented counter ∧ Call.run counter 9 2 .random01 = some (1 / 2, 3) ∧
    Call.run counter 9 1 (.normalInt 1 3 0 3) = some (1, 3) :=
  ⟨counter_documented, by decide +kernel, by decide +kernel⟩

/-- C93 (constructors).  The constructors reject exactly: equal limits of a normal distribution;
fewer than one trial or success, or a probability outside of [0, 1]; a negative rate; a negative
probability of a choice. -/
theorem C93_constructors :
    (∀ m sd lo hi, (∃ d, newNormalD m sd lo hi = .ok d) ↔ lo ≠ hi) ∧
    (∀ m sd lo hi, (∃ d, newNormalI m sd lo hi = .ok d) ↔ lo ≠ hi) ∧
    (∀ n p, newBinomial n p = .ok (.binomial n p) ↔ 1 ≤ n ∧ 0 ≤ p ∧ p ≤ 1) ∧
    (∀ k p, newNegBinomial k p = .ok (.negBinomial k p) ↔ 1 ≤ k ∧ 0 ≤ p ∧ p ≤ 1) ∧
    (∀ l, newExponential l = .ok (.exponential l) ↔ 0 ≤ l) ∧
    (∀ junk p x y, (∃ d, newBinary junk p x y = .ok d) ↔ 0 ≤ p) ∧
    (∀ m sd lo hi d, newNormalD m sd lo hi = .ok d → d = .normal m sd lo hi) ∧
    (∀ m sd lo hi d, newNormalI m sd lo hi = .ok d → d = .normal m sd lo hi) := by
  refine ⟨?_, ?_, ?_, ?_, ?_, ?_, ?_, ?_⟩
  · intro m sd lo hi
    unfold newNormalD
    split <;> simp_all
  · intro m sd lo hi
    unfold newNormalI
    split <;> simp_all
  · intro n p
    unfold newBinomial
    split
    · rename_i h
      constructor
      · intro h'; exact absurd h' (by simp)
      · rintro ⟨h', _⟩; omega
    · split
      · rename_i h
        constructor
        · intro h'; exact absurd h' (by simp)
        · rintro ⟨_, h1, h2⟩
          rcases h with h | h <;> linarith
      · rename_i h1 h2
        push Not at h1 h2
        exact ⟨fun _ => ⟨by omega, h2.2, h2.1⟩, fun _ => rfl⟩
  · intro n p
    unfold newNegBinomial
    split
    · rename_i h
      constructor
      · intro h'; exact absurd h' (by simp)
      · rintro ⟨h', _⟩; omega
    · split
      · rename_i h
        constructor
        · intro h'; exact absurd h' (by simp)
        · rintro ⟨_, h1, h2⟩
          rcases h with h | h <;> linarith
      · rename_i h1 h2
        push Not at h1 h2
        exact ⟨fun _ => ⟨by omega, h2.2, h2.1⟩, fun _ => rfl⟩
  · intro l
    unfold newExponential
    split
    · rename_i h
      exact ⟨fun h' => absurd h' (by simp), fun h' => by linarith⟩
    · rename_i h
      exact ⟨fun _ => not_lt.mp h, fun _ => rfl⟩
  · intro junk p x y
    unfold newBinary
    split
    · rename_i h
      exact ⟨fun ⟨d, h'⟩ => absurd h' (by simp), fun h' => by linarith⟩
    · rename_i h
      exact ⟨fun _ => not_lt.mp h, fun _ => ⟨_, rfl⟩⟩
  · intro m sd lo hi d h
    unfold newNormalD at h
    split at h
    · exact absurd h (by simp)
    · injection h with h; exact h.symm
  · intro m sd lo hi d h
    unfold newNormalI at h
    split at h
    · exact absurd h (by simp)
    · injection h with h; exact h.symm

/-- A case of `C93_constructors`. -/
example : (1 : ℤ) ≤ 3 ∧ (0 : ℚ) ≤ 1 / 2 ∧ (1 / 2 : ℚ) ≤ 1 ∧ (0 : ℚ) ≠ 1 := by norm_num

/-- C93 (reproducibility).  Once the generator is initialised, all numbers that any sequence of uses
returns are determined by the seed, whatever happened before; seeds that agree in their lower 32
bits give the same numbers. -/
theorem C93_reproducible (b : Boost σ) (fuel : ℕ) (seed seed' : ℕ) (calls : List Call) (s s' : σ)
    (h : seed % 2 ^ 32 = seed' % 2 ^ 32) :
    runAll b fuel (.init seed :: calls) s = runAll b fuel (.init seed' :: calls) s' := by
  simp only [runAll, Call.run, initGen, h]

/-- A case of `C93_reproducible`: three draws from two different histories. -/
example : runAll counter 9 [.init 5, .random, .normalInt (9 / 2) 3 0 3, .uniformInt 0 9] 0 =
      some ([0, 5, 3, 7], 8) ∧
    runAll counter 9 [.init 5, .random, .normalInt (9 / 2) 3 0 3, .uniformInt 0 9] 77 =
      some ([0, 5, 3, 7], 8) ∧ 5 % 2 ^ 32 = (2 ^ 32 + 5) % 2 ^ 32 := by
  decide +kernel

/-! ## Where the documentation is not kept -/

/-- C93 fails: `random_uniform_int` is documented to give integers in `[low, high)` (header line 79),
but the upper limit itself is returned, with an engine that keeps all promises. -/
theorem C93_fails_uniform_int :
    Documented counter ∧ ∃ s, (counter.uniformInt 0 3 s).1 = 3 :=
  ⟨counter_documented, 3, by decide +kernel⟩

/-- C93 fails: the limits given to `makeNormalDist` have no effect; its numbers leave them. -/
theorem C93_fails_make_normal :
    (∀ (b : Boost σ) mean sd lo hi lo' hi' s,
      madeNormal b mean sd lo hi s = madeNormal b mean sd lo' hi' s) ∧
    ∃ s, (madeNormal counter 0 1 0 1 s).1 < 0 :=
  ⟨fun _ _ _ _ _ _ _ _ => rfl, 0, by decide +kernel⟩

/-- C93 fails: a lower limit above the upper one is accepted by the constructors, and sampling then
never ends, whatever the engine does. -/
theorem C93_fails_limits :
    (∃ d, newNormalD 0 1 2 1 = .ok d ∧
      ∀ (b : Boost σ) fuel s, d.sample b fuel s = none) ∧
    (∃ d, newNormalI 0 1 2 1 = .ok d ∧
      ∀ (b : Boost σ) fuel s, d.sample b fuel s = none) := by
  refine ⟨⟨.normal 0 1 2 1, by decide +kernel, fun b fuel s => ?_⟩,
    ⟨.normal 0 1 2 1, by decide +kernel, fun b fuel s => ?_⟩⟩
  · exact (C93_ends b 0 1 2 1 s).2 (by norm_num) fuel
  · have h := (C93_ends b 0 1 ((2 : ℤ) : ℚ) ((1 : ℤ) : ℚ) s).2 (by norm_num) fuel
    rw [normalReal] at h
    rw [IDist.sample, normalInt, h]

/-- C93 fails: a Poisson distribution does not depend on the mean it is given but on what was in
memory, and a valid mean may be refused because of it; `p` of the binomial distributions is 0 for
every probability below 1; `p` of a binary distribution is what was in memory. -/
theorem C93_fails_parameters :
    (∀ junk m m', newPoisson junk m = newPoisson junk m') ∧
    newPoisson (-1) 5 = .error .value ∧
    (∀ n p d, newBinomial n p = .ok d → p < 1 → d.p = some 0) ∧
    (∀ k p d, newNegBinomial k p = .ok d → p < 1 → d.p = some 0) ∧
    (∃ d, newBinary 7 (1 / 2) 4 9 = .ok d ∧ d.p = some 7) := by
  have ht : ∀ p : ℚ, 0 ≤ p → p < 1 → trunc p = 0 := by
    intro p h0 h1
    rw [trunc, if_pos h0]
    exact Int.floor_eq_iff.mpr ⟨by simpa using h0, by simpa using h1⟩
  refine ⟨fun _ _ _ => rfl, by decide +kernel, ?_, ?_, ⟨.binary (1 / 2) 7 4 9, by decide +kernel, rfl⟩⟩
  · intro n p d hd h1
    unfold newBinomial at hd
    split at hd
    · exact absurd hd (by simp)
    · split at hd
      · exact absurd hd (by simp)
      · rename_i h2
        push Not at h2
        injection hd with hd
        subst hd
        simp [IDist.p, ht p h2.2 h1]
  · intro n p d hd h1
    unfold newNegBinomial at hd
    split at hd
    · exact absurd hd (by simp)
    · split at hd
      · exact absurd hd (by simp)
      · rename_i h2
        push Not at h2
        injection hd with hd
        subst hd
        simp [IDist.p, ht p h2.2 h1]

/-- C93 fails: `NegativeBinomialIntDist` is documented to return the number of trials needed to reach
the successes (header lines 278-281), which is never below the number of successes; the samples are
the failures that Boost counts, and may be 0. -/
theorem C93_fails_trials :
    Documented counter ∧ ∃ d v s, newNegBinomial 3 1 = .ok d ∧ d.sample counter 0 0 = some (v, s) ∧
      v < 3 :=
  ⟨counter_documented, .negBinomial 3 1, 0, 1, by decide +kernel, by decide +kernel, by norm_num⟩

end Cyclus.Random
