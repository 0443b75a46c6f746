import Mathlib.Algebra.Order.Ring.Rat
import Mathlib.Algebra.Order.Field.Basic
import Mathlib.Algebra.BigOperators.Group.List.Basic
import Mathlib.Algebra.Order.BigOperators.Group.List
import Mathlib.Data.Rat.Defs
import Mathlib.Tactic.Linarith
import Mathlib.Tactic.Ring
import Mathlib.Tactic.FieldSimp
import Mathlib.Tactic.Push
import Mathlib.Tactic.SplitIfs

/-!
# Linear and 0-1 programs over the rationals attain their optimum

By elimination of variables (Fourier and Motzkin).  Nothing here refers to the model.
-/

namespace Cyclus.LinProg

/-- The value of a linear form, given by its coefficients. -/
def val (x : ℕ → ℚ) (l : List (ℕ × ℚ)) : ℚ := (l.map fun c => c.2 * x c.1).sum

/-- `x` meets the constraints: linear forms with upper bounds. -/
def Holds (C : List (List (ℕ × ℚ) × ℚ)) (x : ℕ → ℚ) : Prop := ∀ c ∈ C, val x c.1 ≤ c.2

/-- The coefficient of `k`. -/
def coef (k : ℕ) (l : List (ℕ × ℚ)) : ℚ := (l.map fun c => if c.1 = k then c.2 else 0).sum

/-- The form without `k`. -/
def rest (k : ℕ) (l : List (ℕ × ℚ)) : List (ℕ × ℚ) := l.filter fun c => decide (c.1 ≠ k)

theorem val_nil (x : ℕ → ℚ) : val x [] = 0 := rfl

theorem val_cons (x : ℕ → ℚ) (c : ℕ × ℚ) (l : List (ℕ × ℚ)) :
    val x (c :: l) = c.2 * x c.1 + val x l := rfl

theorem val_append (x : ℕ → ℚ) (l m : List (ℕ × ℚ)) : val x (l ++ m) = val x l + val x m := by
  simp [val]

theorem val_scale (x : ℕ → ℚ) (k : ℚ) (l : List (ℕ × ℚ)) :
    val x (l.map fun c => (c.1, k * c.2)) = k * val x l := by
  induction l with
  | nil => simp [val]
  | cons c l ih =>
    rw [List.map_cons, val_cons, val_cons, ih]
    ring

theorem val_update (x : ℕ → ℚ) (k : ℕ) (t : ℚ) (l : List (ℕ × ℚ)) :
    val (Function.update x k t) l = coef k l * t + val x (rest k l) := by
  induction l with
  | nil => simp [val, coef, rest]
  | cons c l ih =>
    by_cases h : c.1 = k
    · have hr : rest k (c :: l) = rest k l := by simp [rest, h]
      have hc : coef k (c :: l) = c.2 + coef k l := by simp [coef, h]
      rw [val_cons, ih, hr, hc, h, Function.update_self]
      ring
    · have hr : rest k (c :: l) = c :: rest k l := by simp [rest, h]
      have hc : coef k (c :: l) = coef k l := by simp [coef, h]
      rw [val_cons, ih, hr, hc, Function.update_of_ne h, val_cons]
      ring

/-- Between lower and upper bounds there is a number. -/
theorem between (L U : List ℚ) (h : ∀ l ∈ L, ∀ u ∈ U, l ≤ u) :
    ∃ t, (∀ l ∈ L, l ≤ t) ∧ ∀ u ∈ U, t ≤ u := by
  have hmax : ∀ L : List ℚ, L ≠ [] → ∃ m ∈ L, ∀ l ∈ L, l ≤ m := by
    intro L
    induction L with
    | nil => simp
    | cons a L ih =>
      intro _
      by_cases hL : L = []
      · exact ⟨a, by simp, by simp [hL]⟩
      · obtain ⟨m, hm, hle⟩ := ih hL
        by_cases ham : a ≤ m
        · exact ⟨m, by simp [hm], by simpa using ⟨ham, hle⟩⟩
        · exact ⟨a, by simp, by
            simp only [List.mem_cons, forall_eq_or_imp, le_refl, true_and]
            intro l hl
            exact (hle l hl).trans (not_le.1 ham).le⟩
  have hmin : ∀ L : List ℚ, L ≠ [] → ∃ m ∈ L, ∀ l ∈ L, m ≤ l := by
    intro L hL
    obtain ⟨m, hm, hle⟩ := hmax (L.map fun l => -l) (by simpa using hL)
    obtain ⟨l, hl, rfl⟩ := List.mem_map.1 hm
    refine ⟨l, hl, fun k hk => ?_⟩
    have := hle (-k) (List.mem_map.2 ⟨k, hk, rfl⟩)
    linarith
  by_cases hL : L = []
  · by_cases hU : U = []
    · exact ⟨0, by simp [hL], by simp [hU]⟩
    · obtain ⟨m, -, hm⟩ := hmin U hU
      exact ⟨m, by simp [hL], hm⟩
  · obtain ⟨m, hm, hle⟩ := hmax L hL
    exact ⟨m, hle, h m hm⟩

/-- A variable can be eliminated. -/
theorem eliminate (k : ℕ) (C : List (List (ℕ × ℚ) × ℚ)) :
    ∃ C', ∀ x, (∃ t, Holds C (Function.update x k t)) ↔ Holds C' x := by
  refine ⟨((C.filter fun c => decide (coef k c.1 = 0)).map fun c => (rest k c.1, c.2)) ++
    (C.filter fun c => decide (coef k c.1 < 0)).flatMap fun n =>
      (C.filter fun c => decide (0 < coef k c.1)).map fun p =>
        (((rest k n.1).map fun c => (c.1, coef k p.1 * c.2)) ++
          ((rest k p.1).map fun c => (c.1, -coef k n.1 * c.2)),
          coef k p.1 * n.2 + -coef k n.1 * p.2), ?_⟩
  intro x
  constructor
  · rintro ⟨t, ht⟩ c hc
    rw [List.mem_append] at hc
    rcases hc with hc | hc
    · obtain ⟨d, hd, rfl⟩ := List.mem_map.1 hc
      simp only [List.mem_filter, decide_eq_true_eq] at hd
      have := ht d hd.1
      rw [val_update, hd.2] at this
      simpa using this
    · obtain ⟨n, hn, hc⟩ := List.mem_flatMap.1 hc
      obtain ⟨p, hp, rfl⟩ := List.mem_map.1 hc
      simp only [List.mem_filter, decide_eq_true_eq] at hn hp
      simp only [val_append, val_scale]
      have h1 := ht n hn.1
      have h2 := ht p hp.1
      rw [val_update] at h1 h2
      have h3 := mul_le_mul_of_nonneg_left h1 hp.2.le
      have h4 := mul_le_mul_of_nonneg_left h2 (neg_nonneg.2 hn.2.le)
      nlinarith
  · intro h
    obtain ⟨t, h1, h2⟩ := between
      ((C.filter fun c => decide (coef k c.1 < 0)).map fun c => (c.2 - val x (rest k c.1)) / coef k c.1)
      ((C.filter fun c => decide (0 < coef k c.1)).map fun c => (c.2 - val x (rest k c.1)) / coef k c.1)
      (by
        intro l hl u hu
        obtain ⟨n, hn, rfl⟩ := List.mem_map.1 hl
        obtain ⟨p, hp, rfl⟩ := List.mem_map.1 hu
        have := h _ (List.mem_append_right _ (List.mem_flatMap.2 ⟨n, hn, List.mem_map.2 ⟨p, hp, rfl⟩⟩))
        simp only [List.mem_filter, decide_eq_true_eq] at hn hp
        simp only [val_append, val_scale] at this
        rw [div_le_iff_of_neg hn.2, div_mul_eq_mul_div, div_le_iff₀ hp.2]
        nlinarith)
    refine ⟨t, fun c hc => ?_⟩
    rw [val_update]
    rcases lt_trichotomy (coef k c.1) 0 with h0 | h0 | h0
    · have := h1 _ (List.mem_map.2 ⟨c, List.mem_filter.2 ⟨hc, by simpa using h0⟩, rfl⟩)
      rw [div_le_iff_of_neg h0] at this
      linarith
    · have := h _ (List.mem_append_left _
        (List.mem_map.2 ⟨c, List.mem_filter.2 ⟨hc, by simpa using h0⟩, rfl⟩))
      simp only at this
      rw [h0]
      linarith
    · have := h2 _ (List.mem_map.2 ⟨c, List.mem_filter.2 ⟨hc, by simpa using h0⟩, rfl⟩)
      rw [le_div_iff₀ h0] at this
      linarith

/-- All variables of a list can be eliminated. -/
theorem eliminates (ks : List ℕ) (C : List (List (ℕ × ℚ) × ℚ)) :
    ∃ C', ∀ x, (∃ y, (∀ i, i ∉ ks → y i = x i) ∧ Holds C y) ↔ Holds C' x := by
  induction ks with
  | nil =>
    refine ⟨C, fun x => ⟨?_, fun h => ⟨x, fun _ _ => rfl, h⟩⟩⟩
    rintro ⟨y, h1, h2⟩
    have : y = x := funext fun i => h1 i (by simp)
    rwa [← this]
  | cons k ks ih =>
    obtain ⟨C₁, h₁⟩ := ih
    obtain ⟨C₂, h₂⟩ := eliminate k C₁
    refine ⟨C₂, fun x => ?_⟩
    rw [← h₂]
    constructor
    · rintro ⟨y, hy, hC⟩
      refine ⟨y k, (h₁ _).1 ⟨y, fun i hi => ?_, hC⟩⟩
      by_cases hik : i = k
      · subst hik; simp
      · rw [Function.update_of_ne hik]
        exact hy i (by simp [hik, hi])
    · rintro ⟨t, ht⟩
      obtain ⟨y, hy, hC⟩ := (h₁ _).2 ht
      refine ⟨y, fun i hi => ?_, hC⟩
      simp only [List.mem_cons, not_or] at hi
      rw [hy i hi.2, Function.update_of_ne hi.1]

/-- The numbers that meet a list of constraints on one number: none, or they have a least one, or
they go down without end. -/
theorem least (D : List (ℚ × ℚ)) :
    (∀ t, ¬ ∀ c ∈ D, c.1 * t ≤ c.2) ∨
    (∃ t, (∀ c ∈ D, c.1 * t ≤ c.2) ∧ ∀ s, (∀ c ∈ D, c.1 * s ≤ c.2) → t ≤ s) ∨
    (∀ t s, (∀ c ∈ D, c.1 * t ≤ c.2) → s ≤ t → ∀ c ∈ D, c.1 * s ≤ c.2) := by
  have conv : ∀ (D : List (ℚ × ℚ)) (t s u : ℚ), (∀ c ∈ D, c.1 * t ≤ c.2) →
      (∀ c ∈ D, c.1 * u ≤ c.2) → t ≤ s → s ≤ u → ∀ c ∈ D, c.1 * s ≤ c.2 := by
    intro D t s u ht hu h1 h2 c hc
    rcases le_total 0 c.1 with h0 | h0
    · exact (mul_le_mul_of_nonneg_left h2 h0).trans (hu c hc)
    · exact (mul_le_mul_of_nonpos_left h1 h0).trans (ht c hc)
  induction D with
  | nil => right; right; simp
  | cons d D ih =>
    simp only [List.mem_cons, forall_eq_or_imp]
    rcases lt_trichotomy d.1 0 with h0 | h0 | h0
    · have hd : ∀ t, d.1 * t ≤ d.2 ↔ d.2 / d.1 ≤ t := fun t => by
        rw [div_le_iff_of_neg h0, mul_comm]
      simp only [hd]
      rcases ih with h | ⟨t, ht, hl⟩ | h
      · exact .inl fun t ht => h t ht.2
      · by_cases hex : ∃ u, d.2 / d.1 ≤ u ∧ ∀ c ∈ D, c.1 * u ≤ c.2
        · obtain ⟨u, hu1, hu2⟩ := hex
          right; left
          refine ⟨max t (d.2 / d.1), ⟨le_max_right _ _, conv D t _ u ht hu2 (le_max_left _ _)
            (max_le (hl u hu2) hu1)⟩, fun s hs => max_le (hl s hs.2) hs.1⟩
        · left
          intro t ht
          exact hex ⟨t, ht.1, ht.2⟩
      · by_cases hex : ∃ u, d.2 / d.1 ≤ u ∧ ∀ c ∈ D, c.1 * u ≤ c.2
        · obtain ⟨u, hu1, hu2⟩ := hex
          right; left
          exact ⟨d.2 / d.1, ⟨le_refl _, h u _ hu2 hu1⟩, fun s hs => hs.1⟩
        · left
          intro t ht
          exact hex ⟨t, ht.1, ht.2⟩
    · by_cases hb : 0 ≤ d.2
      · simp only [h0, zero_mul, hb, true_and]
        exact ih
      · left
        intro t ht
        rw [h0, zero_mul] at ht
        exact hb ht.1
    · rcases ih with h | ⟨t, ht, hl⟩ | h
      · exact .inl fun t ht => h t ht.2
      · by_cases htb : d.1 * t ≤ d.2
        · exact .inr (.inl ⟨t, ⟨htb, ht⟩, fun s hs => hl s hs.2⟩)
        · left
          intro s hs
          exact htb ((mul_le_mul_of_nonneg_left (hl s hs.2) h0.le).trans hs.1)
      · right; right
        intro t s ht hst
        exact ⟨(mul_le_mul_of_nonneg_left hst h0.le).trans ht.1, h t s ht.2 hst⟩

theorem val_congr {x y : ℕ → ℚ} {l : List (ℕ × ℚ)} (h : ∀ c ∈ l, x c.1 = y c.1) :
    val x l = val y l := by
  unfold val
  congr 1
  exact List.map_congr_left fun c hc => by rw [h c hc]

theorem val_single (m : ℕ) (t : ℚ) (l : List (ℕ × ℚ)) :
    val (fun i => if i = m then t else 0) l = coef m l * t := by
  have h : (fun i => if i = m then t else 0) = Function.update (fun _ => (0 : ℚ)) m t := by
    funext i
    by_cases hi : i = m
    · subst hi; simp
    · simp [hi]
  rw [h, val_update]
  have : val (fun _ => (0 : ℚ)) (rest m l) = 0 := by simp [val]
  rw [this, add_zero]

/-- A linear program that has a solution and is bounded below has an optimal solution. -/
theorem lp_min (C : List (List (ℕ × ℚ) × ℚ)) (o : List (ℕ × ℚ)) (hne : ∃ x, Holds C x)
    (hb : ∃ b, ∀ x, Holds C x → b ≤ val x o) :
    ∃ x, Holds C x ∧ ∀ y, Holds C y → val x o ≤ val y o := by
  -- a variable that occurs nowhere
  obtain ⟨m, hmC, hmo⟩ : ∃ m, (∀ c ∈ C, ∀ d ∈ c.1, d.1 < m) ∧ ∀ d ∈ o, d.1 < m := by
    have : ∀ l : List (ℕ × ℚ), ∃ m, ∀ d ∈ l, d.1 < m := by
      intro l
      induction l with
      | nil => exact ⟨0, by simp⟩
      | cons d l ih =>
        obtain ⟨m, hm⟩ := ih
        refine ⟨max m (d.1 + 1), ?_⟩
        simp only [List.mem_cons, forall_eq_or_imp]
        exact ⟨lt_of_lt_of_le (Nat.lt_succ_self _) (le_max_right _ _),
          fun e he => lt_of_lt_of_le (hm e he) (le_max_left _ _)⟩
    obtain ⟨m, hm⟩ := this (o ++ C.flatMap fun c => c.1)
    exact ⟨m, fun c hc d hd => hm d (List.mem_append_right _ (List.mem_flatMap.2 ⟨c, hc, hd⟩)),
      fun d hd => hm d (List.mem_append_left _ hd)⟩
  obtain ⟨C', hC'⟩ := eliminates (List.range m) ((o ++ [(m, -1)], 0) :: C)
  have key : ∀ t, (∀ c ∈ C'.map (fun c => (coef m c.1, c.2)), c.1 * t ≤ c.2) ↔
      ∃ x, Holds C x ∧ val x o ≤ t := by
    intro t
    have h1 : (∀ c ∈ C'.map (fun c => (coef m c.1, c.2)), c.1 * t ≤ c.2) ↔
        Holds C' (fun i => if i = m then t else 0) := by
      simp only [List.mem_map, forall_exists_index, and_imp, forall_apply_eq_imp_iff₂, Holds,
        val_single]
    rw [h1, ← hC']
    constructor
    · rintro ⟨y, hy, hH⟩
      have hym : y m = t := by rw [hy m (by simp)]; simp
      refine ⟨y, fun c hc => hH c (by simp [hc]), ?_⟩
      have := hH _ (List.mem_cons_self ..)
      simp only [val_append, val_cons, val_nil, hym] at this
      linarith
    · rintro ⟨x, hx, hxt⟩
      refine ⟨fun i => if i < m then x i else if i = m then t else 0, ?_, ?_⟩
      · intro i hi
        have : ¬ i < m := by simpa using hi
        simp [this]
      · have hv : ∀ l : List (ℕ × ℚ), (∀ d ∈ l, d.1 < m) →
            val (fun i => if i < m then x i else if i = m then t else 0) l = val x l :=
          fun l hl => val_congr fun c hc => by simp [hl c hc]
        intro c hc
        rcases List.mem_cons.1 hc with rfl | hc
        · simp only [val_append, hv o hmo, val_cons, val_nil, lt_irrefl, if_false, if_true]
          linarith
        · rw [hv _ (hmC c hc)]
          exact hx c hc
  obtain ⟨x₀, hx₀⟩ := hne
  obtain ⟨b, hb⟩ := hb
  rcases least (C'.map fun c => (coef m c.1, c.2)) with h | ⟨t, ht, hl⟩ | h
  · exact absurd ((key _).2 ⟨x₀, hx₀, le_refl _⟩) (h _)
  · obtain ⟨x, hx, hxt⟩ := (key t).1 ht
    exact ⟨x, hx, fun y hy => hxt.trans (hl _ ((key _).2 ⟨y, hy, le_refl _⟩))⟩
  · have := h _ (min (val x₀ o) (b - 1)) ((key _).2 ⟨x₀, hx₀, le_refl _⟩) (min_le_left _ _)
    obtain ⟨x, hx, hxt⟩ := (key _).1 this
    have h1 := hb x hx
    have h2 := hxt.trans (min_le_right _ _)
    linarith

/-- The same with variables that are 0 or 1. -/
theorem zo_min (ints : List ℕ) (C : List (List (ℕ × ℚ) × ℚ)) (o : List (ℕ × ℚ))
    (hne : ∃ x, Holds C x ∧ ∀ i ∈ ints, x i = 0 ∨ x i = 1)
    (hb : ∃ b, ∀ x, Holds C x → (∀ i ∈ ints, x i = 0 ∨ x i = 1) → b ≤ val x o) :
    ∃ x, (Holds C x ∧ ∀ i ∈ ints, x i = 0 ∨ x i = 1) ∧
      ∀ y, Holds C y → (∀ i ∈ ints, y i = 0 ∨ y i = 1) → val x o ≤ val y o := by
  induction ints generalizing C with
  | nil =>
    simp only [List.not_mem_nil, false_implies, implies_true, and_true] at hne hb
    simp only [List.not_mem_nil, false_implies, implies_true, and_true, true_implies]
    exact lp_min C o hne (by simpa using hb)
  | cons i l ih =>
    have hfix : ∀ (v : ℚ) x, Holds (([(i, 1)], v) :: ([(i, -1)], -v) :: C) x ↔
        x i = v ∧ Holds C x := by
      intro v x
      simp only [Holds, List.mem_cons, forall_eq_or_imp, val_cons, val_nil]
      constructor
      · rintro ⟨h1, h2, h3⟩
        exact ⟨le_antisymm (by linarith) (by linarith), h3⟩
      · rintro ⟨h1, h3⟩
        exact ⟨by linarith, by linarith, h3⟩
    obtain ⟨b, hb⟩ := hb
    have hv : ∀ v : ℚ, v = 0 ∨ v = 1 →
        (∃ x, (x i = v ∧ Holds C x) ∧ ∀ j ∈ l, x j = 0 ∨ x j = 1) →
        ∃ x, ((x i = v ∧ Holds C x) ∧ ∀ j ∈ l, x j = 0 ∨ x j = 1) ∧
          ∀ y, (y i = v ∧ Holds C y) → (∀ j ∈ l, y j = 0 ∨ y j = 1) → val x o ≤ val y o := by
      intro v hv01 hex
      have := ih (([(i, 1)], v) :: ([(i, -1)], -v) :: C)
      simp only [hfix] at this
      refine this hex ⟨b, fun x hx hl => hb x hx.2 ?_⟩
      intro j hj
      rcases List.mem_cons.1 hj with rfl | hj
      · rw [hx.1]; exact hv01
      · exact hl j hj
    by_cases h0 : ∃ x, (x i = 0 ∧ Holds C x) ∧ ∀ j ∈ l, x j = 0 ∨ x j = 1
    · obtain ⟨x, hx, hxm⟩ := hv 0 (.inl rfl) h0
      by_cases h1 : ∃ x, (x i = 1 ∧ Holds C x) ∧ ∀ j ∈ l, x j = 0 ∨ x j = 1
      · obtain ⟨z, hz, hzm⟩ := hv 1 (.inr rfl) h1
        rcases le_total (val x o) (val z o) with hle | hle
        · refine ⟨x, ⟨hx.1.2, ?_⟩, fun y hy hl => ?_⟩
          · simpa using ⟨.inl hx.1.1, hx.2⟩
          · rcases hl i (by simp) with hi | hi
            · exact hxm y ⟨hi, hy⟩ fun j hj => hl j (by simp [hj])
            · exact hle.trans (hzm y ⟨hi, hy⟩ fun j hj => hl j (by simp [hj]))
        · refine ⟨z, ⟨hz.1.2, ?_⟩, fun y hy hl => ?_⟩
          · simpa using ⟨.inr hz.1.1, hz.2⟩
          · rcases hl i (by simp) with hi | hi
            · exact hle.trans (hxm y ⟨hi, hy⟩ fun j hj => hl j (by simp [hj]))
            · exact hzm y ⟨hi, hy⟩ fun j hj => hl j (by simp [hj])
      · refine ⟨x, ⟨hx.1.2, ?_⟩, fun y hy hl => ?_⟩
        · simpa using ⟨.inl hx.1.1, hx.2⟩
        · rcases hl i (by simp) with hi | hi
          · exact hxm y ⟨hi, hy⟩ fun j hj => hl j (by simp [hj])
          · exact absurd ⟨y, ⟨hi, hy⟩, fun j hj => hl j (by simp [hj])⟩ h1
    · have h1 : ∃ x, (x i = 1 ∧ Holds C x) ∧ ∀ j ∈ l, x j = 0 ∨ x j = 1 := by
        obtain ⟨x, hx, hl⟩ := hne
        rcases hl i (by simp) with hi | hi
        · exact absurd ⟨x, ⟨hi, hx⟩, fun j hj => hl j (by simp [hj])⟩ h0
        · exact ⟨x, ⟨hi, hx⟩, fun j hj => hl j (by simp [hj])⟩
      obtain ⟨z, hz, hzm⟩ := hv 1 (.inr rfl) h1
      refine ⟨z, ⟨hz.1.2, ?_⟩, fun y hy hl => ?_⟩
      · simpa using ⟨.inr hz.1.1, hz.2⟩
      · rcases hl i (by simp) with hi | hi
        · exact absurd ⟨y, ⟨hi, hy⟩, fun j hj => hl j (by simp [hj])⟩ h0
        · exact hzm y ⟨hi, hy⟩ fun j hj => hl j (by simp [hj])

end Cyclus.LinProg
