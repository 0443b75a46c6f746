import Verif.Lemmas.CompMath
import Mathlib.Tactic.NormNum

/-!
# Properties C49, C55: composition vectors
-/

namespace Cyclus.CompMath

/-- Specification: a composition vector assigns one quantity to each nuclide listed. -/
def IsMap (v : CompMap) : Prop := (v.map Prod.fst).Nodup

/-- Specification: the listed nuclides. -/
def support (v : CompMap) : List ℕ := v.map Prod.fst

/-- Specification: the plain sum of the quantities. -/
def plainSum (v : CompMap) : ℚ := (v.map Prod.snd).sum

/-- **C49 (Normalize).**  The vector sums to the value, lists the same nuclides in the same order and
keeps all proportions; a vector that sums to zero is left alone. -/
theorem C49_normalize (v : CompMap) (x : ℚ) :
    support (normalize v x) = support v ∧
    (plainSum v ≠ 0 → plainSum (normalize v x) = x ∧
      (∀ n, get (normalize v x) n * plainSum v = get v n * x) ∧
      ∀ m n, get (normalize v x) m * get v n = get v m * get (normalize v x) n) ∧
    (plainSum v = 0 → normalize v x = v) := by
  have hs : ∀ v, plainSum v = sum v := fun v => (sum_eq v).symm
  refine ⟨?_, fun h => ?_, fun h => ?_⟩
  · unfold support normalize
    split
    · rw [List.map_map]; rfl
    · rfl
  · rw [hs] at h ⊢
    refine ⟨sum_normalize h, fun n => ?_, fun m n => ?_⟩
    · rw [get_normalize h]
      rw [hs]
      field_simp
    · rw [get_normalize h, get_normalize h]; ring
  · rw [hs] at h
    exact normalize_blank h

example : plainSum [(922350000, 1), (922380000, 4)] ≠ 0 := by decide +kernel
example : normalize [(922350000, 1), (922380000, 4)] 10 = [(922350000, 2), (922380000, 8)] := by
  decide +kernel

/-- **C49 (Add, Sub).**  Addition and subtraction are pointwise and give maps. -/
theorem C49_add_sub (v w : CompMap) (hv : IsMap v) (hw : IsMap w) :
    IsMap (add v w) ∧ IsMap (sub v w) ∧
    (∀ n, get (add v w) n = get v n + get w n) ∧
    (∀ n, get (sub v w) n = get v n - get w n) ∧
    plainSum (add v w) = plainSum v + plainSum w ∧
    plainSum (sub v w) = plainSum v - plainSum w := by
  have hs : ∀ v, plainSum v = sum v := fun v => (sum_eq v).symm
  simp only [hs]
  exact ⟨keys_add w hv, keys_sub w hv, get_add hw, get_sub hw, sum_add v w, sum_sub v w⟩

example : IsMap [(922350000, 1), (922380000, 4)] ∧ IsMap [(922380000, 1), (942390000, 2)] := by
  simp [IsMap]

/-- **C49 (creation).**  A composition is created exactly from vectors of valid nuclides without
negative entries, and is the vector given; everything else is rejected with `ValueError`. -/
theorem C49_create (isnuc : ℕ → Bool) (v : CompMap) :
    ((∀ e ∈ v, isnuc e.1 = true ∧ 0 ≤ e.2) → createFrom isnuc v = .ok v) ∧
    (¬ (∀ e ∈ v, isnuc e.1 = true ∧ 0 ≤ e.2) → createFrom isnuc v = .error .value) := by
  constructor
  · intro h
    have h1 : validNucs isnuc v = true := by
      simp only [validNucs, List.all_eq_true]; exact fun e he => (h e he).1
    have h2 : allPositive v = true := allPositive_iff.2 fun e he => (h e he).2
    simp [createFrom, h1, h2]
  · intro h
    unfold createFrom
    split
    · rfl
    · split
      · rfl
      · rename_i h1 h2
        exfalso; apply h
        simp only [Bool.not_eq_true, Bool.not_eq_false'] at h1 h2
        rw [allPositive_iff] at h2
        simp only [validNucs, List.all_eq_true] at h1
        exact fun e he => ⟨h1 e he, h2 e he⟩

example : ∀ e ∈ [(922350000, (1 : ℚ)), (922380000, 4)], (fun _ => true) e.1 = true ∧ 0 ≤ e.2 := by
  decide +kernel

/-- **C49 (ApplyThreshold).**  A negative threshold is rejected; otherwise exactly the entries of
magnitude at most the threshold disappear. -/
theorem C49_threshold (v : CompMap) (t : ℚ) (hv : IsMap v) :
    (t < 0 → applyThreshold v t = .error .value) ∧
    (0 ≤ t → ∃ w, applyThreshold v t = .ok w ∧ IsMap w ∧
      ∀ n, get w n = if |get v n| ≤ t then 0 else get v n) := by
  constructor
  · intro h; simp [applyThreshold, h]
  · intro h
    refine ⟨v.filter fun e => !decide (|e.2| ≤ t), by simp [applyThreshold, not_lt.2 h],
      keys_filter hv _, ?_⟩
    intro n
    induction v with
    | nil => simp [get]
    | cons e v ih =>
      obtain ⟨k, x⟩ := e
      unfold IsMap at hv
      rw [List.map_cons, List.nodup_cons] at hv
      have ih := ih hv.2
      by_cases hx : |x| ≤ t
      · rw [List.filter_cons_of_neg (by simp [hx]), ih]
        simp only [get]
        by_cases hk : k = n
        · subst hk
          have h0 := get_of_not_mem hv.1
          simp only at h0
          simp [hx, h0]
        · simp [hk]
      · rw [List.filter_cons_of_pos (by simpa using hx)]
        simp only [get]
        by_cases hk : k = n
        · subst hk; simp [hx]
        · simp [hk, ih]

/-- **C49 (atom and mass).**  Converting a composition from mass to atoms and back (or the other way)
gives the same vector, for non-zero atomic masses. -/
theorem C49_atom_mass (am : ℕ → ℚ) (v : CompMap) (h : ∀ e ∈ v, am e.1 ≠ 0) :
    massOfAtom am (atomOfMass am v) = v ∧ atomOfMass am (massOfAtom am v) = v := by
  constructor
  · unfold massOfAtom atomOfMass
    rw [List.map_map]
    conv_rhs => rw [← List.map_id v]
    refine List.map_congr_left (fun e he => ?_)
    have := h e he
    simp only [Function.comp, id]
    rw [div_mul_cancel₀ _ this]
  · unfold massOfAtom atomOfMass
    rw [List.map_map]
    conv_rhs => rw [← List.map_id v]
    refine List.map_congr_left (fun e he => ?_)
    have := h e he
    simp only [Function.comp, id]
    rw [mul_div_cancel_right₀ _ this]

example : ∀ e ∈ [(922350000, (1 : ℚ))], (fun n : ℕ => (n : ℚ)) e.1 ≠ 0 := by simp

/-! ## C55: approximate equality -/

/-- Specification: two numbers within a relative tolerance of each other, of each of them; if one is
zero, the tolerance is relative to the other. -/
def Near (t a b : ℚ) : Prop :=
  if a = 0 ∨ b = 0 then |a - b| ≤ |a - b| * t else |a - b| ≤ |a| * t ∧ |a - b| ≤ |b| * t

theorem has_iff (v : CompMap) (n : ℕ) : has v n = true ↔ n ∈ v.map Prod.fst := by
  simp [has]

theorem almostEq_true_iff (v w : CompMap) (t : ℚ) (ht : 0 ≤ t) :
    almostEq v w t = .ok true ↔ v.length = w.length ∧
      ∀ n ∈ v.map Prod.fst, n ∈ w.map Prod.fst ∧ Near t (get w n) (get v n) := by
  unfold almostEq
  rw [if_neg (not_lt.2 ht)]
  by_cases hl : v.length = w.length
  · rw [if_neg (by simpa using hl)]
    by_cases he : (v.isEmpty && w.isEmpty) = true
    · rw [if_pos he]
      have : v = [] := by
        rw [Bool.and_eq_true] at he
        exact List.isEmpty_iff.1 he.1
      subst this
      simp [hl]
    · rw [if_neg he]
      simp only [Except.ok.injEq, List.all_eq_true, Bool.and_eq_true, hl, true_and, List.mem_map,
        forall_exists_index, and_imp, forall_apply_eq_imp_iff₂, has_iff]
      refine forall_congr' fun e => imp_congr_right fun _ => and_congr_right fun _ => ?_
      unfold Near
      simp only [abs_eq_zero]
      by_cases h0 : get w e.1 = 0 ∨ get v e.1 = 0
      · rw [if_pos h0, if_pos h0]; simp
      · rw [if_neg h0, if_neg h0]; simp
  · rw [if_pos (by simpa using hl)]
    simp [hl]

theorem near_symm {t a b : ℚ} (h : Near t a b) : Near t b a := by
  unfold Near at *
  rw [abs_sub_comm b a]
  by_cases h0 : a = 0 ∨ b = 0
  · rw [if_pos h0] at h; rw [if_pos h0.symm]; exact h
  · rw [if_neg h0] at h; rw [if_neg (fun h => h0 h.symm)]; exact h.symm

/-- **C55.**  `AlmostEq` decides "same nuclides, all quantities near each other"; hence it is reflexive
and symmetric, and with threshold 0 it is equality. -/
theorem C55_almostEq (v w : CompMap) (t : ℚ) (ht : 0 ≤ t) (hv : IsMap v) (hw : IsMap w) :
    (almostEq v w t = .ok true ↔ (∀ n, n ∈ support v ↔ n ∈ support w) ∧
      ∀ n ∈ support v, Near t (get w n) (get v n)) ∧
    almostEq v v t = .ok true ∧
    (almostEq v w t = .ok true ↔ almostEq w v t = .ok true) ∧
    (almostEq v w 0 = .ok true ↔ (∀ n, n ∈ support v ↔ n ∈ support w) ∧
      ∀ n, get v n = get w n) := by
  have main : ∀ (v w : CompMap) (t : ℚ), 0 ≤ t → IsMap v → IsMap w →
      (almostEq v w t = .ok true ↔ (∀ n, n ∈ support v ↔ n ∈ support w) ∧
        ∀ n ∈ support v, Near t (get w n) (get v n)) := by
    intro v w t ht hv hw
    rw [almostEq_true_iff v w t ht]
    unfold support
    constructor
    · rintro ⟨hl, h⟩
      refine ⟨fun n => ⟨fun hn => (h n hn).1, fun hn => ?_⟩, fun n hn => (h n hn).2⟩
      have hsub : v.map Prod.fst ⊆ w.map Prod.fst := fun n hn => (h n hn).1
      have hperm : (v.map Prod.fst).Perm (w.map Prod.fst) :=
        (List.subperm_of_subset hv hsub).perm_of_length_le (by simp [hl])
      exact hperm.mem_iff.2 hn
    · rintro ⟨h1, h2⟩
      refine ⟨?_, fun n hn => ⟨(h1 n).1 hn, h2 n hn⟩⟩
      have hperm : (v.map Prod.fst).Perm (w.map Prod.fst) := (List.perm_ext_iff_of_nodup hv hw).2 h1
      simpa using hperm.length_eq
  refine ⟨main v w t ht hv hw, ?_, ?_, ?_⟩
  · rw [main v v t ht hv hv]
    refine ⟨fun _ => Iff.rfl, fun n _ => ?_⟩
    unfold Near
    simp only [sub_self, abs_zero, zero_mul, le_refl]
    split
    · trivial
    · exact ⟨mul_nonneg (abs_nonneg _) ht, mul_nonneg (abs_nonneg _) ht⟩
  · rw [main v w t ht hv hw, main w v t ht hw hv]
    constructor
    · rintro ⟨h1, h2⟩
      exact ⟨fun n => (h1 n).symm, fun n hn => near_symm (h2 n ((h1 n).2 hn))⟩
    · rintro ⟨h1, h2⟩
      exact ⟨fun n => (h1 n).symm, fun n hn => near_symm (h2 n ((h1 n).2 hn))⟩
  · rw [main v w 0 le_rfl hv hw]
    refine and_congr_right fun h1 => ⟨fun h2 n => ?_, fun h2 n _ => ?_⟩
    · by_cases hn : n ∈ support v
      · have := h2 n hn
        unfold Near at this
        have h3 : |get w n - get v n| ≤ 0 := by
          split at this
          · simpa using this
          · simpa using this.1
        have := abs_eq_zero.1 (le_antisymm h3 (abs_nonneg _))
        linarith
      · rw [get_of_not_mem hn, get_of_not_mem (fun h => hn ((h1 n).2 h))]
    · rw [h2 n]
      unfold Near
      simp

example : IsMap [(922350000, (1 : ℚ)), (922380000, 4)] ∧ (0 : ℚ) ≤ 1 / 10 ∧
    almostEq [(922350000, (1 : ℚ)), (922380000, 4)] [(922380000, 41/10), (922350000, 1)] (1/10)
      = .ok true :=
  ⟨by simp [IsMap], by norm_num, by decide +kernel⟩

end Cyclus.CompMath
