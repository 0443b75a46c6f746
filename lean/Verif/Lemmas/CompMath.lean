import Verif.Model.CompMath
import Mathlib.Tactic.Ring
import Mathlib.Tactic.Linarith
import Mathlib.Tactic.FieldSimp
import Mathlib.Algebra.Order.BigOperators.Group.List

/-! Helper lemmas about composition maps. -/

namespace Cyclus.CompMath

/-- Keys are distinct. -/
def Keys (v : CompMap) : Prop := (v.map Prod.fst).Nodup

theorem kahanLoop_eq : ∀ (l : List ℚ) (s : ℚ), kahanLoop l s 0 = s + l.sum := by
  intro l
  induction l with
  | nil => intro s; simp [kahanLoop]
  | cons x l ih =>
    intro s
    simp only [kahanLoop]
    have : s + (x - 0) - s - (x - 0) = 0 := by ring
    rw [this, ih, List.sum_cons]; ring

theorem insertSorted_sum (x : ℚ) (l : List ℚ) : (insertSorted x l).sum = x + l.sum := by
  induction l with
  | nil => simp [insertSorted]
  | cons y l ih =>
    unfold insertSorted
    split
    · simp
    · simp only [List.sum_cons, ih]; ring

theorem sorted_sum (l : List ℚ) : (sorted l).sum = l.sum := by
  induction l with
  | nil => rfl
  | cons x l ih => simp only [sorted, List.foldr_cons] at ih ⊢; rw [insertSorted_sum, ih, List.sum_cons]

theorem kahanSum_eq (l : List ℚ) : kahanSum l = l.sum := by
  rw [kahanSum, kahanLoop_eq, zero_add]
  exact sorted_sum l

theorem sum_eq (v : CompMap) : sum v = (v.map Prod.snd).sum := kahanSum_eq _

theorem sum_addTo (v : CompMap) (n : ℕ) (q : ℚ) :
    ((addTo v n q).map Prod.snd).sum = (v.map Prod.snd).sum + q := by
  induction v with
  | nil => simp [addTo]
  | cons e v ih =>
    obtain ⟨k, x⟩ := e
    unfold addTo
    split
    · simp only [List.map_cons, List.sum_cons]; ring
    · simp only [List.map_cons, List.sum_cons, ih]; ring

theorem get_addTo (v : CompMap) (n : ℕ) (q : ℚ) (m : ℕ) :
    get (addTo v n q) m = get v m + if n = m then q else 0 := by
  induction v with
  | nil => simp [addTo, get]
  | cons e v ih =>
    obtain ⟨k, x⟩ := e
    unfold addTo
    by_cases hk : k = n
    · subst hk
      rw [if_pos rfl]
      simp only [get]
      split <;> simp
    · rw [if_neg hk]
      simp only [get]
      by_cases hkm : k = m
      · subst hkm
        simp [Ne.symm hk]
      · rw [if_neg hkm, if_neg hkm, ih]

theorem keys_addTo {v : CompMap} (h : Keys v) (n : ℕ) (q : ℚ) : Keys (addTo v n q) := by
  have hmem : ∀ (v : CompMap) (a : ℕ), a ∈ (addTo v n q).map Prod.fst →
      a ∈ v.map Prod.fst ∨ a = n := by
    intro v a
    induction v with
    | nil => intro h; simp [addTo] at h; exact Or.inr h
    | cons e v ih =>
      obtain ⟨k, x⟩ := e
      unfold addTo
      split
      · intro h; left; simpa using h
      · intro h
        rw [List.map_cons, List.mem_cons] at h
        rcases h with h | h
        · left; simp [h]
        · rcases ih h with h | h
          · left; simp only [List.map_cons, List.mem_cons]; exact Or.inr h
          · exact Or.inr h
  induction v with
  | nil => simp [Keys, addTo]
  | cons e v ih =>
    obtain ⟨k, x⟩ := e
    unfold Keys at h
    rw [List.map_cons, List.nodup_cons] at h
    unfold addTo
    split
    · unfold Keys; rw [List.map_cons, List.nodup_cons]; exact h
    · rename_i hk
      unfold Keys
      rw [List.map_cons, List.nodup_cons]
      refine ⟨?_, ih h.2⟩
      intro hm
      rcases hmem v k hm with hm | hm
      · exact h.1 hm
      · exact hk hm

/-- The total stored under a nuclide when keys may repeat; equal to `get` for distinct keys. -/
def tot (w : CompMap) (m : ℕ) : ℚ := (w.map fun e => if e.1 = m then e.2 else 0).sum

theorem get_of_not_mem {v : CompMap} {n : ℕ} (h : n ∉ v.map Prod.fst) : get v n = 0 := by
  induction v with
  | nil => rfl
  | cons e v ih =>
    obtain ⟨k, x⟩ := e
    simp only [List.map_cons, List.mem_cons, not_or] at h
    simp only [get, if_neg (Ne.symm h.1)]
    exact ih h.2

theorem tot_eq_get {v : CompMap} (h : Keys v) (m : ℕ) : tot v m = get v m := by
  induction v with
  | nil => simp [tot, get]
  | cons e v ih =>
    obtain ⟨k, x⟩ := e
    unfold Keys at h
    rw [List.map_cons, List.nodup_cons] at h
    simp only [tot, List.map_cons, List.sum_cons, get]
    have := ih h.2
    unfold tot at this
    rw [this]
    split
    · rename_i hk
      subst hk
      rw [get_of_not_mem h.1, add_zero]
    · simp

theorem get_foldl_addTo (f : ℚ → ℚ) : ∀ (w v : CompMap) (m : ℕ),
    get (w.foldl (fun out e => addTo out e.1 (f e.2)) v) m
      = get v m + (w.map fun e => if e.1 = m then f e.2 else 0).sum := by
  intro w
  induction w with
  | nil => intro v m; simp
  | cons e w ih =>
    intro v m
    rw [List.foldl_cons, ih, get_addTo, List.map_cons, List.sum_cons]; ring

theorem sum_foldl_addTo (f : ℚ → ℚ) : ∀ (w v : CompMap),
    ((w.foldl (fun out e => addTo out e.1 (f e.2)) v).map Prod.snd).sum
      = (v.map Prod.snd).sum + (w.map fun e => f e.2).sum := by
  intro w
  induction w with
  | nil => intro v; simp
  | cons e w ih =>
    intro v
    rw [List.foldl_cons, ih, sum_addTo, List.map_cons, List.sum_cons]; ring

theorem keys_foldl_addTo (f : ℚ → ℚ) : ∀ (w v : CompMap), Keys v →
    Keys (w.foldl (fun out e => addTo out e.1 (f e.2)) v) := by
  intro w
  induction w with
  | nil => intro v h; exact h
  | cons e w ih =>
    intro v h
    rw [List.foldl_cons]
    exact ih _ (keys_addTo h _ _)

theorem get_add {v w : CompMap} (hw : Keys w) (m : ℕ) : get (add v w) m = get v m + get w m := by
  have := get_foldl_addTo id w v m
  rw [← tot_eq_get hw m]
  exact this

theorem sum_add (v w : CompMap) : sum (add v w) = sum v + sum w := by
  have := sum_foldl_addTo id w v
  rw [sum_eq, sum_eq, sum_eq]
  exact this

theorem keys_add {v : CompMap} (w : CompMap) (h : Keys v) : Keys (add v w) :=
  keys_foldl_addTo id w v h

theorem sum_map_neg (l : List ℚ) : (l.map fun x => -x).sum = -l.sum := by
  induction l with
  | nil => simp
  | cons x l ih => simp only [List.map_cons, List.sum_cons, ih]; ring

theorem get_sub {v w : CompMap} (hw : Keys w) (m : ℕ) : get (sub v w) m = get v m - get w m := by
  have := get_foldl_addTo (fun x => -x) w v m
  rw [sub_eq_add_neg, ← tot_eq_get hw m, tot]
  rw [← sum_map_neg]
  simp only [List.map_map]
  rw [sub]
  rw [this]
  congr 2
  apply List.map_congr_left
  intro e _
  simp only [Function.comp]
  split <;> simp

theorem sum_sub (v w : CompMap) : sum (sub v w) = sum v - sum w := by
  have := sum_foldl_addTo (fun x => -x) w v
  rw [sum_eq, sum_eq, sum_eq, sub, this, sub_eq_add_neg, ← sum_map_neg, List.map_map]
  rfl

theorem keys_sub {v : CompMap} (w : CompMap) (h : Keys v) : Keys (sub v w) :=
  keys_foldl_addTo (fun x => -x) w v h

theorem get_map_mul (v : CompMap) (c : ℚ) (m : ℕ) :
    get (v.map fun e => (e.1, e.2 * c)) m = get v m * c := by
  induction v with
  | nil => simp [get]
  | cons e v ih =>
    simp only [List.map_cons, get]
    split
    · rfl
    · exact ih

theorem sum_map_mul (v : CompMap) (c : ℚ) :
    sum (v.map fun e => (e.1, e.2 * c)) = sum v * c := by
  rw [sum_eq, sum_eq]
  induction v with
  | nil => simp
  | cons e v ih =>
    simp only [List.map_cons, List.sum_cons] at ih ⊢
    rw [ih]; ring

theorem keys_normalize {v : CompMap} (h : Keys v) (x : ℚ) : Keys (normalize v x) := by
  unfold normalize
  split
  · unfold Keys at *
    rw [List.map_map]
    exact h
  · exact h

theorem sum_normalize {v : CompMap} {x : ℚ} (h : sum v ≠ 0) : sum (normalize v x) = x := by
  unfold normalize
  split
  · rw [sum_map_mul]; field_simp
  · rename_i hn
    by_contra hne
    exact hn ⟨hne, h⟩

theorem get_normalize {v : CompMap} {x : ℚ} (h : sum v ≠ 0) (m : ℕ) :
    get (normalize v x) m = get v m * (x / sum v) := by
  unfold normalize
  split
  · rw [get_map_mul]
  · rename_i hn
    have hs : sum v = x := by
      by_contra hne
      exact hn ⟨hne, h⟩
    rw [hs, div_self (hs ▸ h), mul_one]

theorem normalize_blank {v : CompMap} {x : ℚ} (h : sum v = 0) : normalize v x = v := by
  unfold normalize
  rw [if_neg]
  intro hh; exact hh.2 h

theorem allPositive_iff {v : CompMap} : allPositive v = true ↔ ∀ e ∈ v, 0 ≤ e.2 := by
  simp [allPositive]

/-- A non-negative map with zero sum stores only zeros. -/
theorem get_zero_of_blank {v : CompMap} (hp : allPositive v = true) (h : sum v = 0) (m : ℕ) :
    get v m = 0 := by
  rw [allPositive_iff] at hp
  rw [sum_eq] at h
  have hall : ∀ e ∈ v, e.2 = 0 := by
    intro e he
    have h1 : e.2 ≤ (v.map Prod.snd).sum :=
      List.single_le_sum (fun x hx => by
        obtain ⟨e', he', rfl⟩ := List.mem_map.1 hx
        exact hp e' he') _ (List.mem_map_of_mem he)
    have := hp e he
    linarith
  clear h hp
  induction v with
  | nil => rfl
  | cons e v ih =>
    simp only [get]
    split
    · exact hall e (by simp)
    · exact ih (fun e' he' => hall e' (by simp [he']))

theorem applyThreshold_ok {v w : CompMap} {t : ℚ} (h : applyThreshold v t = .ok w) :
    0 ≤ t ∧ w = v.filter fun e => !decide (|e.2| ≤ t) := by
  unfold applyThreshold at h
  split at h
  · cases h
  · rename_i ht
    cases h
    exact ⟨not_lt.1 ht, rfl⟩

theorem keys_filter {v : CompMap} (h : Keys v) (p : ℕ × ℚ → Bool) : Keys (v.filter p) := by
  unfold Keys at *
  exact h.sublist (List.filter_sublist.map Prod.fst)

/-- Removing entries that are exactly zero changes neither the amounts nor the sum. -/
theorem filter_zero (v : CompMap) : (∀ m, Keys v →
      get (v.filter fun e => !decide (|e.2| ≤ (0 : ℚ))) m = get v m) ∧
    sum (v.filter fun e => !decide (|e.2| ≤ (0 : ℚ))) = sum v := by
  constructor
  · intro m hk
    induction v with
    | nil => rfl
    | cons e v ih =>
      obtain ⟨k, x⟩ := e
      unfold Keys at hk
      rw [List.map_cons, List.nodup_cons] at hk
      by_cases hx : |x| ≤ 0
      · have hx0 : x = 0 := abs_eq_zero.1 (le_antisymm hx (abs_nonneg _))
        rw [List.filter_cons_of_neg (by simp [hx0])]
        simp only [get]
        split
        · rename_i hkm
          subst hkm
          rw [ih hk.2, get_of_not_mem hk.1, hx0]
        · exact ih hk.2
      · rw [List.filter_cons_of_pos (by simpa using hx)]
        simp only [get]
        split
        · rfl
        · exact ih hk.2
  · rw [sum_eq, sum_eq]
    induction v with
    | nil => rfl
    | cons e v ih =>
      obtain ⟨k, x⟩ := e
      by_cases hx : |x| ≤ 0
      · have hx0 : x = 0 := abs_eq_zero.1 (le_antisymm hx (abs_nonneg _))
        rw [List.filter_cons_of_neg (by simp [hx0]), ih]
        simp [hx0]
      · rw [List.filter_cons_of_pos (by simpa using hx), List.map_cons, List.sum_cons, ih]
        simp

theorem createFrom_ok {isnuc : ℕ → Bool} {v w : CompMap} (h : createFrom isnuc v = .ok w) :
    w = v ∧ allPositive v = true ∧ validNucs isnuc v = true := by
  unfold createFrom at h
  split at h
  · cases h
  · split at h
    · cases h
    · cases h; simp_all

end Cyclus.CompMath
