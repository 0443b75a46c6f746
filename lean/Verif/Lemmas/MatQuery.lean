import Verif.Model.MatQuery
import Verif.Lemmas.CompMath
import Mathlib.Tactic.Linarith
import Mathlib.Tactic.FieldSimp
import Mathlib.Tactic.Positivity

namespace Cyclus.MatQuery

open Cyclus.CompMath

theorem foldl_sum {α : Type} (f : α → ℚ) (l : List α) (t : ℚ) :
    l.foldl (fun t x => t + f x) t = t + (l.map f).sum := by
  induction l generalizing t with
  | nil => simp
  | cons a l ih => simp [ih, add_assoc]

theorem get_nonneg {v : CompMap} (h : ∀ e ∈ v, 0 ≤ e.2) (n : ℕ) : 0 ≤ CompMath.get v n := by
  induction v with
  | nil => simp [CompMath.get]
  | cons e v ih =>
    obtain ⟨k, x⟩ := e
    simp only [CompMath.get]
    split
    · exact h (k, x) (by simp)
    · exact ih fun e he => h e (by simp [he])

theorem has_iff {v : CompMap} {n : ℕ} : has v n = true ↔ n ∈ v.map Prod.fst := by
  simp [has]

theorem get_of_mem {v : CompMap} (hk : Keys v) {n : ℕ} {q : ℚ} (h : (n, q) ∈ v) :
    CompMath.get v n = q := by
  induction v with
  | nil => simp at h
  | cons e v ih =>
    obtain ⟨k, x⟩ := e
    unfold Keys at hk ih
    simp only [List.map_cons, List.nodup_cons] at hk
    simp only [CompMath.get]
    rcases List.mem_cons.1 h with h | h
    · simp only [Prod.mk.injEq] at h
      rw [if_pos h.1.symm, h.2]
    · rw [if_neg, ih hk.2 h]
      rintro rfl
      exact hk.1 (List.mem_map_of_mem h)

theorem mem_of_get {v : CompMap} {n : ℕ} (h : CompMath.get v n ≠ 0) :
    (n, CompMath.get v n) ∈ v := by
  induction v with
  | nil => simp [CompMath.get] at h
  | cons e v ih =>
    obtain ⟨k, x⟩ := e
    simp only [CompMath.get] at h ⊢
    split
    · rename_i hk; subst hk; simp
    · rename_i hk
      rw [if_neg hk] at h
      exact List.mem_cons_of_mem _ (ih h)

theorem keys_map (f : ℕ → ℚ → ℚ) (v : CompMap) :
    (v.map fun e => (e.1, f e.1 e.2)).map Prod.fst = v.map Prod.fst := by
  simp [List.map_map, Function.comp_def]

theorem normalize_keys (v : CompMap) (x : ℚ) : (normalize v x).map Prod.fst = v.map Prod.fst := by
  unfold normalize
  split
  · exact keys_map (fun _ q => q * (x / sum v)) v
  · rfl

theorem get_atom (am : ℕ → ℚ) (v : CompMap) (n : ℕ) :
    CompMath.get (atomOfMass am v) n = CompMath.get v n / am n := by
  induction v with
  | nil => simp [atomOfMass, CompMath.get]
  | cons e v ih =>
    obtain ⟨k, x⟩ := e
    simp only [atomOfMass, List.map_cons, CompMath.get] at ih ⊢
    split
    · rename_i h; subst h; rfl
    · exact ih

theorem sum_nonneg {v : CompMap} (h : ∀ e ∈ v, 0 ≤ e.2) : 0 ≤ sum v := by
  rw [sum_eq]
  exact List.sum_nonneg fun x hx => by
    obtain ⟨e, he, rfl⟩ := List.mem_map.1 hx
    exact h e he

theorem normalize_nonneg {v : CompMap} (h : ∀ e ∈ v, 0 ≤ e.2) {x : ℚ} (hx : 0 ≤ x) :
    ∀ e ∈ normalize v x, 0 ≤ e.2 := by
  unfold normalize
  split
  · intro e he
    obtain ⟨e', he', rfl⟩ := List.mem_map.1 he
    exact mul_nonneg (h e' he') (div_nonneg hx (sum_nonneg h))
  · exact h

/-- The sum over the entries is the sum of what the keys read. -/
theorem sum_keys {v : CompMap} (hk : Keys v) :
    ((v.map Prod.fst).map (CompMath.get v)).sum = (v.map Prod.snd).sum := by
  rw [List.map_map]
  congr 1
  refine List.map_congr_left fun e he => ?_
  exact get_of_mem hk he

/-- What the loop of `Amount` computes. -/
theorem amountLoop_spec {m : CompMap} {o : CompMap} (hko : Keys o) (hm : ∀ e ∈ m, 0 ≤ e.2)
    (ho : ∀ e ∈ o, 0 ≤ e.2) {r0 : ℚ} (h0 : 0 ≤ r0) :
    (∀ r, amountLoop m o r0 = some r → 0 ≤ r ∧ r ≤ r0 ∧ (∀ e ∈ o, r * e.2 ≤ CompMath.get m e.1) ∧
      (r = r0 ∨ ∃ e ∈ o, 0 < e.2 ∧ r * e.2 = CompMath.get m e.1)) ∧
    (amountLoop m o r0 = none → ∃ e ∈ o, 0 < e.2 ∧ CompMath.get m e.1 = 0) := by
  induction o generalizing r0 with
  | nil => simp [amountLoop, h0]
  | cons e o ih =>
    obtain ⟨n, q⟩ := e
    have hk' : Keys o := by
      unfold Keys at hko ⊢
      simp only [List.map_cons, List.nodup_cons] at hko
      exact hko.2
    have ho' : ∀ e ∈ o, 0 ≤ e.2 := fun e he => ho e (by simp [he])
    have hq : 0 ≤ q := ho (n, q) (by simp)
    have hg := get_nonneg hm n
    unfold amountLoop
    by_cases h1 : (!has m n && decide (0 < q)) = true
    · rw [if_pos h1]
      simp only [Bool.and_eq_true, Bool.not_eq_true', decide_eq_true_eq] at h1
      refine ⟨by simp, fun _ => ⟨(n, q), by simp, h1.2, ?_⟩⟩
      refine get_of_not_mem fun hc => ?_
      rw [has_iff.2 hc] at h1
      simp at h1
    · rw [if_neg h1]
      by_cases h2 : q = 0
      · rw [if_pos h2]
        obtain ⟨i1, i2⟩ := ih hk' ho' h0
        refine ⟨fun r hr => ?_, fun hr => ?_⟩
        · obtain ⟨a, b, c, d⟩ := i1 r hr
          refine ⟨a, b, ?_, ?_⟩
          · intro e he
            rcases List.mem_cons.1 he with rfl | he
            · simpa [h2] using hg
            · exact c e he
          · rcases d with d | ⟨e, he, d⟩
            · exact Or.inl d
            · exact Or.inr ⟨e, by simp [he], d⟩
        · obtain ⟨e, he, d⟩ := i2 hr
          exact ⟨e, by simp [he], d⟩
      · rw [if_neg h2]
        have hq' : 0 < q := lt_of_le_of_ne hq (Ne.symm h2)
        have hdiv : CompMath.get m n / q * q = CompMath.get m n := by field_simp
        by_cases h3 : CompMath.get m n / q < r0
        · rw [if_pos h3]
          obtain ⟨i1, i2⟩ := ih hk' ho' (div_nonneg hg hq)
          refine ⟨fun r hr => ?_, fun hr => ?_⟩
          · obtain ⟨a, b, c, d⟩ := i1 r hr
            refine ⟨a, by linarith, ?_, ?_⟩
            · intro e he
              rcases List.mem_cons.1 he with rfl | he
              · have := mul_le_mul_of_nonneg_right b hq
                simp only
                linarith
              · exact c e he
            · rcases d with d | ⟨e, he, d⟩
              · exact Or.inr ⟨(n, q), by simp, hq', by rw [d]; exact hdiv⟩
              · exact Or.inr ⟨e, by simp [he], d⟩
          · obtain ⟨e, he, d⟩ := i2 hr
            exact ⟨e, by simp [he], d⟩
        · rw [if_neg h3]
          obtain ⟨i1, i2⟩ := ih hk' ho' h0
          refine ⟨fun r hr => ?_, fun hr => ?_⟩
          · obtain ⟨a, b, c, d⟩ := i1 r hr
            refine ⟨a, b, ?_, ?_⟩
            · intro e he
              rcases List.mem_cons.1 he with rfl | he
              · have := mul_le_mul_of_nonneg_right (b.trans (not_lt.1 h3)) hq
                simp only
                linarith
              · exact c e he
            · rcases d with d | ⟨e, he, d⟩
              · exact Or.inl d
              · exact Or.inr ⟨e, by simp [he], d⟩
          · obtain ⟨e, he, d⟩ := i2 hr
            exact ⟨e, by simp [he], d⟩

end Cyclus.MatQuery
