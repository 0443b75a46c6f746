import Verif.Spec.EnvPaths
import Mathlib.Data.List.TakeWhile

/-!
# Lemmas about paths
-/

namespace Cyclus.EnvPaths

/-- The text from the last slash on backwards. -/
theorem drop_last (b f : Txt) (hf : '/' ∉ f) : (b ++ '/' :: f).reverse.dropWhile (· != '/') = '/' :: b.reverse := by
  have h : (b ++ '/' :: f).reverse = f.reverse ++ '/' :: b.reverse := by simp
  rw [h, List.dropWhile_append_of_pos]
  · rw [List.dropWhile_cons_of_neg (by simp)]
  · intro c hc
    simp only [bne_iff_ne]
    rintro rfl
    exact hf (List.mem_reverse.mp hc)

theorem drop_none (p : Txt) (hp : '/' ∉ p) : p.reverse.dropWhile (· != '/') = [] := by
  rw [List.dropWhile_eq_nil_iff]
  intro c hc
  simp only [bne_iff_ne]
  rintro rfl
  exact hp (List.mem_reverse.mp hc)

theorem parent_dir (b f : Txt) (hb : Dir b) (hf : '/' ∉ f) : parent (b ++ '/' :: f) = b := by
  unfold parent
  rw [drop_last b f hf]
  dsimp only
  obtain ⟨h0, h1⟩ := hb
  have h2 : b.reverse.dropWhile (· == '/') = b.reverse := by
    cases hr : b.reverse with
    | nil => rfl
    | cons c r =>
      rw [List.dropWhile_cons_of_neg]
      simp only [beq_iff_eq]
      rintro rfl
      apply h1
      rw [← List.head?_reverse, hr]
      rfl
  rw [h2]
  cases hr : b.reverse with
  | nil => exact absurd (List.reverse_eq_nil_iff.mp hr) h0
  | cons c r =>
    dsimp only
    rw [← hr, List.reverse_reverse]

theorem dir_name (b f : Txt) (hf : Name f) : Dir (b ++ '/' :: f) := by
  refine ⟨by simp, fun h => ?_⟩
  have : f.getLast? = some '/' := by
    rw [List.getLast?_append] at h
    rw [List.getLast?_cons] at h
    cases hl : f.getLast? with
    | none => exact absurd (List.getLast?_eq_none_iff.mp hl) hf.1
    | some c =>
      rw [hl] at h
      simpa using h
  exact hf.2 (List.mem_of_getLast? this)

theorem cut_eq {t : Txt} (h : Char.ofNat 0 ∉ t) : cut t = t := by
  unfold cut
  rw [List.takeWhile_eq_self_iff]
  intro c hc
  simp only [bne_iff_ne]
  rintro rfl
  exact h hc

/-- Padding is cut off. -/
theorem cut_pad {d : Txt} (h : Char.ofNat 0 ∉ d) (n : ℕ) : cut (d ++ List.replicate n (Char.ofNat 0)) = d := by
  cases n with
  | zero => simpa using cut_eq h
  | succ n =>
    unfold cut
    rw [List.replicate_succ, List.takeWhile_append_of_pos]
    · rw [List.takeWhile_cons_of_neg (by simp), List.append_nil]
    · intro c hc
      simp only [bne_iff_ne]
      rintro rfl
      exact h hc

theorem lines_ne_nil (d : Char) : ∀ (r cur : Txt), (cur ≠ [] ∨ r ≠ []) → lines d cur r ≠ []
  | [], cur, h => by
    rcases h with h | h
    · simp [lines, h]
    · exact absurd rfl h
  | c :: r, cur, _ => by
    rw [lines]
    split
    · simp
    · exact lines_ne_nil d r _ (Or.inl (by simp))

theorem lines_mem (d : Char) : ∀ (r cur : Txt), d ∉ cur → ∀ x ∈ lines d cur r, d ∉ x
  | [], cur, h, x, hx => by
    rw [lines] at hx
    split at hx
    · simp at hx
    · rw [List.mem_singleton] at hx
      subst hx
      exact h
  | c :: r, cur, h, x, hx => by
    rw [lines] at hx
    split at hx
    · rcases List.mem_cons.mp hx with hx | hx
      · subst hx
        exact h
      · exact lines_mem d r [] (by simp) x hx
    · rename_i hc
      refine lines_mem d r _ ?_ x hx
      simp only [List.mem_append, List.mem_singleton, not_or]
      exact ⟨h, fun h' => hc h'.symm⟩

/-- What was read, written together again. -/
theorem lines_join (d : Char) : ∀ (r cur : Txt), d ∉ cur →
    (if r.getLast? = some d then join d (lines d cur r) ++ [d] else join d (lines d cur r)) = cur ++ r
  | [], cur, h => by
    simp only [List.getLast?_nil, reduceCtorEq, if_false, lines, List.append_nil]
    split
    · rename_i h0
      subst h0
      rfl
    · rfl
  | [c], cur, h => by
    by_cases hc : c = d
    · subst hc
      simp [lines, join]
    · have : (some c = some d) ↔ False := by simp [hc]
      simp [lines, hc, join]
  | c :: e :: r, cur, h => by
    have hl : (c :: e :: r).getLast? = (e :: r).getLast? := by simp [List.getLast?_cons]
    rw [hl]
    by_cases hc : c = d
    · have ih := lines_join d (e :: r) [] (by simp)
      have hn := lines_ne_nil d (e :: r) [] (Or.inr (by simp))
      rw [lines, if_pos hc]
      cases hL : lines d [] (e :: r) with
      | nil => exact absurd hL hn
      | cons y l =>
        rw [hL] at ih
        simp only [List.nil_append] at ih
        rw [join]
        split
        · rename_i h1
          rw [if_pos h1] at ih
          rw [List.append_assoc, List.cons_append, ih, hc]
        · rename_i h1
          rw [if_neg h1] at ih
          rw [ih, hc]
    · have ih := lines_join d (e :: r) (cur ++ [c]) (by
        simp only [List.mem_append, List.mem_singleton, not_or]
        exact ⟨h, fun h' => hc h'.symm⟩)
      rw [lines, if_neg hc]
      simpa using ih

end Cyclus.EnvPaths
