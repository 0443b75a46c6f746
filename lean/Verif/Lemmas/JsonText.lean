import Verif.Model.JsonText

/-! # Lemmas about the reader of JSON text: the counter and the tokens -/

namespace Cyclus.JsonText

open Kahan (Dbl)

theorem dropWhile_len (p : Char → Bool) (s : Text) : (s.dropWhile p).length ≤ s.length :=
  (List.dropWhile_suffix p).length_le

theorem readString_len (s : Text) : ∀ raw rest, readString s = some (raw, rest) → rest.length < s.length := by
  induction s using readString.induct with
  | case1 => intro raw rest h; simp [readString] at h
  | case2 => intro raw rest h; simp [readString] at h
  | case3 => intro raw rest h; simp [readString] at h; simp [← h.2]
  | case4 c h1 h2 => intro raw rest h; simp [readString, h1, h2] at h
  | case5 d r ih =>
    intro raw rest h
    simp only [readString, if_true, Option.map_eq_some_iff] at h
    obtain ⟨⟨a, b⟩, e, h⟩ := h
    simp only [Prod.mk.injEq] at h
    have := ih a b e
    rw [← h.2]
    simp only [List.length_cons]
    omega
  | case6 d r _ =>
    intro raw rest h
    simp [readString] at h
    rw [← h.2]
    simp
  | case7 c d r h1 h2 ih =>
    intro raw rest h
    simp only [readString, h1, h2, if_false, Option.map_eq_some_iff] at h
    obtain ⟨⟨a, b⟩, e, h⟩ := h
    simp only [Prod.mk.injEq] at h
    have := ih a b e
    rw [← h.2]
    simp only [List.length_cons] at *
    omega

theorem cComment_len (s : Text) : ∀ rest, cComment s = some rest → rest.length < s.length := by
  induction s using cComment.induct with
  | case1 => intro rest h; simp [cComment] at h
  | case2 => intro rest h; simp [cComment] at h
  | case3 c d r hc =>
    intro rest h
    simp only [cComment, hc, and_self, if_true, Option.some.injEq] at h
    rw [← h]; simp only [List.length_cons]; omega
  | case4 c d r hc ih =>
    intro rest h
    rw [cComment, if_neg hc] at h
    have := ih rest h
    simp only [List.length_cons] at *; omega

theorem cppComment_len (s : Text) : (cppComment s).length ≤ s.length := by
  induction s with
  | nil => simp [cppComment]
  | cons c r ih => rw [cppComment]; split <;> simp only [List.length_cons] <;> omega

theorem matchWord_len (w : Text) (t : Tok) (s : Text) : (matchWord w t s).2.length ≤ s.length := by
  unfold matchWord; split <;> simp

theorem ite_len {p : Prop} [Decidable p] {a b : Tok × Text} {n : ℕ} (h1 : a.2.length < n)
    (h2 : b.2.length < n) : (if p then a else b).2.length < n := by
  split <;> assumption

theorem tokenAt_len (s : Text) : (tokenAt s).2.length < s.length ∨ (tokenAt s).1 = .eos ∧ s = [] := by
  cases s with
  | nil => right; simp [tokenAt]
  | cons c r =>
    left
    have h1 : ∀ w t, (matchWord w t r).2.length < (c :: r).length := fun w t => by
      have := matchWord_len w t r
      simp only [List.length_cons]; omega
    rw [tokenAt.eq_def]
    simp only
    have h0 : r.length < (c :: r).length := by simp
    refine ite_len h0 (ite_len h0 (ite_len h0 (ite_len h0 (ite_len ?_ (ite_len ?_ (ite_len ?_
      (ite_len (h1 _ _) (ite_len (h1 _ _) (ite_len (h1 _ _) (ite_len h0 (ite_len h0
      (ite_len h0 h0))))))))))))
    · cases h : readString r with
      | none => simp
      | some p =>
        obtain ⟨a, b⟩ := p
        have := readString_len _ _ _ h
        simp only [List.length_cons]; omega
    · cases r with
      | nil => simp
      | cons d r =>
        simp only
        refine ite_len ?_ (ite_len ?_ ?_)
        · cases h : cComment r with
          | none => simp
          | some p =>
            have := cComment_len _ _ h
            simp only [List.length_cons]; omega
        · have := cppComment_len r
          simp only [List.length_cons]; omega
        · simp only [List.length_cons]; omega
    · have := dropWhile_len isNum r
      simp only [List.length_cons]; omega

theorem readToken_len (s : Text) :
    (readToken s).2.length < s.length ∨ (readToken s).1 = .eos ∧ (readToken s).2.length ≤ s.length := by
  have h := dropWhile_len isSpace s
  rcases tokenAt_len (s.dropWhile isSpace) with h' | ⟨h1, h2⟩
  · left; exact lt_of_lt_of_le h' h
  · right
    refine ⟨h1, ?_⟩
    unfold readToken
    rw [h2]; simp [tokenAt]

theorem skipTok_stable (f : ℕ) : ∀ (g : ℕ) (s : Text), s.length ≤ f → s.length ≤ g →
    skipTok f s = skipTok g s := by
  induction f with
  | zero =>
    intro g s hs _
    have : s = [] := List.length_eq_zero_iff.mp (by omega)
    subst this
    cases g <;> rfl
  | succ f ih =>
    intro g s hs hg
    cases g with
    | zero =>
      have : s = [] := List.length_eq_zero_iff.mp (by omega)
      subst this
      rfl
    | succ g =>
      rw [skipTok, skipTok]
      rcases hr : readToken s with ⟨t, r⟩
      have hl := readToken_len s
      rw [hr] at hl
      by_cases ht : t = .comment
      · subst ht
        rcases hl with hl | ⟨hl, _⟩
        · exact ih g r (by simp only at hl; omega) (by simp only at hl; omega)
        · simp at hl
      · cases t <;> first | exact absurd rfl ht | rfl

/-- The reader skips comments one after the other. -/
theorem nextTok_eq (s : Text) : nextTok s = match readToken s with
    | (.comment, r) => nextTok r
    | t => t := by
  unfold nextTok
  cases hs : s.length with
  | zero =>
    have : s = [] := List.length_eq_zero_iff.mp hs
    subst this
    rfl
  | succ n =>
    rw [skipTok]
    rcases hr : readToken s with ⟨t, r⟩
    have hl := readToken_len s
    rw [hr] at hl
    by_cases ht : t = .comment
    · subst ht
      rcases hl with hl | ⟨hl, _⟩
      · exact skipTok_stable n r.length r (by simp only at hl; omega) le_rfl
      · simp at hl
    · cases t <;> first | exact absurd rfl ht | rfl

theorem nextTok_len (n : ℕ) : ∀ s : Text, s.length ≤ n →
    ((nextTok s).2.length < s.length ∨ (nextTok s).1 = .eos ∧ (nextTok s).2.length ≤ s.length) ∧
      (nextTok s).1 ≠ .comment := by
  induction n with
  | zero =>
    intro s hs
    have : s = [] := List.length_eq_zero_iff.mp (by omega)
    subst this
    decide
  | succ n ih =>
    intro s hs
    rw [nextTok_eq]
    rcases hr : readToken s with ⟨t, r⟩
    have hl := readToken_len s
    rw [hr] at hl
    by_cases ht : t = .comment
    · subst ht
      rcases hl with hl | ⟨hl, _⟩
      · simp only at hl ⊢
        obtain ⟨h1, h2⟩ := ih r (by omega)
        refine ⟨Or.inl ?_, h2⟩
        rcases h1 with h1 | ⟨_, h1⟩ <;> omega
      · simp at hl
    · cases t <;> first | exact absurd rfl ht | exact ⟨hl, by simp⟩

/-! ## The counter -/

theorem read_mono (rd : ℚ → Dbl) (f : ℕ) :
    (∀ s, readValue rd f s ≠ .out → readValue rd (f + 1) s = readValue rd f s) ∧
    (∀ a s, readItems rd f a s ≠ .out → readItems rd (f + 1) a s = readItems rd f a s) ∧
    (∀ a u s, readMembers rd f a u s ≠ .out → readMembers rd (f + 1) a u s = readMembers rd f a u s) := by
  induction f with
  | zero =>
    refine ⟨fun s h => ?_, fun a s h => ?_, fun a u s h => ?_⟩
    · exact absurd (by simp [readValue]) h
    · exact absurd (by simp [readItems]) h
    · exact absurd (by simp [readMembers]) h
  | succ f ih =>
    obtain ⟨i1, i2, i3⟩ := ih
    refine ⟨fun s h => ?_, fun a s h => ?_, fun a u s h => ?_⟩
    · rw [readValue] at h ⊢
      rw [readValue]
      generalize nextTok s = p at h ⊢; obtain ⟨t, r'⟩ := p
      cases t <;> simp only at h ⊢
      · exact i3 _ _ _ h
      · split at h
        · rfl
        · exact i2 _ _ h
    · rw [readItems] at h ⊢
      rw [readItems]
      have hv : readValue rd f s ≠ .out := by intro e; rw [e] at h; exact h rfl
      rw [i1 _ hv]
      cases e : readValue rd f s with
      | ok v' r' =>
        rw [e] at h
        simp only at h ⊢
        generalize nextTok r' = p at h ⊢; obtain ⟨t, r''⟩ := p
        cases t <;> simp only at h ⊢
        exact i2 _ _ h
      | bad => rfl
      | out => exact absurd e hv
    · rw [readMembers] at h ⊢
      rw [readMembers]
      generalize nextTok s = p at h ⊢; obtain ⟨t, r'⟩ := p
      cases t <;> simp only at h ⊢
      rename_i raw
      cases hd : decodeString raw with
      | none => rfl
      | some name =>
        rw [hd] at h
        simp only at h ⊢
        generalize readToken r' = p at h ⊢; obtain ⟨t, r''⟩ := p
        cases t <;> simp only at h ⊢
        have hv : readValue rd f r'' ≠ .out := by intro e; rw [e] at h; exact h rfl
        rw [i1 _ hv]
        cases e : readValue rd f r'' with
        | bad => rfl
        | out => exact absurd e hv
        | ok v' q =>
          rw [e] at h
          simp only at h ⊢
          generalize readToken q = p at h ⊢; obtain ⟨t, q'⟩ := p
          cases t <;> simp only at h ⊢
          · exact i3 _ _ _ h
          · generalize nextTok q' = p at h ⊢; obtain ⟨t, q''⟩ := p
            cases t <;> simp only at h ⊢ <;> exact i3 _ _ _ h

theorem readValue_stable (rd : ℚ → Dbl) {f g : ℕ} (hg : f ≤ g) {s} (h : readValue rd f s ≠ .out) :
    readValue rd g s = readValue rd f s := by
  induction hg with
  | refl => rfl
  | step _ ih =>
    rw [← ih]
    exact (read_mono rd _).1 _ (by rw [ih]; exact h)

theorem readValue_mono (rd : ℚ → Dbl) {f g : ℕ} (hg : f ≤ g) {s v r} (h : readValue rd f s = .ok v r) :
    readValue rd g s = .ok v r := by
  rw [readValue_stable rd hg (by rw [h]; simp), h]

theorem readItems_mono (rd : ℚ → Dbl) {f g : ℕ} (hg : f ≤ g) {a s v r}
    (h : readItems rd f a s = .ok v r) : readItems rd g a s = .ok v r := by
  induction hg with
  | refl => exact h
  | step _ ih => rw [← ih]; exact (read_mono rd _).2.1 _ _ (by rw [ih]; simp)

theorem readMembers_mono (rd : ℚ → Dbl) {f g : ℕ} (hg : f ≤ g) {a u s v r}
    (h : readMembers rd f a u s = .ok v r) : readMembers rd g a u s = .ok v r := by
  induction hg with
  | refl => exact h
  | step _ ih => rw [← ih]; exact (read_mono rd _).2.2 _ _ _ (by rw [ih]; simp)

theorem dropWhile_cons_len {p : Char → Bool} {s : Text} {c : Char} {r : Text}
    (h : s.dropWhile p = c :: r) : r.length < s.length := by
  have := dropWhile_len p s
  rw [h] at this
  simp only [List.length_cons] at this
  omega

/-- A result is shorter than the text, and a counter that is large enough is enough. -/
theorem read_enough (rd : ℚ → Dbl) (f : ℕ) :
    (∀ s, (∀ v r, readValue rd f s = .ok v r → r.length < s.length) ∧
      (2 * s.length < f → readValue rd f s ≠ .out)) ∧
    (∀ a s, (∀ v r, readItems rd f a s = .ok v r → r.length < s.length) ∧
      (2 * s.length + 1 < f → readItems rd f a s ≠ .out)) ∧
    (∀ a u s, (∀ v r, readMembers rd f a u s = .ok v r → r.length < s.length) ∧
      (2 * s.length + 1 < f → readMembers rd f a u s ≠ .out)) := by
  induction f with
  | zero =>
    refine ⟨fun s => ⟨fun v r h => ?_, fun h => absurd h (by omega)⟩,
      fun a s => ⟨fun v r h => ?_, fun h => absurd h (by omega)⟩,
      fun a u s => ⟨fun v r h => ?_, fun h => absurd h (by omega)⟩⟩
    · simp [readValue] at h
    · simp [readItems] at h
    · simp [readMembers] at h
  | succ f ih =>
    obtain ⟨i1, i2, i3⟩ := ih
    refine ⟨fun s => ?_, fun a s => ?_, fun a u s => ?_⟩
    · rw [readValue]
      have hl := (nextTok_len _ s le_rfl).1
      generalize nextTok s = p at hl ⊢; obtain ⟨t, r'⟩ := p
      simp only at hl
      cases t <;> simp only [reduceCtorEq, false_and, or_false] at hl ⊢
      all_goals first
        | (constructor <;> simp; done)
        | (refine ⟨fun v r h => ?_, by simp⟩; injection h with _ h; rw [← h]; exact hl)
        | skip
      · refine ⟨fun v r h => lt_trans ((i3 _ _ _).1 v r h) hl, fun h => (i3 _ _ _).2 (by omega)⟩
      · split
        · rename_i r'' hr
          refine ⟨fun v r h => ?_, by simp⟩
          injection h with _ h
          rw [← h]
          exact lt_trans (dropWhile_cons_len hr) hl
        · rename_i hr
          have hd := dropWhile_len isSpace r'
          exact ⟨fun v r h => lt_of_lt_of_le ((i2 _ _).1 v r h) (by omega),
            fun h => (i2 _ _).2 (by omega)⟩
      · split
        · refine ⟨fun v r h => ?_, by simp⟩
          injection h with _ h; rw [← h]; exact hl
        · constructor <;> simp
      · split
        · refine ⟨fun v r h => ?_, by simp⟩
          injection h with _ h; rw [← h]; exact hl
        · constructor <;> simp
    · rw [readItems]
      have hv := i1 s
      cases e : readValue rd f s with
      | bad => constructor <;> simp
      | out => exact ⟨by simp, fun h => absurd e (hv.2 (by omega))⟩
      | ok v' r' =>
        have hr := hv.1 _ _ e
        simp only
        have hl := (nextTok_len _ r' le_rfl).1
        generalize nextTok r' = p at hl ⊢; obtain ⟨t, r''⟩ := p
        simp only at hl
        cases t <;> simp only [reduceCtorEq, false_and, or_false] at hl ⊢
        all_goals first
          | (constructor <;> simp; done)
          | (refine ⟨fun v r h => ?_, by simp⟩; injection h with _ h; rw [← h]; omega)
          | skip
        exact ⟨fun v r h => by have := (i2 _ _).1 v r h; omega, fun h => (i2 _ _).2 (by omega)⟩
    · rw [readMembers]
      have hl := (nextTok_len _ s le_rfl).1
      generalize nextTok s = p at hl ⊢; obtain ⟨t, r1⟩ := p
      simp only at hl
      cases t <;> simp only [reduceCtorEq, false_and, or_false] at hl ⊢
      all_goals first
        | (constructor <;> simp; done)
        | skip
      · split
        · refine ⟨fun v r h => ?_, by simp⟩
          injection h with _ h; rw [← h]; exact hl
        · constructor <;> simp
      · rename_i raw
        cases decodeString raw with
        | none => constructor <;> simp
        | some name =>
          simp only
          have hl2 := readToken_len r1
          generalize readToken r1 = p at hl2 ⊢; obtain ⟨t, r2⟩ := p
          simp only at hl2
          cases t <;> simp only [reduceCtorEq, false_and, or_false] at hl2 ⊢
          all_goals first
            | (constructor <;> simp; done)
            | skip
          have hv := i1 r2
          cases e : readValue rd f r2 with
          | bad => constructor <;> simp
          | out => exact ⟨by simp, fun h => absurd e (hv.2 (by omega))⟩
          | ok v' r3 =>
            have h3 := hv.1 _ _ e
            simp only
            have hl4 := readToken_len r3
            generalize readToken r3 = p at hl4 ⊢; obtain ⟨t, r4⟩ := p
            simp only at hl4
            cases t <;> simp only [reduceCtorEq, false_and, or_false] at hl4 ⊢
            all_goals first
              | (constructor <;> simp; done)
              | (refine ⟨fun v r h => ?_, by simp⟩; injection h with _ h; rw [← h]; omega)
              | skip
            · exact ⟨fun v r h => by have := (i3 _ _ _).1 v r h; omega,
                fun h => (i3 _ _ _).2 (by omega)⟩
            · have hl5 := (nextTok_len _ r4 le_rfl).1
              generalize nextTok r4 = p at hl5 ⊢; obtain ⟨t, r5⟩ := p
              simp only at hl5
              have hle : r5.length ≤ r4.length := by
                rcases hl5 with h | ⟨_, h⟩ <;> omega
              cases t <;> simp only
              all_goals first
                | (refine ⟨fun v r h => ?_, by simp⟩; injection h with _ h; rw [← h]; omega)
                | exact ⟨fun v r h => by have := (i3 _ _ _).1 v r h; omega,
                    fun h => (i3 _ _ _).2 (by omega)⟩

end Cyclus.JsonText
