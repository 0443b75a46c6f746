import Verif.Spec.CycppText
import Verif.Props.CycppScan

/-!
# The text of a file: lemmas
-/

namespace Cyclus.CycppText

open CycppScan (isSpace isWord dropPrefix span_eq dropPrefix_self not_space_of_word)

/-! ## Parts of texts -/

theorem dropPrefix_some {p s r : Str} (h : dropPrefix p s = some r) : s = p ++ r := by
  induction p generalizing s with
  | nil => cases s <;> simp [dropPrefix] at h <;> simp [h]
  | cons c p ih =>
    cases s with
    | nil => simp [dropPrefix] at h
    | cons d s =>
      simp only [dropPrefix] at h
      split at h
      · rename_i he
        rw [ih h, he]
        rfl
      · cases h

theorem dropPrefix_none {p s : Str} (h : ¬ p <+: s) : dropPrefix p s = none := by
  cases hd : dropPrefix p s with
  | none => rfl
  | some r => exact absurd ⟨r, (dropPrefix_some hd).symm⟩ h

theorem upTo_some {p : Char → Bool} {s a r : Str} {c : Char} (h : upTo p s = some (a, c, r)) :
    s = a ++ c :: r ∧ p c = true ∧ ∀ d ∈ a, p d = false := by
  induction s generalizing a with
  | nil => simp [upTo] at h
  | cons d s ih =>
    simp only [upTo] at h
    split at h
    · rename_i hp
      cases h
      exact ⟨rfl, hp, by simp⟩
    · rename_i hp
      cases hu : upTo p s with
      | none => rw [hu] at h; cases h
      | some x =>
        obtain ⟨a', c', r'⟩ := x
        rw [hu] at h
        cases h
        obtain ⟨h1, h2, h3⟩ := ih hu
        refine ⟨by rw [h1]; rfl, h2, ?_⟩
        intro e he
        rcases List.mem_cons.mp he with rfl | he
        · simpa using hp
        · exact h3 e he

theorem upTo_none {p : Char → Bool} {s : Str} (h : upTo p s = none) : ∀ c ∈ s, p c = false := by
  induction s with
  | nil => simp
  | cons d s ih =>
    simp only [upTo] at h
    split at h
    · cases h
    · rename_i hp
      cases hu : upTo p s with
      | some x => rw [hu] at h; cases h
      | none =>
        intro e he
        rcases List.mem_cons.mp he with rfl | he
        · simpa using hp
        · exact ih hu e he

theorem upTo_eq {p : Char → Bool} {a r : Str} {c : Char} (ha : ∀ d ∈ a, p d = false) (hc : p c = true) :
    upTo p (a ++ c :: r) = some (a, c, r) := by
  induction a with
  | nil => simp [upTo, hc]
  | cons d a ih =>
    rw [List.cons_append, upTo, if_neg (by simp [ha d (by simp)]), ih fun e he => ha e (List.mem_cons_of_mem _ he)]

theorem upToEnd_some {s a r : Str} (h : upToEnd s = some (a, r)) : s = a ++ '*' :: '/' :: r := by
  induction s generalizing a with
  | nil => simp [upToEnd] at h
  | cons d s ih =>
    rw [upToEnd] at h
    cases hd : dropPrefix ['*', '/'] (d :: s) with
    | some r' =>
      rw [hd] at h
      cases h
      have := dropPrefix_some hd
      simpa using this
    | none =>
      rw [hd] at h
      simp only at h
      cases hu : upToEnd s with
      | none => rw [hu] at h; cases h
      | some x =>
        rw [hu] at h
        cases h
        rw [ih hu]
        rfl

theorem upToEnd_eq {t r : Str} (h : ∀ a b, t ≠ a ++ '*' :: '/' :: b) : upToEnd (t ++ '*' :: '/' :: r) = some (t, r) := by
  induction t with
  | nil =>
    rw [List.nil_append, upToEnd]
    have : dropPrefix ['*', '/'] ('*' :: '/' :: r) = some r := dropPrefix_self ['*', '/'] r
    rw [this]
  | cons d t ih =>
    have hn : dropPrefix ['*', '/'] (d :: (t ++ '*' :: '/' :: r)) = none := by
      apply dropPrefix_none
      rintro ⟨q, hq⟩
      simp only [List.cons_append, List.nil_append, List.cons.injEq] at hq
      obtain ⟨rfl, hq⟩ := hq
      cases t with
      | nil => simp at hq
      | cons e t =>
        simp only [List.cons_append, List.cons.injEq] at hq
        obtain ⟨rfl, -⟩ := hq
        exact h [] t rfl
    rw [List.cons_append, upToEnd, hn]
    simp only
    rw [ih]
    intro a b hab
    exact h (d :: a) b (by rw [hab]; rfl)

theorem lastBreak_some {s a b : Str} (h : lastBreak s = some (a, b)) : s = a ++ '\n' :: b := by
  unfold lastBreak at h
  cases hu : upTo (fun x => decide (x = '\n')) s.reverse with
  | none => rw [hu] at h; cases h
  | some x =>
    obtain ⟨a', c, r⟩ := x
    rw [hu] at h
    cases h
    obtain ⟨h1, h2, -⟩ := upTo_some hu
    simp only [decide_eq_true_eq] at h2
    subst h2
    have := congrArg List.reverse h1
    simpa using this

theorem lastBreak_none {s : Str} (h : '\n' ∉ s) : lastBreak s = none := by
  cases hl : lastBreak s with
  | none => rfl
  | some x =>
    obtain ⟨a, b⟩ := x
    exact absurd (by rw [lastBreak_some hl]; simp) h

theorem firstWord_some {s : Str} {ws : List Str} {k r : Str} (h : firstWord s ws = some (k, r)) :
    k ∈ ws ∧ s = k ++ r := by
  induction ws with
  | nil => simp [firstWord] at h
  | cons w ws ih =>
    simp only [firstWord] at h
    cases hd : dropPrefix w s with
    | some r' =>
      rw [hd] at h
      cases h
      exact ⟨by simp, dropPrefix_some hd⟩
    | none =>
      rw [hd] at h
      obtain ⟨h1, h2⟩ := ih h
      exact ⟨List.mem_cons_of_mem _ h1, h2⟩

theorem firstWord_access {k r : Str} (hk : k ∈ accessWords) : firstWord (k ++ r) accessWords = some (k, r) := by
  simp only [accessWords, List.mem_cons, List.not_mem_nil, or_false] at hk
  rcases hk with rfl | rfl | rfl
  · simp [accessWords, firstWord, dropPrefix]
  · simp [accessWords, firstWord, dropPrefix]
  · simp [accessWords, firstWord, dropPrefix]

theorem take_drop (p : Char → Bool) (s : Str) : s.takeWhile p ++ s.dropWhile p = s := List.takeWhile_append_dropWhile ..

theorem takeWhile_mem (p : Char → Bool) (l : Str) : ∀ c ∈ l.takeWhile p, p c = true := by
  induction l with
  | nil => simp
  | cons d l ih =>
    intro c hc
    by_cases hd : p d = true
    · rw [List.takeWhile_cons_of_pos hd] at hc
      rcases List.mem_cons.mp hc with rfl | hc
      · exact hd
      · exact ih c hc
    · rw [List.takeWhile_cons_of_neg hd] at hc
      cases hc

theorem accessAt_some {s a r : Str} (h : accessAt s = some (a, r)) :
    s = a ++ r ∧ ∃ w k, w ≠ [] ∧ Blank w ∧ k ∈ accessWords ∧ a = w ++ k := by
  unfold accessAt at h
  split at h
  · cases h
  · rename_i hw
    cases hf : firstWord (s.dropWhile isSpace) accessWords with
    | none => rw [hf] at h; cases h
    | some x =>
      obtain ⟨k, r'⟩ := x
      rw [hf] at h
      cases h
      obtain ⟨h1, h2⟩ := firstWord_some hf
      refine ⟨?_, _, k, hw, takeWhile_mem _ _, h1, rfl⟩
      rw [List.append_assoc, ← h2, take_drop]

theorem access_head {k : Str} (hk : k ∈ accessWords) : k.head? = some 'p' ∧ (∀ c ∈ k, isWord c = true) ∧ k ≠ [] := by
  simp only [accessWords, List.mem_cons, List.not_mem_nil, or_false] at hk
  rcases hk with rfl | rfl | rfl <;> decide

theorem accessAt_eq {w k r : Str} (hw : w ≠ []) (hb : Blank w) (hk : k ∈ accessWords) :
    accessAt (w ++ (k ++ r)) = some (w ++ k, r) := by
  obtain ⟨hh, -, hn⟩ := access_head hk
  have hs := span_eq (p := isSpace) (a := w) (b := k ++ r) hb (by
    intro c hc
    cases k with
    | nil => exact absurd rfl hn
    | cons d k =>
      simp only [List.head?_cons, Option.some.injEq, List.cons_append] at hh hc
      subst hc; subst hh; decide)
  unfold accessAt
  rw [hs.1, hs.2, firstWord_access hk]
  cases w with
  | nil => exact absurd rfl hw
  | cons c w => rfl

/-! ## What a match takes -/

theorem lineRest_some {pre s r : Str} {t : Token} (h : lineRest pre s = some (t, r)) :
    pre ++ s = t.all ++ r ∧ t.sep ≠ [] := by
  have plain : ∀ {x}, (match upTo (fun x => decide (x = '\n')) s with
      | none => none
      | some (a, _, r) => some ((⟨[], pre ++ a, ['\n']⟩ : Token), r)) = some x → pre ++ s = x.1.all ++ x.2 ∧ x.1.sep ≠ [] := by
    intro x hx
    cases hu : upTo (fun x => decide (x = '\n')) s with
    | none => rw [hu] at hx; cases hx
    | some y =>
      obtain ⟨a, c, r'⟩ := y
      rw [hu] at hx
      cases hx
      obtain ⟨h1, h2, -⟩ := upTo_some hu
      simp only [decide_eq_true_eq] at h2
      subst h2
      simp [Token.all, h1]
  unfold lineRest at h
  cases ha : accessAt s with
  | none => rw [ha] at h; exact plain h
  | some y =>
    obtain ⟨a, r'⟩ := y
    rw [ha] at h
    simp only at h
    cases hl : lastBreak (r'.takeWhile isSpace) with
    | none => rw [hl] at h; exact plain h
    | some z =>
      obtain ⟨v, v'⟩ := z
      rw [hl] at h
      cases h
      have h1 := (accessAt_some ha).1
      have h2 := lastBreak_some hl
      have h3 := take_drop isSpace r'
      rw [h2] at h3
      generalize r'.dropWhile isSpace = D at h3 ⊢
      rw [h1, ← h3]
      simp [Token.all]

theorem commentRest_some {w s r : Str} {t : Token} (h : commentRest w s = some (t, r)) :
    w ++ '/' :: '*' :: s = t.all ++ r ∧ t.sep ≠ [] := by
  have plain : ∀ {x}, (match upToEnd s with
      | none => none
      | some (a, r) => some ((⟨w, ['/', '*'] ++ a, ['*', '/']⟩ : Token), r)) = some x →
        w ++ '/' :: '*' :: s = x.1.all ++ x.2 ∧ x.1.sep ≠ [] := by
    intro x hx
    cases hu : upToEnd s with
    | none => rw [hu] at hx; cases hx
    | some y =>
      obtain ⟨a, r'⟩ := y
      rw [hu] at hx
      cases hx
      simp [Token.all, upToEnd_some hu]
  unfold commentRest at h
  cases ha : accessAt s with
  | none => rw [ha] at h; exact plain h
  | some y =>
    obtain ⟨a, r'⟩ := y
    rw [ha] at h
    simp only at h
    cases hl : dropPrefix ['*', '/'] (r'.dropWhile isSpace) with
    | none => rw [hl] at h; exact plain h
    | some z =>
      rw [hl] at h
      cases h
      have h1 := (accessAt_some ha).1
      have h2 := dropPrefix_some hl
      have h3 := take_drop isSpace r'
      rw [h2] at h3
      generalize r'.takeWhile isSpace = D at h3 ⊢
      rw [h1, ← h3]
      simp [Token.all]

theorem codeRest_some {s r : Str} {t : Token} (h : codeRest s = some (t, r)) : s = t.all ++ r ∧ t.sep ≠ [] := by
  have plain : ∀ {x}, (match upTo isStop s with
      | none => none
      | some (a, c, r) => some ((⟨[], a, [c]⟩ : Token), r)) = some x → s = x.1.all ++ x.2 ∧ x.1.sep ≠ [] := by
    intro x hx
    cases hu : upTo isStop s with
    | none => rw [hu] at hx; cases hx
    | some y =>
      obtain ⟨a, c, r'⟩ := y
      rw [hu] at hx
      cases hx
      simp [Token.all, (upTo_some hu).1]
  unfold codeRest at h
  cases ha : accessAt s with
  | none => rw [ha] at h; exact plain h
  | some y =>
    obtain ⟨a, r'⟩ := y
    rw [ha] at h
    simp only at h
    split at h
    · rename_i r'' hr
      cases h
      have h1 := (accessAt_some ha).1
      have h3 := take_drop isSpace r'
      rw [hr] at h3
      generalize r'.takeWhile isSpace = D at h3 ⊢
      rw [h1, ← h3]
      simp [Token.all]
    · exact plain h

theorem codeRest_none {s : Str} (h : codeRest s = none) : ∀ c ∈ s, isStop c = false := by
  unfold codeRest at h
  have plain : (match upTo isStop s with
      | none => none
      | some (a, c, r) => some ((⟨[], a, [c]⟩ : Token), r)) = none → ∀ c ∈ s, isStop c = false := by
    intro hx
    cases hu : upTo isStop s with
    | none => exact upTo_none hu
    | some y => rw [hu] at hx; cases hx
  cases ha : accessAt s with
  | none => rw [ha] at h; exact plain h
  | some y =>
    obtain ⟨a, r'⟩ := y
    rw [ha] at h
    simp only at h
    split at h
    · cases h
    · exact plain h

theorem matchAt_some {s r : Str} {t : Token} (h : matchAt s = some (t, r)) : s = t.all ++ r ∧ t.sep ≠ [] := by
  have hs := take_drop isSpace s
  unfold matchAt at h
  simp only at h
  split at h
  · rename_i q hq
    cases hl : lineRest (s.takeWhile isSpace ++ ['#']) q with
    | none => rw [hl] at h; exact codeRest_some h
    | some x =>
      rw [hl] at h
      cases h
      have := lineRest_some hl
      rw [hq] at hs
      refine ⟨?_, this.2⟩
      rw [← this.1]
      generalize s.takeWhile isSpace = D at hs ⊢
      rw [← hs]
      simp
  · rename_i q hq
    cases hl : lineRest (s.takeWhile isSpace ++ ['/', '/']) q with
    | none => rw [hl] at h; exact codeRest_some h
    | some x =>
      rw [hl] at h
      cases h
      have := lineRest_some hl
      rw [hq] at hs
      refine ⟨?_, this.2⟩
      rw [← this.1]
      generalize s.takeWhile isSpace = D at hs ⊢
      rw [← hs]
      simp
  · rename_i q hq
    cases hl : commentRest (s.takeWhile isSpace) q with
    | none => rw [hl] at h; exact codeRest_some h
    | some x =>
      rw [hl] at h
      cases h
      have := commentRest_some hl
      rw [hq] at hs
      refine ⟨?_, this.2⟩
      rw [← this.1, hs]
  · exact codeRest_some h

theorem matchAt_none {s : Str} (h : matchAt s = none) : ∀ c ∈ s, isStop c = false := by
  unfold matchAt at h
  simp only at h
  split at h
  · split at h
    · cases h
    · exact codeRest_none h
  · split at h
    · cases h
    · exact codeRest_none h
  · split at h
    · cases h
    · exact codeRest_none h
  · exact codeRest_none h

theorem search_some {s k r : Str} {t : Token} (h : search s = some (k, t, r)) :
    s = k ++ t.all ++ r ∧ t.sep ≠ [] ∧ (k = [] ∨ ∀ c ∈ s, isStop c = false) := by
  induction s generalizing k with
  | nil => simp [search] at h
  | cons c s ih =>
    rw [search] at h
    cases hm : matchAt (c :: s) with
    | some x =>
      obtain ⟨t', r'⟩ := x
      rw [hm] at h
      cases h
      have := matchAt_some hm
      exact ⟨by simpa using this.1, this.2, .inl rfl⟩
    | none =>
      rw [hm] at h
      simp only at h
      cases hs : search s with
      | none => rw [hs] at h; cases h
      | some x =>
        obtain ⟨k', t', r'⟩ := x
        rw [hs] at h
        cases h
        obtain ⟨h1, h2, -⟩ := ih hs
        refine ⟨?_, h2, .inr (matchAt_none hm)⟩
        conv_lhs => rw [h1]
        simp

theorem search_none {s : Str} (h : search s = none) : ∀ c ∈ s, isStop c = false := by
  cases s with
  | nil => simp
  | cons c s =>
    rw [search] at h
    cases hm : matchAt (c :: s) with
    | some x => rw [hm] at h; cases h
    | none => exact matchAt_none hm

theorem tokens_cuts (n : ℕ) : ∀ s : Str, s.length ≤ n → Cuts s (tokens n s) := by
  induction n with
  | zero =>
    intro s hs
    have : s = [] := List.length_eq_zero_iff.mp (by omega)
    subst this
    exact .done [] (by simp)
  | succ n ih =>
    intro s hs
    rw [tokens]
    cases h : search s with
    | none => exact .done s (search_none h)
    | some x =>
      obtain ⟨k, t, r⟩ := x
      obtain ⟨h1, h2, h3⟩ := search_some h
      have hl : r.length ≤ n := by
        have := congrArg List.length h1
        simp only [List.length_append, Token.all] at this
        have : 0 < t.sep.length := List.length_pos_iff.mpr h2
        omega
      simp only
      have hc := Cuts.next k t r (tokens n r) (ih r hl) h2 (by rw [← h1]; exact h3)
      rw [← h1] at hc
      exact hc

/-- The number of matches allowed does not matter if it is large enough. -/
theorem tokens_enough {n m : ℕ} {s : Str} (hn : s.length ≤ n) (hm : s.length ≤ m) : tokens n s = tokens m s := by
  induction n generalizing m s with
  | zero =>
    have : s = [] := List.length_eq_zero_iff.mp (by omega)
    subst this
    cases m <;> rfl
  | succ n ih =>
    cases m with
    | zero =>
      have : s = [] := List.length_eq_zero_iff.mp (by omega)
      subst this
      rfl
    | succ m =>
      rw [tokens, tokens]
      cases h : search s with
      | none => rfl
      | some x =>
        obtain ⟨k, t, r⟩ := x
        obtain ⟨h1, h2, -⟩ := search_some h
        have hl : r.length + 1 ≤ s.length := by
          have := congrArg List.length h1
          simp only [List.length_append, Token.all] at this
          have : 0 < t.sep.length := List.length_pos_iff.mpr h2
          omega
        simp only
        rw [ih (m := m) (s := r) (by omega) (by omega)]

/-! ## Pieces -/

theorem accessAt_none {s : Str} (h : ∀ w k r, w ≠ [] → Blank w → k ∈ accessWords → s ≠ w ++ k ++ r) :
    accessAt s = none := by
  cases ha : accessAt s with
  | none => rfl
  | some x =>
    obtain ⟨a, r⟩ := x
    obtain ⟨h1, w, k, hw, hb, hk, rfl⟩ := accessAt_some ha
    exact absurd h1 (h w k r hw hb hk)

/-- Two ways to cut the white space at the beginning are the same. -/
theorem blank_unique {a b x y : Str} (ha : Blank a) (hb : Blank b) (h : a ++ x = b ++ y)
    (hx : ∀ c, x.head? = some c → isSpace c = false) (hy : ∀ c, y.head? = some c → isSpace c = false) :
    a = b ∧ x = y := by
  have h1 := span_eq (p := isSpace) ha hx
  have h2 := span_eq (p := isSpace) hb hy
  rw [h] at h1
  exact ⟨h1.1.symm.trans h2.1, h1.2.symm.trans h2.2⟩

/-- A word that ends before a character that it does not have is in the text before. -/
theorem prefix_before {k t r u : Str} {d : Char} (hd : d ∉ k) (h : k ++ u = t ++ d :: r) : ∃ v, t = k ++ v ∧ u = v ++ d :: r := by
  induction k generalizing t with
  | nil => exact ⟨t, rfl, h⟩
  | cons c k ih =>
    cases t with
    | nil =>
      simp only [List.cons_append, List.nil_append, List.cons.injEq] at h
      exact absurd (by simp [h.1]) hd
    | cons e t =>
      simp only [List.cons_append, List.cons.injEq] at h
      obtain ⟨v, h1, h2⟩ := ih (fun hm => hd (List.mem_cons_of_mem _ hm)) h.2
      exact ⟨v, by rw [h.1, h1]; rfl, h2⟩

theorem blank_stop {c : Char} (h : isSpace c = true) : isStop c = false := by
  simp only [isSpace, Bool.or_eq_true, decide_eq_true_eq] at h
  rcases h with ((((rfl | rfl) | rfl) | rfl) | rfl) | rfl <;> decide

theorem stop_space {c : Char} (h : isStop c = true) : isSpace c = false := by
  by_contra hs
  rw [Bool.not_eq_false] at hs
  rw [blank_stop hs] at h
  cases h

theorem word_stop {c : Char} (h : isWord c = true) : isStop c = false := by
  by_contra hs
  rw [Bool.not_eq_false] at hs
  simp only [isStop, Bool.or_eq_true, decide_eq_true_eq] at hs
  rcases hs with (rfl | rfl) | rfl <;> exact absurd h (by decide)

/-- Without a prefix a match is one of code. -/
theorem matchAt_code {s : Str} (h1 : ¬ ['#'] <+: s.dropWhile isSpace) (h2 : ¬ ['/', '/'] <+: s.dropWhile isSpace)
    (h3 : ¬ ['/', '*'] <+: s.dropWhile isSpace) : matchAt s = codeRest s := by
  unfold matchAt
  simp only
  split
  · rename_i r hr
    exact absurd ⟨r, by rw [hr]; rfl⟩ h1
  · rename_i r hr
    exact absurd ⟨r, by rw [hr]; rfl⟩ h2
  · rename_i r hr
    exact absurd ⟨r, by rw [hr]; rfl⟩ h3
  · rfl

theorem not_two {a b : Char} {t x : Str} (h : ¬ [a, b] <+: t) (ht : t ≠ []) (hx : ∀ c, x.head? = some c → c ≠ b) :
    ¬ [a, b] <+: t ++ x := by
  rintro ⟨r, hr⟩
  cases t with
  | nil => exact ht rfl
  | cons c t =>
    simp only [List.cons_append, List.nil_append, List.cons.injEq] at hr
    obtain ⟨rfl, hr⟩ := hr
    cases t with
    | nil =>
      rw [List.nil_append] at hr
      exact hx b (by rw [← hr]; rfl) rfl
    | cons d t =>
      simp only [List.cons_append, List.cons.injEq] at hr
      obtain ⟨rfl, -⟩ := hr
      exact h ⟨t, rfl⟩

theorem head_blank_stop {w r : Str} {c : Char} (hw : Blank w) (hc : isStop c = true) :
    ∀ d, (w ++ c :: r).head? = some d → d ≠ '/' ∧ d ≠ '*' ∧ d ≠ '#' ∧ d ≠ ':' := by
  have : isSpace '/' = false ∧ isSpace '*' = false ∧ isSpace '#' = false ∧ isSpace ':' = false := by decide
  intro d hd
  cases w with
  | nil =>
    simp only [List.nil_append, List.head?_cons, Option.some.injEq] at hd
    subst hd
    refine ⟨?_, ?_, ?_, ?_⟩ <;> rintro rfl <;> exact absurd hc (by decide)
  | cons e w =>
    simp only [List.cons_append, List.head?_cons, Option.some.injEq] at hd
    subst hd
    have he := hw e (by simp)
    refine ⟨?_, ?_, ?_, ?_⟩ <;> rintro rfl <;> exact absurd he (by decide)

theorem codeRest_plain {l t w r : Str} {c : Char} (hl : Blank l) (hw : Blank w) (hs : ∀ d ∈ t, isStop d = false)
    (hc : isStop c = true) (ha : ¬ AccessThen (l ++ t) (fun r => [':'] <+: r)) :
    codeRest (l ++ t ++ w ++ c :: r) = some (⟨[], l ++ t ++ w, [c]⟩, r) := by
  have hup : upTo isStop (l ++ t ++ w ++ c :: r) = some (l ++ t ++ w, c, r) := by
    apply upTo_eq _ hc
    intro d hd
    simp only [List.mem_append] at hd
    rcases hd with (hd | hd) | hd
    · exact blank_stop (hl d hd)
    · exact hs d hd
    · exact blank_stop (hw d hd)
  unfold codeRest
  rw [hup]
  cases hacc : accessAt (l ++ t ++ w ++ c :: r) with
  | none => rfl
  | some x =>
    obtain ⟨a, r'⟩ := x
    simp only
    obtain ⟨h1, w', k, hw', hb', hk, rfl⟩ := accessAt_some hacc
    split
    · rename_i r'' hr
      exfalso
      have hg := take_drop isSpace r'
      rw [hr] at hg
      have hgb : Blank (r'.takeWhile isSpace) := takeWhile_mem _ _
      generalize r'.takeWhile isSpace = g at hg hgb
      rw [← hg] at h1
      have e : (w' ++ k ++ g ++ [':']) ++ r'' = (l ++ t ++ w) ++ c :: r := by rw [h1]; simp
      have hno : c ∉ w' ++ k ++ g ++ [':'] := by
        intro hm
        simp only [List.mem_append, List.mem_cons, List.not_mem_nil, or_false] at hm
        rcases hm with ((hm | hm) | hm) | rfl
        · rw [blank_stop (hb' c hm)] at hc; cases hc
        · rw [word_stop ((access_head hk).2.1 c hm)] at hc; cases hc
        · rw [blank_stop (hgb c hm)] at hc; cases hc
        · exact absurd hc (by decide)
      obtain ⟨v, hv, -⟩ := prefix_before hno e
      rcases List.prefix_or_prefix_of_prefix (l₁ := w' ++ k ++ g ++ [':']) (l₂ := l ++ t) (l₃ := l ++ t ++ w)
        ⟨v, hv.symm⟩ ⟨w, rfl⟩ with ⟨q, hq⟩ | ⟨q, hq⟩
      · exact ha ⟨w', k, g, ':' :: q, hw', hb', hk, hgb, ⟨q, rfl⟩, by rw [← hq]; simp⟩
      · have hqw : q ++ v = w := by
          have : (l ++ t) ++ (q ++ v) = (l ++ t) ++ w := by rw [← List.append_assoc, hq, ← hv]
          exact List.append_cancel_left this
        rcases List.eq_nil_or_concat q with rfl | ⟨q', d, rfl⟩
        · rw [List.append_nil] at hq
          exact ha ⟨w', k, g, [':'], hw', hb', hk, hgb, ⟨[], rfl⟩, hq⟩
        · have hd : d = ':' := by
            have := congrArg List.getLast? hq
            simpa using this
          subst hd
          exact absurd (hw ':' (by rw [← hqw]; simp)) (by decide)
    · rfl

theorem lineRest_plain {pre t r : Str} (hn : '\n' ∉ t) (hx : ∃ c ∈ t, isSpace c = false)
    (ha : ¬ AccessThen t (fun r => r = [])) :
    lineRest pre (t ++ '\n' :: r) = some (⟨[], pre ++ t, ['\n']⟩, r) := by
  have hup : upTo (fun x => decide (x = '\n')) (t ++ '\n' :: r) = some (t, '\n', r) := by
    refine upTo_eq ?_ (by decide)
    intro d hd
    simp only [decide_eq_false_iff_not]
    rintro rfl
    exact hn hd
  unfold lineRest
  rw [hup]
  cases hacc : accessAt (t ++ '\n' :: r) with
  | none => rfl
  | some x =>
    obtain ⟨a, r'⟩ := x
    simp only
    obtain ⟨h1, w', k, hw', hb', hk, rfl⟩ := accessAt_some hacc
    cases hlb : lastBreak (r'.takeWhile isSpace) with
    | none => rfl
    | some y =>
      exfalso
      obtain ⟨v, v'⟩ := y
      have hg := take_drop isSpace r'
      have hgb : Blank (r'.takeWhile isSpace) := takeWhile_mem _ _
      have hbr : '\n' ∈ r'.takeWhile isSpace := by rw [lastBreak_some hlb]; simp
      generalize r'.takeWhile isSpace = g at hg hgb hbr
      obtain ⟨g1, g2, rfl, hg1⟩ : ∃ g1 g2, g = g1 ++ '\n' :: g2 ∧ '\n' ∉ g1 := by
        cases hu : upTo (fun x => decide (x = '\n')) g with
        | none => exact absurd (upTo_none hu _ hbr) (by decide)
        | some z =>
          obtain ⟨g1, c, g2⟩ := z
          obtain ⟨e1, e2, e3⟩ := upTo_some hu
          simp only [decide_eq_true_eq] at e2
          subst e2
          exact ⟨g1, g2, e1, fun hm => absurd (e3 _ hm) (by decide)⟩
      have hg1b : Blank g1 := fun c hc => hgb c (by simp [hc])
      obtain ⟨p, x, q, rfl, hp, hxs⟩ : ∃ p x q, t = p ++ x :: q ∧ Blank p ∧ isSpace x = false := by
        obtain ⟨x, hx, hxs⟩ := hx
        cases hu : upTo (fun c => !isSpace c) t with
        | none =>
          have := upTo_none hu x hx
          simp [hxs] at this
        | some z =>
          obtain ⟨p, c, q⟩ := z
          obtain ⟨e1, e2, e3⟩ := upTo_some hu
          refine ⟨p, c, q, e1, ?_, by simpa using e2⟩
          intro d hd
          simpa using e3 d hd
      obtain ⟨hh, hkw, hkn⟩ := access_head hk
      have hkh : ∀ r : Str, ∀ c, (k ++ r).head? = some c → isSpace c = false := by
        intro r c hc
        cases k with
        | nil => exact absurd rfl hkn
        | cons d k =>
          simp only [List.cons_append, List.head?_cons, Option.some.injEq] at hc hh
          subst hc; subst hh; decide
      have hw'p : p = w' := by
        refine (blank_unique (x := x :: q ++ '\n' :: r) (y := k ++ r') hp hb' ?_ ?_ (hkh r')).1
        · simpa using h1
        · intro c hc
          simp only [List.cons_append, List.head?_cons, Option.some.injEq] at hc
          subst hc
          exact hxs
      subst hw'p
      have hno : '\n' ∉ p ++ k ++ g1 := by
        simp only [List.mem_append, not_or]
        refine ⟨⟨fun hm => hn (by simp [hm]), fun hm => ?_⟩, hg1⟩
        exact absurd (hkw _ hm) (by decide)
      have e : p ++ k ++ g1 ++ '\n' :: (g2 ++ r'.dropWhile isSpace) = p ++ x :: q ++ '\n' :: r := by
        rw [h1]
        conv_rhs => rw [← hg]
        simp
      have e2 := upTo_eq (p := fun x => decide (x = '\n')) (a := p ++ k ++ g1) (c := '\n')
        (r := g2 ++ r'.dropWhile isSpace) (by
          intro d hd
          simp only [decide_eq_false_iff_not]
          rintro rfl
          exact hno hd) (by decide)
      rw [e, hup] at e2
      simp only [Option.some.injEq, Prod.mk.injEq] at e2
      exact ha ⟨p, k, g1, [], hw', hp, hk, hg1b, rfl, by rw [e2.1]; simp⟩

theorem commentRest_plain {w t r : Str} (h : ∀ a b, t ≠ a ++ '*' :: '/' :: b) :
    commentRest w (t ++ '*' :: '/' :: r) = some (⟨w, ['/', '*'] ++ t, ['*', '/']⟩, r) := by
  unfold commentRest
  rw [upToEnd_eq h]
  cases hacc : accessAt (t ++ '*' :: '/' :: r) with
  | none => rfl
  | some x =>
    obtain ⟨a, r'⟩ := x
    simp only
    obtain ⟨h1, w', k, hw', hb', hk, rfl⟩ := accessAt_some hacc
    cases hd : dropPrefix ['*', '/'] (r'.dropWhile isSpace) with
    | none => rfl
    | some z =>
      simp only
      have hg := take_drop isSpace r'
      have hgb : Blank (r'.takeWhile isSpace) := takeWhile_mem _ _
      rw [dropPrefix_some hd] at hg
      generalize r'.takeWhile isSpace = g at hg hgb
      have hstar : '*' ∉ w' ++ k ++ g := by
        simp only [List.mem_append, not_or]
        refine ⟨⟨fun hm => absurd (hb' _ hm) (by decide), fun hm => absurd ((access_head hk).2.1 _ hm) (by decide)⟩,
          fun hm => absurd (hgb _ hm) (by decide)⟩
      have e := upToEnd_eq (t := w' ++ k ++ g) (r := z) (by
        intro a b hab
        exact hstar (by rw [hab]; simp))
      have e' : w' ++ k ++ g ++ '*' :: '/' :: z = t ++ '*' :: '/' :: r := by
        rw [h1]
        conv_rhs => rw [← hg]
        simp
      rw [e', upToEnd_eq h] at e
      simp only [Option.some.injEq, Prod.mk.injEq] at e
      rw [e.1, e.2]
      simp

/-- A piece is matched. -/
theorem matchAt_piece {p : Piece} (hp : p.Fine) (r : Str) : matchAt (p.render ++ r) = some (p.token, r) := by
  cases p with
  | code l t w c =>
    obtain ⟨hl, hw, ht, hs, hc, h1, h2, h3, ha⟩ := hp
    have e : (Piece.code l t w c).render ++ r = l ++ t ++ w ++ c :: r := by simp [Piece.render]
    rw [e, matchAt_code, codeRest_plain hl hw hs hc ha]
    · rfl
    all_goals
      by_cases htn : t = []
      · subst htn
        have hd : (l ++ [] ++ w ++ c :: r).dropWhile isSpace = c :: r := by
          rw [List.append_nil]
          refine (span_eq (p := isSpace) (a := l ++ w) (b := c :: r) ?_ ?_).2
          · intro d hd
            rcases List.mem_append.mp hd with hd | hd
            · exact hl d hd
            · exact hw d hd
          · intro d hd
            simp only [List.head?_cons, Option.some.injEq] at hd
            subst hd
            exact stop_space hc
        rw [hd]
        rintro ⟨q, hq⟩
        simp only [List.cons_append, List.cons.injEq] at hq
        rw [← hq.1] at hc
        exact absurd hc (by decide)
      · have hd : (l ++ t ++ w ++ c :: r).dropWhile isSpace = t ++ (w ++ c :: r) := by
          rw [List.append_assoc, List.append_assoc]
          refine (span_eq (p := isSpace) (a := l) (b := t ++ (w ++ c :: r)) hl ?_).2
          intro d hd
          cases t with
          | nil => exact absurd rfl htn
          | cons x t =>
            simp only [List.cons_append, List.head?_cons, Option.some.injEq] at hd
            subst hd
            exact ht.1 x rfl
        rw [hd]
        first
        | exact not_two h2 htn fun d hd => (head_blank_stop hw hc d hd).1
        | exact not_two h3 htn fun d hd => (head_blank_stop hw hc d hd).2.1
        | (rintro ⟨q, hq⟩
           cases t with
           | nil => exact absurd rfl htn
           | cons x t =>
             simp only [List.cons_append, List.nil_append, List.cons.injEq] at hq
             exact h1 ⟨t, by rw [hq.1]; rfl⟩)
  | hash l t w =>
    obtain ⟨hl, hw, ht, hn, hnw, t', rfl, hx, ha⟩ := hp
    have e : (Piece.hash l ('#' :: t') w).render ++ r = l ++ '#' :: (t' ++ w ++ '\n' :: r) := by simp [Piece.render]
    have hs := span_eq (p := isSpace) (a := l) (b := '#' :: (t' ++ w ++ '\n' :: r)) hl (by
      intro c hc
      simp only [List.head?_cons, Option.some.injEq] at hc
      subst hc; decide)
    unfold matchAt
    rw [e]
    simp only [hs.1, hs.2]
    rw [lineRest_plain (by
        simp only [List.mem_append, not_or]
        exact ⟨fun h => hn (List.mem_cons_of_mem _ h), hnw⟩) (by
        obtain ⟨c, hc, hcs⟩ := hx
        exact ⟨c, by simp [hc], hcs⟩) ha]
    simp [Piece.token]
  | slashes l t =>
    obtain ⟨hl, hn, hx, ha⟩ := hp
    have e : (Piece.slashes l t).render ++ r = l ++ '/' :: '/' :: (t ++ '\n' :: r) := by simp [Piece.render]
    have hs := span_eq (p := isSpace) (a := l) (b := '/' :: '/' :: (t ++ '\n' :: r)) hl (by
      intro c hc
      simp only [List.head?_cons, Option.some.injEq] at hc
      subst hc; decide)
    unfold matchAt
    rw [e]
    simp only [hs.1, hs.2]
    rw [lineRest_plain hn hx ha]
    simp [Piece.token]
  | comment l t =>
    obtain ⟨hl, hn⟩ := hp
    have e : (Piece.comment l t).render ++ r = l ++ '/' :: '*' :: (t ++ '*' :: '/' :: r) := by simp [Piece.render]
    have hs := span_eq (p := isSpace) (a := l) (b := '/' :: '*' :: (t ++ '*' :: '/' :: r)) hl (by
      intro c hc
      simp only [List.head?_cons, Option.some.injEq] at hc
      subst hc; decide)
    unfold matchAt
    rw [e]
    simp only [hs.1, hs.2]
    rw [commentRest_plain hn]
    simp [Piece.token]
  | access l k g =>
    obtain ⟨hl0, hl, hk, hg⟩ := hp
    have e : (Piece.access l k g).render ++ r = l ++ (k ++ (g ++ ':' :: r)) := by simp [Piece.render]
    obtain ⟨hh, hkw, hkn⟩ := access_head hk
    have hs := span_eq (p := isSpace) (a := l) (b := k ++ (g ++ ':' :: r)) hl (by
      intro c hc
      cases k with
      | nil => exact absurd rfl hkn
      | cons d k =>
        simp only [List.cons_append, List.head?_cons, Option.some.injEq] at hc hh
        subst hc; subst hh; decide)
    have hs2 := span_eq (p := isSpace) (a := g) (b := ':' :: r) hg (by
      intro c hc
      simp only [List.head?_cons, Option.some.injEq] at hc
      subst hc; decide)
    have hno : ∀ c s, c ≠ 'p' → ¬ (c :: s) <+: k ++ (g ++ ':' :: r) := by
      rintro c s hc ⟨q, hq⟩
      cases k with
      | nil => exact hkn rfl
      | cons d k =>
        simp only [List.cons_append, List.cons.injEq, List.head?_cons, Option.some.injEq] at hq hh
        exact hc (hq.1.trans hh)
    rw [e, matchAt_code (by rw [hs.2]; exact hno _ _ (by decide)) (by rw [hs.2]; exact hno _ _ (by decide))
      (by rw [hs.2]; exact hno _ _ (by decide))]
    unfold codeRest
    rw [accessAt_eq hl0 hl hk]
    simp only [hs2.1, hs2.2]
    rfl

theorem render_ne (p : Piece) : p.render ≠ [] := by
  cases p <;> simp [Piece.render]

theorem search_piece {p : Piece} (hp : p.Fine) (r : Str) : search (p.render ++ r) = some ([], p.token, r) := by
  have hm := matchAt_piece hp r
  cases he : p.render ++ r with
  | nil => exact absurd (List.append_eq_nil_iff.mp he).1 (render_ne p)
  | cons c s =>
    rw [he] at hm
    rw [search, hm]

theorem search_blank {s : Str} (h : Blank s) : search s = none := by
  induction s with
  | nil => rfl
  | cons c s ih =>
    have hd : (c :: s).dropWhile isSpace = [] := by
      have := (span_eq (p := isSpace) (a := c :: s) (b := []) h (by simp)).2
      simpa using this
    rw [search, matchAt_code (by rw [hd]; simp) (by rw [hd]; simp) (by rw [hd]; simp)]
    have hc : codeRest (c :: s) = none := by
      unfold codeRest
      have hu : upTo isStop (c :: s) = none := by
        cases hu : upTo isStop (c :: s) with
        | none => rfl
        | some x =>
          obtain ⟨a, d, r⟩ := x
          obtain ⟨e1, e2, -⟩ := upTo_some hu
          have := h d (by rw [e1]; simp)
          rw [blank_stop this] at e2
          cases e2
      rw [hu]
      have ha : accessAt (c :: s) = none := by
        unfold accessAt
        rw [hd]
        split
        · rfl
        · rfl
      rw [ha]
    rw [hc]
    simp only
    rw [ih fun d hd => h d (List.mem_cons_of_mem _ hd)]

theorem tokens_pieces (ps : List Piece) (hp : ∀ p ∈ ps, p.Fine) {tail : Str} (ht : Blank tail) :
    ∀ n, ((ps.map Piece.render).flatten ++ tail).length ≤ n →
      tokens n ((ps.map Piece.render).flatten ++ tail) = ps.map Piece.token := by
  induction ps with
  | nil =>
    intro n _
    cases n with
    | zero => rfl
    | succ n =>
      rw [tokens]
      simp only [List.map_nil, List.flatten_nil, List.nil_append]
      rw [search_blank ht]
  | cons p ps ih =>
    intro n hn
    have e : ((p :: ps).map Piece.render).flatten ++ tail = p.render ++ ((ps.map Piece.render).flatten ++ tail) := by simp
    rw [e] at hn ⊢
    cases n with
    | zero =>
      have : p.render ++ ((ps.map Piece.render).flatten ++ tail) = [] := List.length_eq_zero_iff.mp (by omega)
      exact absurd (List.append_eq_nil_iff.mp this).1 (render_ne p)
    | succ n =>
      rw [tokens, search_piece (hp p (by simp))]
      simp only [List.map_cons]
      rw [ih (fun q hq => hp q (List.mem_cons_of_mem _ hq))]
      have : 0 < p.render.length := List.length_pos_iff.mpr (render_ne p)
      rw [List.length_append] at hn
      omega

end Cyclus.CycppText
