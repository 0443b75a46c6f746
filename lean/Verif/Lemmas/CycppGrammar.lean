import Verif.Spec.CycppGrammar
import Verif.Lemmas.CycppText

/-!
# How the statements of a file are recognised: lemmas
-/

namespace Cyclus.CycppText

open CycppScan (isSpace isWord dropPrefix span_eq dropPrefix_self not_space_of_word Stmt Sep Pragma headText tmplText
  words words_sep words_one words_spaces)

variable {α : Type}

/-! ## White space -/

/-- The text does not begin with white space. -/
def Front (s : Str) : Prop := ∀ c, s.head? = some c → isSpace c = false

theorem front_drop {s : Str} (h : Front s) : s.dropWhile isSpace = s := by
  have := (span_eq (p := isSpace) (a := []) (b := s) (by simp) h).2
  simpa using this

theorem front_append {w : Str} {s : Str} (hw : Blank w) (h : Front s) : (w ++ s).dropWhile isSpace = s :=
  (span_eq hw h).2

theorem word_front {s r : Str} (hn : s ≠ []) (h : ∀ c ∈ s, isWord c = true) : Front (s ++ r) := by
  intro c hc
  cases s with
  | nil => exact absurd rfl hn
  | cons d s =>
    simp only [List.cons_append, List.head?_cons, Option.some.injEq] at hc
    subst hc
    exact not_space_of_word (h d (by simp))

theorem strip_mid {w t w' : Str} (hw : Blank w) (ht : Trim t) (hw' : Blank w') :
    Cycpp.strip isSpace (w ++ t ++ w') = t := by
  unfold Cycpp.strip
  by_cases hn : t = []
  · subst hn
    have : (w ++ [] ++ w').dropWhile isSpace = [] := by
      have := (span_eq (p := isSpace) (a := w ++ w') (b := []) (by
        intro c hc
        rcases List.mem_append.mp hc with hc | hc
        · exact hw c hc
        · exact hw' c hc) (by simp)).2
      simpa using this
    rw [this]
    rfl
  · have h1 : (w ++ t ++ w').dropWhile isSpace = t ++ w' := by
      rw [List.append_assoc]
      refine front_append hw ?_
      intro c hc
      cases t with
      | nil => exact absurd rfl hn
      | cons d t =>
        simp only [List.cons_append, List.head?_cons, Option.some.injEq] at hc
        subst hc
        exact ht.1 d rfl
    rw [h1, List.reverse_append]
    have h2 : (w'.reverse ++ t.reverse).dropWhile isSpace = t.reverse := by
      refine front_append (fun c hc => hw' c (List.mem_reverse.mp hc)) ?_
      intro c hc
      rw [List.head?_reverse] at hc
      exact ht.2 c hc
    rw [h2, List.reverse_reverse]

theorem strip_front {l y : Str} {c : Char} (hl : Blank l) (hc : isSpace c = false) :
    ∃ z, Cycpp.strip isSpace (l ++ c :: y) = c :: z := by
  unfold Cycpp.strip
  have h1 : (l ++ c :: y).dropWhile isSpace = c :: y := by
    refine front_append hl ?_
    intro d hd
    simp only [List.head?_cons, Option.some.injEq] at hd
    subst hd; exact hc
  rw [h1, List.reverse_cons]
  have : ∀ a : Str, ∃ z, (a ++ [c]).dropWhile isSpace = z ++ [c] := by
    intro a
    induction a with
    | nil => exact ⟨[], by simp [hc]⟩
    | cons d a ih =>
      obtain ⟨z, hz⟩ := ih
      by_cases hd : isSpace d = true
      · exact ⟨z, by rw [List.cons_append, List.dropWhile_cons_of_pos hd, hz]⟩
      · exact ⟨d :: a, by rw [List.cons_append, List.dropWhile_cons_of_neg hd]⟩
  obtain ⟨z, hz⟩ := this y.reverse
  rw [hz]
  exact ⟨z.reverse, by simp⟩

/-! ## Statements for which nothing is said -/

theorem afterWord_none {w s : Str} (h : ¬ w <+: s) : afterWord w s = none := by
  unfold afterWord
  rw [dropPrefix_none h]

theorem classHead_none {s : Str} (hf : Front s) (h1 : ¬ ['c', 'l', 'a', 's', 's'] <+: s)
    (h2 : ¬ ['s', 't', 'r', 'u', 'c', 't'] <+: s) (h3 : ¬ ['t', 'e', 'm', 'p', 'l', 'a', 't', 'e'] <+: s) :
    CycppScan.classHead s = none := by
  unfold CycppScan.classHead CycppScan.afterTemplate CycppScan.headAt
  rw [front_drop hf, dropPrefix_none h3]
  simp only [dropPrefix_none h1, dropPrefix_none h2]

theorem isAccess_false {s : Str} (hf : Front s) (h : ∀ k ∈ accessWords, ¬ k <+: s) : isAccess s = false := by
  unfold isAccess
  rw [front_drop hf]
  cases hw : firstWord s accessWords with
  | none => rfl
  | some x =>
    obtain ⟨hk, he⟩ := firstWord_some (k := x.1) (r := x.2) hw
    exact absurd ⟨x.2, he.symm⟩ (h _ hk)

theorem afterPragma_none {w s : Str} (hf : Front s) (h : ¬ ['#'] <+: s) : afterPragma w s = none := by
  unfold afterPragma
  rw [front_drop hf]
  split
  · rename_i r
    exact absurd ⟨r, rfl⟩ h
  · rfl

theorem afterWord_some {w s r : Str} (h : afterWord w s = some r) : ∃ h', Blank h' ∧ s = w ++ (h' ++ r) := by
  unfold afterWord at h
  split at h
  · rename_i c r' hd
    split at h
    · rename_i hc
      simp only [Option.some.injEq] at h
      refine ⟨c :: r'.takeWhile isSpace, ?_, ?_⟩
      · intro d hd
        rcases List.mem_cons.mp hd with rfl | hd
        · exact hc
        · exact takeWhile_mem _ _ d hd
      · rw [dropPrefix_some hd, ← h, List.cons_append, take_drop]
    · cases h
  · cases h

/-- A directive that is no pragma of Cyclus. -/
theorem afterPragma_other {w r : Str} (h : ∀ g h x, Blank g → Blank h → r ≠ g ++ (kwPragma ++ (h ++ (kwCyclus ++ x)))) :
    afterPragma w ('#' :: r) = none := by
  unfold afterPragma
  rw [front_drop (by intro c hc; simp only [List.head?_cons, Option.some.injEq] at hc; subst hc; decide)]
  simp only
  cases h1 : afterWord kwPragma (r.dropWhile isSpace) with
  | none => rfl
  | some r1 =>
    simp only
    cases h2 : afterWord kwCyclus r1 with
    | none => rfl
    | some r2 =>
      obtain ⟨b1, hb1, e1⟩ := afterWord_some h1
      obtain ⟨b2, hb2, e2⟩ := afterWord_some h2
      have := take_drop isSpace r
      rw [e1, e2] at this
      exact absurd this.symm (h (r.takeWhile isSpace) b1 (b2 ++ r2) (takeWhile_mem _ _) hb1)

theorem recognise_tail (ev : Str → Option (Pragma α)) {s : Str} (hf : Front s) (hk : ∀ k ∈ keywords, ¬ k <+: s)
    (h1 : afterPragma kwExec s = none) (h2 : afterPragma kwNote s = none) (h3 : afterPragma kwVar s = none) :
    recognise ev s = if s = [] then some .other else if isMarker s = true then some .other else
      match declNames s with
      | some (t, n) => some (.decl t n)
      | none => some .other := by
  have k1 := classHead_none hf (hk _ (by simp [keywords])) (hk _ (by simp [keywords])) (hk _ (by simp [keywords]))
  have k2 : isAccess s = false := isAccess_false hf fun k h => hk k (by
    simp only [accessWords, List.mem_cons, List.not_mem_nil, or_false] at h
    rcases h with rfl | rfl | rfl <;> simp [keywords])
  have ku : afterWord kwUsing s = none := afterWord_none (hk _ (by simp [keywords, kwUsing]))
  have kn : afterWord kwNamespace s = none := afterWord_none (hk _ (by simp [keywords, kwNamespace]))
  have k3 : usingNsName s = none := by unfold usingNsName; rw [front_drop hf, ku]
  have k4 : nsAliasNames s = none := by unfold nsAliasNames; rw [front_drop hf, kn]
  have k5 : CycppScan.nsStmt (α := α) s = none := by
    unfold CycppScan.nsStmt; rw [front_drop hf, dropPrefix_none (hk _ (by simp [keywords]))]
  have k6 : typedefText s = none := by
    unfold typedefText; rw [front_drop hf, dropPrefix_none (hk _ (by simp [keywords, kwTypedef]))]
  have k7 : usingText s = none := by unfold usingText; rw [front_drop hf, ku]
  unfold recognise
  rw [k1, k2, h1, k3, k4, k5, k6, k7, h2, h3]
  simp only [Option.isSome_none, Bool.false_eq_true, if_false]
  rfl

theorem recognise_plain (ev : Str → Option (Pragma α)) {s : Str} (hf : Front s) (hk : ∀ k ∈ keywords, ¬ k <+: s)
    (h1 : afterPragma kwExec s = none) (h2 : afterPragma kwNote s = none) (h3 : afterPragma kwVar s = none) :
    recognise ev s = some .other ∨ ∃ t x, recognise ev s = some (.decl t x) := by
  rw [recognise_tail ev hf hk h1 h2 h3]
  split
  · exact .inl rfl
  · split
    · exact .inl rfl
    · split
      · exact .inr ⟨_, _, rfl⟩
      · exact .inl rfl

theorem recognise_ordinary (ev : Str → Option (Pragma α)) {s : Str} (hf : Front s) (h : Ordinary s) :
    recognise ev s = some .other ∨ ∃ t x, recognise ev s = some (.decl t x) :=
  recognise_plain ev hf h.1 (afterPragma_none hf h.2) (afterPragma_none hf h.2) (afterPragma_none hf h.2)

theorem recognise_access (ev : Str → Option (Pragma α)) {s : Str} (h : s ∈ accessWords) :
    recognise ev s = some .other := by
  simp only [accessWords, List.mem_cons, List.not_mem_nil, or_false] at h
  rcases h with rfl | rfl | rfl <;> rfl

theorem hash_front (r : Str) : Front ('#' :: r) := by
  intro c hc
  simp only [List.head?_cons, Option.some.injEq] at hc
  subst hc; decide

theorem keyword_head {k : Str} (hk : k ∈ keywords) : ∃ c r, k = c :: r ∧ isWord c = true ∧ ∀ d ∈ r, isWord d = true := by
  simp only [keywords, List.mem_cons, List.not_mem_nil, or_false] at hk
  rcases hk with rfl | rfl | rfl | rfl | rfl | rfl | rfl | rfl | rfl <;> exact ⟨_, _, rfl, by decide, by decide⟩

theorem no_keyword {c : Char} (hc : isWord c = false) (r : Str) : ∀ k ∈ keywords, ¬ k <+: c :: r := by
  rintro k hk ⟨q, hq⟩
  obtain ⟨d, k', rfl, hd, -⟩ := keyword_head hk
  simp only [List.cons_append, List.cons.injEq] at hq
  rw [hq.1, hc] at hd
  cases hd

theorem recognise_quiet (ev : Str → Option (Pragma α)) {s : Str} (h : Quiet s) :
    recognise ev s = some .other ∨ ∃ t x, recognise ev s = some (.decl t x) := by
  rcases h with rfl | h | ⟨h1, h2⟩ | ⟨r, rfl, h⟩
  · exact .inl rfl
  · exact .inl (recognise_access ev h)
  · exact recognise_ordinary ev h1.1 h2
  · exact recognise_plain ev (hash_front r) (no_keyword (by decide) r) (afterPragma_other h) (afterPragma_other h)
      (afterPragma_other h)

/-! ## Declarations -/

theorem lazyName_front {u sp x : Str} (hu : ∀ c ∈ u, isWord c = false ∧ c ≠ '\n')
    (hl : ∀ c, u.getLast? = some c → isSpace c = false) (hs : sp ≠ [] ∧ Blank sp)
    (hx : x ≠ [] ∧ ∀ c ∈ x, isWord c = true) : lazyName (u ++ (sp ++ x)) = some (u, x) := by
  induction u with
  | nil =>
    cases sp with
    | nil => exact absurd rfl hs.1
    | cons c sp =>
      have hc : isSpace c = true := hs.2 c (by simp)
      have h1 : (sp ++ x).dropWhile isSpace = x := by
        refine front_append (fun d hd => hs.2 d (List.mem_cons_of_mem _ hd)) ?_
        have := word_front (r := []) hx.1 hx.2
        simpa using this
      rw [List.nil_append, List.cons_append, lazyName, if_pos hc, h1, CycppScan.takeWhile_all hx.2]
      cases x with
      | nil => exact absurd rfl hx.1
      | cons d x => rfl
  | cons c u ih =>
    have hc := hu c (by simp)
    have ih' := ih (fun d hd => hu d (List.mem_cons_of_mem _ hd)) (by
      intro d hd
      apply hl
      cases u with
      | nil => cases hd
      | cons e u => rw [List.getLast?_cons_cons]; exact hd)
    have hn : (if isSpace c = true then ((u ++ (sp ++ x)).dropWhile isSpace).takeWhile isWord else []) = [] := by
      split
      · rename_i hcs
        -- the next character that is no white space is in `u`
        have : ∀ v : Str, (∀ c ∈ v, isWord c = false) → (∃ d ∈ v, isSpace d = false) →
            ((v ++ (sp ++ x)).dropWhile isSpace).takeWhile isWord = [] := by
          intro v hv
          induction v with
          | nil => rintro ⟨d, hd, -⟩; cases hd
          | cons e v ihv =>
            rintro ⟨d, hd, hds⟩
            by_cases he : isSpace e = true
            · rw [List.cons_append, List.dropWhile_cons_of_pos he]
              refine ihv (fun c hc => hv c (List.mem_cons_of_mem _ hc)) ?_
              rcases List.mem_cons.mp hd with rfl | hd
              · rw [he] at hds; cases hds
              · exact ⟨d, hd, hds⟩
            · rw [List.cons_append, List.dropWhile_cons_of_neg he,
                List.takeWhile_cons_of_neg (by rw [hv e (by simp)]; simp)]
        apply this u fun c hc => (hu c (List.mem_cons_of_mem _ hc)).1
        cases hg : (c :: u).getLast? with
        | none => simp at hg
        | some d =>
          have hd := hl d hg
          refine ⟨d, ?_, hd⟩
          rcases List.mem_cons.mp (List.mem_of_getLast? hg) with rfl | h
          · rw [hcs] at hd; cases hd
          · exact h
      · rfl
    rw [List.cons_append, lazyName, hn]
    simp only
    rw [if_neg hc.2, ih']

theorem declNames_words {x : Str} (hx : ∀ c ∈ x, isWord c = true) : declNames x = none := by
  induction x with
  | nil => rfl
  | cons c x ih =>
    have ih' := ih fun d hd => hx d (List.mem_cons_of_mem _ hd)
    have hd : x.dropWhile isWord = [] := by
      have := (span_eq (p := isWord) (a := x) (b := []) (fun d hd => hx d (List.mem_cons_of_mem _ hd)) (by simp)).2
      simpa using this
    rw [declNames, ih', hd]
    simp [lazyName]

theorem declNames_free {u y : Str} (hu : ∀ c ∈ u, isWord c = false) (hy : declNames y = none) :
    declNames (u ++ y) = none := by
  induction u with
  | nil => exact hy
  | cons c u ih =>
    rw [List.cons_append, declNames, ih fun d hd => hu d (List.mem_cons_of_mem _ hd), hu c (by simp)]
    simp

theorem space_not_word {c : Char} (h : isSpace c = true) : isWord c = false := by
  by_contra hc
  rw [Bool.not_eq_false] at hc
  rw [not_space_of_word hc] at h
  cases h

theorem declNames_eq {t sp x : Str} (ht : Trim t) (hn : '\n' ∉ t) (hw : ∃ c ∈ t, isWord c = true)
    (hs : sp ≠ [] ∧ Blank sp) (hx : x ≠ [] ∧ ∀ c ∈ x, isWord c = true) :
    declNames (t ++ (sp ++ x)) = some (t, x) := by
  obtain ⟨a, d, u, rfl, hd, hu⟩ : ∃ a d u, t = a ++ d :: u ∧ isWord d = true ∧ ∀ c ∈ u, isWord c = false := by
    cases h : upTo isWord t.reverse with
    | none =>
      obtain ⟨c, hc, hcw⟩ := hw
      rw [upTo_none h c (List.mem_reverse.mpr hc)] at hcw
      cases hcw
    | some z =>
      obtain ⟨b, d, r⟩ := z
      obtain ⟨e1, e2, e3⟩ := upTo_some h
      refine ⟨r.reverse, d, b.reverse, ?_, e2, fun c hc => e3 c (List.mem_reverse.mp hc)⟩
      have := congrArg List.reverse e1
      rw [List.reverse_reverse] at this
      rw [this]
      simp
  have hbase : declNames (d :: u ++ (sp ++ x)) = some (d :: u, x) := by
    have hdn : d ≠ '\n' := by rintro rfl; exact hn (by simp)
    have h1 : declNames (u ++ (sp ++ x)) = none :=
      declNames_free hu (declNames_free (fun c hc => space_not_word (hs.2 c hc)) (declNames_words hx.2))
    have hsp := span_eq (p := isWord) (a := []) (b := u ++ (sp ++ x)) (by simp) (by
      intro c hc
      cases u with
      | cons e u =>
        simp only [List.cons_append, List.head?_cons, Option.some.injEq] at hc
        subst hc
        exact hu _ (by simp)
      | nil =>
        cases sp with
        | nil => exact absurd rfl hs.1
        | cons e sp =>
          simp only [List.nil_append, List.cons_append, List.head?_cons, Option.some.injEq] at hc
          subst hc
          exact space_not_word (hs.2 _ (by simp)))
    simp only [List.nil_append] at hsp
    rw [List.cons_append, declNames, if_neg hdn, h1, if_pos hd, hsp.2, hsp.1]
    simp only
    rw [lazyName_front (fun c hc => ⟨hu c hc, fun e => hn (by rw [← e]; simp [hc])⟩) (by
      intro c hc
      apply ht.2
      rw [List.getLast?_append, List.getLast?_cons, hc]
      rfl) hs hx]
    rfl
  induction a with
  | nil => exact hbase
  | cons c a ih =>
    have hc : c ≠ '\n' := by rintro rfl; exact hn (by simp)
    have key : ∀ b : Str, '\n' ∉ b → declNames (b ++ (d :: u ++ (sp ++ x))) = some (b ++ d :: u, x) := by
      intro b hb
      induction b with
      | nil => exact hbase
      | cons e b ihb =>
        have he : e ≠ '\n' := by rintro rfl; exact hb (by simp)
        rw [List.cons_append, declNames, if_neg he, ihb fun h => hb (List.mem_cons_of_mem _ h)]
        rfl
    have := key (c :: a) fun h => hn (by simp only [List.mem_append]; exact .inl h)
    simpa using this

theorem recognise_decl (ev : Str → Option (Pragma α)) {t sp x : Str} (ht : Trim t) (hn : '\n' ∉ t)
    (hw : ∃ c ∈ t, isWord c = true) (hs : sp ≠ [] ∧ Blank sp) (hx : x ≠ [] ∧ ∀ c ∈ x, isWord c = true)
    (ho : Ordinary (t ++ (sp ++ x))) : recognise ev (t ++ (sp ++ x)) = some (.decl t x) := by
  have hf : Front (t ++ (sp ++ x)) := by
    intro c hc
    cases t with
    | nil => obtain ⟨d, hd, -⟩ := hw; cases hd
    | cons d t =>
      simp only [List.cons_append, List.head?_cons, Option.some.injEq] at hc
      subst hc
      exact ht.1 d rfl
  have hne : t ++ (sp ++ x) ≠ [] := by
    intro e
    exact hx.1 (List.append_eq_nil_iff.mp (List.append_eq_nil_iff.mp e).2).2
  have k8 : isMarker (t ++ (sp ++ x)) = false := by
    unfold isMarker
    rw [front_drop hf]
    split
    · rename_i c r e
      exact absurd ⟨c :: r, e.symm⟩ ho.2
    · rfl
  rw [recognise_tail ev hf ho.1 (afterPragma_none hf ho.2) (afterPragma_none hf ho.2) (afterPragma_none hf ho.2),
    if_neg hne, k8, declNames_eq ht hn hw hs hx]
  simp

/-! ## The other statements -/

theorem afterWord_eq {w sp s : Str} (hs : sp ≠ [] ∧ Blank sp) (hf : Front s) : afterWord w (w ++ (sp ++ s)) = some s := by
  unfold afterWord
  rw [dropPrefix_self]
  cases sp with
  | nil => exact absurd rfl hs.1
  | cons c sp =>
    simp only [List.cons_append]
    rw [if_pos (hs.2 c (by simp)), front_append (fun d hd => hs.2 d (List.mem_cons_of_mem _ hd)) hf]

theorem name_front {n : Str} (h : ∀ c ∈ n, isNameChar c = true) : Front n := by
  intro c hc
  cases n with
  | nil => cases hc
  | cons d n =>
    simp only [List.head?_cons, Option.some.injEq] at hc
    subst hc
    have := h d (by simp)
    simp only [isNameChar, Bool.or_eq_true, decide_eq_true_eq] at this
    rcases this with h | rfl
    · exact not_space_of_word h
    · decide

theorem cons_front {c : Char} (hc : isSpace c = false) (r : Str) : Front (c :: r) := by
  intro d hd
  simp only [List.head?_cons, Option.some.injEq] at hd
  subst hd
  exact hc

theorem fUsing (r : Str) : Front (kwUsing ++ r) := cons_front (by decide) _
theorem fNamespace (r : Str) : Front (kwNamespace ++ r) := cons_front (by decide) _
theorem fPragma (r : Str) : Front (kwPragma ++ r) := cons_front (by decide) _
theorem fCyclus (r : Str) : Front (kwCyclus ++ r) := cons_front (by decide) _
theorem fVar (r : Str) : Front (kwVar ++ r) := cons_front (by decide) _
theorem fTypedef (r : Str) : Front (kwTypedef ++ r) := cons_front (by decide) _

/-- Nothing of a text that begins with one of `n`, `t`, `u` and `#` is the head of a class or an access specifier. -/
theorem no_class {c : Char} {r : Str} (hc : c = 'u' ∨ c = 'n' ∨ c = '#') :
    CycppScan.classHead (c :: r) = none ∧ isAccess (c :: r) = false := by
  have hf : Front (c :: r) := cons_front (by rcases hc with rfl | rfl | rfl <;> decide) r
  have hno : ∀ (d : Char) (k : Str), d ≠ 'u' → d ≠ 'n' → d ≠ '#' → ¬ (d :: k) <+: c :: r := by
    rintro d k h1 h2 h3 ⟨q, hq⟩
    simp only [List.cons_append, List.cons.injEq] at hq
    rcases hc with rfl | rfl | rfl
    · exact h1 hq.1
    · exact h2 hq.1
    · exact h3 hq.1
  refine ⟨classHead_none hf (hno _ _ (by decide) (by decide) (by decide)) (hno _ _ (by decide) (by decide) (by decide))
    (hno _ _ (by decide) (by decide) (by decide)), isAccess_false hf ?_⟩
  intro k hk
  simp only [accessWords, List.mem_cons, List.not_mem_nil, or_false] at hk
  rcases hk with rfl | rfl | rfl <;> exact hno _ _ (by decide) (by decide) (by decide)

theorem not_hash {c : Char} {r : Str} (hc : c ≠ '#') : ¬ ['#'] <+: c :: r := by
  rintro ⟨q, hq⟩
  simp only [List.cons_append, List.cons.injEq] at hq
  exact hc hq.1.symm

theorem usingNs_front (sp x : Str) : ∃ r, kwUsing ++ (sp ++ x) = 'u' :: r ∧ Front (kwUsing ++ (sp ++ x)) :=
  ⟨_, rfl, cons_front (by decide) _⟩

theorem recognise_usingNs (ev : Str → Option (Pragma α)) {sp sp' n : Str} (hs : sp ≠ [] ∧ Blank sp)
    (hs' : sp' ≠ [] ∧ Blank sp') (hn : ∀ c ∈ n, isNameChar c = true) :
    recognise ev (kwUsing ++ (sp ++ (kwNamespace ++ (sp' ++ n)))) = some (.usingNs n) := by
  have hu : usingNsName (kwUsing ++ (sp ++ (kwNamespace ++ (sp' ++ n)))) = some n := by
    unfold usingNsName
    rw [front_drop (fUsing _), afterWord_eq hs (fNamespace _)]
    simp only
    rw [afterWord_eq hs' (name_front hn)]
    simp only [CycppScan.takeWhile_all hn]
  unfold recognise
  rw [hu, if_neg (by simp [kwUsing])]
  have := no_class (c := 'u') (r := ['s', 'i', 'n', 'g'] ++ (sp ++ (kwNamespace ++ (sp' ++ n)))) (.inl rfl)
  have he : kwUsing ++ (sp ++ (kwNamespace ++ (sp' ++ n))) = 'u' :: (['s', 'i', 'n', 'g'] ++ (sp ++ (kwNamespace ++ (sp' ++ n)))) := rfl
  rw [he, this.1, this.2, afterPragma_none (cons_front (by decide) _) (not_hash (by decide))]
  simp

theorem recognise_usingName (ev : Str → Option (Pragma α)) {sp n : Str} (hs : sp ≠ [] ∧ Blank sp)
    (hn : n ≠ [] ∧ ∀ c ∈ n, isNameChar c = true) :
    recognise ev (kwUsing ++ (sp ++ n)) = some (.usingName n) := by
  have hf : Front (kwUsing ++ (sp ++ n)) := cons_front (by decide) _
  have ha : afterWord kwUsing (kwUsing ++ (sp ++ n)) = some n := afterWord_eq hs (name_front hn.2)
  have hnn : afterWord kwNamespace n = none := by
    cases h : afterWord kwNamespace n with
    | none => rfl
    | some r =>
      unfold afterWord at h
      split at h
      · rename_i c r' hd
        split at h
        · rename_i hc
          have := hn.2 c (by rw [dropPrefix_some hd]; simp)
          simp only [isNameChar, Bool.or_eq_true, decide_eq_true_eq] at this
          rcases this with h | rfl
          · rw [not_space_of_word h] at hc; cases hc
          · exact absurd hc (by decide)
        · cases h
      · cases h
  have h1 : usingNsName (kwUsing ++ (sp ++ n)) = none := by
    unfold usingNsName
    rw [front_drop hf, ha]
    simp only [hnn]
  have hno : ∀ (k : Str), ¬ ('n' :: k) <+: kwUsing ++ (sp ++ n) := by
    rintro k ⟨q, hq⟩
    simp [kwUsing] at hq
  have hno' : ∀ (k : Str), ¬ ('t' :: k) <+: kwUsing ++ (sp ++ n) := by
    rintro k ⟨q, hq⟩
    simp [kwUsing] at hq
  have h2 : nsAliasNames (kwUsing ++ (sp ++ n)) = none := by
    unfold nsAliasNames
    rw [front_drop hf, afterWord_none (w := kwNamespace) (hno _)]
  have h3 : CycppScan.nsStmt (α := α) (kwUsing ++ (sp ++ n)) = none := by
    unfold CycppScan.nsStmt
    rw [front_drop hf, dropPrefix_none (hno _)]
  have h4 : typedefText (kwUsing ++ (sp ++ n)) = none := by
    unfold typedefText
    rw [front_drop hf, dropPrefix_none (p := kwTypedef) (hno' _)]
  have h5 : usingText (kwUsing ++ (sp ++ n)) = some n := by
    unfold usingText
    rw [front_drop hf, ha]
    simp only [CycppScan.takeWhile_all hn.2]
    cases n with
    | nil => exact absurd rfl hn.1
    | cons c n => rfl
  have h6 := no_class (c := 'u') (r := ['s', 'i', 'n', 'g'] ++ (sp ++ n)) (.inl rfl)
  have h7 : afterPragma kwExec (kwUsing ++ (sp ++ n)) = none :=
    afterPragma_none hf (by rintro ⟨q, hq⟩; simp [kwUsing] at hq)
  unfold recognise
  rw [if_neg (by simp [kwUsing]), h1, h2, h3, h4, h5, h7]
  have he : kwUsing ++ (sp ++ n) = 'u' :: (['s', 'i', 'n', 'g'] ++ (sp ++ n)) := rfl
  rw [he, h6.1, h6.2]
  simp

theorem recognise_nsAlias (ev : Str → Option (Pragma α)) {sp a g g' n : Str} (hs : sp ≠ [] ∧ Blank sp)
    (ha : a ≠ [] ∧ ∀ c ∈ a, isWord c = true) (hg : Blank g) (hg' : Blank g')
    (hn : n ≠ [] ∧ ∀ c ∈ n, isNameChar c = true) :
    recognise ev (kwNamespace ++ (sp ++ (a ++ (g ++ '=' :: (g' ++ n))))) = some (.nsAlias a n) := by
  generalize hx : sp ++ (a ++ (g ++ '=' :: (g' ++ n))) = x
  have hf : Front (kwNamespace ++ x) := cons_front (by decide) _
  have hu : usingNsName (kwNamespace ++ x) = none := by
    unfold usingNsName
    rw [front_drop hf, afterWord_none (by rintro ⟨q, hq⟩; simp [kwUsing, kwNamespace] at hq)]
  have hal : nsAliasNames (kwNamespace ++ x) = some (a, n) := by
    unfold nsAliasNames
    rw [front_drop hf, ← hx, afterWord_eq hs (word_front ha.1 ha.2)]
    have hsp := span_eq (p := isWord) (a := a) (b := g ++ '=' :: (g' ++ n)) ha.2 (by
      intro c hc
      cases g with
      | nil =>
        simp only [List.nil_append, List.head?_cons, Option.some.injEq] at hc
        subst hc; decide
      | cons d g =>
        simp only [List.cons_append, List.head?_cons, Option.some.injEq] at hc
        subst hc
        exact space_not_word (hg _ (by simp)))
    simp only [hsp.1, hsp.2, front_append hg (cons_front (c := '=') (by decide) (g' ++ n))]
    have hnn : ((g' ++ n).dropWhile isSpace).takeWhile isNameChar = n := by
      rw [front_append hg' (name_front hn.2), CycppScan.takeWhile_all hn.2]
    cases a with
    | nil => exact absurd rfl ha.1
    | cons c a =>
      cases n with
      | nil => exact absurd rfl hn.1
      | cons d n =>
        simp only
        rw [hnn]
  have h6 := no_class (c := 'n') (r := ['a', 'm', 'e', 's', 'p', 'a', 'c', 'e'] ++ x) (.inr (.inl rfl))
  have h7 : afterPragma kwExec (kwNamespace ++ x) = none :=
    afterPragma_none hf (by rintro ⟨q, hq⟩; simp [kwNamespace] at hq)
  unfold recognise
  rw [if_neg (by simp [kwNamespace]), hu, hal, h7]
  have he : kwNamespace ++ x = 'n' :: (['a', 'm', 'e', 's', 'p', 'a', 'c', 'e'] ++ x) := rfl
  rw [he, h6.1, h6.2]
  simp

theorem recognise_ns (ev : Str → Option (Pragma α)) {sp n : Str} (hs : sp ≠ [] ∧ Blank sp)
    (hn : n ≠ [] ∧ ∀ c ∈ n, isWord c = true) :
    recognise ev (kwNamespace ++ (sp ++ n)) = some (.ns (some n)) := by
  have hfn : Front n := by simpa using word_front (r := []) hn.1 hn.2
  have hal : nsAliasNames (kwNamespace ++ (sp ++ n)) = none := by
    unfold nsAliasNames
    rw [front_drop (fNamespace _), afterWord_eq hs hfn]
    have hsp := span_eq (p := isWord) (a := n) (b := []) hn.2 (by simp)
    rw [List.append_nil] at hsp
    simp only [hsp.1, hsp.2, List.dropWhile_nil]
    cases n with
    | nil => rfl
    | cons c n => rfl
  have hst : CycppScan.nsStmt (α := α) (kwNamespace ++ (sp ++ n)) = some (.ns (some n)) := by
    unfold CycppScan.nsStmt
    rw [front_drop (fNamespace _)]
    have : dropPrefix ['n', 'a', 'm', 'e', 's', 'p', 'a', 'c', 'e'] (kwNamespace ++ (sp ++ n)) = some (sp ++ n) :=
      dropPrefix_self _ _
    rw [this]
    cases sp with
    | nil => exact absurd rfl hs.1
    | cons c sp =>
      simp only [List.cons_append]
      rw [if_pos (hs.2 c (by simp)), front_append (fun d hd => hs.2 d (List.mem_cons_of_mem _ hd)) hfn,
        CycppScan.takeWhile_all hn.2]
      cases n with
      | nil => exact absurd rfl hn.1
      | cons c n => rfl
  generalize sp ++ n = x at hal hst ⊢
  have hf : Front (kwNamespace ++ x) := cons_front (by decide) _
  have hu : usingNsName (kwNamespace ++ x) = none := by
    unfold usingNsName
    rw [front_drop hf, afterWord_none (by rintro ⟨q, hq⟩; simp [kwUsing, kwNamespace] at hq)]
  have h6 := no_class (c := 'n') (r := ['a', 'm', 'e', 's', 'p', 'a', 'c', 'e'] ++ x) (.inr (.inl rfl))
  have h7 : afterPragma kwExec (kwNamespace ++ x) = none :=
    afterPragma_none hf (by rintro ⟨q, hq⟩; simp [kwNamespace] at hq)
  unfold recognise
  rw [if_neg (by simp [kwNamespace]), hu, hal, hst, h7]
  have he : kwNamespace ++ x = 'n' :: (['a', 'm', 'e', 's', 'p', 'a', 'c', 'e'] ++ x) := rfl
  rw [he, h6.1, h6.2]
  simp

theorem recognise_var (ev : Str → Option (Pragma α)) {a : Pragma α} {g sp sp' sp'' raw : Str} (hg : Blank g)
    (hs : sp ≠ [] ∧ Blank sp) (hs' : sp' ≠ [] ∧ Blank sp') (hs'' : sp'' ≠ [] ∧ Blank sp'') (hr : Front raw)
    (hn : '\n' ∉ raw) (he : ev raw = some a) :
    recognise ev ('#' :: (g ++ (kwPragma ++ (sp ++ (kwCyclus ++ (sp' ++ (kwVar ++ (sp'' ++ raw)))))))) =
      some (.var a) := by
  have hp : ∀ w, afterPragma w ('#' :: (g ++ (kwPragma ++ (sp ++ (kwCyclus ++ (sp' ++ (kwVar ++ (sp'' ++ raw)))))))) =
      afterWord w (kwVar ++ (sp'' ++ raw)) := by
    intro w
    unfold afterPragma
    rw [front_drop (hash_front _)]
    simp only
    rw [front_append hg (fPragma _), afterWord_eq hs (fCyclus _)]
    simp only
    rw [afterWord_eq hs' (fVar _)]
  have h1 := hp kwExec
  rw [afterWord_none (by rintro ⟨q, hq⟩; simp [kwExec, kwVar] at hq)] at h1
  have h2 := hp kwNote
  rw [afterWord_none (by rintro ⟨q, hq⟩; simp [kwNote, kwVar] at hq)] at h2
  have h3 := hp kwVar
  rw [afterWord_eq hs'' hr] at h3
  have h4 : isMarker ('#' :: (g ++ (kwPragma ++ (sp ++ (kwCyclus ++ (sp' ++ (kwVar ++ (sp'' ++ raw)))))))) = false := by
    unfold isMarker
    rw [front_drop (hash_front _)]
    cases g with
    | nil => rfl
    | cons c g =>
      simp only [List.cons_append]
      rw [front_append (fun d hd => hg d (List.mem_cons_of_mem _ hd)) (fPragma _)]
      have : List.takeWhile Char.isDigit (kwPragma ++ (sp ++ (kwCyclus ++ (sp' ++ (kwVar ++ (sp'' ++ raw)))))) = [] := rfl
      rw [this]
      simp
  generalize g ++ (kwPragma ++ (sp ++ (kwCyclus ++ (sp' ++ (kwVar ++ (sp'' ++ raw)))))) = x at h1 h2 h3 h4 ⊢
  have hf := hash_front x
  have hk := no_keyword (c := '#') (by decide) x
  have ku : afterWord kwUsing ('#' :: x) = none := afterWord_none (hk _ (by simp [keywords, kwUsing]))
  have kn : afterWord kwNamespace ('#' :: x) = none := afterWord_none (hk _ (by simp [keywords, kwNamespace]))
  have k1 := no_class (c := '#') (r := x) (.inr (.inr rfl))
  have k3 : usingNsName ('#' :: x) = none := by unfold usingNsName; rw [front_drop hf, ku]
  have k4 : nsAliasNames ('#' :: x) = none := by unfold nsAliasNames; rw [front_drop hf, kn]
  have k5 : CycppScan.nsStmt (α := α) ('#' :: x) = none := by
    unfold CycppScan.nsStmt; rw [front_drop hf, dropPrefix_none (hk _ (by simp [keywords]))]
  have k6 : typedefText ('#' :: x) = none := by
    unfold typedefText; rw [front_drop hf, dropPrefix_none (hk _ (by simp [keywords, kwTypedef]))]
  have k7 : usingText ('#' :: x) = none := by unfold usingText; rw [front_drop hf, ku]
  have hraw : raw.takeWhile (fun c => decide (c ≠ '\n')) = raw :=
    CycppScan.takeWhile_all fun c hc => by
      rw [decide_eq_true_eq]
      rintro rfl
      exact hn hc
  unfold recognise
  rw [if_neg (by simp), k1.1, k1.2, h1, k3, k4, k5, k6, k7, h4, h2, h3]
  simp only [Option.isSome_none, Bool.false_eq_true, if_false]
  rw [hraw, he]
  rfl

theorem recognise_marker (ev : Str → Option (Pragma α)) {s : Str} (h : Marker s) : recognise ev s = some .other := by
  obtain ⟨g, n, h, f, r, hg0, hg, hn0, hn, hh0, hh, rfl⟩ := h
  have hfn : Front (n ++ (h ++ '"' :: (f ++ '"' :: r))) := by
    intro c hc
    cases n with
    | nil => exact absurd rfl hn0
    | cons d n =>
      simp only [List.cons_append, List.head?_cons, Option.some.injEq] at hc
      subst hc
      refine not_space_of_word ?_
      have := hn d (by simp)
      simp [isWord, Char.isAlphanum, this]
  have hnp : ∀ w, afterPragma w ('#' :: (g ++ (n ++ (h ++ '"' :: (f ++ '"' :: r))))) = none := by
    intro w
    unfold afterPragma
    rw [front_drop (hash_front _)]
    simp only
    rw [front_append hg hfn, afterWord_none]
    rintro ⟨q, hq⟩
    cases n with
    | nil => exact absurd rfl hn0
    | cons d n =>
      simp only [kwPragma, List.cons_append, List.cons.injEq] at hq
      have := hn d (by simp)
      rw [← hq.1] at this
      exact absurd this (by decide)
  have hm : isMarker ('#' :: (g ++ (n ++ (h ++ '"' :: (f ++ '"' :: r))))) = true := by
    unfold isMarker
    rw [front_drop (hash_front _)]
    cases g with
    | nil => exact absurd rfl hg0
    | cons c g =>
      simp only [List.cons_append]
      rw [front_append (fun d hd => hg d (List.mem_cons_of_mem _ hd)) hfn]
      have hsp := span_eq (p := Char.isDigit) (a := n) (b := h ++ '"' :: (f ++ '"' :: r)) hn (by
        intro d hd
        cases h with
        | nil => exact absurd rfl hh0
        | cons e h =>
          simp only [List.cons_append, List.head?_cons, Option.some.injEq] at hd
          subst hd
          have := space_not_word (hh e (by simp))
          by_contra hc
          rw [Bool.not_eq_false] at hc
          simp [isWord, Char.isAlphanum, hc] at this)
      rw [hsp.1, hsp.2]
      cases n with
      | nil => exact absurd rfl hn0
      | cons d n =>
        cases h with
        | nil => exact absurd rfl hh0
        | cons e h =>
          simp only [List.cons_append]
          rw [front_append (fun d hd => hh d (List.mem_cons_of_mem _ hd)) (cons_front (by decide) _)]
          simp [hg c (by simp), hh e (by simp)]
  generalize g ++ (n ++ (h ++ '"' :: (f ++ '"' :: r))) = x at hnp hm ⊢
  have hf := hash_front x
  have hk := no_keyword (c := '#') (by decide) x
  have ku : afterWord kwUsing ('#' :: x) = none := afterWord_none (hk _ (by simp [keywords, kwUsing]))
  have kn : afterWord kwNamespace ('#' :: x) = none := afterWord_none (hk _ (by simp [keywords, kwNamespace]))
  have k1 := no_class (c := '#') (r := x) (.inr (.inr rfl))
  have k3 : usingNsName ('#' :: x) = none := by unfold usingNsName; rw [front_drop hf, ku]
  have k4 : nsAliasNames ('#' :: x) = none := by unfold nsAliasNames; rw [front_drop hf, kn]
  have k5 : CycppScan.nsStmt (α := α) ('#' :: x) = none := by
    unfold CycppScan.nsStmt; rw [front_drop hf, dropPrefix_none (hk _ (by simp [keywords]))]
  have k6 : typedefText ('#' :: x) = none := by
    unfold typedefText; rw [front_drop hf, dropPrefix_none (hk _ (by simp [keywords, kwTypedef]))]
  have k7 : usingText ('#' :: x) = none := by unfold usingText; rw [front_drop hf, ku]
  unfold recognise
  rw [if_neg (by simp), k1.1, k1.2, hnp, k3, k4, k5, k6, k7, hm]
  simp

theorem recognise_cls (ev : Str → Option (Pragma α)) {s : Str} {n : Str} {bs : List Str}
    (h : CycppScan.classStmt (α := α) s = some (.cls n bs)) : recognise ev s = some (.cls n bs) := by
  have hc : (CycppScan.classHead s).isSome = true := by
    unfold CycppScan.classStmt at h
    split at h
    · cases h
    · rename_i e; rw [e]; rfl
    · rename_i e; rw [e]; rfl
  unfold recognise
  split
  · rename_i he
    subst he
    cases hc
  · exact h

theorem lazyName_free {s : Str} (h : ∀ c ∈ s, isSpace c = false) : lazyName s = none := by
  induction s with
  | nil => rfl
  | cons c s ih =>
    rw [lazyName, h c (by simp), ih fun d hd => h d (List.mem_cons_of_mem _ hd)]
    simp

theorem declNames_solid {s : Str} (h : ∀ c ∈ s, isSpace c = false) : declNames s = none := by
  induction s with
  | nil => rfl
  | cons c s ih =>
    have : lazyName (s.dropWhile isWord) = none := by
      apply lazyName_free
      intro d hd
      exact h d (List.mem_cons_of_mem _ ((List.dropWhile_suffix _).mem hd))
    rw [declNames, ih fun d hd => h d (List.mem_cons_of_mem _ hd), this]
    simp

theorem recognise_solid (ev : Str → Option (Pragma α)) {s : Str} (ho : Ordinary s) (h : ∀ c ∈ s, isSpace c = false) :
    recognise ev s = some .other := by
  have hf : Front s := fun c hc => h c (List.mem_of_head? hc)
  rw [recognise_tail ev hf ho.1 (afterPragma_none hf ho.2) (afterPragma_none hf ho.2) (afterPragma_none hf ho.2),
    declNames_solid h]
  simp

/-! ## Typedefs -/

theorem words_unwords {l : List Str} (h : ∀ w ∈ l, w ≠ [] ∧ ∀ c ∈ w, isSpace c = false) : words (unwords l) = l := by
  induction l with
  | nil => rfl
  | cons a l ih =>
    cases l with
    | nil => exact words_one (h a (by simp)).2 (h a (by simp)).1
    | cons b r =>
      rw [unwords, words_sep _ _ (by decide), ih fun w hw => h w (List.mem_cons_of_mem _ hw),
        words_one (h a (by simp)).2 (h a (by simp)).1]
      rfl

theorem unwords_mem {l : List Str} {c : Char} (h : c ∈ unwords l) : c = ' ' ∨ ∃ w ∈ l, c ∈ w := by
  induction l with
  | nil => simp [unwords] at h
  | cons a l ih =>
    cases l with
    | nil => exact .inr ⟨a, by simp, h⟩
    | cons b r =>
      rw [unwords, List.mem_append, List.mem_cons] at h
      rcases h with h | h | h
      · exact .inr ⟨a, by simp, h⟩
      · exact .inl h
      · rcases ih h with h | ⟨w, hw, hc⟩
        · exact .inl h
        · exact .inr ⟨w, List.mem_cons_of_mem _ hw, hc⟩

theorem unwords_trim {l : List Str} (h : ∀ w ∈ l, w ≠ [] ∧ ∀ c ∈ w, isSpace c = false) : Trim (unwords l) := by
  induction l with
  | nil => exact ⟨by simp [unwords], by simp [unwords]⟩
  | cons a l ih =>
    obtain ⟨ha0, ha⟩ := h a (by simp)
    cases l with
    | nil => exact ⟨fun c hc => ha c (List.mem_of_head? hc), fun c hc => ha c (List.mem_of_getLast? hc)⟩
    | cons b r =>
      have ih' := ih fun w hw => h w (List.mem_cons_of_mem _ hw)
      have hne : unwords (b :: r) ≠ [] := by
        intro e
        have := words_unwords fun w hw => h w (List.mem_cons_of_mem _ hw)
        rw [e] at this
        cases this
      constructor
      · intro c hc
        cases a with
        | nil => exact absurd rfl ha0
        | cons d a =>
          rw [unwords, List.cons_append, List.head?_cons, Option.some.injEq] at hc
          subst hc
          exact ha _ (by simp)
      · intro c hc
        rw [unwords, List.getLast?_append_of_ne_nil _ (by simp), List.getLast?_cons] at hc
        cases hl : (unwords (b :: r)).getLast? with
        | none => exact absurd (List.getLast?_eq_none_iff.mp hl) hne
        | some d =>
          rw [hl] at hc
          simp only [Option.getD_some, Option.some.injEq] at hc
          subst hc
          exact ih'.2 _ hl

theorem typeword_trim {w : Str} (h : TypeWord w) : Trim w :=
  ⟨fun c hc => (h.2 c (List.mem_of_head? hc)).1, fun c hc => (h.2 c (List.mem_of_getLast? hc)).1⟩

theorem split_more (ns : List (Str × Str × Str))
    (h : ∀ x ∈ ns, Blank x.1 ∧ TypeWord x.2.1 ∧ Blank x.2.2) :
    ∀ g : Str, ',' ∉ g →
    Cycpp.pySplit ',' (g ++ moreNames ns) = g :: ns.map fun x => x.1 ++ x.2.1 ++ x.2.2 := by
  induction ns with
  | nil =>
    intro g hg
    rw [moreNames, List.append_nil, Cycpp.pySplit_free _ _ hg]
    rfl
  | cons x ns ih =>
    intro g hg
    obtain ⟨a, n, b⟩ := x
    obtain ⟨h1, h2, h3⟩ := h (a, n, b) (by simp)
    rw [moreNames, Cycpp.pySplit_sep _ _ _ hg, ih (fun y hy => h y (List.mem_cons_of_mem _ hy))]
    · rfl
    · simp only [List.mem_append, not_or]
      exact ⟨⟨fun hm => absurd (h1 _ hm) (by decide), fun hm => (h2.2 _ hm).2.1 rfl⟩,
        fun hm => absurd (h3 _ hm) (by decide)⟩

theorem outter_plain (l : List Str) (h : ∀ x ∈ l, '(' ∉ x ∧ ')' ∉ x) :
    Cycpp.outterLoop isSpace '(' ')' ',' 0 [] l = l.map (Cycpp.strip isSpace) := by
  induction l with
  | nil => rfl
  | cons x l ih =>
    obtain ⟨h1, h2⟩ := h x (by simp)
    rw [Cycpp.outterLoop]
    simp only [List.count_eq_zero_of_not_mem h1, List.count_eq_zero_of_not_mem h2]
    simp only [Nat.cast_zero, add_zero, sub_zero, if_true, List.nil_append, List.map_cons]
    rw [ih fun y hy => h y (List.mem_cons_of_mem _ hy)]

theorem moreNames_mem {ns : List (Str × Str × Str)} {c : Char} (h : c ∈ moreNames ns) :
    c = ',' ∨ ∃ x ∈ ns, c ∈ x.1 ∨ c ∈ x.2.1 ∨ c ∈ x.2.2 := by
  induction ns with
  | nil => simp [moreNames] at h
  | cons x ns ih =>
    obtain ⟨a, n, b⟩ := x
    simp only [moreNames, List.mem_cons, List.mem_append] at h
    rcases h with h | ((h | h) | h) | h
    · exact .inl h
    · exact .inr ⟨(a, n, b), by simp, .inl h⟩
    · exact .inr ⟨(a, n, b), by simp, .inr (.inl h)⟩
    · exact .inr ⟨(a, n, b), by simp, .inr (.inr h)⟩
    · rcases ih h with h | ⟨x, hx, hc⟩
      · exact .inl h
      · exact .inr ⟨x, List.mem_cons_of_mem _ hx, hc⟩

theorem recognise_typedef (ev : Str → Option (Pragma α)) {sp n : Str} {ws : List Str} {ns : List (Str × Str × Str)}
    (hs : sp ≠ [] ∧ Blank sp) (hw0 : ws ≠ []) (hw : ∀ w ∈ ws, TypeWord w) (hn : TypeWord n)
    (hns : ∀ x ∈ ns, Blank x.1 ∧ '\n' ∉ x.1 ∧ TypeWord x.2.1 ∧ Blank x.2.2 ∧ '\n' ∉ x.2.2) :
    recognise ev (kwTypedef ++ (sp ++ (unwords (ws ++ [n]) ++ moreNames ns))) =
      some (.typedef (unwords ws) (n :: ns.map (·.2.1))) := by
  have hall : ∀ w ∈ ws ++ [n], TypeWord w := by
    intro w hw'
    rcases List.mem_append.mp hw' with h | h
    · exact hw w h
    · rw [List.mem_singleton] at h; subst h; exact hn
  have hall' : ∀ w ∈ ws ++ [n], w ≠ [] ∧ ∀ c ∈ w, isSpace c = false := fun w hw' =>
    ⟨(hall w hw').1, fun c hc => ((hall w hw').2 c hc).1⟩
  have htrim := unwords_trim hall'
  have hwords := words_unwords hall'
  have hne : unwords (ws ++ [n]) ≠ [] := by
    intro e
    rw [e] at hwords
    simp [words] at hwords
  have hspace : ' ' ∈ unwords (ws ++ [n]) := by
    cases ws with
    | nil => exact absurd rfl hw0
    | cons a ws =>
      cases ws with
      | nil => simp [unwords]
      | cons b ws => simp [unwords]
  have hfree : ∀ c, c = ',' ∨ c = '(' ∨ c = ')' ∨ c = '\n' → c ∉ unwords (ws ++ [n]) := by
    intro c hc hm
    rcases unwords_mem hm with rfl | ⟨w, hw', hcw⟩
    · revert hc; decide
    · obtain ⟨h1, h2, h3, h4⟩ := (hall w hw').2 c hcw
      rcases hc with rfl | rfl | rfl | rfl
      · exact h2 rfl
      · exact h3 rfl
      · exact h4 rfl
      · exact absurd h1 (by decide)
  have hfree' : ∀ c, c = '(' ∨ c = ')' ∨ c = '\n' → c ∉ moreNames ns := by
    intro c hc hm
    rcases moreNames_mem hm with rfl | ⟨x, hx, h⟩
    · revert hc; decide
    · obtain ⟨h1, h2, h3, h4, h5⟩ := hns x hx
      rcases h with h | h | h
      · rcases hc with rfl | rfl | rfl
        · exact absurd (h1 _ h) (by decide)
        · exact absurd (h1 _ h) (by decide)
        · exact h2 h
      · obtain ⟨k1, k2, k3, k4⟩ := h3.2 c h
        rcases hc with rfl | rfl | rfl
        · exact k3 rfl
        · exact k4 rfl
        · exact absurd k1 (by decide)
      · rcases hc with rfl | rfl | rfl
        · exact absurd (h4 _ h) (by decide)
        · exact absurd (h4 _ h) (by decide)
        · exact h5 h
  have hsplit : Cycpp.outterSplit isSpace '(' ')' ',' (unwords (ws ++ [n]) ++ moreNames ns) =
      unwords (ws ++ [n]) :: ns.map (·.2.1) := by
    unfold Cycpp.outterSplit
    rw [split_more ns (fun x hx => ⟨(hns x hx).1, (hns x hx).2.2.1, (hns x hx).2.2.2.1⟩) _ (hfree _ (.inl rfl)),
      outter_plain]
    · rw [List.map_cons]
      have e1 : Cycpp.strip isSpace (unwords (ws ++ [n])) = unwords (ws ++ [n]) := by
        have := strip_mid (w := []) (w' := []) (by simp [Blank]) htrim (by simp [Blank])
        simpa using this
      rw [e1, List.map_map]
      congr 1
      apply List.map_congr_left
      intro x hx
      exact strip_mid (hns x hx).1 (typeword_trim (hns x hx).2.2.1) (hns x hx).2.2.2.1
    · intro y hy
      rcases List.mem_cons.mp hy with rfl | hy
      · exact ⟨hfree _ (.inr (.inl rfl)), hfree _ (.inr (.inr (.inl rfl)))⟩
      · obtain ⟨x, hx, rfl⟩ := List.mem_map.mp hy
        obtain ⟨h1, -, h3, h4, -⟩ := hns x hx
        constructor
        · simp only [List.mem_append, not_or]
          exact ⟨⟨fun hm => absurd (h1 _ hm) (by decide), fun hm => (h3.2 _ hm).2.2.1 rfl⟩,
            fun hm => absurd (h4 _ hm) (by decide)⟩
        · simp only [List.mem_append, not_or]
          exact ⟨⟨fun hm => absurd (h1 _ hm) (by decide), fun hm => (h3.2 _ hm).2.2.2 rfl⟩,
            fun hm => absurd (h4 _ hm) (by decide)⟩
  have hstmt : typedefStmt (α := α) (unwords (ws ++ [n]) ++ moreNames ns) =
      some (.typedef (unwords ws) (n :: ns.map (·.2.1))) := by
    unfold typedefStmt
    rw [hsplit]
    simp only [hwords]
    simp
  have hnl : '\n' ∉ unwords (ws ++ [n]) ++ moreNames ns := by
    rw [List.mem_append, not_or]
    exact ⟨hfree _ (.inr (.inr (.inr rfl))), hfree' _ (.inr (.inr rfl))⟩
  have hfront : Front (unwords (ws ++ [n]) ++ moreNames ns) := by
    intro c hc
    rw [List.head?_append_of_ne_nil _ hne] at hc
    exact htrim.1 c hc
  have hany : (unwords (ws ++ [n]) ++ moreNames ns).any isSpace = true := by
    rw [List.any_eq_true]
    exact ⟨' ', by simp [hspace], by decide⟩
  generalize unwords (ws ++ [n]) ++ moreNames ns = t at hstmt hnl hfront hany ⊢
  have htext : typedefText (kwTypedef ++ (sp ++ t)) = some t := by
    unfold typedefText
    rw [front_drop (fTypedef _), dropPrefix_self]
    cases sp with
    | nil => exact absurd rfl hs.1
    | cons c sp =>
      simp only [List.cons_append]
      rw [if_pos (hs.2 c (by simp)), front_append (fun d hd => hs.2 d (List.mem_cons_of_mem _ hd)) hfront, if_pos hany]
      have : t.dropWhile (fun x => decide (x ≠ '\n')) = [] := by
        have := (span_eq (p := fun x => decide (x ≠ '\n')) (a := t) (b := []) (by
          intro c hc
          rw [decide_eq_true_eq]
          rintro rfl
          exact hnl hc) (by simp)).2
        simpa using this
      rw [this]
      simp
  generalize sp ++ t = x at htext ⊢
  have hf := fTypedef x
  have k1 : CycppScan.classHead (kwTypedef ++ x) = none := by
    apply classHead_none hf <;> · rintro ⟨q, hq⟩; simp [kwTypedef] at hq
  have k2 : isAccess (kwTypedef ++ x) = false := by
    apply isAccess_false hf
    intro k hk
    simp only [accessWords, List.mem_cons, List.not_mem_nil, or_false] at hk
    rcases hk with rfl | rfl | rfl <;> · rintro ⟨q, hq⟩; simp [kwTypedef] at hq
  have k0 : afterPragma kwExec (kwTypedef ++ x) = none :=
    afterPragma_none hf (by rintro ⟨q, hq⟩; simp [kwTypedef] at hq)
  have ku : afterWord kwUsing (kwTypedef ++ x) = none :=
    afterWord_none (by rintro ⟨q, hq⟩; simp [kwTypedef, kwUsing] at hq)
  have kn : afterWord kwNamespace (kwTypedef ++ x) = none :=
    afterWord_none (by rintro ⟨q, hq⟩; simp [kwTypedef, kwNamespace] at hq)
  have k3 : usingNsName (kwTypedef ++ x) = none := by unfold usingNsName; rw [front_drop hf, ku]
  have k4 : nsAliasNames (kwTypedef ++ x) = none := by unfold nsAliasNames; rw [front_drop hf, kn]
  have k5 : CycppScan.nsStmt (α := α) (kwTypedef ++ x) = none := by
    unfold CycppScan.nsStmt
    rw [front_drop hf, dropPrefix_none (by rintro ⟨q, hq⟩; simp [kwTypedef] at hq)]
  unfold recognise
  rw [if_neg (by simp [kwTypedef]), k1, k2, k0, k3, k4, k5, htext]
  simp only [Option.isSome_none, Bool.false_eq_true, if_false]
  exact hstmt

theorem recognise_says (ev : Str → Option (Pragma α)) {st : Stmt α} {s : Str} (h : Says ev st s) :
    recognise ev s = some st := by
  cases h with
  | cls t lead kw sp name gap bs h1 h2 h3 h4 h5 h6 h7 h8 =>
    apply recognise_cls
    have := CycppScan.C114_head_partial (α := α) (t.map fun x => ([], x.1, x.2)) lead kw sp name gap bs (by
      intro x hx
      rw [Option.mem_def, Option.map_eq_some_iff] at hx
      obtain ⟨y, hy, rfl⟩ := hx
      exact ⟨by simp, (h1 y hy).1, (h1 y hy).2⟩) h2 h3 h4 h5 h6 h7 h8
    cases t <;> exact this
  | usingNs sp sp' n h1 h2 h3 => exact recognise_usingNs ev h1 h2 h3
  | nsAlias sp a g g' n h1 h2 h3 h4 h5 => exact recognise_nsAlias ev h1 h2 h3 h4 h5
  | ns sp n h1 h2 => exact recognise_ns ev h1 h2
  | typedef sp ws n ns h1 h2 h3 h4 h5 => exact recognise_typedef ev h1 h2 h3 h4 h5
  | usingName sp n h1 h2 => exact recognise_usingName ev h1 h2
  | var a g sp sp' sp'' raw h1 h2 h3 h4 h5 h6 h7 => exact recognise_var ev h1 h2 h3 h4 h5 h6 h7
  | decl t sp x h1 h2 h3 h4 h5 h6 => exact recognise_decl ev h1 h2 h3 h4 h5 h6
  | quiet s h =>
    rcases h with rfl | h | ⟨h1, h2⟩
    · rfl
    · exact recognise_access ev h
    · exact recognise_solid ev h1 h2

/-! ## The pass over the statements -/

open CycppScan (State accumulate transform revert popAt run newDepth onClass onDecl)

variable {τ : Type}

/-- Depths decrease, and are less than the current one. -/
def Below {β : Type} (d : ℤ) (l : List (ℤ × β)) : Prop := (∀ x ∈ l, x.1 < d) ∧ l.Pairwise fun a b => b.1 < a.1

/-- What holds between statements. -/
def Between (s : State τ α) : Prop := Below s.depth s.classes ∧ Below s.depth s.namespaces

theorem pop_below {β : Type} {d : ℤ} {l : List (ℤ × β)} (h1 : ∀ x ∈ l, x.1 ≤ d) (h2 : l.Pairwise fun a b => b.1 < a.1) :
    Below d (popAt d l) := by
  cases l with
  | nil => exact ⟨by simp [popAt], by simp [popAt]⟩
  | cons p l =>
    rw [List.pairwise_cons] at h2
    rw [popAt]
    split
    · rename_i he
      exact ⟨fun x hx => by rw [he]; exact h2.1 x hx, h2.2⟩
    · rename_i he
      have hp : p.1 < d := lt_of_le_of_ne (h1 p (by simp)) fun e => he e.symm
      refine ⟨?_, List.pairwise_cons.mpr h2⟩
      intro x hx
      rcases List.mem_cons.mp hx with rfl | hx
      · exact hp
      · exact (h2.1 x hx).trans hp

theorem pop_same {β : Type} {d : ℤ} {l : List (ℤ × β)} (h : Below d l) : popAt d l = l := by
  cases l with
  | nil => rfl
  | cons p l =>
    rw [popAt, if_neg]
    have := h.1 p (by simp)
    omega

theorem transform_stacks {canon : List (ℤ × Str) → List (ℤ × Str × Str) → Str → Except CycppScan.Err τ} {fuel : ℕ}
    {st : Stmt α} {s s' : State τ α} (h : transform canon fuel st s = .ok s') :
    s'.depth = s.depth ∧
    (s'.classes = s.classes ∨ (st ≠ .other ∧ ∃ n, s'.classes = (s.depth, n) :: s.classes)) ∧
    (s'.namespaces = s.namespaces ∨ (st ≠ .other ∧ ∃ n, s'.namespaces = (s.depth, n) :: s.namespaces)) ∧
    (isVar st = false → s.ann = none → s'.ann = none) ∧ ((∃ t x, st = .decl t x) → s'.ann = none) := by
  cases st with
  | cls n bs =>
    simp only [transform, onClass, bind, Except.bind] at h
    split at h
    · cases h
    · split at h
      · cases h
      · simp only [Except.ok.injEq] at h
        subst h
        exact ⟨rfl, .inr ⟨by simp, n, rfl⟩, .inl rfl, fun _ h => h, by simp⟩
  | decl t x =>
    simp only [transform, onDecl] at h
    split at h
    · rename_i ha
      simp only [Except.ok.injEq] at h
      subst h
      exact ⟨rfl, .inl rfl, .inl rfl, fun _ h => h, fun _ => ha⟩
    · simp only [bind, Except.bind] at h
      split at h
      · cases h
      · split at h
        · cases h
        · split at h
          · cases h
          · split at h
            · cases h
            · simp only [Except.ok.injEq] at h
              subst h
              exact ⟨rfl, .inl rfl, .inl rfl, fun _ _ => rfl, fun _ => rfl⟩
  | usingName n =>
    simp only [transform] at h
    split at h
    · simp only [Except.ok.injEq] at h
      subst h
      exact ⟨rfl, .inl rfl, .inl rfl, fun _ h => h, by simp⟩
    · simp only [Except.ok.injEq] at h
      subst h
      exact ⟨rfl, .inl rfl, .inl rfl, fun _ h => h, by simp⟩
  | ns n =>
    simp only [transform, Except.ok.injEq] at h
    subst h
    exact ⟨rfl, .inl rfl, .inr ⟨by simp, n, rfl⟩, fun _ h => h, by simp⟩
  | var a =>
    simp only [transform, Except.ok.injEq] at h
    subst h
    exact ⟨rfl, .inl rfl, .inl rfl, fun h => by simp [isVar] at h, by simp⟩
  | _ =>
    simp only [transform, Except.ok.injEq] at h
    subst h
    exact ⟨rfl, .inl rfl, .inl rfl, fun _ h => h, by simp⟩

theorem below_push {β : Type} {d : ℤ} {l l' : List (ℤ × β)} (h : Below d l)
    (hl : l' = l ∨ ∃ n, l' = (d, n) :: l) : (∀ x ∈ l', x.1 ≤ d) ∧ l'.Pairwise fun a b => b.1 < a.1 := by
  rcases hl with rfl | ⟨n, rfl⟩
  · exact ⟨fun x hx => (h.1 x hx).le, h.2⟩
  · refine ⟨?_, List.pairwise_cons.mpr ⟨h.1, h.2⟩⟩
    intro x hx
    rcases List.mem_cons.mp hx with rfl | hx
    · exact le_rfl
    · exact (h.1 x hx).le

theorem below_step {β : Type} {d : ℤ} {l l' : List (ℤ × β)} {st : Stmt α} {sep : Sep} (h : Below d l)
    (hl : l' = l ∨ (st ≠ .other ∧ ∃ n, l' = (d, n) :: l)) (hc : sep = .closed → st = .other) :
    Below (newDepth sep d) (popAt (newDepth sep d) l') := by
  obtain ⟨h1, h2⟩ := below_push h (hl.imp_right And.right)
  refine pop_below ?_ h2
  cases sep with
  | opened => intro x hx; have := h1 x hx; simp only [newDepth]; omega
  | other => exact h1
  | closed =>
    rcases hl with rfl | ⟨hne, -⟩
    · intro x hx; have := h.1 x hx; simp only [newDepth]; omega
    · exact absurd (hc rfl) hne

theorem accumulate_between {canon : List (ℤ × Str) → List (ℤ × Str × Str) → Str → Except CycppScan.Err τ} {fuel : ℕ}
    {x : Stmt α × Sep} {s s' : State τ α} (hs : Between s) (hc : x.2 = .closed → x.1 = .other)
    (h : accumulate canon fuel x s = .ok s') : Between s' ∧ (isVar x.1 = false → s.ann = none → s'.ann = none) ∧
      ((∃ t y, x.1 = .decl t y) → s'.ann = none) := by
  unfold accumulate at h
  split at h
  · cases h
  · rename_i s1 h1
    simp only [Except.ok.injEq] at h
    subst h
    obtain ⟨hd, hcl, hns, ha, ha'⟩ := transform_stacks h1
    refine ⟨⟨?_, ?_⟩, ha, ha'⟩
    · simp only [revert, hd]
      exact below_step hs.1 hcl hc
    · simp only [revert, hd]
      exact below_step hs.2 hns hc

/-- A statement without a meaning, and without a brace after it, changes nothing. -/
theorem accumulate_nothing (canon : List (ℤ × Str) → List (ℤ × Str × Str) → Str → Except CycppScan.Err τ) (fuel : ℕ)
    {s : State τ α} (hs : Between s) : accumulate canon fuel (.other, .other) s = .ok s := by
  unfold accumulate
  simp only [transform, revert, newDepth, pop_same hs.1, pop_same hs.2]
  rfl

theorem accumulate_quiet (canon : List (ℤ × Str) → List (ℤ × Str × Str) → Str → Except CycppScan.Err τ) (fuel : ℕ)
    {s : State τ α} (ha : s.ann = none) (t x : Str) (sep : Sep) :
    accumulate canon fuel (.decl t x, sep) s = accumulate canon fuel (.other, sep) s := by
  unfold accumulate
  simp only [transform, onDecl, ha]

end Cyclus.CycppText

namespace Cyclus.CycppText

open CycppScan (isSpace isWord Stmt Sep Pragma State accumulate run)

variable {α τ : Type}

theorem token_stmt {p : Piece} {s : Str} (hp : p.Fine) (h : p.stmt = some s) :
    Cycpp.strip isSpace p.token.text = s ∧ p.token.sep = p.ending := by
  cases p with
  | code l t w c =>
    simp only [Piece.stmt, Option.some.injEq] at h
    subst h
    exact ⟨strip_mid hp.1 hp.2.2.1 hp.2.1, rfl⟩
  | hash l t w =>
    simp only [Piece.stmt, Option.some.injEq] at h
    subst h
    exact ⟨strip_mid hp.1 hp.2.2.1 hp.2.1, rfl⟩
  | slashes l t => cases h
  | comment l t => cases h
  | access l k g =>
    simp only [Piece.stmt, Option.some.injEq] at h
    subst h
    obtain ⟨-, hl, hk, hg⟩ := hp
    obtain ⟨-, hw, -⟩ := access_head hk
    refine ⟨strip_mid hl ⟨fun c hc => ?_, fun c hc => ?_⟩ hg, rfl⟩
    · exact CycppScan.not_space_of_word (hw c (List.mem_of_head? hc))
    · exact CycppScan.not_space_of_word (hw c (List.mem_of_getLast? hc))

theorem token_remark (ev : Str → Option (Pragma α)) {p : Piece} (hp : p.Fine) (h : p.stmt = none) :
    (recognise ev (Cycpp.strip isSpace p.token.text) = some .other ∨
      ∃ t x, recognise ev (Cycpp.strip isSpace p.token.text) = some (.decl t x)) ∧ sepOf p.token.sep = .other := by
  have key : ∀ z, recognise ev ('/' :: z) = some .other ∨ ∃ t x, recognise ev ('/' :: z) = some (.decl t x) := fun z =>
    recognise_ordinary ev (cons_front (by decide) z) ⟨no_keyword (by decide) z, not_hash (by decide)⟩
  cases p with
  | code l t w c => cases h
  | hash l t w => cases h
  | access l k g => cases h
  | slashes l t =>
    obtain ⟨z, hz⟩ := strip_front (l := l) (c := '/') (y := '/' :: t) hp.1 (by decide)
    have e : (Piece.slashes l t).token.text = l ++ '/' :: '/' :: t := by simp [Piece.token]
    rw [e, hz]
    exact ⟨key z, rfl⟩
  | comment l t =>
    obtain ⟨z, hz⟩ := strip_front (l := []) (c := '/') (y := '*' :: t) (by simp [Blank]) (by decide)
    have e : (Piece.comment l t).token.text = [] ++ '/' :: '*' :: t := by simp [Piece.token]
    rw [e, hz]
    exact ⟨key z, rfl⟩

/-- What the second pass makes of a match. -/
def seen (ev : Str → Option (Pragma α)) (t : Token) : Option (Stmt α × Sep) :=
  (recognise ev (Cycpp.strip isSpace t.text)).map fun st => (st, sepOf t.sep)

theorem reads_run (ev : Str → Option (Pragma α)) {b : Bool} {l : List (Stmt α × Sep)} {ps : List Piece}
    (h : Reads ev b l ps) : (∀ p ∈ ps, p.Fine) → (∀ x ∈ l, x.2 = .closed → x.1 = .other) →
    ∃ l', (ps.map Piece.token).mapM (seen ev) = some l' ∧
      ∀ (canon : List (ℤ × Str) → List (ℤ × Str × Str) → Str → Except CycppScan.Err τ) (fuel : ℕ) (s : State τ α),
        Between s → (b = false → s.ann = none) → run canon fuel l' s = run canon fuel l s := by
  induction h with
  | done => exact fun _ _ => ⟨[], rfl, fun _ _ _ _ _ => rfl⟩
  | marker pending l w t w' ps hm _ ih =>
    intro hp hc
    obtain ⟨l', h1, h2⟩ := ih (fun p h => hp p (List.mem_cons_of_mem _ h)) hc
    have e := token_stmt (p := .hash w t w') (hp _ (by simp)) (s := t) rfl
    refine ⟨(.other, .other) :: l', ?_, ?_⟩
    · rw [List.map_cons, List.mapM_cons, h1]
      simp only [seen, e.1, e.2, recognise_marker ev hm]
      rfl
    · intro canon fuel s hs ha
      rw [run, accumulate_nothing canon fuel hs]
      exact h2 canon fuel s hs ha
  | remark l p ps hr _ ih =>
    intro hp hc
    obtain ⟨l', h1, h2⟩ := ih (fun p h => hp p (List.mem_cons_of_mem _ h)) hc
    obtain ⟨hrec, hsep⟩ := token_remark ev (hp _ (by simp)) hr
    rcases hrec with hrec | ⟨t, x, hrec⟩
    · refine ⟨(.other, .other) :: l', ?_, ?_⟩
      · rw [List.map_cons, List.mapM_cons, h1]
        simp only [seen, hrec, hsep]
        rfl
      · intro canon fuel s hs ha
        rw [run, accumulate_nothing canon fuel hs]
        exact h2 canon fuel s hs ha
    · refine ⟨(.decl t x, .other) :: l', ?_, ?_⟩
      · rw [List.map_cons, List.mapM_cons, h1]
        simp only [seen, hrec, hsep]
        rfl
      · intro canon fuel s hs ha
        rw [run, accumulate_quiet canon fuel (ha rfl), accumulate_nothing canon fuel hs]
        exact h2 canon fuel s hs ha
  | quiet l p s ps hst hq _ ih =>
    intro hp hc
    obtain ⟨l', h1, h2⟩ := ih (fun p h => hp p (List.mem_cons_of_mem _ h)) fun x hx => hc x (List.mem_cons_of_mem _ hx)
    have e := token_stmt (hp _ (by simp)) hst
    have step : ∀ (canon : List (ℤ × Str) → List (ℤ × Str × Str) → Str → Except CycppScan.Err τ) (fuel : ℕ)
        (s : State τ α), Between s → s.ann = none →
        run canon fuel ((.other, sepOf p.ending) :: l') s = run canon fuel ((.other, sepOf p.ending) :: l) s := by
      intro canon fuel s hs ha
      rw [run, run]
      cases hacc : accumulate canon fuel (.other, sepOf p.ending) s with
      | error e => rfl
      | ok s' =>
        obtain ⟨k1, k2, -⟩ := accumulate_between hs (fun _ => rfl) hacc
        exact h2 canon fuel s' k1 fun _ => k2 rfl ha
    rcases recognise_quiet ev hq with hrec | ⟨t, x, hrec⟩
    · refine ⟨(.other, sepOf p.ending) :: l', ?_, fun canon fuel s hs ha => step canon fuel s hs (ha rfl)⟩
      rw [List.map_cons, List.mapM_cons, h1]
      simp only [seen, e.1, e.2, hrec]
      rfl
    · refine ⟨(.decl t x, sepOf p.ending) :: l', ?_, fun canon fuel s hs ha => ?_⟩
      · rw [List.map_cons, List.mapM_cons, h1]
        simp only [seen, e.1, e.2, hrec]
        rfl
      · rw [← step canon fuel s hs (ha rfl), run, run, accumulate_quiet canon fuel (ha rfl)]
  | stmt pending st l p s ps hst hsays hpend _ ih =>
    intro hp hc
    obtain ⟨l', h1, h2⟩ := ih (fun p h => hp p (List.mem_cons_of_mem _ h)) fun x hx => hc x (List.mem_cons_of_mem _ hx)
    have e := token_stmt (hp _ (by simp)) hst
    refine ⟨(st, sepOf p.ending) :: l', ?_, ?_⟩
    · rw [List.map_cons, List.mapM_cons, h1]
      simp only [seen, e.1, e.2, recognise_says ev hsays]
      rfl
    · intro canon fuel s hs ha
      rw [run, run]
      cases hacc : accumulate canon fuel (st, sepOf p.ending) s with
      | error e => rfl
      | ok s' =>
        obtain ⟨k1, k2, k3⟩ := accumulate_between hs (hc _ (by simp)) hacc
        refine h2 canon fuel s' k1 fun hv => ?_
        cases pending with
        | false => exact k2 hv (ha rfl)
        | true => exact k3 (hpend rfl)

mutual

theorem flatItem_closed (i : CycppScan.Item α) : ∀ x ∈ CycppScan.flatItem i, x.2 = .closed → x.1 = .other := by
  cases i with
  | ns n b =>
    intro x hx hc
    simp only [CycppScan.flatItem, List.mem_cons, List.mem_append, List.not_mem_nil, or_false] at hx
    rcases hx with rfl | hx | rfl
    · cases hc
    · exact flat_closed b x hx hc
    · rfl
  | cls n bs b =>
    intro x hx hc
    simp only [CycppScan.flatItem, List.mem_cons, List.mem_append, List.not_mem_nil, or_false] at hx
    rcases hx with rfl | hx | rfl
    · cases hc
    · exact flat_closed b x hx hc
    · rfl
  | block b =>
    intro x hx hc
    simp only [CycppScan.flatItem, List.mem_cons, List.mem_append, List.not_mem_nil, or_false] at hx
    rcases hx with rfl | hx | rfl
    · cases hc
    · exact flat_closed b x hx hc
    · rfl
  | var a t y =>
    intro x hx hc
    simp only [CycppScan.flatItem, List.mem_cons, List.not_mem_nil, or_false] at hx
    rcases hx with rfl | rfl <;> cases hc
  | _ =>
    intro x hx hc
    simp only [CycppScan.flatItem, List.mem_singleton] at hx
    subst hx
    cases hc

theorem flat_closed (is : List (CycppScan.Item α)) : ∀ x ∈ CycppScan.flat is, x.2 = .closed → x.1 = .other := by
  cases is with
  | nil => simp [CycppScan.flat]
  | cons i is =>
    intro x hx hc
    rw [CycppScan.flat, List.mem_append] at hx
    rcases hx with hx | hx
    · exact flatItem_closed i x hx hc
    · exact flat_closed is x hx hc

end

end Cyclus.CycppText
