import Verif.Lemmas.CycppScan
import Verif.Lemmas.Cycpp

/-!
# C114: the second pass of the preprocessor finds the classes, parents and state variables of a file
-/

namespace Cyclus.CycppScan

variable {τ α : Type} (canon : List (ℤ × Str) → List (ℤ × Str × Str) → Str → Except Err τ)

/-! ## Scopes -/

/-- At the beginning. -/
theorem at_top : At Env.top (State.empty : State τ α) :=
  ⟨rfl, rfl, rfl, rfl, rfl, rfl, by simp [State.empty], by simp [State.empty], by simp [State.empty],
    by simp [State.empty]⟩

/-- The stacks of the accumulator follow the blocks of the file: for each file, the result is what its class heads
and state variables give one after the other, each in the scope and with the namespaces and aliases that are in
force at its place, and at the end the stacks are empty. -/
theorem C114_scopes (fuel : ℕ) (is : List (Item α)) :
    run canon fuel (flat is) State.empty =
      (applyAll canon fuel (events Env.top is) ⟨[], []⟩).map fun t =>
        ⟨0, [], [], (after Env.top is).usings, (after Env.top is).aliases, t.supers, t.context, none⟩ :=
  run_flat canon fuel at_top is

/-- The classes in the table are those of the file, by their full names, and each recorded parent is one of
them. -/
theorem C114_classes (fuel : ℕ) (is : List (Item α)) {s : State τ α}
    (h : run canon fuel (flat is) State.empty = .ok s) :
    (∀ c, knows s.supers c = true ↔ c ∈ declared (events Env.top is)) ∧
      ∀ c ps, s.supers.lookup c = some ps → ∀ p ∈ ps, p ∈ declared (events Env.top is) := by
  rw [C114_scopes] at h
  cases ht : applyAll canon fuel (events Env.top is) ⟨[], []⟩ with
  | error x => rw [ht] at h; cases h
  | ok t =>
    rw [ht] at h
    cases h
    obtain ⟨h1, h2⟩ := supers_fold canon fuel _ ht (by simp)
    have h1' : ∀ c, knows t.supers c = true ↔ c ∈ declared (events Env.top is) := by
      intro c
      rw [h1 c]
      simp [knows]
    exact ⟨h1', fun c ps hl p hp => (h1' p).mp (h2 (c, ps) (lookup_mem hl) p hp)⟩

/-! ## State variables -/

/-- If no name occurs twice in a class and no alias is the name of a variable, the table of the class has its state
variables in the order of the file, each with its pragma and its type, and with increasing numbers. -/
theorem C114_vars_partial (fuel : ℕ) (is : List (Item α)) {s : State τ α}
    (h : run canon fuel (flat is) State.empty = .ok s) (cn : Str)
    (hc : Clean (varsOf cn (events Env.top is))) :
    List.Forall₂ (fun d v => v.1 = d.2.2.2 ∧ canon d.1.usings d.1.aliases d.2.2.1 = .ok v.2.1 ∧ v.2.2 = d.2.1)
        (varsOf cn (events Env.top is)) (stateVars (entriesOf cn s.context)) ∧
      (indices (entriesOf cn s.context)).Pairwise (· < ·) := by
  rw [C114_scopes] at h
  cases ht : applyAll canon fuel (events Env.top is) ⟨[], []⟩ with
  | error x => rw [ht] at h; cases h
  | ok t =>
    rw [ht] at h
    cases h
    have hg := good_fold canon fuel (cn := cn) (ds := []) _ ht (by simpa using hc) (good_nil canon)
    simp only [List.nil_append] at hg
    refine ⟨?_, hg.order⟩
    simp only [hg.vars]
    have hok := hg.ok
    generalize varsOf cn (events Env.top is) = ds at hok ⊢
    induction ds with
    | nil => exact .nil
    | cons d ds ih =>
      obtain ⟨ty, hty⟩ := hok d (by simp)
      simp only [found, List.filterMap_cons, hty, Except.toOption, Option.map]
      exact .cons ⟨rfl, hty, rfl⟩ (ih fun d' hd' => hok d' (List.mem_cons_of_mem _ hd'))

/-- If, besides, no alias occurs twice, each alias leads to its variable. -/
theorem C114_alias_partial (fuel : ℕ) (is : List (Item α)) {s : State τ α}
    (h : run canon fuel (flat is) State.empty = .ok s) (cn : Str)
    (hc : Clean (varsOf cn (events Env.top is)))
    (hl : ((varsOf cn (events Env.top is)).filterMap (·.2.1.label)).Nodup) :
    ∀ d ∈ varsOf cn (events Env.top is), ∀ k, d.2.1.label = some k →
      (entriesOf cn s.context).lookup k = some (.pointer d.2.2.2) := by
  rw [C114_scopes] at h
  cases ht : applyAll canon fuel (events Env.top is) ⟨[], []⟩ with
  | error x => rw [ht] at h; cases h
  | ok t =>
    rw [ht] at h
    cases h
    have hg := ptr_fold canon fuel (cn := cn) (ds := []) _ ht (by simpa using hc) (by simpa using hl) (by simp)
    simpa using hg

/-! ## Ancestors -/

/-- When the entry of a class is made, it has the parents of the class, all its ancestors, and the kind of the
first of region, institution, facility and agent among them. -/
theorem C114_ancestors (fuel : ℕ) (cn : Str) (supers : List (Str × List Str)) (context : List (Str × Class τ α))
    {c : Class τ α} (h : ensure fuel cn supers context = .ok c) (hn : context.lookup cn = none) :
    supers.lookup cn = some c.parents ∧ (∀ r, r ∈ c.all ↔ Relation.TransGen (Parent supers) cn r) ∧ c.vars = [] ∧
      (∀ pre k e post, entities = pre ++ (k, e) :: post → Relation.TransGen (Parent supers) cn k →
        (∀ p ∈ pre, ¬ Relation.TransGen (Parent supers) cn p.1) → c.entity = e) ∧
      ((∀ p ∈ entities, ¬ Relation.TransGen (Parent supers) cn p.1) →
        c.entity = ['u', 'n', 'k', 'n', 'o', 'w', 'n']) := by
  unfold ensure at h
  rw [hn] at h
  simp only at h
  split at h
  · cases h
  · rename_i ps hps
    split at h
    · cases h
    · rename_i all hall
      cases h
      have hm := ancestors_mem hall
      refine ⟨hps, hm, rfl, ?_, ?_⟩
      · intro pre k e post he hk hpre
        have hf : entities.find? (fun p => all.contains p.1) = some (k, e) := by
          rw [he, List.find?_append, List.find?_eq_none.mpr]
          · simp [(hm k).mpr hk]
          · intro p hp
            simpa [hm p.1] using hpre p hp
        simp only [entityOf, hf]
      · intro hno
        have hf : entities.find? (fun p => all.contains p.1) = none := by
          rw [List.find?_eq_none]
          intro p hp
          simpa [hm p.1] using hno p hp
        simp only [entityOf, hf]

/-- If the classes can be numbered so that parents have smaller numbers, the ancestors are found. -/
theorem C114_returns (supers : List (Str × List Str)) (rank : Str → ℕ)
    (hr : ∀ c p, Parent supers c p → rank p < rank c) (fuel : ℕ) (cn : Str) (hf : rank cn < fuel)
    (context : List (Str × Class τ α)) {ps : List Str} (hp : supers.lookup cn = some ps) :
    ∃ c, ensure fuel cn supers context = .ok c := by
  unfold ensure
  cases context.lookup cn with
  | some c => exact ⟨c, rfl⟩
  | none =>
    obtain ⟨l, hl⟩ := ancestors_some hr fuel cn hf
    exact ⟨⟨ps, l, entityOf l, []⟩, by simp [hp, hl]⟩

/-! ## Names of base classes -/

/-- The class that a name is taken for is one of the table. -/
theorem C114_known (known : Str → Bool) (scope usings : List Str) (aliases : List (Str × Str)) (fuel : ℕ) (us : Bool)
    (c r : Str) (h : canonizeClass known scope usings aliases fuel us c = some (some r)) : known r = true :=
  canonize_known h

/-- Without aliases, the class that a name is taken for has this name at its end. -/
theorem C114_origin_partial (known : Str → Bool) (scope usings : List Str) (fuel : ℕ) (us : Bool) (c r : Str)
    (hb : Bare c) (h : canonizeClass known scope usings [] fuel us c = some (some r)) :
    r = c ∨ ∃ p, r = within p c := by
  have step : ∀ n cls c', Cycpp.strip (· = ':') cls = c' → (cls = c ∨ ∃ p, cls = within p c) →
      (c' = c ∨ ∃ p, c' = within p c) → ∀ r, canonizeClass known scope usings [] n false cls = some (some r) →
      r = c ∨ ∃ p, r = within p c := by
    intro n cls c' hs h1 h2 r h
    cases n with
    | zero => simp [canonizeClass] at h
    | succ n =>
      simp only [canonizeClass, hs] at h
      split at h
      · cases h
        exact h1
      · split at h
        · rename_i r' hr
          cases h
          have := List.mem_of_find?_eq_some hr
          simp only [tries, List.mem_map] at this
          obtain ⟨i, -, rfl⟩ := this
          rcases h2 with rfl | ⟨p, rfl⟩
          · exact .inr ⟨_, rfl⟩
          · exact .inr ⟨join (scope.take (i + 1)) ++ ':' :: ':' :: p, by simp [within]⟩
        · simp [firstHit] at h
  cases fuel with
  | zero => simp [canonizeClass] at h
  | succ n =>
    simp only [canonizeClass, strip_bare hb] at h
    split at h
    · cases h
      exact .inl rfl
    · split at h
      · rename_i r' hr
        cases h
        have := List.mem_of_find?_eq_some hr
        simp only [tries, List.mem_map] at this
        obtain ⟨i, -, rfl⟩ := this
        exact .inr ⟨_, rfl⟩
      · split at h
        · cases h
        · rename_i r' hr
          cases h
          split at hr
          · obtain ⟨ns, -, hns⟩ := firstHit_some hr
            exact step n _ _ rfl (.inr ⟨ns, rfl⟩) (strip_within hb) _ hns
          · cases hr
        · simp [firstHit] at h

/-- A name means one class at most. -/
theorem means_unique {known : Str → Bool} {scope : List Str} {c r r' : Str} (h : Means known scope c r)
    (h' : Means known scope c r') : r = r' := by
  rcases h with ⟨n, n0, nl, rfl, kn, hn⟩ | ⟨rfl, kn, hn⟩
  · rcases h' with ⟨m, m0, ml, rfl, km, hm⟩ | ⟨rfl, km, hm⟩
    · rcases Nat.lt_trichotomy n m with e | e | e
      · rw [hn m e ml] at km; cases km
      · rw [e]
      · rw [hm n e nl] at kn; cases kn
    · rw [hm n n0 nl] at kn; cases kn
  · rcases h' with ⟨m, m0, ml, rfl, km, hm⟩ | ⟨rfl, km, hm⟩
    · rw [hn m m0 ml] at km; cases km
    · rfl

/-- Where no namespaces are used and no aliases are in force, a name of a base class is taken for the class that it
means in C++, if no nearer class hides a class of this very name. -/
theorem C114_meaning_partial (known : Str → Bool) (scope : List Str) (n : ℕ) (us : Bool) (c : Str) (hb : Bare c)
    (hg : known c = true → ∀ m, 0 < m → m ≤ scope.length → known (within (join (scope.take m)) c) = false) :
    ∃ o, canonizeClass known scope [] [] (n + 1) us c = some o ∧ ∀ r, o = some r ↔ Means known scope c r := by
  by_cases hk : known c = true
  · refine ⟨some c, by simp [canonizeClass, hk], fun r => ?_⟩
    have hm : Means known scope c c := .inr ⟨rfl, hk, hg hk⟩
    constructor
    · intro h
      cases h
      exact hm
    · intro h
      rw [means_unique hm h]
  · have hf := find_tries (known := known) (scope := scope) (c := c)
    cases ht : (tries scope c).find? known with
    | some r =>
      rw [ht] at hf
      refine ⟨some r, by simp [canonizeClass, hk, strip_bare hb, ht], fun r' => ?_⟩
      have hm : Means known scope c r := .inl hf
      constructor
      · intro h
        cases h
        exact hm
      · intro h
        rw [means_unique hm h]
    | none =>
      rw [ht] at hf
      refine ⟨none, by cases us <;> simp [canonizeClass, hk, strip_bare hb, ht, firstHit], fun r => ?_⟩
      constructor
      · intro h
        cases h
      · rintro (⟨m, m0, ml, rfl, km, -⟩ | ⟨rfl, kr, -⟩)
        · rw [hf m m0 ml] at km; cases km
        · exact absurd kr hk

/-! ## Heads of classes -/

/-- One base in the text of a class head: access and the like, its name, white space. -/
structure Base where
  pre : Str
  name : Str
  post : Str

def Base.text (b : Base) : Str := b.pre ++ b.name ++ b.post

/-- The text is what C++ has for bases that are no templates. -/
def Base.Fine (b : Base) : Prop :=
  (∀ c ∈ b.pre, isSpace c = true ∨ isWord c = true) ∧ (b.pre = [] ∨ ∃ q c, b.pre = q ++ [c] ∧ isSpace c = true) ∧
    b.name ≠ [] ∧ (∀ c ∈ b.name, isWord c = true ∨ c = ':') ∧ ∀ c ∈ b.post, isSpace c = true

/-- The texts with commas between them. -/
def commas : List Base → Str
  | [] => []
  | [b] => b.text
  | b :: c :: r => b.text ++ ',' :: commas (c :: r)

/-- The colon and the bases, or nothing. -/
def tailText : List Base → Str
  | [] => []
  | b :: r => ':' :: commas (b :: r)

theorem not_space_of_word {c : Char} (h : isWord c = true) : isSpace c = false := by
  by_contra hs
  rw [Bool.not_eq_false] at hs
  simp only [isSpace, Bool.or_eq_true, decide_eq_true_eq] at hs
  rcases hs with ((((rfl | rfl) | rfl) | rfl) | rfl) | rfl <;> exact absurd h (by decide)

theorem not_comma_of_word {c : Char} (h : isWord c = true) : c ≠ ',' := by
  rintro rfl
  exact absurd h (by decide)

theorem not_comma_of_space {c : Char} (h : isSpace c = true) : c ≠ ',' := by
  rintro rfl
  exact absurd h (by decide)

theorem words_sep (a b : Str) {c : Char} (h : isSpace c = true) : words (a ++ c :: b) = words a ++ words b := by
  unfold words
  rw [List.splitOnP_append_cons _ _ h, List.filter_append]

theorem words_spaces {s : Str} (h : ∀ c ∈ s, isSpace c = true) : words s = [] := by
  induction s with
  | nil => rfl
  | cons c s ih =>
    have := words_sep [] s (h c (by simp))
    rw [List.nil_append] at this
    rw [this, ih fun d hd => h d (List.mem_cons_of_mem _ hd)]
    rfl

theorem words_one {s : Str} (h : ∀ c ∈ s, isSpace c = false) (hn : s ≠ []) : words s = [s] := by
  unfold words
  rw [List.splitOnP_eq_singleton h]
  cases s with
  | nil => exact absurd rfl hn
  | cons c s => rfl

/-- The last word of the text of a base. -/
theorem last_word {x name post : Str} (hx : x = [] ∨ ∃ q c, x = q ++ [c] ∧ isSpace c = true) (hn : name ≠ [])
    (hs : ∀ c ∈ name, isSpace c = false) (hp : ∀ c ∈ post, isSpace c = true) :
    (words (x ++ name ++ post)).getLast? = some name := by
  have h1 : words (name ++ post) = [name] := by
    cases post with
    | nil => rw [List.append_nil]; exact words_one hs hn
    | cons c post =>
      rw [words_sep _ _ (hp c (by simp)), words_one hs hn, words_spaces fun d hd => hp d (List.mem_cons_of_mem _ hd)]
      rfl
  rcases hx with rfl | ⟨q, c, rfl, hc⟩
  · rw [List.nil_append, h1]; rfl
  · have : q ++ [c] ++ name ++ post = q ++ c :: (name ++ post) := by simp
    rw [this, words_sep _ _ hc, h1]
    simp

theorem Base.Fine.noComma {b : Base} (h : b.Fine) : ',' ∉ b.text := by
  obtain ⟨h1, -, -, h4, h5⟩ := h
  intro hm
  simp only [Base.text, List.mem_append] at hm
  rcases hm with (hm | hm) | hm
  · rcases h1 _ hm with h | h <;> exact absurd h (by decide)
  · rcases h4 _ hm with h | h
    · exact absurd h (by decide)
    · exact absurd h (by decide)
  · exact absurd (h5 _ hm) (by decide)

theorem Base.Fine.spaceFree {b : Base} (h : b.Fine) : ∀ c ∈ b.name, isSpace c = false := by
  intro c hc
  rcases h.2.2.2.1 c hc with h | rfl
  · exact not_space_of_word h
  · decide

theorem Base.Fine.chars {b : Base} (h : b.Fine) : ∀ c ∈ b.text, isBaseChar c = true := by
  obtain ⟨h1, -, -, h4, h5⟩ := h
  intro c hm
  simp only [Base.text, List.mem_append] at hm
  unfold isBaseChar
  rcases hm with (hm | hm) | hm
  · rcases h1 _ hm with h | h <;> simp [h]
  · rcases h4 _ hm with h | h <;> simp [h]
  · simp [h5 _ hm]

theorem commas_chars {bs : List Base} (h : ∀ b ∈ bs, b.Fine) : ∀ c ∈ commas bs, isBaseChar c = true := by
  induction bs with
  | nil => simp [commas]
  | cons b bs ih =>
    have hb := (h b (by simp)).chars
    have := ih fun x hx => h x (List.mem_cons_of_mem _ hx)
    cases bs with
    | nil => exact hb
    | cons d r =>
      intro c hc
      simp only [commas, List.mem_append, List.mem_cons] at hc
      rcases hc with hc | rfl | hc
      · exact hb c hc
      · decide
      · exact this c hc

/-- The names of the bases, whatever stands before the first. -/
theorem baseNames_commas {x : Str} {b : Base} {bs : List Base} (hx : ',' ∉ x)
    (h : ∀ d ∈ b :: bs, d.Fine) (hp : x = [] ∨ ∃ q c, b.pre = q ++ [c] ∧ isSpace c = true) :
    baseNames (x ++ commas (b :: bs)) = some ((b :: bs).map (·.name)) := by
  have hb := h b (by simp)
  have hlast : (words (x ++ b.text)).getLast? = some b.name := by
    have : x ++ b.text = x ++ b.pre ++ b.name ++ b.post := by simp [Base.text]
    rw [this]
    refine last_word ?_ hb.2.2.1 hb.spaceFree hb.2.2.2.2
    rcases hp with rfl | ⟨q, c, hq, hc⟩
    · rw [List.nil_append]; exact hb.2.1
    · exact .inr ⟨x ++ q, c, by simp [hq], hc⟩
  have hcomma : ',' ∉ x ++ b.text := by
    simp only [List.mem_append, not_or]
    exact ⟨hx, hb.noComma⟩
  induction bs generalizing x b with
  | nil =>
    simp only [baseNames, commas]
    rw [Cycpp.pySplit_free _ _ hcomma]
    simp [hlast]
  | cons d r ih =>
    have hd := h d (by simp)
    have := ih (x := []) (b := d) (by simp) (fun y hy => h y (List.mem_cons_of_mem _ hy)) (.inl rfl) hd
      (by
        rw [List.nil_append]
        exact last_word hd.2.1 hd.2.2.1 hd.spaceFree hd.2.2.2.2)
      (by simpa using hd.noComma)
    simp only [baseNames, List.nil_append] at this
    simp only [baseNames, commas]
    have e : x ++ (b.text ++ ',' :: commas (d :: r)) = (x ++ b.text) ++ ',' :: commas (d :: r) := by simp
    rw [e, Cycpp.pySplit_sep _ _ _ hcomma]
    simp [hlast, this]

theorem span_eq {p : Char → Bool} {a b : Str} (ha : ∀ c ∈ a, p c = true) (hb : ∀ c, b.head? = some c → p c = false) :
    (a ++ b).takeWhile p = a ∧ (a ++ b).dropWhile p = b := by
  induction a with
  | nil =>
    cases b with
    | nil => exact ⟨rfl, rfl⟩
    | cons c b =>
      have := hb c rfl
      simp [this]
  | cons c a ih =>
    obtain ⟨h1, h2⟩ := ih fun d hd => ha d (List.mem_cons_of_mem _ hd)
    have := ha c (by simp)
    simp [this, h1, h2]

theorem dropPrefix_self (p r : Str) : dropPrefix p (p ++ r) = some r := by
  induction p with
  | nil => cases r <;> rfl
  | cons c p ih => simp [dropPrefix, ih]

theorem takeWhile_all {p : Char → Bool} {s : Str} (h : ∀ c ∈ s, p c = true) : s.takeWhile p = s := by
  have := (span_eq (b := []) h (by simp)).1
  simpa using this

theorem baseGroup_eq {gap : Str} (hg : ∀ c ∈ gap, isSpace c = true) {bs : List Base} (h : ∀ b ∈ bs, b.Fine) :
    baseGroup (gap ++ tailText bs) = if bs = [] then none else some (gap ++ tailText bs) := by
  have hsp := span_eq (p := isSpace) (a := gap) (b := tailText bs) hg (by
    intro c hc
    cases bs with
    | nil => simp [tailText] at hc
    | cons b r =>
      simp only [tailText, List.head?_cons, Option.some.injEq] at hc
      subst hc
      decide)
  unfold baseGroup
  rw [hsp.1, hsp.2]
  cases bs with
  | nil => rfl
  | cons b r =>
    simp only [tailText, if_neg (List.cons_ne_nil b r)]
    rw [takeWhile_all (commas_chars h)]
    have hne : commas (b :: r) ≠ [] := by
      have hb := (h b (by simp)).2.2.1
      intro e
      apply hb
      cases r with
      | nil => simp only [commas, Base.text, List.append_eq_nil_iff] at e; exact e.1.2
      | cons d r => simp [commas] at e
    cases hc : commas (b :: r) with
    | nil => exact absurd hc hne
    | cons c s => rfl

/-- The head of a class without a template. -/
def headText (lead kw sp name gap : Str) (bs : List Base) : Str :=
  lead ++ (kw ++ (sp ++ (name ++ (gap ++ tailText bs))))

theorem headAt_eq {lead kw sp name gap : Str} {bs : List Base} (hl : ∀ c ∈ lead, isSpace c = true)
    (hk : kw = ['c', 'l', 'a', 's', 's'] ∨ kw = ['s', 't', 'r', 'u', 'c', 't'])
    (hs : sp ≠ [] ∧ ∀ c ∈ sp, isSpace c = true) (hn : name ≠ [] ∧ ∀ c ∈ name, isWord c = true)
    (hg : ∀ c ∈ gap, isSpace c = true) (hb : ∀ b ∈ bs, b.Fine) :
    headAt (headText lead kw sp name gap bs) = some (name, if bs = [] then none else some (gap ++ tailText bs)) := by
  have hname : headName (sp ++ (name ++ (gap ++ tailText bs))) =
      some (name, if bs = [] then none else some (gap ++ tailText bs)) := by
    obtain ⟨hs1, hs2⟩ := hs
    cases sp with
    | nil => exact absurd rfl hs1
    | cons c sp =>
      have hc := hs2 c (by simp)
      have e1 := span_eq (p := isSpace) (a := sp) (b := name ++ (gap ++ tailText bs))
        (fun d hd => hs2 d (List.mem_cons_of_mem _ hd)) (by
          intro d hd
          obtain ⟨hn1, hn2⟩ := hn
          cases name with
          | nil => exact absurd rfl hn1
          | cons x name =>
            simp only [List.cons_append, List.head?_cons, Option.some.injEq] at hd
            subst hd
            exact not_space_of_word (hn2 x (by simp)))
      have e2 := span_eq (p := isWord) (a := name) (b := gap ++ tailText bs) hn.2 (by
          intro d hd
          cases gap with
          | nil =>
            cases bs with
            | nil => simp [tailText] at hd
            | cons b r =>
              simp only [tailText, List.nil_append, List.head?_cons, Option.some.injEq] at hd
              subst hd
              decide
          | cons x gap =>
            simp only [List.cons_append, List.head?_cons, Option.some.injEq] at hd
            subst hd
            have hx := hg x (by simp)
            by_contra hw
            rw [Bool.not_eq_false] at hw
            rw [not_space_of_word hw] at hx
            cases hx)
      simp only [List.cons_append, headName, hc, if_true, e1.2, e2.1, e2.2]
      rw [baseGroup_eq hg hb]
      cases name with
      | nil => exact absurd rfl hn.1
      | cons x name => rfl
  have e0 := span_eq (p := isSpace) (a := lead) (b := kw ++ (sp ++ (name ++ (gap ++ tailText bs)))) hl (by
    intro c hc
    rcases hk with rfl | rfl
    · simp only [List.cons_append, List.head?_cons, Option.some.injEq] at hc
      subst hc; decide
    · simp only [List.cons_append, List.head?_cons, Option.some.injEq] at hc
      subst hc; decide)
  unfold headAt headText
  rw [e0.2]
  rcases hk with rfl | rfl
  · simp only [dropPrefix_self]
    exact hname
  · have : dropPrefix ['c', 'l', 'a', 's', 's']
        (['s', 't', 'r', 'u', 'c', 't'] ++ (sp ++ (name ++ (gap ++ tailText bs)))) = none := by
      simp [dropPrefix]
    simp only [this, dropPrefix_self]
    exact hname

/-- What stands before the head of a template. -/
def tmplText (lead gap params : Str) : Str :=
  lead ++ (['t', 'e', 'm', 'p', 'l', 'a', 't', 'e'] ++ (gap ++ '<' :: (params ++ ['>'])))

theorem afterTemplate_eq {lead gap params r : Str} (hl : ∀ c ∈ lead, isSpace c = true)
    (hg : ∀ c ∈ gap, isSpace c = true) (hp : ∀ c ∈ params, isSpace c = true ∨ isWord c = true ∨ c = ',') :
    afterTemplate (tmplText lead gap params ++ r) = some r := by
  have e0 := span_eq (p := isSpace) (a := lead)
    (b := ['t', 'e', 'm', 'p', 'l', 'a', 't', 'e'] ++ (gap ++ '<' :: (params ++ '>' :: r))) hl (by
      intro c hc
      simp only [List.cons_append, List.head?_cons, Option.some.injEq] at hc
      subst hc; decide)
  have e1 := span_eq (p := isSpace) (a := gap) (b := '<' :: (params ++ '>' :: r)) hg (by
      intro c hc
      simp only [List.head?_cons, Option.some.injEq] at hc
      subst hc; decide)
  have e2 := span_eq (p := fun c => isSpace c || isWord c || decide (c = ',')) (a := params) (b := '>' :: r) (by
      intro c hc
      rcases hp c hc with h | h | h <;> simp [h]) (by
      intro c hc
      simp only [List.head?_cons, Option.some.injEq] at hc
      subst hc; decide)
  have et : tmplText lead gap params ++ r =
      lead ++ (['t', 'e', 'm', 'p', 'l', 'a', 't', 'e'] ++ (gap ++ '<' :: (params ++ '>' :: r))) := by
    simp [tmplText]
  unfold afterTemplate
  rw [et, e0.2, dropPrefix_self]
  simp only [e1.2, e2.2]

/-- The name and the bases of a class, also of a template, are read from its head if no base is a template and
nothing but white space stands between the name and the colon. -/
theorem C114_head_partial (t : Option (Str × Str × Str)) (lead kw sp name gap : Str) (bs : List Base)
    (ht : ∀ x ∈ t, (∀ c ∈ x.1, isSpace c = true) ∧ (∀ c ∈ x.2.1, isSpace c = true) ∧
      ∀ c ∈ x.2.2, isSpace c = true ∨ isWord c = true ∨ c = ',')
    (hl : ∀ c ∈ lead, isSpace c = true)
    (hk : kw = ['c', 'l', 'a', 's', 's'] ∨ kw = ['s', 't', 'r', 'u', 'c', 't'])
    (hs : sp ≠ [] ∧ ∀ c ∈ sp, isSpace c = true) (hn : name ≠ [] ∧ ∀ c ∈ name, isWord c = true)
    (hg : ∀ c ∈ gap, isSpace c = true) (hb : ∀ b ∈ bs, b.Fine) (hf : ∀ b ∈ bs.head?, b.pre ≠ []) :
    classStmt (α := α)
        ((match t with | none => [] | some x => tmplText x.1 x.2.1 x.2.2) ++ headText lead kw sp name gap bs) =
      some (.cls name (bs.map (·.name))) := by
  have hh := headAt_eq hl hk hs hn hg hb
  have hc : classHead ((match t with | none => [] | some x => tmplText x.1 x.2.1 x.2.2) ++
      headText lead kw sp name gap bs) = some (name, if bs = [] then none else some (gap ++ tailText bs)) := by
    unfold classHead
    cases t with
    | some x =>
      obtain ⟨h1, h2, h3⟩ := ht x (by simp)
      simp only
      rw [afterTemplate_eq h1 h2 h3]
      simp only [hh]
    | none =>
      simp only [List.nil_append]
      have : afterTemplate (headText lead kw sp name gap bs) = none := by
        have e0 := span_eq (p := isSpace) (a := lead) (b := kw ++ (sp ++ (name ++ (gap ++ tailText bs)))) hl (by
          intro c hc
          rcases hk with rfl | rfl
          · simp only [List.cons_append, List.head?_cons, Option.some.injEq] at hc
            subst hc; decide
          · simp only [List.cons_append, List.head?_cons, Option.some.injEq] at hc
            subst hc; decide)
        unfold afterTemplate headText
        rw [e0.2]
        rcases hk with rfl | rfl <;> simp [dropPrefix]
      rw [this]
      exact hh
  unfold classStmt
  rw [hc]
  cases bs with
  | nil => rfl
  | cons b r =>
    have hpre : ∃ q c, b.pre = q ++ [c] ∧ isSpace c = true := by
      rcases (hb b (by simp)).2.1 with h | h
      · exact absurd h (hf b (by simp))
      · exact h
    have : baseNames (gap ++ tailText (b :: r)) = some ((b :: r).map (·.name)) := by
      have e : gap ++ tailText (b :: r) = (gap ++ [':']) ++ commas (b :: r) := by simp [tailText]
      rw [e]
      refine baseNames_commas ?_ hb (.inr hpre)
      intro hm
      rw [List.mem_append] at hm
      rcases hm with hm | hm
      · exact absurd (hg _ hm) (by decide)
      · simp at hm
    simp only [if_neg (List.cons_ne_nil b r), this]

/-! ## Examples -/

/-- `cyclus` -/
def nCyclus : Str := ['c', 'y', 'c', 'l', 'u', 's']
/-- `Agent` -/
def nAgent : Str := ['A', 'g', 'e', 'n', 't']
/-- `Facility` -/
def nFacility : Str := ['F', 'a', 'c', 'i', 'l', 'i', 't', 'y']
/-- `int` -/
def nInt : Str := ['i', 'n', 't']

/-- Any text is a type. -/
def anyType : List (ℤ × Str) → List (ℤ × Str × Str) → Str → Except Err Str := fun _ _ t => .ok t

/-- The namespace `cyclus` with two classes, and a facility `my::R` with two state variables and a nested class. -/
def exFile : List (Item ℕ) :=
  [.ns nCyclus [.cls nAgent [] [.plain nInt ['i']], .cls nFacility [nAgent] []],
   .usingNs nCyclus,
   .ns ['m', 'y'] [
     .cls ['R'] [nFacility] [
       .var ⟨some ['p', 'w'], 1⟩ nInt ['p'],
       .block [.plain nInt ['k']],
       .cls ['S'] [['R']] [],
       .var ⟨none, 2⟩ nInt ['q']],
     .fwd ['T']]]

/-- The full name of the facility. -/
def exName : Str := ['m', 'y', ':', ':', 'R']

/-- The parents of a class after a file; `none` if there is an error or no such class. -/
def parentsAfter {α : Type} (fuel : ℕ) (is : List (Item α)) (c : Str) : Option (List Str) :=
  match run anyType fuel (flat is) State.empty with
  | .error _ => none
  | .ok s => s.supers.lookup c

/-- The names of the state variables of a class after a file. -/
def varsAfter {α : Type} (fuel : ℕ) (is : List (Item α)) (c : Str) : Option (List Str) :=
  match run anyType fuel (flat is) State.empty with
  | .error _ => none
  | .ok s => (s.context.lookup c).map fun k => (stateVars k.vars).map (·.1)

example : parentsAfter 5 exFile exName = some [within nCyclus nFacility] ∧
    varsAfter 5 exFile exName = some [['p'], ['q']] ∧
    declared (events Env.top exFile) =
      [within nCyclus nAgent, within nCyclus nFacility, exName, within exName ['S'], ['m', 'y', ':', ':', 'T']] := by
  decide +kernel

/-- The hypotheses of `C114_classes`, `C114_vars_partial` and `C114_alias_partial`. -/
example : ∃ s, run anyType 5 (flat exFile) State.empty = .ok s ∧ Clean (varsOf exName (events Env.top exFile)) ∧
    ((varsOf exName (events Env.top exFile)).filterMap (·.2.1.label)).Nodup ∧
    (varsOf exName (events Env.top exFile)).length = 2 := by
  have h : (match run anyType 5 (flat exFile) State.empty with | .error _ => false | .ok _ => true) = true := by
    decide +kernel
  cases hr : run anyType 5 (flat exFile) State.empty with
  | error x => rw [hr] at h; cases h
  | ok s =>
    refine ⟨s, rfl, ⟨by decide +kernel, ?_⟩, by decide +kernel, by decide +kernel⟩
    have : (varsOf exName (events Env.top exFile)).all (fun d =>
        (d.2.1.label.toList).all fun l => !((varsOf exName (events Env.top exFile)).map (·.2.2.2)).contains l) =
        true := by decide +kernel
    intro d hd l hl hm
    rw [List.all_eq_true] at this
    have h2 := this d hd
    rw [hl] at h2
    simp only [Option.toList, List.all_cons, List.all_nil, Bool.and_true, Bool.not_eq_true',
      List.contains_eq_mem, decide_eq_false_iff_not] at h2
    exact h2 hm

/-- A table of three classes, for `C114_ancestors` and `C114_returns`. -/
def exSupers : List (Str × List Str) :=
  [(within nCyclus nAgent, []), (within nCyclus nFacility, [within nCyclus nAgent]),
   (['R'], [within nCyclus nFacility])]

example : (match ensure (τ := ℕ) (α := ℕ) 4 ['R'] exSupers [] with
    | .ok c => decide (c.all = [within nCyclus nFacility, within nCyclus nAgent] ∧
        c.entity = ['f', 'a', 'c', 'i', 'l', 'i', 't', 'y'])
    | .error _ => false) = true := by
  decide +kernel

/-- Numbers for the classes. -/
example : ∀ c p, Parent exSupers c p →
    (fun x : Str => if x = ['R'] then 2 else if x = within nCyclus nFacility then 1 else 0) p <
      (fun x : Str => if x = ['R'] then 2 else if x = within nCyclus nFacility then 1 else 0) c := by
  rintro c p ⟨ps, hl, hp⟩
  have hm := lookup_mem hl
  simp only [exSupers, List.mem_cons, Prod.mk.injEq, List.not_mem_nil, or_false] at hm
  rcases hm with ⟨rfl, rfl⟩ | ⟨rfl, rfl⟩ | ⟨rfl, rfl⟩
  · simp at hp
  · rw [List.mem_singleton] at hp
    subst hp
    decide +kernel
  · rw [List.mem_singleton] at hp
    subst hp
    decide +kernel

/-- `B` in `a::C` is `a::B`, for `C114_meaning_partial`, `C114_known` and `C114_origin_partial`. -/
example : Bare ['B'] ∧ canonizeClass (fun c => c = ['a', ':', ':', 'B']) [['a'], ['C']] [] [] 1 true ['B'] =
    some (some ['a', ':', ':', 'B']) := by
  refine ⟨⟨by decide, by decide, by decide⟩, by decide +kernel⟩

example : canonizeClass (fun c => c = ['u', ':', ':', 'B']) [['a'], ['C']] [['u']] [] 2 true ['B'] =
    some (some ['u', ':', ':', 'B']) := by
  decide +kernel

/-- `template <class T> class X: public a::B , C` -/
example : classStmt (α := ℕ)
    (tmplText [] [' '] ['c', 'l', 'a', 's', 's', ' ', 'T'] ++
      headText [' '] ['c', 'l', 'a', 's', 's'] [' '] ['X'] []
        [⟨[' ', 'p', 'u', 'b', 'l', 'i', 'c', ' '], ['a', ':', ':', 'B'], [' ']⟩, ⟨[' '], ['C'], []⟩]) =
    some (.cls ['X'] [['a', ':', ':', 'B'], ['C']]) := by
  refine C114_head_partial (some ([], [' '], ['c', 'l', 'a', 's', 's', ' ', 'T'])) [' '] ['c', 'l', 'a', 's', 's'] [' '] ['X'] [] _ ?_ (by decide) (.inl rfl)
    (by decide) (by decide) (by decide) ?_ (by simp)
  · simp only [Option.mem_def, Option.some.injEq]
    rintro x rfl
    decide
  · intro b hb
    simp only [List.mem_cons, List.not_mem_nil, or_false] at hb
    rcases hb with rfl | rfl
    · exact ⟨by decide, .inr ⟨[' ', 'p', 'u', 'b', 'l', 'i', 'c'], ' ', rfl, rfl⟩, by decide, by decide, by decide⟩
    · exact ⟨by decide, .inr ⟨[], ' ', rfl, rfl⟩, by decide, by decide, by decide⟩

/-! ## Where the pass differs from C++ -/

/-- `class B {}; namespace a { class B {}; class C : public B {}; }` -/
def globalFile : List (Item ℕ) :=
  [.cls ['B'] [] [], .ns ['a'] [.cls ['B'] [] [], .cls ['C'] [['B']] []]]

/-- A class outside of all namespaces is preferred to a nearer one, which is what the name means. -/
theorem C114_fails_global :
    parentsAfter 9 globalFile ['a', ':', ':', 'C'] = some [['B']] ∧
      ∀ s, run anyType 9 (flat globalFile) State.empty = .ok s →
        Means (knows s.supers) [['a'], ['C']] ['B'] ['a', ':', ':', 'B'] := by
  refine ⟨by decide +kernel, fun s h => ?_⟩
  have hk := (C114_classes anyType 9 globalFile h).1
  refine .inl ⟨1, by decide, by decide, by decide, (hk _).mpr (by decide +kernel), ?_⟩
  intro m h1 h2
  have : m = 2 := by simp at h2; omega
  subst this
  by_contra hc
  rw [Bool.not_eq_false] at hc
  exact absurd ((hk _).mp hc) (by decide +kernel)

/-- `class B {}; namespace a { class C : public ::B {}; }`, with or without a class `a::B` -/
def leadingFile (nearer : Bool) : List (Item ℕ) :=
  [.cls ['B'] [] [],
   .ns ['a'] ((if nearer then [.cls ['B'] [] []] else []) ++ [.cls ['C'] [[':', ':', 'B']] []])]

/-- A base with leading colons is lost, or taken for a nearer class. -/
theorem C114_fails_leading :
    parentsAfter 9 (leadingFile false) ['a', ':', ':', 'C'] = some [] ∧
      parentsAfter 9 (leadingFile true) ['a', ':', ':', 'C'] = some [['a', ':', ':', 'B']] := by
  decide +kernel

/-- `class B {}; namespace a { class B : public ::B { var } }` -/
def selfFile : List (Item ℕ) :=
  [.cls ['B'] [] [], .ns ['a'] [.cls ['B'] [[':', ':', 'B']] [.var ⟨none, 0⟩ nInt ['x']]]]

/-- A class in a circle of parents has no entry: the search for its ancestors does not end. -/
theorem C114_fails_circle (fuel : ℕ) (cn : Str) (supers : List (Str × List Str))
    (context : List (Str × Class τ α)) (h : Relation.TransGen (Parent supers) cn cn)
    (hn : context.lookup cn = none) : ensure fuel cn supers context = .error .recursion := by
  unfold ensure
  rw [hn]
  simp only
  cases hp : supers.lookup cn with
  | none =>
    obtain ⟨v, ⟨ps, hl, -⟩, -⟩ := Relation.TransGen.head'_iff.mp h
    rw [hp] at hl
    cases hl
  | some ps => simp [ancestors_cycle h fuel]

/-- The class that has the name of its base in another namespace becomes its own parent, and its first state
variable ends the preprocessor with an error. -/
theorem C114_fails_self : ∀ fuel, run anyType fuel (flat selfFile) State.empty = .error .recursion := by
  intro fuel
  cases fuel with
  | zero => with_unfolding_all rfl
  | succ n =>
    have hk : ∀ n, canonizeClass (knows [(['B'], []), (['a', ':', ':', 'B'], [])]) [['a'], ['B']] [] [] (n + 1) true
        [':', ':', 'B'] = some (some ['a', ':', ':', 'B']) := by
      intro n
      have h1 : knows [(['B'], []), (['a', ':', ':', 'B'], [])] [':', ':', 'B'] = false := by decide +kernel
      have h2 : Cycpp.strip (fun x => decide (x = ':')) [':', ':', 'B'] = ['B'] := by decide +kernel
      have h3 : (tries [['a'], ['B']] ['B']).find? (knows [(['B'], []), (['a', ':', ':', 'B'], [])]) =
          some ['a', ':', ':', 'B'] := by decide +kernel
      simp [canonizeClass, h1, h2, h3]
    have ha : ancestors [(['B'], []), (['a', ':', ':', 'B'], [['a', ':', ':', 'B']])] (n + 1)
        ['a', ':', ':', 'B'] = none :=
      ancestors_cycle (.single ⟨_, rfl, by simp⟩) _
    rw [C114_scopes]
    have he : events Env.top selfFile =
        [.cls ⟨0, [], [['B']], [], []⟩ [], .cls ⟨1, [['a']], [['B']], [], []⟩ [[':', ':', 'B']],
         .var ⟨2, [['a']], [['B']], [], []⟩ ⟨none, 0⟩ nInt ['x']] := by
      simp [events, eventsItem, afterItem, selfFile, Env.top, Env.inNs, Env.inClass, Env.deeper]
    have h1 : (put ['a', ':', ':', 'B'] ([] : List Str) [(['B'], [])]) = [(['B'], []), (['a', ':', ':', 'B'], [])] := by decide +kernel
    have h2 : (put ['a', ':', ':', 'B'] [['a', ':', ':', 'B']] [(['B'], []), (['a', ':', ':', 'B'], [])]) =
        [(['B'], []), (['a', ':', ':', 'B'], [['a', ':', ':', 'B']])] := by decide +kernel
    have h3 : Env.name ⟨1, [['a']], [['B']], [], []⟩ = ['a', ':', ':', 'B'] := by decide +kernel
    have h4 : Env.name ⟨2, [['a']], [['B']], [], []⟩ = ['a', ':', ':', 'B'] := by decide +kernel
    have h5 : (List.lookup ['a', ':', ':', 'B'] [(['B'], ([] : List Str))]).getD [] = [] := by decide +kernel
    have h6 : Env.scope ⟨1, [['a']], [['B']], [], []⟩ = [['a'], ['B']] := rfl
    have h7 : (Event.cls ⟨0, [], [['B']], [], []⟩ [] : Event ℕ).apply anyType (n + 1) ⟨[], []⟩ =
        .ok ⟨[(['B'], [])], []⟩ := rfl
    have h8 : (Event.cls ⟨1, [['a']], [['B']], [], []⟩ [[':', ':', 'B']] : Event ℕ).apply anyType (n + 1)
        ⟨[(['B'], [])], []⟩ = .ok ⟨[(['B'], []), (['a', ':', ':', 'B'], [['a', ':', ':', 'B']])], []⟩ := by
      simp only [Event.apply, h3, h1, h5, h6, List.map_nil, addSupers, hk]
      have : insertNew ['a', ':', ':', 'B'] ([] : List Str) = [['a', ':', ':', 'B']] := rfl
      rw [this, h2]
    have h9 : (Event.var ⟨2, [['a']], [['B']], [], []⟩ ⟨none, 0⟩ nInt ['x'] : Event ℕ).apply anyType (n + 1)
        ⟨[(['B'], []), (['a', ':', ':', 'B'], [['a', ':', ':', 'B']])], []⟩ = .error .recursion := by
      simp only [Event.apply, h4, ensure, List.lookup, ha]
      rfl
    rw [he]
    simp only [applyAll, h7, h8, h9]
    rfl

/-- Statements are stripped of white space before the filters see them, so that a namespace without a name has
`None` for a name, and any class in it ends the preprocessor with an error. -/
theorem C114_fails_anonymous (fuel : ℕ) (n : Str) (bs : List Str) (sep : Sep) (r : List (Stmt α × Sep)) (a b : Str)
    (ha : ∀ c ∈ a, isSpace c = true) (hb : ∀ c ∈ b, isSpace c = true) :
    nsStmt (α := α) (Cycpp.strip isSpace (a ++ (['n', 'a', 'm', 'e', 's', 'p', 'a', 'c', 'e'] ++ b))) =
        some (.ns none) ∧
      run canon fuel ((.ns none, .opened) :: (.cls n bs, sep) :: r) State.empty = .error .type := by
  constructor
  · have h1 := (span_eq (p := isSpace) (a := a) (b := ['n', 'a', 'm', 'e', 's', 'p', 'a', 'c', 'e'] ++ b) ha (by
      intro c hc
      simp only [List.cons_append, List.head?_cons, Option.some.injEq] at hc
      subst hc; decide)).2
    have h2 := (span_eq (p := isSpace) (a := b.reverse) (b := ['e', 'c', 'a', 'p', 's', 'e', 'm', 'a', 'n'])
      (by simpa using hb) (by
      intro c hc
      simp only [List.head?_cons, Option.some.injEq] at hc
      subst hc; decide)).2
    have h3 : (['n', 'a', 'm', 'e', 's', 'p', 'a', 'c', 'e'] ++ b).reverse =
        b.reverse ++ ['e', 'c', 'a', 'p', 's', 'e', 'm', 'a', 'n'] := by simp
    unfold Cycpp.strip
    rw [h1, h3, h2]
    rfl
  · rfl

example : nsStmt (α := ℕ) (Cycpp.strip isSpace ['n', 'a', 'm', 'e', 's', 'p', 'a', 'c', 'e', ' ']) =
    some (.ns none) := by
  with_unfolding_all rfl

/-- `namespace c = cyclus; class A : public core {};`: the alias begins its own name, and the search for a class that
is not known and whose name begins with the alias does not end. -/
theorem C114_fails_alias : ∀ fuel,
    run anyType fuel (flat ([.nsAlias ['c'] nCyclus, .cls ['A'] [['c', 'o', 'r', 'e']] []] : List (Item ℕ)))
      State.empty = .error .recursion := by
  have key : ∀ fuel us s, canonizeClass (knows [(['A'], [])]) [['A']] [] [(nCyclus, ['c'])] fuel us ('c' :: s) = none := by
    intro fuel
    induction fuel with
    | zero => intro us s; rfl
    | succ n ih =>
      intro us s
      have h1 : knows [(['A'], [])] ('c' :: s) = false := by simp [knows]
      have h2 : ∃ s', Cycpp.strip (fun x => decide (x = ':')) ('c' :: s) = 'c' :: s' := by
        refine ⟨((s.reverse).dropWhile (fun x => decide (x = ':'))).reverse, ?_⟩
        unfold Cycpp.strip
        rw [List.dropWhile_cons_of_neg (by decide), List.reverse_cons, List.dropWhile_append]
        split
        · rename_i h
          have : s.reverse.dropWhile (fun x => decide (x = ':')) = [] := by simpa using h
          rw [this]
          rfl
        · simp
      obtain ⟨s', h2⟩ := h2
      have h3 : (tries [['A']] ('c' :: s')).find? (knows [(['A'], [])]) = none := by
        simp [tries, knows, join, within]
      have h4 := ih true ('y' :: 'c' :: 'l' :: 'u' :: 's' :: s')
      have h5 : dropPrefix ['c'] ('c' :: s') = some s' := by
        have := dropPrefix_self ['c'] s'
        simpa using this
      have h6 : nCyclus ++ s' = 'c' :: 'y' :: 'c' :: 'l' :: 'u' :: 's' :: s' := rfl
      simp only [canonizeClass, h1, Bool.false_eq_true, if_false, h2, h3, firstHit, h5, h6, h4]
      cases us <;> rfl
  intro fuel
  rw [C114_scopes]
  have he : events Env.top ([.nsAlias ['c'] nCyclus, .cls ['A'] [['c', 'o', 'r', 'e']] []] : List (Item ℕ)) =
      [.cls ⟨0, [], [['A']], [], [(0, nCyclus, ['c'])]⟩ [['c', 'o', 'r', 'e']]] := by
    simp [events, eventsItem, afterItem, Env.top, Env.inClass, Env.call, insertNew]
  have h1 : (Event.cls ⟨0, [], [['A']], [], [(0, nCyclus, ['c'])]⟩ [['c', 'o', 'r', 'e']] : Event ℕ).apply anyType fuel
      ⟨[], []⟩ = .error .recursion := by
    have := key fuel true ['o', 'r', 'e']
    have e1 : Env.name ⟨0, [], [['A']], [], [(0, nCyclus, ['c'])]⟩ = ['A'] := rfl
    have e2 : Env.scope ⟨0, [], [['A']], [], [(0, nCyclus, ['c'])]⟩ = [['A']] := rfl
    simp only [Event.apply, e1, e2, List.lookup, Option.getD, put, List.map_nil, List.map_cons, addSupers, this]
  rw [he]
  simp only [applyAll, h1]
  rfl

/-- A class with two state variables, the second of which has an alias. -/
def clashFile (al : Str) : List (Item ℕ) :=
  [.cls ['A'] [] [.var ⟨none, 0⟩ nInt ['x'], .var ⟨some al, 0⟩ nInt ['y']]]

/-- A state variable is lost if an alias is its name: its own alias, or that of another. -/
theorem C114_fails_clash :
    varsAfter 9 (clashFile ['y']) ['A'] = some [['x']] ∧ varsAfter 9 (clashFile ['x']) ['A'] = some [['y']] ∧
      varsAfter 9 (clashFile ['z']) ['A'] = some [['x'], ['y']] := by
  decide +kernel

/-- Bases after `final` and bases after a template are lost, and of `namespace a::b` only `a` is seen. -/
theorem C114_fails_heads :
    classHead ['c', 'l', 'a', 's', 's', ' ', 'X', ' ', 'f', 'i', 'n', 'a', 'l', ' ', ':', ' ', 'p', 'u', 'b', 'l', 'i', 'c', ' ', 'B'] = some (['X'], none) ∧
      (classStmt (α := Unit) ['c', 'l', 'a', 's', 's', ' ', 'X', ' ', ':', ' ', 'p', 'u', 'b', 'l', 'i', 'c', ' ', 'T', '<', 'i', 'n', 't', '>', ',', ' ', 'p', 'u', 'b', 'l', 'i', 'c', ' ', 'B'] = some (.cls ['X'] [['T']])) ∧
      nsStmt (α := Unit) ['n', 'a', 'm', 'e', 's', 'p', 'a', 'c', 'e', ' ', 'a', ':', ':', 'b', ' '] = some (.ns (some ['a'])) := by
  refine ⟨by decide +kernel, ?_, ?_⟩ <;> with_unfolding_all rfl

/-- A block is left only at its own depth: if the count of braces jumps over it, it is never left. -/
theorem C114_close {β : Type} (depth d : ℤ) (x : β) (l : List (ℤ × β)) :
    popAt depth ((d, x) :: l) = if depth = d then l else (d, x) :: l := rfl

/-- A class of which there is no head is a `KeyError`. -/
theorem C114_unknown (fuel : ℕ) (cn : Str) (supers : List (Str × List Str)) (context : List (Str × Class τ α))
    (hs : supers.lookup cn = none) (hc : context.lookup cn = none) : ensure fuel cn supers context = .error .key := by
  unfold ensure
  rw [hc, hs]

example : List.lookup ['F'] ([(['G'], [])] : List (Str × List Str)) = none := rfl

end Cyclus.CycppScan
