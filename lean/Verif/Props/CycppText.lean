import Verif.Lemmas.CycppGrammar

/-!
# C116: the text of a file is cut into the statements it has, and they are recognised
-/

namespace Cyclus.CycppText

open CycppScan (isSpace isWord Stmt Sep Pragma State Item run flat events declared Env)

variable {α τ : Type}

/-! ## Cutting -/

/-- A file of pieces is cut at the ends of the pieces: statements at `{`, `}` and `;`, lines that begin with `#` or
`//` at the end of the line, comments at their end, and access specifiers at the colon. -/
theorem C116_split_partial (ps : List Piece) (hp : ∀ p ∈ ps, p.Fine) (tail : Str) (ht : Blank tail) :
    split ((ps.map Piece.render).flatten ++ tail) = ps.map Piece.token :=
  tokens_pieces ps hp ht _ le_rfl

/-- Any text at all is cut into matches that follow one another: text is passed over only where none of `{`, `}` and
`;` follows. -/
theorem C116_cover (s : Str) : Cuts s (split s) := tokens_cuts _ s le_rfl

theorem cuts_nil {s : Str} {ts : List Token} (h : Cuts s ts) : s = [] → ts = [] := by
  cases h with
  | done => exact fun _ => rfl
  | next k t r ts _ hsep _ =>
    intro h0
    have := congrArg List.length h0
    simp only [Token.all, List.length_append, List.length_nil] at this
    exact absurd (List.length_eq_zero_iff.mp (by omega)) hsep

theorem cuts_all {s : Str} {ts : List Token} (h : Cuts s ts) : ∀ a c, s = a ++ [c] → isStop c = true →
    (ts.map Token.all).flatten = s := by
  induction h with
  | done s hs =>
    rintro a c rfl hc
    rw [hs c (by simp)] at hc
    cases hc
  | next k t r ts hr hsep hk ih =>
    intro a c e hc
    rcases hk with rfl | hk
    · rw [List.nil_append] at e ⊢
      rw [List.map_cons, List.flatten_cons]
      congr 1
      cases hr' : r.getLast? with
      | none =>
        rw [List.getLast?_eq_none_iff] at hr'
        subst hr'
        rw [cuts_nil hr rfl]
        rfl
      | some d =>
        have hd : r = r.dropLast ++ [d] := by
          have := List.dropLast_append_getLast? d hr'
          exact this.symm
        refine ih r.dropLast d hd ?_
        have h1 : (t.all ++ r).getLast? = some d := by rw [List.getLast?_append, hr']; rfl
        rw [e] at h1
        simp only [List.getLast?_append, List.getLast?_singleton, Option.some_or, Option.some.injEq] at h1
        rw [← h1]
        exact hc
    · rw [hk c (by rw [e]; simp)] at hc
      cases hc

/-- Nothing of a text that ends with `{`, `}` or `;` is lost. -/
theorem C116_nothing_lost (a : Str) (c : Char) (hc : isStop c = true) :
    ((split (a ++ [c])).map Token.all).flatten = a ++ [c] :=
  cuts_all (C116_cover _) a c rfl hc

/-! ## Recognition -/

/-- A statement is recognised for what it says. -/
theorem C116_says_partial (ev : Str → Option (Pragma α)) (st : Stmt α) (s : Str) (h : Says ev st s) :
    recognise ev s = some st := recognise_says ev h

/-- A text without a meaning for the pass is not taken for anything but a declaration, which means something only
after the pragma of a state variable. -/
theorem C116_quiet (ev : Str → Option (Pragma α)) (s : Str) (h : Quiet s) :
    recognise ev s = some .other ∨ ∃ t x, recognise ev s = some (.decl t x) := recognise_quiet ev h

/-- If the pieces of a file say what is in a tree, the pass makes of the text what it makes of the tree: all that
C114 says of trees holds for the text. -/
theorem C116_file_partial (ev : Str → Option (Pragma α)) (is : List (Item α)) (ps : List Piece) (tail : Str)
    (hp : ∀ p ∈ ps, p.Fine) (ht : Blank tail) (hr : Reads ev false (flat is) ps)
    (canon : List (ℤ × Str) → List (ℤ × Str × Str) → Str → Except CycppScan.Err τ) (fuel : ℕ) :
    ∃ l, statements ev ((ps.map Piece.render).flatten ++ tail) = some l ∧
      run canon fuel l State.empty = run canon fuel (flat is) State.empty := by
  obtain ⟨l, h1, h2⟩ := reads_run (τ := τ) ev hr hp (flat_closed is)
  refine ⟨l, ?_, h2 canon fuel _ ⟨⟨by simp [State.empty], by simp [State.empty]⟩,
    ⟨by simp [State.empty], by simp [State.empty]⟩⟩ fun _ => rfl⟩
  unfold statements
  rw [C116_split_partial ps hp tail ht]
  exact h1

/-- The classes that the pass finds in a text are those of the tree. -/
theorem C116_classes_partial (ev : Str → Option (Pragma α)) (is : List (Item α)) (ps : List Piece) (tail : Str)
    (hp : ∀ p ∈ ps, p.Fine) (ht : Blank tail) (hr : Reads ev false (flat is) ps)
    (canon : List (ℤ × Str) → List (ℤ × Str × Str) → Str → Except CycppScan.Err τ) (fuel : ℕ) (l : List (Stmt α × Sep))
    (s : State τ α) (hl : statements ev ((ps.map Piece.render).flatten ++ tail) = some l)
    (hs : run canon fuel l State.empty = .ok s) (c : Str) :
    CycppScan.knows s.supers c = true ↔ c ∈ declared (events Env.top is) := by
  obtain ⟨l', h1, h2⟩ := C116_file_partial ev is ps tail hp ht hr canon fuel
  rw [hl, Option.some.injEq] at h1
  subst h1
  exact (CycppScan.C114_classes canon fuel is (h2 ▸ hs)).1 c

/-! ## A file -/

/-- A test for pieces. -/
def fineB : Piece → Bool
  | .code l t w c => l.all isSpace && w.all isSpace && t.head?.all (!isSpace ·) && t.getLast?.all (!isSpace ·) &&
      t.all (!isStop ·) && isStop c && !(['#'].isPrefixOf t) && !(['/', '/'].isPrefixOf t) && !(['/', '*'].isPrefixOf t) &&
      (accessAt (l ++ t)).isNone
  | .hash l t w => l.all isSpace && w.all isSpace && t.head?.all (!isSpace ·) && t.getLast?.all (!isSpace ·) &&
      !t.contains '\n' && !w.contains '\n' &&
      match t with
      | '#' :: t' => t'.any (!isSpace ·) && (accessAt (t' ++ w)).isNone
      | _ => false
  | .access l k g => !l.isEmpty && l.all isSpace && accessWords.contains k && g.all isSpace
  | _ => false

theorem not_access {s : Str} {p : Str → Prop} (h : (accessAt s).isNone = true) : ¬ AccessThen s p := by
  rintro ⟨w, k, g, r, hw, hb, hk, -, -, rfl⟩
  rw [List.append_assoc, List.append_assoc, accessAt_eq hw hb hk] at h
  cases h

theorem fineB_fine {p : Piece} (h : fineB p = true) : p.Fine := by
  cases p with
  | code l t w c =>
    simp only [fineB, Bool.and_eq_true, List.all_eq_true, Option.all_eq_true, Bool.not_eq_true',
      ← Bool.not_eq_true, List.isPrefixOf_iff_prefix] at h
    obtain ⟨⟨⟨⟨⟨⟨⟨⟨⟨h1, h2⟩, h3⟩, h4⟩, h5⟩, h6⟩, h7⟩, h8⟩, h9⟩, h10⟩ := h
    exact ⟨h1, h2, ⟨fun c hc => by simpa using h3 c hc, fun c hc => by simpa using h4 c hc⟩,
      fun d hd => by simpa using h5 d hd, h6, h7, h8, h9, not_access h10⟩
  | hash l t w =>
    cases t with
    | nil => simp [fineB] at h
    | cons x t =>
      by_cases hx : x = '#'
      · subst hx
        simp only [fineB, Bool.and_eq_true, List.all_eq_true, Option.all_eq_true, Bool.not_eq_true',
          ← Bool.not_eq_true, List.contains_iff_mem, List.any_eq_true] at h
        obtain ⟨⟨⟨⟨⟨⟨h1, h2⟩, h3⟩, h4⟩, h5⟩, h6⟩, h7, h8⟩ := h
        exact ⟨h1, h2, ⟨fun c hc => by simpa using h3 c hc, fun c hc => by simpa using h4 c hc⟩, h5, h6,
          t, rfl, by simpa using h7, not_access h8⟩
      · simp [fineB, hx] at h
  | slashes l t => cases h
  | comment l t => cases h
  | access l k g =>
    simp only [fineB, Bool.and_eq_true, List.all_eq_true, Bool.not_eq_true', List.isEmpty_eq_false_iff,
      List.contains_iff_mem] at h
    exact ⟨h.1.1.1, h.1.1.2, h.1.2, h.2⟩

/-- `namespace a {`, `class C : public B {`, ` public:`, `#pragma cyclus var {}`, `int x;`, `void f() { return; }`,
`};`, `}`, on lines of their own. -/
def exPieces : List Piece :=
  [.code [] "namespace a".toList [' '] '{', .code ['\n'] "class C : public B".toList [' '] '{',
   .access ['\n', ' '] "public".toList [], .hash ['\n'] "#pragma cyclus var {}".toList [],
   .code [' ', ' '] "int x".toList [] ';', .code ['\n', ' '] "void f()".toList [' '] '{',
   .code [' '] "return".toList [] ';', .code [' '] [] [] '}', .code ['\n'] [] [] '}', .code [] [] [] ';',
   .code ['\n'] [] [] '}']

/-- What they say. -/
def exTree : List (Item Str) :=
  [.ns ['a'] [.cls ['C'] [['B']] [.other, .var ⟨none, ['{', '}']⟩ ['i', 'n', 't'] ['x'], .block [.other]], .other]]

/-- The evaluation keeps the text of a pragma. -/
def evAny : Str → Option (Pragma Str) := fun r => some ⟨none, r⟩

theorem exFine : ∀ p ∈ exPieces, p.Fine := by
  have : exPieces.all fineB = true := by decide +kernel
  exact fun p hp => fineB_fine (List.all_eq_true.mp this p hp)

theorem reads_stmt {ev : Str → Option (Pragma α)} (pending : Bool) (st : Stmt α) {k : Sep} {l : List (Stmt α × Sep)}
    {p : Piece} {s : Str} {ps : List Piece} (h1 : p.stmt = some s) (h0 : sepOf p.ending = k) (h2 : Says ev st s)
    (h3 : pending = true → ∃ t x, st = .decl t x) (h4 : Reads ev (isVar st) l ps) :
    Reads ev pending ((st, k) :: l) (p :: ps) := h0 ▸ .stmt pending st l p s ps h1 h2 h3 h4

theorem reads_quiet {ev : Str → Option (Pragma α)} {k : Sep} {l : List (Stmt α × Sep)}
    {p : Piece} (s : Str) {ps : List Piece} (h1 : p.stmt = some s) (h0 : sepOf p.ending = k) (h2 : Quiet s)
    (h3 : Reads ev false l ps) : Reads ev false ((.other, k) :: l) (p :: ps) := h0 ▸ .quiet l p s ps h1 h2 h3

theorem exReads : Reads evAny false (flat exTree) exPieces := by
  rw [show flat exTree = [(.ns (some ['a']), .opened), (.cls ['C'] [['B']], .opened), (.other, .other),
    (.var ⟨none, ['{', '}']⟩, .other), (.decl ['i', 'n', 't'] ['x'], .other), (.other, .opened), (.other, .other),
    (.other, .closed), (.other, .closed), (.other, .other), (.other, .closed)] from by simp [flat, CycppScan.flatItem, exTree]]
  unfold exPieces
  have b1 : [' '] ≠ [] ∧ Blank [' '] := ⟨by simp, by unfold Blank; decide⟩
  refine reads_stmt false (.ns (some ['a'])) (by rfl) (by rfl) ?_ (by simp) ?_
  · exact (Says.ns (ev := evAny) [' '] ['a'] b1 (by decide) : Says evAny _ _)
  refine reads_stmt false (.cls ['C'] [['B']]) (by rfl) (by rfl) ?_ (by simp) ?_
  · have := Says.cls (ev := evAny) none [] "class".toList [' '] ['C'] [' '] [⟨" public ".toList, ['B'], []⟩] (by simp)
      (by unfold Blank; decide) (.inl (by decide)) b1 (by decide) b1.2 (by
        intro b hb
        rw [List.mem_singleton] at hb
        subst hb
        exact ⟨by decide, .inr ⟨" public".toList, ' ', by decide, by decide⟩, by decide, by decide, by decide⟩) (by
        intro b hb
        simp only [List.head?_cons, Option.mem_def, Option.some.injEq] at hb
        subst hb
        decide)
    exact this
  refine reads_quiet "public".toList (by rfl) (by rfl) (.inr (.inl (by decide))) ?_
  refine reads_stmt false (.var ⟨none, ['{', '}']⟩) (by rfl) (by rfl) ?_ (by simp) ?_
  · have := Says.var (ev := evAny) ⟨none, ['{', '}']⟩ [] [' '] [' '] [' '] ['{', '}'] (by unfold Blank; decide) b1 b1 b1
      (by simp; decide) (by decide) rfl
    exact this
  refine reads_stmt true (.decl ['i', 'n', 't'] ['x']) (by rfl) (by rfl) ?_ (fun _ => ⟨_, _, rfl⟩) ?_
  · have := Says.decl (ev := evAny) ['i', 'n', 't'] [' '] ['x'] ⟨by simp; decide, by simp; decide⟩ (by decide)
      ⟨'i', by decide, by decide⟩ b1 (by decide) ⟨by decide, by decide⟩
    exact this
  refine reads_quiet "void f()".toList (by rfl) (by rfl) (.inr (.inr (.inl ⟨⟨?_, ?_⟩, by decide +kernel, by decide +kernel⟩))) ?_
  · intro c hc; have : c = 'v' := by simpa using hc.symm
    subst this; decide
  · intro c hc; have : c = ')' := by simpa using hc.symm
    subst this; decide
  refine reads_stmt false .other (by rfl) (by rfl) (.quiet _ (.inr (.inr ⟨⟨by decide +kernel, by decide +kernel⟩, by decide +kernel⟩)))
    (by simp) ?_
  refine reads_quiet [] (by rfl) (by rfl) (.inl rfl) ?_
  refine reads_quiet [] (by rfl) (by rfl) (.inl rfl) ?_
  refine reads_quiet [] (by rfl) (by rfl) (.inl rfl) ?_
  exact reads_quiet [] (by rfl) (by rfl) (.inl rfl) .done

/-- The hypotheses of `C116_split_partial`, `C116_file_partial` and `C116_classes_partial`. -/
example : (∀ p ∈ exPieces, p.Fine) ∧ Blank ['\n'] ∧ Reads evAny false (flat exTree) exPieces ∧
    (exPieces.map Piece.render).flatten ++ ['\n'] = "namespace a {\nclass C : public B {\n public:\n#pragma cyclus var {}\n  int x;\n void f() { return; }\n};\n}\n".toList ∧
    declared (events Env.top exTree) = [['a', ':', ':', 'C']] :=
  ⟨exFine, by unfold Blank; decide, exReads, by decide +kernel, by decide +kernel⟩

example : ((split "a { b; }".toList).map Token.all).flatten = "a { b; }".toList := by
  have := C116_nothing_lost "a { b; ".toList '}' (by decide)
  exact this

example : Quiet "x = f(a, b)".toList := by
  refine .inr (.inr (.inl ⟨⟨?_, ?_⟩, by decide +kernel, by decide +kernel⟩))
  · intro c hc; have : c = 'x' := by simpa using hc.symm
    subst this; decide
  · intro c hc; have : c = ')' := by simpa using hc.symm
    subst this; decide

/-! ## Where text is misread -/

/-- The accumulator after a text; nothing for an exception. -/
def scan (s : String) : Option (State Str Str) :=
  match statements evAny s.toList with
  | none => none
  | some l =>
    match run CycppScan.anyType 20 l State.empty with
    | .error _ => none
    | .ok st => some st

/-- The classes found in a text. -/
def classesIn (s : String) : Option (List Str) := (scan s).map fun st => st.supers.map (·.1)

/-- The types and names of the state variables found in a text, by class. -/
def varsIn (s : String) : Option (List (Str × List (Str × Str))) :=
  (scan s).map fun st => st.context.map fun c => (c.1, c.2.vars.filterMap fun v =>
    match v.2 with
    | .var ty _ _ => some (ty, v.1)
    | .pointer _ => none)

/-- What is found where all is well. -/
example : varsIn "class F {\n#pragma cyclus var {}\n int x; };" = some [(['F'], [(['i', 'n', 't'], ['x'])])] := by
  decide +kernel

/-- A brace in a character or a string is taken for a brace: a class that follows `F` is taken for a member of it. -/
theorem C116_fails_brace : classesIn "class F { char c = '{'; }; class G { };" = some [['F'], "F::G".toList] ∧
    classesIn "class F { char c = '('; }; class G { };" = some [['F'], ['G']] := by
  decide +kernel

/-- An access specifier directly after the brace is not cut off at its colon: the pragma after it is lost, without a
message, and with it the state variable. -/
theorem C116_fails_access : varsIn "class F {public:\n#pragma cyclus var {}\nint x;};" = some [] ∧
    varsIn "class F { public:\n#pragma cyclus var {}\nint x;};" = some [(['F'], [(['i', 'n', 't'], ['x'])])] := ⟨by decide +kernel, by decide +kernel⟩

/-- What follows the last separator is no statement. -/
theorem C116_fails_tail : (split "int x;\n#endif".toList).map Token.all = ["int x;".toList] := by decide +kernel

/-- The name of a variable with an initial value is taken to be the value. -/
theorem C116_fails_initial :
    varsIn "class F {\n#pragma cyclus var {}\n int x = 5; };" = some [(['F'], [("int x =".toList, ['5'])])] := by
  decide +kernel

/-- The name of a variable whose type goes over two lines is taken from the type. -/
theorem C116_fails_lines :
    varsIn "class F {\n#pragma cyclus var {}\n std::map<int,\n int> x; };" =
      some [(['F'], [("std::map<int,".toList, "int".toList)])] := by
  decide +kernel

/-- A misspelled pragma, and one without white space before its dictionary, are passed over without a message. -/
theorem C116_fails_misspelled : varsIn "class F {\n#pragma cyclus vra {}\n int x; };" = some [] ∧
    varsIn "class F {\n#pragma cyclus var{}\n int x; };" = some [] := ⟨by decide +kernel, by decide +kernel⟩

/-- A declaration whose type begins with the letters of `private` is passed over, and the pragma goes to the next
declaration. -/
theorem C116_fails_prefix : varsIn "class F {\n#pragma cyclus var {}\n privateer::T x;\n int y; };" =
    some [(['F'], [(['i', 'n', 't'], ['y'])])] := by
  decide +kernel

/-- Another pragma between the pragma of a state variable and its declaration is taken for the declaration. -/
theorem C116_fails_pragma :
    varsIn "class F {\n#pragma cyclus var {}\n#pragma GCC diagnostic push\n int x; };" =
      some [(['F'], [("#pragma GCC diagnostic".toList, "push".toList)])] := by
  decide +kernel

/-- An alias declaration makes no alias; the typedef for the same makes one. -/
theorem C116_fails_using : (scan "using V = std::vector<int>;").map (·.aliases) = some [] ∧
    (scan "typedef std::vector<int> V;").map (·.aliases) = some [(0, "std::vector<int>".toList, ['V'])] := by
  decide +kernel

end Cyclus.CycppText
