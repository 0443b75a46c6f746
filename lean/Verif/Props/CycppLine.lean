import Verif.Lemmas.CycppLine
import Verif.Props.CycppGen

/-!
# C118: line directives make a compiler report the lines of the original file
-/

namespace Cyclus.CycppLine

open CycppText (Str)

/-- The entry that `get_matching_blocks` puts at the end. -/
def endBlock (a b : List Str) : Block := ⟨a.length, b.length, 0⟩

theorem Matching.sorted {a b : List Str} {blocks : List Block} (h : Matching a b blocks) :
    blocks.Pairwise fun x y => x.j ≤ y.j := h.1.imp fun h => by omega

theorem insertAll_weave {a b : List Str} {blocks : List Block} (h : Matching a b blocks) (file : Str) :
    insertAll file (blocks ++ [endBlock a b]) b = weave file 0 blocks b := by
  unfold insertAll
  rw [List.dropLast_concat]
  exact insertAll_eq file blocks b h.sorted fun x hx => (h.2 x hx).1

/-- Nothing is lost: the lines of the new file are among those that are written, in their order, and there is one line
more for each block; before the first block the lines are those of the new file. -/
theorem C118_kept {a b : List Str} {blocks : List Block} (h : Matching a b blocks) (file : Str) :
    b.Sublist (insertAll file (blocks ++ [endBlock a b]) b) ∧
    (insertAll file (blocks ++ [endBlock a b]) b).length = b.length + blocks.length ∧
    ∀ p, (∀ x ∈ blocks, p < x.j) → (insertAll file (blocks ++ [endBlock a b]) b)[p]? = b[p]? := by
  rw [insertAll_weave h]
  refine ⟨?_, ?_, ?_⟩
  · have : ∀ (xs : List Block) (pos : ℕ) (b : List Str), b.Sublist (weave file pos xs b) := by
      intro xs
      induction xs with
      | nil => intro pos b; exact List.Sublist.refl _
      | cons x xs ih =>
        intro pos b
        rw [weave]
        conv_lhs => rw [← List.take_append_drop (x.j - pos) b]
        exact (List.Sublist.refl _).append ((ih _ _).trans (List.sublist_cons_self _ _))
    exact this blocks 0 b
  · have : ∀ (xs : List Block) (pos : ℕ) (b : List Str), (weave file pos xs b).length = b.length + xs.length := by
      intro xs
      induction xs with
      | nil => intro pos b; rfl
      | cons x xs ih =>
        intro pos b
        rw [weave, List.length_append, List.length_cons, ih, List.length_take, List.length_drop, List.length_cons]
        omega
    exact this blocks 0 b
  · intro p hp
    cases blocks with
    | nil => rfl
    | cons x xs =>
      have hx := hp x (by simp)
      have hl := (h.2 x (by simp)).1
      rw [weave, List.getElem?_append_left (by rw [List.length_take]; omega), List.getElem?_take_of_lt (by omega)]

/-- From each block that does not begin within a comment, up to the next one, the lines of the new file are reported
as lines of the original file from the begin of the block on, if there are no directives among them. So code that
is made has the number of the line in whose place it is. -/
theorem C118_numbers {S : Type} (R : Reader S) (start : Pos S) {a b : List Str} {blocks : List Block} (file : Str)
    (hR : R.Knows file) (h : Matching a b blocks) (r p : ℕ) (x : Block) (l : Str) (hx : blocks[r]? = some x)
    (hp : x.j ≤ p) (hn : ∀ y, blocks[r + 1]? = some y → p < y.j) (hl : b[p]? = some l)
    (hf : R.free (R.after start.state (b.take x.j)) = true)
    (hd : ∀ m ∈ (b.drop x.j).take (p - x.j), R.line m = none) :
    (R.report start (insertAll file (blocks ++ [endBlock a b]) b))[p + r + 1]? =
      some (l, x.i + (p - x.j) + 1, file) := by
  rw [insertAll_weave h]
  have := (report_weave R file hR blocks 0 b start r x p l h.sorted
    (by intro y hy; exact ⟨by omega, by have := (h.2 y hy).1; omega⟩) hx hp hn hl hf hd).2
  rw [Nat.sub_zero] at this
  rw [this]
  simp only [Option.some.injEq, Prod.mk.injEq, true_and, and_true]
  omega

/-- Hence each line that is kept is reported with its number in the original file. -/
theorem C118_matched {S : Type} (R : Reader S) (start : Pos S) {a b : List Str} {blocks : List Block} (file : Str)
    (hR : R.Knows file) (h : Matching a b blocks) (r k : ℕ) (x : Block) (hx : blocks[r]? = some x) (hk : k < x.n)
    (hf : R.free (R.after start.state (b.take x.j)) = true) (hd : ∀ m ∈ b, R.line m = none) :
    ∃ l, a[x.i + k]? = some l ∧
      (R.report start (insertAll file (blocks ++ [endBlock a b]) b))[x.j + k + r + 1]? =
        some (l, x.i + k + 1, file) := by
  obtain ⟨l, h1, h2⟩ := (h.2 x (List.mem_of_getElem? hx)).2 k hk
  refine ⟨l, h1, ?_⟩
  have := C118_numbers R start file hR h r (x.j + k) x l hx (by omega) (by
      intro y hy
      obtain ⟨hr, hxe⟩ := List.getElem?_eq_some_iff.mp hx
      obtain ⟨hr', hye⟩ := List.getElem?_eq_some_iff.mp hy
      have := List.pairwise_iff_getElem.mp h.1 r (r + 1) hr hr' (by omega)
      rw [hxe, hye] at this
      omega) h2 hf (fun m hm => hd m (List.mem_of_mem_drop (List.mem_of_mem_take hm)))
  rw [Nat.add_sub_cancel_left] at this
  exact this

/-! ## The lines of a text -/

theorem linesFrom_line : ∀ (l cur s : Str), (∀ c ∈ l, isBreak c = false) →
    linesFrom cur (l ++ '\n' :: s) = (cur ++ l) :: linesFrom [] s := by
  intro l
  induction l with
  | nil =>
    intro cur s _
    rw [List.nil_append, linesFrom, if_pos (by decide), List.append_nil]
    simp
  | cons c l ih =>
    intro cur s h
    have hc := h c (by simp)
    have : c ≠ '\r' := fun e => by rw [e] at hc; exact absurd hc (by decide)
    rw [List.cons_append, linesFrom, if_neg (by rw [hc]; simp), ih _ _ fun d hd => h d (by simp [hd])]
    · simp
    · intro t e; exact absurd e this

/-- If no line has one of the other characters at which Python breaks lines, the lines are those of the text. -/
theorem C118_lines (ls : List Str) (hne : ls ≠ []) (h : ∀ l ∈ ls, ∀ c ∈ l, isBreak c = false) :
    splitlines (joinLines ls ++ ['\n']) = ls := by
  unfold splitlines
  induction ls with
  | nil => exact absurd rfl hne
  | cons l ls ih =>
    cases ls with
    | nil =>
      rw [joinLines, linesFrom_line l [] [] (h l (by simp))]
      rfl
    | cons m ls =>
      have := ih (by simp) fun x hx => h x (by simp [hx])
      rw [joinLines, List.append_assoc, List.cons_append, linesFrom_line l [] _ (h l (by simp)), this, List.nil_append]
      simp

theorem drop_line : ∀ (l s : Str), '\n' ∉ l → dropContinuations (l ++ '\n' :: s) =
    if l.getLast? = some '\\' then l.dropLast ++ dropContinuations s else l ++ '\n' :: dropContinuations s := by
  intro l
  induction l with
  | nil =>
    intro s _
    rw [List.nil_append, dropContinuations]
    · simp
    · intro t e; simp at e
  | cons c l ih =>
    intro s h
    have hl : '\n' ∉ l := fun hm => h (by simp [hm])
    cases l with
    | nil =>
      by_cases hc : c = '\\'
      · subst hc
        rw [List.cons_append, List.nil_append, dropContinuations]
        simp
      · have hs : dropContinuations (['\n'] ++ s) = '\n' :: dropContinuations s := by
          rw [List.cons_append, List.nil_append, dropContinuations]
          intro t e; simp at e
        rw [List.cons_append, List.nil_append, dropContinuations]
        · simp only [List.cons_append, List.nil_append] at hs
          rw [hs]
          simp [hc]
        · intro t e; exact absurd e hc
    | cons d l =>
      have hd : d ≠ '\n' := fun e => h (by simp [e])
      rw [List.cons_append, dropContinuations]
      · rw [ih s hl]
        simp only [List.getLast?_cons_cons, List.dropLast_cons_cons]
        split <;> simp
      · intro t _ e
        simp only [List.cons_append, List.cons.injEq] at e
        exact absurd e.1 hd

theorem drop_last : ∀ l : Str, '\n' ∉ l → dropContinuations l = l := by
  intro l
  induction l with
  | nil => intro _; rfl
  | cons c l ih =>
    intro h
    rw [dropContinuations]
    · rw [ih fun hm => h (by simp [hm])]
    · rintro t _ rfl
      exact h (by simp)

/-- Continued lines are joined as the language says. -/
theorem C118_continued (ls : List Str) (hne : ls ≠ []) (h : ∀ l ∈ ls, '\n' ∉ l) :
    dropContinuations (joinLines ls) = joinLines (logical [] ls) := by
  have key : ∀ (ls : List Str) (cur : Str), ls ≠ [] → (∀ l ∈ ls, '\n' ∉ l) →
      cur ++ dropContinuations (joinLines ls) = joinLines (logical cur ls) := by
    intro ls
    induction ls with
    | nil => intro _ h; exact absurd rfl h
    | cons l ls ih =>
      intro cur _ h
      cases ls with
      | nil => rw [joinLines, logical, drop_last l (h l (by simp))]; rfl
      | cons m ls =>
        have hi := fun cur => ih cur (by simp) fun x hx => h x (by simp [hx])
        rw [joinLines, drop_line l _ (h l (by simp)), logical]
        · split
          · rw [← hi, List.append_assoc]
          · have hne : logical [] (m :: ls) ≠ [] := by
              have : ∀ (ls : List Str) (cur : Str), ls ≠ [] → logical cur ls ≠ [] := by
                intro ls
                induction ls with
                | nil => intro _ h; exact absurd rfl h
                | cons l ls ih =>
                  intro cur _
                  cases ls with
                  | nil => simp [logical]
                  | cons m ls =>
                    rw [logical]
                    · split
                      · exact ih _ (by simp)
                      · simp
                    · simp
              exact this _ _ (by simp)
            obtain ⟨q, qs, hq⟩ := List.exists_cons_of_ne_nil hne
            have := hi []
            rw [List.nil_append] at this
            have hj : ∀ x, joinLines (x :: q :: qs) = x ++ '\n' :: joinLines (q :: qs) := fun _ => rfl
            rw [this, hq, hj]
            simp
        · simp
        · simp
  have := key ls [] hne h
  rwa [List.nil_append] at this

example : logical [] ["#define A \\".toList, " 1".toList, "x".toList] = ["#define A  1".toList, "x".toList] := by
  decide +kernel

theorem linesFrom_last : ∀ (l cur : Str), (∀ c ∈ l, isBreak c = false) → cur ++ l ≠ [] → linesFrom cur l = [cur ++ l] := by
  intro l
  induction l with
  | nil =>
    intro cur _ hn
    rw [List.append_nil] at hn ⊢
    rw [linesFrom, if_neg hn]
  | cons c l ih =>
    intro cur h hn
    have hc := h c (by simp)
    have hr : c ≠ '\r' := fun e => by rw [e] at hc; exact absurd hc (by decide)
    rw [linesFrom, if_neg (by rw [hc]; simp), ih _ (fun d hd => h d (by simp [hd])) (by simp)]
    · simp
    · intro t e; exact absurd e hr

theorem split_join (ls : List Str) (l : Str) (hl : l ≠ []) (h : ∀ m ∈ ls ++ [l], ∀ c ∈ m, isBreak c = false) :
    splitlines (joinLines (ls ++ [l])) = ls ++ [l] := by
  unfold splitlines
  induction ls with
  | nil =>
    rw [List.nil_append] at h ⊢
    rw [joinLines, linesFrom_last l [] (h l (by simp)) (by simpa using hl)]
    rfl
  | cons m ls ih =>
    have hi := ih fun x hx => h x (by simp at hx ⊢; tauto)
    obtain ⟨q, qs, hq⟩ := List.exists_cons_of_ne_nil (show ls ++ [l] ≠ [] by simp)
    have hj : ∀ x, joinLines (x :: q :: qs) = x ++ '\n' :: joinLines (q :: qs) := fun _ => rfl
    rw [List.cons_append, hq, hj, linesFrom_line m [] _ (h m (by simp)), ← hq, hi, List.nil_append]

/-- A file without pragmas, comments between slashes with stars and continued lines, that ends with a brace or a
semicolon, is written with one directive more, for its first line; if it begins with a directive, it has an empty line
before that. -/
theorem C118_unchanged (matching : List Str → List Str → List Block) (cfg : CycppGen.Cfg) (file : Str) (ls : List Str)
    (l : Str) (c : Char) (hb : ∀ m ∈ ls ++ [l ++ [c]], ∀ d ∈ m, isBreak d = false) (hc : CycppText.isStop c = true)
    (hw : ∀ m ∈ ls, m.getLast? ≠ some '\\')
    (hp : ¬ "pragma".toList <:+: joinLines (ls ++ [l ++ [c]])) (hs : ¬ ['/', '*'] <:+: joinLines (ls ++ [l ++ [c]]))
    (hm : ∀ pre, pre = [] ∨ pre = [[]] → matching (ls ++ [l ++ [c]]) (pre ++ (ls ++ [l ++ [c]])) =
      [⟨0, pre.length, (ls ++ [l ++ [c]]).length⟩, endBlock (ls ++ [l ++ [c]]) (pre ++ (ls ++ [l ++ [c]]))]) :
    mainOrig matching cfg file (joinLines (ls ++ [l ++ [c]])) =
      some (joinLines ((if (joinLines (ls ++ [l ++ [c]])).head? = some '#' then [[]] else []) ++
        directive file 1 :: (ls ++ [l ++ [c]]))) := by
  have hsplit := split_join ls (l ++ [c]) (by simp) hb
  have hnl : ∀ m ∈ ls ++ [l ++ [c]], '\n' ∉ m := fun m hm' hin => by
    have := hb m hm' _ hin
    exact absurd this (by decide)
  have hlog : logical [] (ls ++ [l ++ [c]]) = ls ++ [l ++ [c]] := by
    clear hsplit hp hs hb hnl hm
    induction ls with
    | nil => rfl
    | cons m ls ih =>
      obtain ⟨q, qs, hq⟩ := List.exists_cons_of_ne_nil (show ls ++ [l ++ [c]] ≠ [] by simp)
      have hi := ih fun x hx => hw x (by simp [hx])
      have : logical [] (m :: q :: qs) = if m.getLast? = some '\\' then logical ([] ++ m.dropLast) (q :: qs)
          else ([] ++ m) :: logical [] (q :: qs) := rfl
      rw [List.cons_append, hq, this, if_neg (hw m (by simp)), ← hq, hi, List.nil_append]
  have hlast : ∃ t, joinLines (ls ++ [l ++ [c]]) = t ++ [c] := by
    clear hsplit hp hs hb hnl hlog hw hm
    induction ls with
    | nil => exact ⟨l, rfl⟩
    | cons m ls ih =>
      obtain ⟨t, ht⟩ := ih
      obtain ⟨q, qs, hq⟩ := List.exists_cons_of_ne_nil (show ls ++ [l ++ [c]] ≠ [] by simp)
      have hj : ∀ x, joinLines (x :: q :: qs) = x ++ '\n' :: joinLines (q :: qs) := fun _ => rfl
      exact ⟨m ++ '\n' :: t, by rw [List.cons_append, hq, hj, ← hq, ht]; simp⟩
  have hdrop : dropContinuations (joinLines (ls ++ [l ++ [c]])) = joinLines (ls ++ [l ++ [c]]) := by
    rw [C118_continued _ (by simp) hnl, hlog]
  obtain ⟨t, ht⟩ := hlast
  by_cases hh : (joinLines (ls ++ [l ++ [c]])).head? = some '#'
  · obtain ⟨t', ht'⟩ := List.head?_eq_some_iff.mp hh
    have he : ensureHash (joinLines (ls ++ [l ++ [c]])) = '\n' :: joinLines (ls ++ [l ++ [c]]) := by rw [ht']; rfl
    have hd : dropContinuations ('\n' :: joinLines (ls ++ [l ++ [c]])) = '\n' :: joinLines (ls ++ [l ++ [c]]) := by
      rw [dropContinuations, hdrop]
      intro _ e; simp at e
    have hg : CycppGen.generateCode cfg ('\n' :: joinLines (ls ++ [l ++ [c]])) =
        some ('\n' :: joinLines (ls ++ [l ++ [c]])) := by
      have h1 : ¬ "pragma".toList <:+: '\n' :: joinLines (ls ++ [l ++ [c]]) := by
        rw [List.infix_cons_iff]
        rintro (h | h)
        · have : "pragma".toList.head? = some '\n' := by
            obtain ⟨u, hu⟩ := h
            have := congrArg List.head? hu
            simpa using this
          exact absurd this (by decide)
        · exact hp h
      have h2 : ¬ ['/', '*'] <:+: '\n' :: joinLines (ls ++ [l ++ [c]]) := by
        rw [List.infix_cons_iff]
        rintro (h | h)
        · obtain ⟨u, hu⟩ := h
          simp at hu
        · exact hs h
      rw [ht, ← List.cons_append] at h1 h2 ⊢
      exact CycppGen.C117_unchanged cfg _ c h1 h2 hc
    have hsp : splitlines ('\n' :: joinLines (ls ++ [l ++ [c]])) = [[]] ++ (ls ++ [l ++ [c]]) := by
      have := linesFrom_line [] [] (joinLines (ls ++ [l ++ [c]])) (by simp)
      unfold splitlines at hsplit ⊢
      rw [List.nil_append] at this
      rw [this, hsplit]
      rfl
    unfold mainOrig
    rw [he, hd, hg, if_pos hh, Option.map_some]
    unfold insertLineDirectives
    rw [hsplit, hsp, hm [[]] (.inr rfl)]
    simp [insertAll, insertAt]
  · have he : ensureHash (joinLines (ls ++ [l ++ [c]])) = joinLines (ls ++ [l ++ [c]]) := by
      unfold ensureHash
      split
      · rename_i h; rw [h] at hh; exact absurd rfl hh
      · rfl
    unfold mainOrig
    have hg : CycppGen.generateCode cfg (joinLines (ls ++ [l ++ [c]])) = some (joinLines (ls ++ [l ++ [c]])) := by
      rw [ht] at hp hs ⊢
      exact CycppGen.C117_unchanged cfg t c hp hs hc
    rw [he, hdrop, hg, if_neg hh, Option.map_some]
    unfold insertLineDirectives
    rw [hsplit]
    have := hm [] (.inl rfl)
    rw [List.nil_append] at this
    rw [this]
    simp [insertAll, insertAt]

example : joinLines (["#ifndef F_H".toList, "class F { };".toList] ++ ["class G { }".toList ++ [';']]) =
      "#ifndef F_H\nclass F { };\nclass G { };".toList ∧
    (∀ m ∈ ["#ifndef F_H".toList, "class F { };".toList] ++ ["class G { }".toList ++ [';']], ∀ d ∈ m, isBreak d = false) ∧
    ¬ "pragma".toList <:+: "#ifndef F_H\nclass F { };\nclass G { };".toList ∧
    ¬ ['/', '*'] <:+: "#ifndef F_H\nclass F { };\nclass G { };".toList ∧
    ∀ (a pre : List Str), (fun a b => [⟨0, b.length - a.length, a.length⟩, endBlock a b]) a (pre ++ a) =
      [⟨0, pre.length, a.length⟩, endBlock a (pre ++ a)] :=
  ⟨by decide +kernel, by decide +kernel, by decide +kernel, by decide +kernel, fun a pre => by simp⟩

/-! ## A compiler -/

/-- What a `#line` sets. -/
def lineOf (l : Str) : Option (ℕ × Str) :=
  match CycppScan.dropPrefix ['#', 'l', 'i', 'n', 'e', ' '] l with
  | some s => some (Nat.ofDigitChars 10 (s.takeWhile Char.isDigit) 0, ((s.dropWhile Char.isDigit).drop 2).dropLast)
  | none => none

/-- A compiler that knows comments between slashes with stars: the state tells whether a line begins within one. -/
def simpleReader : Reader Bool where
  step s l := if (lineOf l).isSome then s else
    if s then ! CycppGen.contains ['*', '/'] l else CycppGen.contains ['/', '*'] l && ! CycppGen.contains ['*', '/'] l
  free s := !s
  line := lineOf

theorem lineOf_directive (file : Str) (n : ℕ) : lineOf (directive file n) = some (n, file) := by
  unfold lineOf directive
  rw [List.append_assoc, List.append_assoc, List.append_assoc, CycppScan.dropPrefix_self]
  have hd : ∀ c ∈ Nat.toDigits 10 n, c.isDigit = true := fun c hc => Nat.isDigit_of_mem_toDigits (by omega) (by omega) hc
  simp only
  rw [List.takeWhile_append_of_pos hd, List.dropWhile_append_of_pos hd]
  have : ([' ', '"'] ++ (file ++ ['"'])).takeWhile Char.isDigit = [] := by simp
  rw [this]
  have : ([' ', '"'] ++ (file ++ ['"'])).dropWhile Char.isDigit = ' ' :: '"' :: (file ++ ['"']) := by simp
  rw [this]
  simp

theorem simple_knows (file : Str) : simpleReader.Knows file :=
  ⟨lineOf_directive file, fun s n => by
    unfold simpleReader
    simp only [lineOf_directive, Option.isSome_some, if_true]⟩

example : Matching ["a".toList, "p".toList, "b".toList] ["a".toList, "x".toList, "y".toList, "b".toList]
      [⟨0, 0, 1⟩, ⟨2, 3, 1⟩] ∧ simpleReader.Knows "f".toList ∧
    simpleReader.free (simpleReader.after false (["a".toList, "x".toList, "y".toList, "b".toList].take 3)) = true ∧
    (∀ m ∈ ["a".toList, "x".toList, "y".toList, "b".toList], simpleReader.line m = none) ∧
    simpleReader.report ⟨false, 1, "g".toList⟩ (insertAll "f".toList
      ([⟨0, 0, 1⟩, ⟨2, 3, 1⟩] ++ [endBlock ["a".toList, "p".toList, "b".toList] ["a".toList, "x".toList, "y".toList, "b".toList]])
      ["a".toList, "x".toList, "y".toList, "b".toList]) =
      [("#line 1 \"f\"".toList, 1, "g".toList), ("a".toList, 1, "f".toList), ("x".toList, 2, "f".toList),
       ("y".toList, 3, "f".toList), ("#line 3 \"f\"".toList, 4, "f".toList), ("b".toList, 3, "f".toList)] := by
  refine ⟨⟨by decide, ?_⟩, simple_knows _, by decide +kernel, by decide +kernel, by decide +kernel⟩
  intro x hx
  simp only [List.mem_cons, List.not_mem_nil, or_false] at hx
  rcases hx with rfl | rfl
  · refine ⟨by decide, fun k hk => ?_⟩
    have : k = 0 := by simp only at hk; omega
    subst this
    exact ⟨"a".toList, by decide +kernel, by decide +kernel⟩
  · refine ⟨by decide, fun k hk => ?_⟩
    have : k = 0 := by simp only at hk; omega
    subst this
    exact ⟨"b".toList, by decide +kernel, by decide +kernel⟩

/-! ## Where the lines are wrong -/

/-- A file with a comment over two lines. -/
def exFile : Str := "int x;\n\n\n/* a\n b */\nint y;".toList

/-- The blocks of equal lines of the file and of the text that is made from it. -/
def exBlocks : List Block := [⟨4, 1, 2⟩]

/-- The white space before a comment is lost, so that its first line is joined to the line before and the first line
that is equal is within the comment: there the directive has no effect, and the last line, the sixth of the file, is
reported as the fourth line of the new file, for any compiler that passes over directives within comments. -/
theorem C118_fails_comment :
    Matching (splitlines exFile) ["int x;/* a".toList, " b */".toList, "int y;".toList] exBlocks ∧
    (mainOrig (fun a b => exBlocks ++ [endBlock a b]) CycppGen.cfg0 "f".toList exFile).map splitlines =
      some ["int x;/* a".toList, "#line 5 \"f\"".toList, " b */".toList, "int y;".toList] ∧
    ∀ {S : Type} (R : Reader S) (s : S), R.Knows "f".toList → R.line "int x;/* a".toList = none →
      R.line " b */".toList = none → R.free (R.step s "int x;/* a".toList) = false →
      (R.report ⟨s, 1, "new".toList⟩
        ["int x;/* a".toList, "#line 5 \"f\"".toList, " b */".toList, "int y;".toList])[3]? =
          some ("int y;".toList, 4, "new".toList) := by
  refine ⟨⟨by decide, ?_⟩, by decide +kernel, ?_⟩
  · intro x hx
    have : x = ⟨4, 1, 2⟩ := by simpa [exBlocks] using hx
    subst this
    refine ⟨by decide, fun k hk => ?_⟩
    have : k = 0 ∨ k = 1 := by simp only at hk; omega
    rcases this with rfl | rfl
    · exact ⟨" b */".toList, by decide +kernel, by decide +kernel⟩
    · exact ⟨"int y;".toList, by decide +kernel, by decide +kernel⟩
  · intro S R s hR h1 h2 hf
    have n1 : ∀ p : Pos S, ∀ l, R.line l = none → R.next p l = ⟨R.step p.state l, p.num + 1, p.file⟩ := by
      intro p l h
      unfold Reader.next
      rw [h]
      cases R.free p.state <;> rfl
    have n2 : ∀ p : Pos S, ∀ l, R.free p.state = false → R.next p l = ⟨R.step p.state l, p.num + 1, p.file⟩ := by
      intro p l h
      unfold Reader.next
      rw [h]
    simp only [Reader.report]
    rw [n1 _ _ h1, n2 _ _ hf, n1 _ _ h2]
    rfl

example : simpleReader.Knows "f".toList ∧ simpleReader.line "int x;/* a".toList = none ∧
    simpleReader.line " b */".toList = none ∧
    simpleReader.free (simpleReader.step false "int x;/* a".toList) = false :=
  ⟨simple_knows _, by decide +kernel, by decide +kernel, by decide +kernel⟩

/-- A form feed counts as the end of a line, so that the lines after it have numbers that are too large; and it is
replaced by a line feed. -/
theorem C118_fails_form_feed :
    splitlines ("a".toList ++ Char.ofNat 12 :: "b\nc\n".toList) = ["a".toList, "b".toList, "c".toList] ∧
    insertLineDirectives (fun a b => [⟨0, 0, 3⟩, endBlock a b]) "f".toList ("a".toList ++ Char.ofNat 12 :: "b\nc\n".toList)
      ("a".toList ++ Char.ofNat 12 :: "b\nc\n".toList) = "#line 1 \"f\"\na\nb\nc".toList := by
  decide +kernel

/-- The line feed at the end of a file is lost. -/
theorem C118_fails_end : insertLineDirectives (fun a b => [⟨0, 0, 1⟩, endBlock a b]) "f".toList "a\n".toList
    "a\n".toList = "#line 1 \"f\"\na".toList := by
  decide +kernel

/-- The name of the file is not escaped. -/
theorem C118_fails_name : directive "C:\\new \"x\".cc".toList 1 = "#line 1 \"C:\\new \"x\".cc\"".toList := by
  decide +kernel

end Cyclus.CycppLine
