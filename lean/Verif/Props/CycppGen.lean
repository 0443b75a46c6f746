import Verif.Lemmas.CycppGen
import Verif.Props.CycppText

/-!
# C117: the third pass puts the code of the methods in the place of the directives and keeps the rest
-/

namespace Cyclus.CycppGen

open CycppScan (isSpace isWord join)
open CycppText (Str Token Piece Blank split isStop)

/-! ## The text -/

/-- If the blocks of a file are balanced, the new file has for each statement what is to be written at its place: the
methods for a directive, a shape after the declaration of a state variable that has one, and else the statement
itself. -/
theorem C117_file (cfg : Cfg) (s o : Str) (a : Bool) (h : Writes cfg .top false (split s) o a) :
    generateCode cfg s = some o := by
  have hat : At State.empty Place.top := ⟨by decide, rfl, rfl, rfl, by simp [State.empty], by simp [State.empty]⟩
  have := writes_run cfg h State.empty hat rfl []
  rw [List.append_nil] at this
  unfold generateCode
  rw [this]
  rfl

/-- The same for a file of pieces. -/
theorem C117_pieces (cfg : Cfg) (ps : List Piece) (hp : ∀ p ∈ ps, p.Fine) (tail : Str) (ht : Blank tail) (o : Str)
    (a : Bool) (h : Writes cfg .top false (ps.map Piece.token) o a) :
    generateCode cfg ((ps.map Piece.render).flatten ++ tail) = some o := by
  apply C117_file cfg _ o a
  rw [CycppText.C116_split_partial ps hp tail ht]
  exact h

/-- A text in which the word `pragma` does not occur is kept as it is cut, whatever its blocks are. -/
theorem C117_unchanged_cut (cfg : Cfg) (s : Str) (h : ¬ "pragma".toList <:+: s) :
    generateCode cfg s = some ((split s).map fun t => t.text ++ t.sep).flatten := by
  have := generateAll_kept cfg (split s) State.empty rfl fun t ht hc => h (hc.trans (split_mem ht))
  exact this

/-- If moreover it has no comment between slashes with stars and ends with a brace or a semicolon, it is unchanged. -/
theorem C117_unchanged (cfg : Cfg) (s : Str) (c : Char) (h : ¬ "pragma".toList <:+: s ++ [c])
    (h' : ¬ ['/', '*'] <:+: s ++ [c]) (hc : isStop c = true) : generateCode cfg (s ++ [c]) = some (s ++ [c]) := by
  rw [C117_unchanged_cut cfg _ h]
  have hn := CycppText.C116_nothing_lost s c hc
  have he : ((split (s ++ [c])).map fun t => t.text ++ t.sep) = (split (s ++ [c])).map Token.all := by
    apply List.map_congr_left
    intro t ht
    rcases tokens_blank _ _ t ht with hb | hb
    · simp [Token.all, hb]
    · exact absurd (hb.isInfix.trans (split_mem ht)) h'
  rw [he, hn]

example : ¬ "pragma".toList <:+: "class F { int x; }".toList ∧ ¬ ['/', '*'] <:+: "class F { int x; }".toList ∧
    isStop '}' = true := by decide +kernel

/-! ## The directives -/

/-- The words for the methods. -/
theorem C117_words : kinds.map pragmaName = ["initfromcopy".toList, "initfromdb".toList, "infiletodb".toList,
    "clone".toList, "schema".toList, "annotations".toList, "initinv".toList, "snapshotinv".toList,
    "snapshot".toList] ∧ ∀ k, k ∈ kinds := by
  refine ⟨by decide +kernel, fun k => ?_⟩
  cases k <;> decide

/-- A directive for a method is seen, with its mode and the class that is named after one character of white space. -/
theorem C117_directive (m : Mode) (p : Str) (k : Kind) (g : Option Str) (t : Str) (hp : Pre m p) (ht : Post g t) :
    see (p ++ (pragmaName k ++ t)) = .directive k m g := see_directive hp k ht

/-- The pragma without a method is seen if it is on a line of its own and the line break before it belongs to its
statement. -/
theorem C117_default_partial (m : Mode) (w b : Str) (hw : Blank w) (hn : '\n' ∈ w) (h : Bare m b) :
    see (w ++ b) = .all m := see_bare hw hn h

example : Pre .impl "\n  #pragma cyclus impl ".toList ∧ Post (some "a::F".toList) " a.F // x".toList ∧
    Blank "\n  ".toList ∧ Bare .decl "#pragma cyclus decl".toList := by
  have b1 : [' '] ≠ [] ∧ Blank [' '] := ⟨by simp, by unfold Blank; decide⟩
  refine ⟨?_, ?_, by unfold Blank; decide +kernel, ?_⟩
  · exact Pre.mode .impl "\n  ".toList [] [' '] [' '] [' '] (by unfold Blank; decide +kernel) (by unfold Blank; decide) b1 b1 b1
  · have := Post.cls ' ' "a.F".toList " // x".toList (by decide) (by decide +kernel) (by
      intro d hd
      have : d = ' ' := by simpa using hd.symm
      subst this; decide)
    exact this
  · exact Bare.mode .decl [] [' '] [' '] [] (by unfold Blank; decide) b1 b1 (by unfold Blank; decide)

theorem join_split (s : Str) : join (colonSplit s) = s := by
  suffices H : ∀ n (s : Str), s.length ≤ n → join (colonSplit s) = s from H _ s le_rfl
  intro n
  induction n with
  | zero =>
    intro s hs
    have : s = [] := List.length_eq_zero_iff.mp (by omega)
    subst this; rfl
  | succ n ih =>
    intro s hs
    unfold colonSplit
    split
    · rfl
    · rename_i s
      simp only [List.length_cons] at hs
      have h1 := ih s (by omega)
      obtain ⟨p, ps, hp⟩ := List.exists_cons_of_ne_nil (colonSplit_ne s)
      rw [hp] at h1 ⊢
      rw [join, h1]
      rfl
    · rename_i c s _
      simp only [List.length_cons] at hs
      have h1 := ih s (by omega)
      obtain ⟨p, ps, hp⟩ := List.exists_cons_of_ne_nil (colonSplit_ne s)
      rw [hp] at h1 ⊢
      simp only
      cases ps with
      | nil => 
        simp only [join] at h1 ⊢
        rw [h1]
      | cons q qs =>
        simp only [join] at h1 ⊢
        rw [List.cons_append, h1]

/-- Outside of its class a method has the name of the class without scopes that are around it: with these before it
the name is that of the class. -/
theorem C117_owner (scope : List Str) (cn : Str) :
    ∃ p, p <+: scope ∧ relative scope (colonSplit cn) ≠ [] ∧ join (p ++ relative scope (colonSplit cn)) = cn ∧
      (∀ q, q <+: scope → (∃ l, l ≠ [] ∧ colonSplit cn = q ++ l) → q.length ≤ p.length) := by
  have key : ∀ (scope path : List Str), path ≠ [] → ∃ p, p <+: scope ∧ relative scope path ≠ [] ∧
      p ++ relative scope path = path ∧ ∀ q, q <+: scope → (∃ l, l ≠ [] ∧ path = q ++ l) → q.length ≤ p.length := by
    intro scope
    induction scope with
    | nil =>
      intro path hp
      refine ⟨[], by simp, by simpa [relative] using hp, by simp [relative], ?_⟩
      intro q hq _
      rw [List.prefix_nil] at hq
      simp [hq]
    | cons s ss ih =>
      intro path hp
      match path with
      | [] => exact absurd rfl hp
      | [c] =>
        refine ⟨[], by simp, by simp [relative], by simp [relative], ?_⟩
        rintro q - ⟨l, hl, he⟩
        have := congrArg List.length he
        have hl' : 0 < l.length := List.length_pos_iff.mpr hl
        simp only [List.length_cons, List.length_nil, List.length_append] at this
        simp only [List.length_nil]
        omega
      | c :: d :: cs =>
        by_cases e : s = c
        · obtain ⟨p, h1, h2, h3, h4⟩ := ih (d :: cs) (by simp)
          refine ⟨s :: p, by simpa using h1, by simpa [relative, e] using h2, ?_, ?_⟩
          · simp [relative, e, h3]
          · rintro q hq ⟨l, hl, he⟩
            cases q with
            | nil => simp
            | cons x q =>
              simp only [List.cons_append, List.cons.injEq] at he
              rw [List.cons_prefix_cons] at hq
              have := h4 q hq.2 ⟨l, hl, he.2⟩
              simp only [List.length_cons]
              omega
        · refine ⟨[], by simp, by simp [relative, e], by simp [relative, e], ?_⟩
          rintro q hq ⟨l, hl, he⟩
          cases q with
          | nil => simp
          | cons x q =>
            simp only [List.cons_append, List.cons.injEq] at he
            rw [List.cons_prefix_cons] at hq
            exact absurd (hq.1.symm.trans he.1.symm) e
  obtain ⟨p, h1, h2, h3, h4⟩ := key scope (colonSplit cn) (colonSplit_ne cn)
  exact ⟨p, h1, h2, by rw [h3, join_split], h4⟩

example : relative ["mi6".toList] (colonSplit "mi6::Spy".toList) = ["Spy".toList] ∧
    relative ["mi6".toList] (colonSplit "kgb::Spy".toList) = ["kgb".toList, "Spy".toList] := by decide +kernel

/-- The pragma of a state variable is seen, with any white space and whatever follows: the next declaration is the
annotated one. -/
theorem C117_var (w g sp sp' r : Str) (c : Char) (hw : Blank w) (hg : Blank g) (hs : sp ≠ [] ∧ Blank sp)
    (hs' : sp' ≠ [] ∧ Blank sp') (hc : isSpace c = true) :
    see (w ++ ('#' :: (g ++ ("pragma".toList ++ (sp ++ ("cyclus".toList ++ (sp' ++ ("var".toList ++ (c :: r))))))))) =
      .var := by
  have hfv : ∀ x : Str, ("var".toList ++ x).dropWhile isSpace = "var".toList ++ x := fun x => by
    have : isSpace 'v' = false := by decide
    simp [this]
  have hdr : ∀ x : Str, (w ++ '#' :: x).dropWhile isSpace = '#' :: x := fun x =>
    CycppText.front_append hw (CycppText.hash_front _)
  have hsp : (sp' ++ ("var".toList ++ c :: r)).dropWhile isSpace = "var".toList ++ c :: r :=
    CycppText.front_append hs'.2 (by intro d hd; have : isSpace 'v' = false := by decide
                                     simp at hd; simpa [← hd] using this)
  have hmode : modeOf (sp' ++ ("var".toList ++ c :: r)) = (.def_, "var".toList ++ c :: r) := by
    have hn : ∀ m, afterMode m (sp' ++ ("var".toList ++ c :: r)) = none := by
      intro m
      obtain ⟨d, t, rfl⟩ : ∃ d t, sp' = d :: t := by
        cases sp' with
        | nil => exact absurd rfl hs'.1
        | cons d t => exact ⟨d, t, rfl⟩
      have hd := hs'.2 d List.mem_cons_self
      have ht : (t ++ ("var".toList ++ c :: r)).dropWhile isSpace = "var".toList ++ c :: r := by
        rw [List.cons_append, List.dropWhile_cons, if_pos hd] at hsp
        exact hsp
      simp only [List.cons_append, afterMode, hd, if_true, ht]
      cases m <;> rfl
    unfold modeOf
    rw [hn, hn, hn, hsp]
  have hd : anyDirective (w ++ ('#' :: (g ++ ("pragma".toList ++ (sp ++ ("cyclus".toList ++
      (sp' ++ ("var".toList ++ (c :: r))))))))) = none := by
    unfold anyDirective
    rw [List.findSome?_eq_none_iff]
    intro k _
    unfold directive
    rw [afterCyclus_eq hw hg hs]
    simp only [hmode]
    cases k <;> rfl
  have h8 : CycppText.afterPragma CycppText.kwVar (w ++ ('#' :: (g ++ ("pragma".toList ++ (sp ++ ("cyclus".toList ++
      (sp' ++ ("var".toList ++ (c :: r))))))))) = some (r.dropWhile isSpace) := by
    unfold CycppText.afterPragma
    rw [hdr]
    simp only
    have e1 : "pragma".toList = CycppText.kwPragma := rfl
    have e2 : "cyclus".toList = CycppText.kwCyclus := rfl
    rw [e1, e2, CycppText.front_append hg (CycppText.fPragma _), CycppText.afterWord_eq hs (CycppText.fCyclus _)]
    simp only
    rw [CycppText.afterWord_eq hs' (by intro d hd; have : isSpace 'v' = false := by decide
                                       simp at hd; simpa [← hd] using this)]
    simp only
    unfold CycppText.afterWord
    rw [show "var".toList = CycppText.kwVar from rfl, CycppScan.dropPrefix_self]
    simp only [hc, if_true]
  unfold see
  rw [if_neg (by simp), hd]
  unfold CycppScan.classHead CycppScan.afterTemplate CycppScan.headAt CycppText.isAccess CycppText.nsAliasNames
    CycppScan.nsStmt
  rw [h8]
  simp only [hdr]
  rfl

example : see "\n  # pragma cyclus  var {\"shape\": [3]}".toList = .var := by decide +kernel

/-! ## A file -/

/-- Bodies of one line, classes `F` and `a::F`, and a shape for `x`. -/
def cfg0 : Cfg where
  body := fun _ _ ind => some (ind ++ ['B', ';'])
  known := fun c => c = ['F'] || c = "a::F".toList
  shaped := fun _ x => x = ['x']

/-- `class F {`, `#pragma cyclus def clone`, `};`, and outside `#pragma cyclus decl schema F`. -/
def exPieces : List Piece :=
  [.code [] "class F".toList [' '] '{', .hash ['\n'] "#pragma cyclus def clone".toList [],
   .code [] [] [] '}', .code [] [] [] ';', .hash ['\n'] "#pragma cyclus decl schema F".toList []]

theorem exFine : ∀ p ∈ exPieces, p.Fine := by
  have : exPieces.all CycppText.fineB = true := by decide +kernel
  exact fun p hp => CycppText.fineB_fine (List.all_eq_true.mp this p hp)

/-- The new file: two methods, the first in its class. -/
def exOut : String :=
  "class F {\n  virtual cyclus::Agent* Clone() {\n    B;\n  };\n};\nstd::string F::schema();\n"

theorem exWrites : Writes cfg0 .top false (exPieces.map Piece.token) exOut.toList false := by
  have st : ∀ t : Token, t.sep ≠ ['{'] → t.sep ≠ ['}'] → t.text.count '{' = t.text.count '}' → Steady t :=
    fun t h1 h2 h3 => ⟨h1, h2, fun _ _ => h3⟩
  have := Writes.block (cfg := cfg0) .top (.cls ['F']) false false false false false
    (Piece.token (.code [] "class F".toList [' '] '{')) (Piece.token (.code [] [] [] '}'))
    [Piece.token (.hash ['\n'] "#pragma cyclus def clone".toList [])]
    [Piece.token (.code [] [] [] ';'), Piece.token (.hash ['\n'] "#pragma cyclus decl schema F".toList [])]
    "class F {".toList "\n  virtual cyclus::Agent* Clone() {\n    B;\n  };\n".toList ['}'] 
    ";\nstd::string F::schema();\n".toList rfl (by 
      have : see (Piece.token (.code [] "class F".toList [' '] '{')).text = .cls ['F'] := by decide +kernel
      rw [this]; rfl) (by decide +kernel)
    (by
      have := Writes.one (cfg := cfg0) (Place.top.enter (.cls ['F'])) false false false
        (Piece.token (.hash ['\n'] "#pragma cyclus def clone".toList [])) [] 
        "\n  virtual cyclus::Agent* Clone() {\n    B;\n  };\n".toList [] (st _ (by decide) (by decide) (by decide +kernel))
        (by decide +kernel) (.nil _ _)
      exact this)
    rfl (by
      have : see (Piece.token (.code [] [] [] '}')).text = .other := by decide +kernel
      rw [this]; intro n; simp) (by
      have : see (Piece.token (.code [] [] [] '}')).text = .other := by decide +kernel
      rw [this]; intro n; simp) (by decide +kernel)
    (by
      refine Writes.one (cfg := cfg0) .top false false false (Piece.token (.code [] [] [] ';')) _ [';']
        "\nstd::string F::schema();\n".toList (st _ (by decide) (by decide) (by decide +kernel)) (by decide +kernel) ?_
      have := Writes.one (cfg := cfg0) .top false false false
        (Piece.token (.hash ['\n'] "#pragma cyclus decl schema F".toList [])) []
        "\nstd::string F::schema();\n".toList [] (st _ (by decide) (by decide) (by decide +kernel)) (by decide +kernel) (.nil _ _)
      exact this)
  exact this

example : (exPieces.map Piece.render).flatten ++ [] =
    "class F {\n#pragma cyclus def clone\n};\n#pragma cyclus decl schema F\n".toList ∧
    (∀ p ∈ exPieces, p.Fine) ∧ Writes cfg0 .top false (exPieces.map Piece.token) exOut.toList false :=
  ⟨by decide +kernel, exFine, exWrites⟩

/-! ## Where the text is not what it should be -/

/-- The new file for a text. -/
def gen (s : String) : Option String := (generateCode cfg0 s.toList).map String.ofList

/-- The pragma without a method, directly after a line that is a comment, is left as it is; with an empty line between
there are nine methods in its place. -/
theorem C117_fails_default :
    gen "class F {\n// c\n#pragma cyclus decl\n};" = some "class F {\n// c\n#pragma cyclus decl\n};" ∧
    gen "class F {\n// c\n\n#pragma cyclus decl\n};" ≠ some "class F {\n// c\n\n#pragma cyclus decl\n};" := by
  decide +kernel

/-- A blank at the end of a directive, or two before the name of the class, give the class with the empty name, which
is not known. -/
theorem C117_fails_blank : gen "class F {\n#pragma cyclus def clone \n};" = none ∧
    gen "#pragma cyclus def clone  F\n" = none ∧ (gen "#pragma cyclus def clone F\n").isSome = true := by
  decide +kernel

/-- A brace within the dictionary of a state variable is counted: a class that follows is taken for a member, and its
directives fail. -/
theorem C117_fails_brace :
    gen "class E {\n#pragma cyclus var {\"doc\": \"{\"}\n int y; };\nclass F {\n#pragma cyclus def clone\n};" = none ∧
    (gen "class E {\n#pragma cyclus var {\"doc\": \"\"}\n int y; };\nclass F {\n#pragma cyclus def clone\n};").isSome = true := by
  decide +kernel

/-- What follows the last separator is lost. -/
theorem C117_fails_tail : gen "#ifndef F_H\nclass F { };\n#endif" = some "#ifndef F_H\nclass F { };" := by
  decide +kernel

/-- A misspelled method is an error if there is a line break before it in the statement, and left as it is otherwise. -/
theorem C117_fails_misspelled : gen "class F {\n#pragma cyclus klone\n};" = none ∧
    gen "class F {\n// c\n#pragma cyclus klone\n};" = some "class F {\n// c\n#pragma cyclus klone\n};" ∧
    gen "class F {\n#pragma cyclus def klone\n};" = some "class F {\n#pragma cyclus def klone\n};" := by
  decide +kernel

/-- The filter for `snapshot` takes a directive for `snapshotinv` too; it is right only because it comes later. -/
theorem C117_order : directive .snapshot "#pragma cyclus def snapshotinv".toList = some (.def_, none) ∧
    see "#pragma cyclus def snapshotinv".toList = .directive .snapshotInv .def_ none := by
  decide +kernel

end Cyclus.CycppGen
