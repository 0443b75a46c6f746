import Verif.Model.Schema
import Verif.Props.Infile
import Mathlib.Data.List.Lex
import Mathlib.Data.List.Induction
import Mathlib.Logic.Function.Basic

/-!
# C99: the archetypes of the input file and the master schema
-/

namespace Cyclus.Schema

open Infile (Node Tree Query Fail Step)
open Load (Spec)

/-! ## Specification -/

/-- The node is an element with the name. -/
def isNamed (k : List Char) : Node → Bool
  | .element m _ => k = m
  | _ => false

/-- The child elements with a name. -/
def named (k : List Char) (n : Node) : List Node := n.children.filter (isNamed k)

/-- The elements `spec` inside of `archetypes` inside of a root called `simulation`. -/
def entries (root : Node) : List Node :=
  if isNamed ['s', 'i', 'm', 'u', 'l', 'a', 't', 'i', 'o', 'n'] root = true then
    (named ['a', 'r', 'c', 'h', 'e', 't', 'y', 'p', 'e', 's'] root).flatMap (named ['s', 'p', 'e', 'c'])
  else []

/-- The value of an optional part: its text if it is given once. -/
def Opt (n : Node) (k v dflt : List Char) : Prop :=
  (∃ x, named k n = [.element x [.text v]]) ∨ ((named k n).length ≠ 1 ∧ v = dflt)

/-- The archetype that an element describes. -/
structure Describes (n : Node) (s : Spec) : Prop where
  agent : ∃ x rest, named ['n', 'a', 'm', 'e'] n = .element x [.text s.agent] :: rest
  lib : Opt n ['l', 'i', 'b'] s.lib s.agent
  path : Opt n ['p', 'a', 't', 'h'] s.path []
  nick : Opt n ['a', 'l', 'i', 'a', 's'] s.nick s.agent

/-- The same archetype: the printed forms agree. -/
def Same (a b : Spec) : Prop :=
  a.path ++ [':'] ++ a.lib ++ [':'] ++ a.agent = b.path ++ [':'] ++ b.lib ++ [':'] ++ b.agent

instance (a b : Spec) : Decidable (Same a b) := inferInstanceAs (Decidable (_ = _))

/-- The first of each archetype. -/
def firsts (l : List Spec) : List Spec :=
  (l.zipIdx.filter fun p : Spec × ℕ => decide (∀ q ∈ l.take p.2, ¬ Same q p.1)).map Prod.fst

/-- A template with holes: text, and for each hole its kind and the text that follows. -/
def fillIn (f : List Char → List Char) (t : List Char) : List (List Char × List Char) → List Char
  | [] => t
  | (k, t') :: hs => t ++ f k ++ fillIn f t' hs

/-- How a hole is written. -/
def hole (k : List Char) : List Char := ['@'] ++ k ++ ['_', 'R', 'E', 'F', 'S'] ++ ['@']

/-- What the schema says about one archetype. -/
def clause (nick schema : List Char) : List Char :=
  ['<', 'e', 'l', 'e', 'm', 'e', 'n', 't', ' ', 'n', 'a', 'm', 'e', '=', '"'] ++ nick ++ ['"', '>', '\n'] ++ schema ++
    ['\n', '<', '/', 'e', 'l', 'e', 'm', 'e', 'n', 't', '>', '\n']

/-- What the schema says about all archetypes of a kind. -/
def clauses (made : List (Spec × List Char × List Char)) (k : List Char) : List Char :=
  (made.filter fun e => e.2.1 = k).flatMap fun e => clause e.1.nick e.2.2

/-! ## Archetypes -/

theorem getString_zero (t : Tree) (q : Query) (s : List Char) :
    t.getString q 0 = .ok s ↔ ∃ x rest, t.find q = .element x [.text s] :: rest := by
  unfold Tree.getString
  cases h : t.find q with
  | nil => simp
  | cons n ns =>
    have hf : Infile.tooFew (n :: ns).length 0 = false := by
      simp [Infile.tooFew]
    rw [if_neg (by simp), Infile.pick, hf]
    simp only [Bool.false_eq_true, if_false, Infile.at', lt_irrefl, Int.toNat_zero,
      List.getElem?_cons_zero, List.cons.injEq]
    match n with
    | .element x [.text s'] =>
      simp [Infile.content]
    | .element x [] => simp [Infile.content]
    | .element x (a :: b :: r) => cases a <;> simp [Infile.content]
    | .element x [.element _ _] => simp [Infile.content]
    | .element x [.cdata _] => simp [Infile.content]
    | .element x [.comment _] => simp [Infile.content]
    | .text _ => simp [Infile.content]
    | .cdata _ => simp [Infile.content]
    | .comment _ => simp [Infile.content]

theorem selects_named (k : List Char) : (Step.named k).selects = isNamed k := by
  funext n
  cases n <;> rfl

theorem find_child (t : Tree) (k : List Char) : t.find (.child k) = named k t.cur := by
  unfold Tree.find Query.child named
  simp only [Bool.false_eq_true, if_false, Infile.descend, selects_named]
  simp

theorem optional_iff (t : Tree) (k d v : List Char) :
    Infile.optionalString t (.child k) d = .ok v ↔ Opt t.cur k v d := by
  unfold Infile.optionalString Tree.nMatches Opt
  by_cases h : (t.find (.child k)).length = 1
  · rw [if_pos h, getString_zero]
    rw [find_child] at h ⊢
    constructor
    · rintro ⟨x, rest, he⟩
      rw [he] at h
      have : rest = [] := by simpa using h
      subst this
      exact Or.inl ⟨x, he⟩
    · rintro (⟨x, he⟩ | ⟨hn, _⟩)
      · exact ⟨x, [], he⟩
      · exact absurd h hn
  · rw [if_neg h]
    rw [find_child] at h
    constructor
    · intro he
      injection he with he
      exact Or.inr ⟨h, he.symm⟩
    · rintro (⟨x, he⟩ | ⟨_, rfl⟩)
      · rw [he] at h
        simp at h
      · rfl

theorem specOf_iff (t : Tree) (s : Spec) : specOf t = .ok s ↔ Describes t.cur s := by
  constructor
  · intro h
    unfold specOf at h
    split at h
    · simp at h
    · rename_i agent h1
      split at h
      · simp at h
      · rename_i lib h2
        split at h
        · simp at h
        · rename_i path h3
          split at h
          · simp at h
          · rename_i nick h4
            injection h with h
            subst h
            rw [getString_zero, find_child] at h1
            rw [optional_iff] at h2 h3 h4
            exact ⟨h1, h2, h3, h4⟩
  · rintro ⟨h1, h2, h3, h4⟩
    rw [← find_child, ← getString_zero] at h1
    rw [← optional_iff] at h2 h3 h4
    unfold specOf
    rw [h1]
    simp only [h2, h3, h4]

theorem Describes.unique {n : Node} {a b : Spec} (ha : Describes n a) (hb : Describes n b) : a = b := by
  have h1 := (specOf_iff ⟨n, n⟩ a).mpr ha
  have h2 := (specOf_iff ⟨n, n⟩ b).mpr hb
  rw [h1] at h2
  injection h2

theorem find_entries (root : Node) : (Tree.new root).find specPath = entries root := by
  unfold Tree.find specPath entries
  simp only [if_true, Tree.new, Infile.descend, selects_named]
  have hc : (Node.element [] [root]).children = [root] := rfl
  rw [hc]
  by_cases h : isNamed ['s', 'i', 'm', 'u', 'l', 'a', 't', 'i', 'o', 'n'] root = true
  · rw [if_pos h, List.filter_cons_of_pos h]
    simp [named]
    rfl
  · rw [if_neg h, List.filter_cons_of_neg h]
    rfl

theorem entries_element (root : Node) : ∀ n ∈ entries root, ∃ x cs, n = .element x cs := by
  intro n hn
  unfold entries at hn
  split at hn
  · obtain ⟨m, _, hm⟩ := List.mem_flatMap.mp hn
    have := (List.mem_filter.mp hm).2
    cases n with
    | element x cs => exact ⟨x, cs, rfl⟩
    | _ => simp [isNamed] at this
  · simp at hn

theorem subTree_entry (root : Node) (i : ℕ) (n : Node) (hb : (entries root).length < 2 ^ 31)
    (hi : (entries root)[i]? = some n) :
    (Tree.new root).subTree specPath i = .ok ⟨root, n⟩ := by
  have hlt : i < (entries root).length := by
    by_contra h
    rw [List.getElem?_eq_none (by omega)] at hi
    simp at hi
  unfold Tree.subTree Infile.pick
  rw [find_entries]
  have hf : Infile.tooFew (entries root).length (i : ℤ) = false := by
    unfold Infile.tooFew
    rw [decide_eq_false_iff_not]
    have : ((i : ℤ) + 1) % 2 ^ 64 = (i : ℤ) + 1 := by omega
    rw [this]
    omega
  rw [hf]
  have hat : Infile.at' (entries root) (i : ℤ) = .ok n := by
    unfold Infile.at'
    rw [if_neg (by omega), Int.toNat_natCast, hi]
  rw [if_neg (by simp), hat]
  obtain ⟨x, cs, rfl⟩ := entries_element root n (List.mem_of_getElem? hi)
  rfl

/-- The loop over a list of elements. -/
def walk (root : Node) : List Node → List Spec → Except Fail (List Spec)
  | [], acc => .ok acc
  | n :: ns, acc =>
    match specOf ⟨root, n⟩ with
    | .error e => .error e
    | .ok s => walk root ns (keep acc s)

theorem specLoop_walk (root : Node) (hb : (entries root).length < 2 ^ 31) :
    ∀ n i acc, i + n = (entries root).length →
      specLoop (Tree.new root) n i acc = walk root ((entries root).drop i) acc := by
  intro n
  induction n with
  | zero =>
    intro i acc h
    rw [List.drop_of_length_le (by omega)]
    rfl
  | succ n ih =>
    intro i acc h
    have hi : i < (entries root).length := by omega
    rw [specLoop, subTree_entry root i _ hb (List.getElem?_eq_getElem hi), List.drop_eq_getElem_cons hi]
    simp only [walk]
    cases specOf ⟨root, (entries root)[i]⟩ with
    | error e => rfl
    | ok s => exact ih (i + 1) (keep acc s) (by omega)

theorem keep_eq (acc : List Spec) (s : Spec) :
    keep acc s = if ∃ q ∈ acc, Same q s then acc else acc ++ [s] := by
  unfold keep
  congr 1
  simp only [List.any_eq_true, decide_eq_true_eq]
  rfl

theorem firsts_append (l : List Spec) (s : Spec) :
    firsts (l ++ [s]) = firsts l ++ if ∃ q ∈ l, Same q s then [] else [s] := by
  unfold firsts
  rw [List.zipIdx_append, List.filter_append, List.map_append]
  congr 1
  · congr 1
    apply List.filter_congr
    rintro ⟨a, i⟩ hp
    have hlt : i < l.length := by
      have := List.snd_lt_of_mem_zipIdx hp
      omega
    rw [List.take_append_of_le_length (by omega)]
  · simp only [List.zipIdx_cons, List.zipIdx_nil, zero_add]
    have : (l ++ [s]).take l.length = l := by simp
    by_cases h : ∃ q ∈ l, Same q s
    · rw [if_pos h, List.filter_cons_of_neg, List.filter_nil, List.map_nil]
      rw [this]
      obtain ⟨q, hq, hs⟩ := h
      simp only [decide_eq_true_eq]
      intro hall
      exact hall q hq hs
    · rw [if_neg h, List.filter_cons_of_pos, List.filter_nil]
      · rfl
      · rw [this]
        simp only [decide_eq_true_eq]
        intro q hq hs
        exact h ⟨q, hq, hs⟩

theorem same_firsts (l : List Spec) (s : Spec) : (∃ q ∈ firsts l, Same q s) ↔ ∃ q ∈ l, Same q s := by
  induction l using List.reverseRecOn with
  | nil => simp [firsts]
  | append_singleton l a ih =>
    rw [firsts_append]
    by_cases h : ∃ q ∈ l, Same q a
    · rw [if_pos h, List.append_nil, ih]
      constructor
      · rintro ⟨q, hq, hs⟩
        exact ⟨q, by simp [hq], hs⟩
      · rintro ⟨q, hq, hs⟩
        rcases List.mem_append.mp hq with hq | hq
        · exact ⟨q, hq, hs⟩
        · simp only [List.mem_singleton] at hq
          subst hq
          obtain ⟨r, hr, hrs⟩ := h
          exact ⟨r, hr, Eq.trans hrs hs⟩
    · rw [if_neg h]
      constructor
      · rintro ⟨q, hq, hs⟩
        rcases List.mem_append.mp hq with hq | hq
        · obtain ⟨r, hr, hrs⟩ := ih.mp ⟨q, hq, hs⟩
          exact ⟨r, by simp [hr], hrs⟩
        · exact ⟨q, by simp only [List.mem_append]; exact Or.inr hq, hs⟩
      · rintro ⟨q, hq, hs⟩
        rcases List.mem_append.mp hq with hq | hq
        · obtain ⟨r, hr, hrs⟩ := ih.mpr ⟨q, hq, hs⟩
          exact ⟨r, by simp [hr], hrs⟩
        · exact ⟨q, by simp only [List.mem_append]; exact Or.inr hq, hs⟩

theorem firsts_keep (l : List Spec) (s : Spec) : keep (firsts l) s = firsts (l ++ [s]) := by
  rw [keep_eq, firsts_append]
  by_cases h : ∃ q ∈ l, Same q s
  · rw [if_pos ((same_firsts l s).mpr h), if_pos h, List.append_nil]
  · rw [if_neg (fun h' => h ((same_firsts l s).mp h')), if_neg h]

theorem walk_iff (root : Node) (ns : List Node) :
    ∀ done r, walk root ns (firsts done) = .ok r ↔
      ∃ all, List.Forall₂ Describes ns all ∧ r = firsts (done ++ all) := by
  induction ns with
  | nil =>
    intro done r
    simp only [walk, Except.ok.injEq]
    constructor
    · rintro rfl
      exact ⟨[], .nil, by simp⟩
    · rintro ⟨all, h, rfl⟩
      cases h
      simp
  | cons n ns ih =>
    intro done r
    rw [walk]
    cases hs : specOf ⟨root, n⟩ with
    | error e =>
      simp only [reduceCtorEq, false_iff]
      rintro ⟨all, h, _⟩
      cases h with
      | cons h1 h2 =>
        rw [(specOf_iff ⟨root, n⟩ _).mpr h1] at hs
        simp at hs
    | ok s =>
      simp only
      rw [firsts_keep, ih]
      have hd : Describes n s := (specOf_iff ⟨root, n⟩ s).mp hs
      constructor
      · rintro ⟨all, h, rfl⟩
        exact ⟨s :: all, .cons hd h, by simp⟩
      · rintro ⟨all, h, rfl⟩
        cases h with
        | cons h1 h2 =>
          rename_i b bs
          have := h1.unique hd
          subst this
          exact ⟨bs, h2, by simp⟩

/-- C99 (archetypes).  For every document: `ParseSpecs` returns exactly the archetypes that the elements
`/simulation/archetypes/spec` describe, in the order of the file and without repetitions of an archetype
that came before.  It fails exactly if there is no such element or one of them describes no archetype,
in the first case with a `ValidationError`. -/
theorem C99_specs (root : Node) (hb : (entries root).length < 2 ^ 31) :
    (∀ r, parseSpecs root = .ok r ↔
      ∃ all, List.Forall₂ Describes (entries root) all ∧ r = firsts all ∧ all ≠ []) ∧
    ((∃ r, parseSpecs root = .ok r) ↔
      entries root ≠ [] ∧ ∀ n ∈ entries root, ∃ s, Describes n s) ∧
    (entries root = [] → parseSpecs root = .error (.err .valid)) := by
  have hloop : specLoop (Tree.new root) ((Tree.new root).nMatches specPath) 0 [] =
      walk root (entries root) (firsts []) := by
    unfold Tree.nMatches
    rw [find_entries, specLoop_walk root hb _ 0 [] (by omega)]
    rfl
  have hne : ∀ all : List Spec, firsts all = [] ↔ all = [] := by
    intro all
    constructor
    · intro h
      match all, h with
      | [], _ => rfl
      | a :: as, h =>
        have := (same_firsts (a :: as) a).mpr ⟨a, by simp, rfl⟩
        rw [h] at this
        simp at this
    · rintro rfl
      rfl
  have h1 : ∀ r, parseSpecs root = .ok r ↔
      ∃ all, List.Forall₂ Describes (entries root) all ∧ r = firsts all ∧ all ≠ [] := by
    intro r
    unfold parseSpecs
    rw [hloop]
    have hw := walk_iff root (entries root) []
    simp only [List.nil_append] at hw
    cases h : walk root (entries root) (firsts []) with
    | error e =>
      simp only [reduceCtorEq, false_iff]
      rintro ⟨all, h1, h2, _⟩
      have := (hw r).mpr ⟨all, h1, h2⟩
      rw [h] at this
      simp at this
    | ok r' =>
      obtain ⟨all, ha, hr⟩ := (hw r').mp h
      constructor
      · intro he
        split at he
        · simp at he
        · simp at he
        · rename_i l hnil hl
          injection he with he
          injection hl with hl
          refine ⟨all, ha, by rw [← he, ← hl, hr], ?_⟩
          rintro rfl
          apply hnil
          rw [← hl, hr]
          rfl
      · rintro ⟨all', ha', hr', hn⟩
        have := (hw r).mpr ⟨all', ha', hr'⟩
        rw [h] at this
        injection this with this
        subst this
        split
        · rename_i heq; simp at heq
        · rename_i heq
          injection heq with heq
          rw [hr', hne] at heq
          exact absurd heq hn
        · rename_i heq
          exact heq.symm
  refine ⟨h1, ?_, ?_⟩
  · constructor
    · rintro ⟨r, hr⟩
      obtain ⟨all, ha, _, hn⟩ := (h1 r).mp hr
      refine ⟨?_, ?_⟩
      · intro he
        rw [he] at ha
        cases ha
        exact hn rfl
      · have hall : ∀ es all, List.Forall₂ Describes es all → ∀ n ∈ es, ∃ s, Describes n s := by
          intro es all ha
          induction ha with
          | nil => simp
          | cons h _ ih =>
            intro n hn
            rcases List.mem_cons.mp hn with rfl | hn
            · exact ⟨_, h⟩
            · exact ih n hn
        exact hall _ _ ha
    · rintro ⟨hn, hall⟩
      have : ∃ all, List.Forall₂ Describes (entries root) all := by
        clear h1 hloop hn
        generalize entries root = es at hall
        induction es with
        | nil => exact ⟨[], .nil⟩
        | cons e es ih =>
          obtain ⟨s, hs⟩ := hall e (by simp)
          obtain ⟨all, ha⟩ := ih fun n hn => hall n (by simp [hn])
          exact ⟨s :: all, .cons hs ha⟩
      obtain ⟨all, ha⟩ := this
      refine ⟨firsts all, (h1 _).mpr ⟨all, ha, rfl, ?_⟩⟩
      rintro rfl
      cases h : entries root with
      | nil => exact hn h
      | cons => rw [h] at ha; cases ha
  · intro he
    unfold parseSpecs
    rw [hloop, he]
    rfl

/-- A `spec` element. -/
def specElement (parts : List (List Char × List Char)) : Node :=
  .element ['s', 'p', 'e', 'c'] (parts.map fun p => .element p.1 [.text p.2])

/-- A document with archetypes. -/
def document (specs : List Node) : Node :=
  .element ['s', 'i', 'm', 'u', 'l', 'a', 't', 'i', 'o', 'n'] [.text ['\n'], .element ['a', 'r', 'c', 'h', 'e', 't', 'y', 'p', 'e', 's'] specs]

/-- A case of `C99_specs`. -/
example : parseSpecs (document [specElement [(['n', 'a', 'm', 'e'], ['S'])],
    specElement [(['l', 'i', 'b'], ['a']), (['n', 'a', 'm', 'e'], ['K']), (['a', 'l', 'i', 'a', 's'], ['k'])],
    specElement [(['n', 'a', 'm', 'e'], ['S'])]]) =
    .ok [⟨[], ['S'], ['S'], ['S']⟩, ⟨[], ['a'], ['K'], ['k']⟩] := by decide +kernel

/-! ## Aliases -/

/-- C99 (aliases).  Under an alias the loader finds the last of the archetypes with this alias, and an
empty specification if there is none. -/
theorem C99_lookup (l : List Spec) (a : List Char) :
    (∀ pre s post, l = pre ++ s :: post → s.nick = a → (∀ q ∈ post, q.nick ≠ a) →
      lookup (loadSpecs l) a = s) ∧
    ((∀ q ∈ l, q.nick ≠ a) → lookup (loadSpecs l) a = ⟨[], [], [], []⟩) := by
  have key : ∀ l : List Spec, lookup (loadSpecs l) a =
      match l.reverse.find? (fun q => q.nick = a) with
      | none => ⟨[], [], [], []⟩
      | some s => s := by
    intro l
    induction l using List.reverseRecOn with
    | nil => rfl
    | append_singleton l s ih =>
      have hl : loadSpecs (l ++ [s]) = (s.nick, s) :: (loadSpecs l).filter (·.1 ≠ s.nick) := by
        unfold loadSpecs
        rw [List.foldl_append]
        rfl
      rw [hl, List.reverse_append, List.reverse_singleton, List.singleton_append]
      by_cases h : s.nick = a
      · rw [lookup, List.find?_cons_of_pos (by simpa using h), List.find?_cons_of_pos (by simpa using h)]
      · rw [List.find?_cons_of_neg (by simpa using h), ← ih, lookup,
          List.find?_cons_of_neg (by simpa using h)]
        unfold lookup
        rw [List.find?_filter]
        have : (fun e : List Char × Spec => decide (decide (e.1 ≠ s.nick) = true ∧ decide (e.1 = a) = true)) =
            fun e => decide (e.1 = a) := by
          funext e
          by_cases he : e.1 = a
          · subst he
            simp [Ne.symm h]
          · simp [he]
        rw [this]
  constructor
  · rintro pre s post rfl hs hp
    rw [key]
    have : (pre ++ s :: post).reverse.find? (fun q => q.nick = a) = some s := by
      rw [List.reverse_append, List.reverse_cons, List.append_assoc, List.find?_append]
      have : post.reverse.find? (fun q => q.nick = a) = none := by
        rw [List.find?_eq_none]
        intro q hq
        simpa using hp q (by simpa using hq)
      rw [this]
      simp [hs]
    rw [this]
  · intro h
    rw [key]
    have : l.reverse.find? (fun q => q.nick = a) = none := by
      rw [List.find?_eq_none]
      intro q hq
      simpa using h q (by simpa using hq)
    rw [this]

/-- A case of `C99_lookup`. -/
example : lookup (loadSpecs [⟨[], [], ['A'], ['x']⟩, ⟨[], [], ['B'], ['x']⟩]) ['x'] =
    ⟨[], [], ['B'], ['x']⟩ := by decide +kernel

/-- C99 (archetypes under their aliases).  If no archetype is listed twice and no alias is used twice,
every element of the file describes the archetype that the loader finds under its alias.  The full
statement has no such conditions; see the disagreements below. -/
theorem C99_aliases_partial (root : Node) (hb : (entries root).length < 2 ^ 31) (all r : List Spec)
    (hd : List.Forall₂ Describes (entries root) all)
    (hs : all.Pairwise fun a b => ¬ Same a b) (hn : all.Pairwise fun a b => a.nick ≠ b.nick)
    (hr : parseSpecs root = .ok r) : r = all ∧ ∀ s ∈ all, lookup (loadSpecs r) s.nick = s := by
  obtain ⟨all', hd', hr', _⟩ := ((C99_specs root hb).1 r).mp hr
  have hu : all' = all := by
    have huniq : ∀ es all, List.Forall₂ Describes es all → ∀ all', List.Forall₂ Describes es all' →
        all' = all := by
      intro es all hd
      induction hd with
      | nil => intro all' hd'; cases hd'; rfl
      | cons h _ ih =>
        intro all' hd'
        cases hd' with
        | cons h' ht' => rw [h.unique h', ih _ ht']
    exact huniq _ _ hd _ hd'
  subst hu
  have hf : ∀ l : List Spec, l.Pairwise (fun a b => ¬ Same a b) → firsts l = l := by
    intro l
    induction l using List.reverseRecOn with
    | nil => intro _; rfl
    | append_singleton l a ih =>
      intro h
      rw [List.pairwise_append] at h
      rw [firsts_append, ih h.1, if_neg]
      rintro ⟨q, hq, hs⟩
      exact h.2.2 q hq a (by simp) hs
  rw [hf _ hs] at hr'
  subst hr'
  refine ⟨rfl, ?_⟩
  intro s hs'
  obtain ⟨pre, post, rfl⟩ := List.append_of_mem hs'
  refine (C99_lookup _ _).1 pre s post rfl rfl ?_
  intro q hq
  rw [List.pairwise_append, List.pairwise_cons] at hn
  exact (hn.2.1.1 q hq).symm

/-- A case of `C99_aliases_partial`. -/
example : List.Forall₂ Describes (entries (document [specElement [(['n', 'a', 'm', 'e'], ['S'])]]))
    [⟨[], ['S'], ['S'], ['S']⟩] :=
  .cons ⟨⟨_, _, rfl⟩, Or.inr ⟨by decide +kernel, rfl⟩, Or.inr ⟨by decide +kernel, rfl⟩,
    Or.inr ⟨by decide +kernel, rfl⟩⟩ .nil

/-! ## The master schema -/

theorem fillIn_append (f : List Char → List Char) (a b : List Char) (hs : List (List Char × List Char)) :
    fillIn f (a ++ b) hs = a ++ fillIn f b hs := by
  cases hs with
  | nil => rfl
  | cons h hs => obtain ⟨k, t⟩ := h; simp [fillIn]

theorem replaceFirst_skip (p new t r : List Char) (h : '@' ∉ t) :
    replaceFirst ('@' :: p) new (t ++ r) = t ++ replaceFirst ('@' :: p) new r := by
  induction t with
  | nil => rfl
  | cons c cs ih =>
    simp only [List.mem_cons, not_or] at h
    rw [List.cons_append, replaceFirst, if_neg, ih h.2]
    · rfl
    · simp only [List.isPrefixOf, Bool.and_eq_true, beq_iff_eq, not_and]
      intro he
      exact absurd he h.1

theorem not_prefix_piece {w u y : List Char} (hw : '@' ∉ w) (hu : '@' ∉ u) (hne : w ≠ u) :
    ¬ (w ++ ['@']) <+: (u ++ '@' :: y) := by
  induction w generalizing u with
  | nil =>
    cases u with
    | nil => exact absurd rfl hne
    | cons c u =>
      intro h
      rw [List.nil_append, List.cons_append, List.cons_prefix_cons] at h
      exact hu (by rw [h.1]; simp)
  | cons a w ih =>
    cases u with
    | nil =>
      intro h
      rw [List.cons_append, List.nil_append, List.cons_prefix_cons] at h
      exact hw (by rw [← h.1]; simp)
    | cons c u =>
      intro h
      rw [List.cons_append, List.cons_append, List.cons_prefix_cons] at h
      obtain ⟨rfl, h⟩ := h
      refine ih (fun hm => hw (by simp [hm])) (fun hm => hu (by simp [hm])) ?_ h
      rintro rfl
      exact hne rfl

theorem not_prefix_text {w t x : List Char} (ht : '@' ∉ t) (hl : '<' ∈ t) (hw : '<' ∉ w) :
    ¬ (w ++ ['@']) <+: (t ++ x) := by
  induction w generalizing t with
  | nil =>
    cases t with
    | nil => simp at hl
    | cons c t =>
      intro h
      rw [List.nil_append, List.cons_append, List.cons_prefix_cons] at h
      exact ht (by rw [h.1]; simp)
  | cons a w ih =>
    cases t with
    | nil => simp at hl
    | cons c t =>
      intro h
      rw [List.cons_append, List.cons_append, List.cons_prefix_cons] at h
      obtain ⟨rfl, h⟩ := h
      simp only [List.mem_cons, not_or] at hw ht hl
      refine ih ht.2 ?_ hw.2 h
      rcases hl with hl | hl
      · exact absurd hl hw.1
      · exact hl

theorem replace_at (w s r : List Char) :
    replaceFirst ('@' :: (w ++ ['@'])) s ('@' :: (w ++ ['@']) ++ r) = s ++ r := by
  rw [List.cons_append, replaceFirst, if_pos]
  · simp
  · rw [← List.cons_append, List.isPrefixOf_iff_prefix]
    exact List.prefix_append _ _

theorem replace_past (w u s t x : List Char) (hw : '@' ∉ w) (hw2 : '<' ∉ w) (hu : '@' ∉ u) (hne : w ≠ u)
    (ht : '@' ∉ t) (hl : '<' ∈ t) :
    replaceFirst ('@' :: (w ++ ['@'])) s ('@' :: (u ++ ['@']) ++ (t ++ x)) =
      '@' :: (u ++ ['@']) ++ replaceFirst ('@' :: (w ++ ['@'])) s (t ++ x) := by
  have h1 : '@' :: (u ++ ['@']) ++ (t ++ x) = '@' :: (u ++ '@' :: (t ++ x)) := by simp
  rw [h1, replaceFirst, if_neg, replaceFirst_skip _ _ _ _ hu, replaceFirst, if_neg]
  · simp
  · rw [List.isPrefixOf_iff_prefix, List.cons_prefix_cons]
    rintro ⟨_, hp⟩
    exact not_prefix_text ht hl hw2 hp
  · rw [List.isPrefixOf_iff_prefix, List.cons_prefix_cons]
    rintro ⟨_, hp⟩
    exact not_prefix_piece hw hu hne hp

/-- Holes of a template: each kind once, and the text after a hole has no `@` and some markup. -/
structure Holes (hs : List (List Char × List Char)) : Prop where
  once : (hs.map Prod.fst).Nodup
  kinds : ∀ h ∈ hs, '@' ∉ h.1 ∧ '<' ∉ h.1
  texts : ∀ h ∈ hs, '@' ∉ h.2 ∧ '<' ∈ h.2

theorem placeholder_eq (k : List Char) : placeholder k = '@' :: ((k ++ ['_', 'R', 'E', 'F', 'S']) ++ ['@']) := by
  simp [placeholder]

theorem hole_eq (k : List Char) : hole k = '@' :: ((k ++ ['_', 'R', 'E', 'F', 'S']) ++ ['@']) := by
  simp [hole]

theorem hole_inj {k k' : List Char} (h : k ++ ['_', 'R', 'E', 'F', 'S'] = k' ++ ['_', 'R', 'E', 'F', 'S']) : k = k' :=
  List.append_cancel_right h

theorem replace_hole (k s : List Char) (f : List Char → List Char) (hs : List (List Char × List Char))
    (hk : '@' ∉ k ∧ '<' ∉ k) (hf : ∀ h ∈ hs, f h.1 = hole h.1 ∨ '@' ∉ f h.1) (hfk : f k = hole k) :
    ∀ t, '@' ∉ t → Holes hs →
      replaceFirst (placeholder k) s (fillIn f t hs) = fillIn (Function.update f k s) t hs := by
  induction hs with
  | nil =>
    intro t ht _
    rw [placeholder_eq, fillIn, fillIn]
    have := replaceFirst_skip ((k ++ ['_', 'R', 'E', 'F', 'S']) ++ ['@']) s t [] ht
    simpa [replaceFirst] using this
  | cons h hs ih =>
    obtain ⟨k1, t1⟩ := h
    intro t ht hh
    have hh' : Holes hs := ⟨(List.nodup_cons.mp hh.once).2, fun h hm => hh.kinds h (by simp [hm]),
      fun h hm => hh.texts h (by simp [hm])⟩
    have ih := ih (fun h hm => hf h (by simp [hm]))
    have hk1 := hh.kinds (k1, t1) (by simp)
    have ht1 := hh.texts (k1, t1) (by simp)
    have hnot : ∀ (hs : List (List Char × List Char)) t, k ∉ hs.map Prod.fst →
        fillIn (Function.update f k s) t hs = fillIn f t hs := by
      intro hs
      induction hs with
      | nil => intro t _; rfl
      | cons h hs ih2 =>
        obtain ⟨k2, t2⟩ := h
        intro t hn
        simp only [List.map_cons, List.mem_cons, not_or] at hn
        rw [fillIn, fillIn, ih2 t2 hn.2, Function.update_of_ne (Ne.symm hn.1)]
    rw [fillIn, fillIn, List.append_assoc, List.append_assoc]
    by_cases he : k1 = k
    · subst he
      rw [Function.update_self, hfk, placeholder_eq, hole_eq, replaceFirst_skip _ _ _ _ ht,
        hnot hs t1 (List.nodup_cons.mp hh.once).1]
      congr 1
      exact replace_at _ _ _
    · rw [Function.update_of_ne he]
      rcases hf (k1, t1) (by simp) with hfk1 | hfk1
      · simp only at hfk1
        have hw : '@' ∉ k ++ ['_', 'R', 'E', 'F', 'S'] := by
          simp only [List.mem_append, not_or]
          exact ⟨hk.1, by decide⟩
        have hw2 : '<' ∉ k ++ ['_', 'R', 'E', 'F', 'S'] := by
          simp only [List.mem_append, not_or]
          exact ⟨hk.2, by decide⟩
        have hu : '@' ∉ k1 ++ ['_', 'R', 'E', 'F', 'S'] := by
          simp only [List.mem_append, not_or]
          exact ⟨hk1.1, by decide⟩
        rw [hfk1, ← ih t1 ht1.1 hh', placeholder_eq, hole_eq, replaceFirst_skip _ _ _ _ ht]
        congr 1
        have hfi : fillIn f t1 hs = t1 ++ fillIn f [] hs := by
          rw [← fillIn_append, List.append_nil]
        rw [hfi]
        exact replace_past _ _ _ _ _ hw hw2 hu (fun h => he (hole_inj h).symm) ht1.1 ht1.2
      · simp only at hfk1
        rw [placeholder_eq, replaceFirst_skip _ _ _ _ ht, replaceFirst_skip _ _ _ _ hfk1,
          ← placeholder_eq, ih t1 ht1.1 hh']

/-- The value under a key. -/
def get (m : List (List Char × List Char)) (k : List Char) : Option (List Char) :=
  (m.find? fun e => e.1 = k).map Prod.snd

theorem get_addKey (k s : List Char) (m : List (List Char × List Char)) (hk : ∀ e ∈ m, e.1 ≠ k)
    (k' : List Char) : get (addKey k s m) k' = if k' = k then some s else get m k' := by
  induction m with
  | nil =>
    by_cases h : k' = k
    · subst h; simp [addKey, get]
    · simp [addKey, get, h, Ne.symm h]
  | cons e m ih =>
    have ih := ih fun x hx => hk x (by simp [hx])
    unfold addKey
    split
    · by_cases h : k' = k
      · subst h; simp [get]
      · simp [get, h, Ne.symm h]
    · unfold get at ih ⊢
      by_cases he : e.1 = k'
      · have : k' ≠ k := by rw [← he]; exact hk e (by simp)
        rw [List.find?_cons_of_pos (by simpa using he), List.find?_cons_of_pos (by simpa using he),
          if_neg this]
      · rw [List.find?_cons_of_neg (by simpa using he), List.find?_cons_of_neg (by simpa using he), ih]

theorem keys_addKey (k s : List Char) (m : List (List Char × List Char)) :
    ((addKey k s m).map Prod.fst).Perm (k :: m.map Prod.fst) := by
  induction m with
  | nil => simp [addKey]
  | cons e m ih =>
    unfold addKey
    split
    · simp
    · simp only [List.map_cons]
      exact (List.Perm.cons _ ih).trans (List.Perm.swap _ _ _)

theorem append_spec (m : List (List Char × List Char)) (k s : List Char) (hn : (m.map Prod.fst).Nodup) :
    ((append m k s).map Prod.fst).Nodup ∧ ∀ k', get (append m k s) k' =
      if k' = k then some ((get m k).getD [] ++ s) else get m k' := by
  unfold append
  by_cases h : m.any (·.1 = k) = true
  · rw [if_pos h]
    have hfst : ∀ e : List Char × List Char, (if e.1 = k then (k, e.2 ++ s) else e).1 = e.1 := by
      intro e
      split
      · rename_i he; exact he.symm
      · rfl
    constructor
    · rw [List.map_map]
      have : (Prod.fst ∘ fun e : List Char × List Char => if e.1 = k then (k, e.2 ++ s) else e) =
          Prod.fst := by
        funext e
        exact hfst e
      rw [this]
      exact hn
    · intro k'
      unfold get
      rw [List.find?_map]
      have : ((fun e : List Char × List Char => decide (e.1 = k')) ∘
          fun e => if e.1 = k then (k, e.2 ++ s) else e) = fun e => decide (e.1 = k') := by
        funext e
        simp only [Function.comp_apply, hfst]
      rw [this]
      by_cases hk : k' = k
      · subst hk
        rw [if_pos rfl]
        simp only [List.any_eq_true, decide_eq_true_eq] at h
        cases hf : m.find? (fun e => e.1 = k') with
        | none =>
          rw [List.find?_eq_none] at hf
          obtain ⟨e, he, hek⟩ := h
          exact absurd (by simpa using hek) (hf e he)
        | some e =>
          have := List.find?_some hf
          simp only [decide_eq_true_eq] at this
          simp [this]
      · rw [if_neg hk]
        cases hf : m.find? (fun e => e.1 = k') with
        | none => rfl
        | some e =>
          have := List.find?_some hf
          simp only [decide_eq_true_eq] at this
          have hne : e.1 ≠ k := by rw [this]; exact hk
          simp [hne]
  · rw [if_neg h]
    have hno : ∀ e ∈ m, e.1 ≠ k := by
      intro e he hk
      apply h
      rw [List.any_eq_true]
      exact ⟨e, he, by simp [hk]⟩
    constructor
    · rw [(keys_addKey k s m).nodup_iff, List.nodup_cons]
      refine ⟨?_, hn⟩
      intro hm
      obtain ⟨e, he, hk⟩ := List.mem_map.mp hm
      exact hno e he hk
    · intro k'
      have hg : get m k = none := by
        unfold get
        rw [List.find?_eq_none.mpr]
        · rfl
        · intro e he
          simpa using hno e he
      rw [get_addKey k s m hno, hg]
      rfl

theorem elementText_eq (nick schema : List Char) : elementText nick schema = clause nick schema := by
  simp [elementText, clause]

theorem collect_spec (make : Spec → Except Fail (List Char × List Char))
    (made : List (Spec × List Char × List Char)) (hm : ∀ e ∈ made, make e.1 = .ok e.2) :
    ∀ m0, (m0.map Prod.fst).Nodup → ∃ m, collect make (made.map Prod.fst) m0 = .ok m ∧
      (m.map Prod.fst).Nodup ∧ ∀ k, get m k =
        if ∃ e ∈ made, e.2.1 = k then some ((get m0 k).getD [] ++ clauses made k) else get m0 k := by
  induction made with
  | nil =>
    intro m0 hn
    refine ⟨m0, rfl, hn, ?_⟩
    intro k
    rw [if_neg (by simp)]
  | cons e made ih =>
    obtain ⟨sp, kind, schema⟩ := e
    intro m0 hn
    have hme := hm (sp, kind, schema) (by simp)
    obtain ⟨h1, h2⟩ := append_spec m0 kind (elementText sp.nick schema) hn
    obtain ⟨m, hc, hnd, hg⟩ := ih (fun e he => hm e (by simp [he])) _ h1
    refine ⟨m, ?_, hnd, ?_⟩
    · rw [List.map_cons, collect]
      simp only [hme]
      exact hc
    · intro k
      rw [hg, h2]
      have hcl : clauses ((sp, kind, schema) :: made) k =
          (if kind = k then clause sp.nick schema else []) ++ clauses made k := by
        unfold clauses
        by_cases hk : kind = k
        · rw [List.filter_cons_of_pos (by simpa using hk), if_pos hk]
          rfl
        · rw [List.filter_cons_of_neg (by simpa using hk), if_neg hk]
          rfl
      rw [hcl, elementText_eq]
      have hnone : (¬ ∃ e ∈ made, e.2.1 = k) → clauses made k = [] := by
        intro hno
        unfold clauses
        rw [List.filter_eq_nil_iff.mpr]
        · rfl
        · intro e he
          simp only [decide_eq_true_eq]
          exact fun h => hno ⟨e, he, h⟩
      by_cases hk : k = kind
      · subst hk
        have hc : ∃ e ∈ (sp, k, schema) :: made, e.2.1 = k := ⟨(sp, k, schema), by simp, rfl⟩
        simp only [if_true, if_pos hc]
        by_cases hex : ∃ e ∈ made, e.2.1 = k
        · simp [if_pos hex]
        · rw [if_neg hex, hnone hex]
          simp
      · rw [if_neg hk, if_neg (Ne.symm hk), List.nil_append]
        have : (∃ e ∈ (sp, kind, schema) :: made, e.2.1 = k) ↔ ∃ e ∈ made, e.2.1 = k := by
          simp [Ne.symm hk]
        simp only [this]

theorem fillIn_congr (f g : List Char → List Char) (hs : List (List Char × List Char))
    (h : ∀ e ∈ hs, f e.1 = g e.1) : ∀ t, fillIn f t hs = fillIn g t hs := by
  induction hs with
  | nil => intro t; rfl
  | cons e hs ih =>
    obtain ⟨k, t'⟩ := e
    intro t
    rw [fillIn, fillIn, h (k, t') (by simp), ih fun x hx => h x (by simp [hx])]

theorem fold_replace (hs : List (List Char × List Char)) (hh : Holes hs) (t : List Char) (ht : '@' ∉ t)
    (m : List (List Char × List Char)) (hn : (m.map Prod.fst).Nodup)
    (hm : ∀ e ∈ m, '@' ∉ e.1 ∧ '<' ∉ e.1 ∧ '@' ∉ e.2) :
    ∀ f, (∀ h ∈ hs, f h.1 = hole h.1 ∨ '@' ∉ f h.1) → (∀ e ∈ m, f e.1 = hole e.1) →
      m.foldl (fun t e => replaceFirst (placeholder e.1) e.2 t) (fillIn f t hs) =
        fillIn (fun k => (get m k).getD (f k)) t hs := by
  induction m with
  | nil => intro f _ _; rfl
  | cons e m ih =>
    intro f hf hfm
    rw [List.map_cons, List.nodup_cons] at hn
    have he := hm e (by simp)
    rw [List.foldl_cons, replace_hole e.1 e.2 f hs ⟨he.1, he.2.1⟩ hf (hfm e (by simp)) t ht hh,
      ih hn.2 (fun x hx => hm x (by simp [hx]))]
    · apply fillIn_congr
      intro h _
      by_cases hk : h.1 = e.1
      · have : get m h.1 = none := by
          unfold get
          rw [List.find?_eq_none.mpr]
          · rfl
          · intro x hx
            simp only [decide_eq_true_eq]
            intro hxe
            exact hn.1 (List.mem_map.mpr ⟨x, hx, by rw [hxe, hk]⟩)
        rw [this, hk, Function.update_self]
        simp [get]
      · rw [Function.update_of_ne hk]
        simp only [get]
        rw [List.find?_cons_of_neg (by simpa using Ne.symm hk)]
    · intro h hx
      by_cases hk : h.1 = e.1
      · rw [hk, Function.update_self]
        exact Or.inr he.2.2
      · rw [Function.update_of_ne hk]
        exact hf h hx
    · intro x hx
      have : x.1 ≠ e.1 := by
        intro h
        exact hn.1 (List.mem_map.mpr ⟨x, hx, h⟩)
      rw [Function.update_of_ne this]
      exact hfm x (by simp [hx])

/-- The keys that `BuildMasterSchema` forces to exist. -/
def lowerKinds : List (List Char) := [['r', 'e', 'g', 'i', 'o', 'n'], ['i', 'n', 's', 't'], ['f', 'a', 'c', 'i', 'l', 'i', 't', 'y']]

theorem get_forced (k : List Char) : get forced k = if k ∈ lowerKinds then some [] else none := by
  have h0 : ((([] : List (List Char × List Char))).map Prod.fst).Nodup := by simp
  have h1 := append_spec [] ['r', 'e', 'g', 'i', 'o', 'n'] [] h0
  have h2 := append_spec _ ['i', 'n', 's', 't'] [] h1.1
  have h3 := append_spec _ ['f', 'a', 'c', 'i', 'l', 'i', 't', 'y'] [] h2.1
  unfold forced
  have e1 : ∀ k', get ([] : List (List Char × List Char)) k' = none := fun _ => rfl
  simp only [h3.2, h2.2, h1.2]
  simp only [e1, lowerKinds, List.mem_cons, List.not_mem_nil, or_false]
  by_cases a : k = ['f', 'a', 'c', 'i', 'l', 'i', 't', 'y']
  · subst a; decide
  · by_cases b : k = ['i', 'n', 's', 't']
    · subst b; decide
    · by_cases c : k = ['r', 'e', 'g', 'i', 'o', 'n']
      · subst c; decide
      · rw [if_neg a, if_neg b, if_neg c, if_neg]
        rintro (h | h | h)
        · exact c h
        · exact b h
        · exact a h

theorem forced_nodup : (forced.map Prod.fst).Nodup := by
  have h0 : ((([] : List (List Char × List Char))).map Prod.fst).Nodup := by simp
  have h1 := append_spec [] ['r', 'e', 'g', 'i', 'o', 'n'] [] h0
  have h2 := append_spec _ ['i', 'n', 's', 't'] [] h1.1
  have h3 := append_spec _ ['f', 'a', 'c', 'i', 'l', 'i', 't', 'y'] [] h2.1
  exact h3.1

/-- C99 (master schema).  For every template with holes, of which each kind has at most one, and all
archetypes whose kinds, aliases and schemas have no `@`: the hole of each kind that has archetypes is
filled with an element for each of them, in their order, named by the alias and with the schema of the
archetype inside; the holes of the kinds `region`, `inst` and `facility` in lower case are always
filled; all others stay. -/
theorem C99_schema (make : Spec → Except Fail (List Char × List Char))
    (made : List (Spec × List Char × List Char)) (hm : ∀ e ∈ made, make e.1 = .ok e.2)
    (hk : ∀ e ∈ made, '@' ∉ e.2.1 ∧ '<' ∉ e.2.1 ∧ '@' ∉ e.1.nick ∧ '@' ∉ e.2.2)
    (t : List Char) (ht : '@' ∉ t) (hs : List (List Char × List Char)) (hh : Holes hs) :
    masterSchema make (fillIn hole t hs) (made.map Prod.fst) = .ok (fillIn (fun k =>
      if (∃ e ∈ made, e.2.1 = k) ∨ k ∈ lowerKinds then clauses made k else hole k) t hs) := by
  obtain ⟨m, hc, hn, hg⟩ := collect_spec make made hm forced forced_nodup
  unfold masterSchema
  rw [hc]
  simp only [Except.ok.injEq]
  have hat : ∀ k, '@' ∉ clauses made k := by
    intro k h
    unfold clauses at h
    obtain ⟨e, he, h⟩ := List.mem_flatMap.mp h
    have := hk e (List.mem_filter.mp he).1
    unfold clause at h
    simp only [List.mem_append] at h
    rcases h with ((((h | h) | h) | h) | h)
    · revert h; decide
    · exact this.2.2.1 h
    · revert h; decide
    · exact this.2.2.2 h
    · revert h; decide
  have hget : ∀ k, get m k = if (∃ e ∈ made, e.2.1 = k) ∨ k ∈ lowerKinds then some (clauses made k)
      else none := by
    intro k
    rw [hg, get_forced]
    by_cases h1 : ∃ e ∈ made, e.2.1 = k
    · rw [if_pos h1, if_pos (Or.inl h1)]
      split <;> simp
    · rw [if_neg h1]
      by_cases h2 : k ∈ lowerKinds
      · rw [if_pos h2, if_pos (Or.inr h2)]
        have : clauses made k = [] := by
          unfold clauses
          rw [List.filter_eq_nil_iff.mpr]
          · rfl
          · intro e he
            simp only [decide_eq_true_eq]
            exact fun h => h1 ⟨e, he, h⟩
        rw [this]
      · rw [if_neg h2, if_neg (by simp [h2]; simpa using h1)]
  have hmem : ∀ e ∈ m, get m e.1 = some e.2 := by
    clear hc hg hget
    induction m with
    | nil => simp
    | cons x m ih =>
      rw [List.map_cons, List.nodup_cons] at hn
      intro e he
      rcases List.mem_cons.mp he with rfl | he
      · simp [get]
      · have hne : x.1 ≠ e.1 := by
          intro h
          exact hn.1 (List.mem_map.mpr ⟨e, he, h.symm⟩)
        have := ih hn.2 e he
        unfold get at this ⊢
        rw [List.find?_cons_of_neg (by simpa using hne)]
        exact this
  rw [fold_replace hs hh t ht m hn]
  · apply fillIn_congr
    intro e _
    simp only [hget]
    split <;> rfl
  · intro e he
    have h1 := hmem e he
    rw [hget] at h1
    split at h1
    · rename_i h
      injection h1 with h1
      rw [← h1]
      rcases h with ⟨x, hx, hxe⟩ | h
      · rw [← hxe]
        exact ⟨(hk x hx).1, (hk x hx).2.1, hat _⟩
      · refine ⟨?_, ?_, hat _⟩
        · intro ha
          simp only [lowerKinds, List.mem_cons, List.not_mem_nil, or_false] at h
          rcases h with h | h | h <;> (rw [h] at ha; revert ha; decide)
        · intro ha
          simp only [lowerKinds, List.mem_cons, List.not_mem_nil, or_false] at h
          rcases h with h | h | h <;> (rw [h] at ha; revert ha; decide)
    · simp at h1
  · intro h _
    exact Or.inl rfl
  · intro e _
    rfl

/-- A case of `C99_schema`: a template like that of the code. -/
example : Holes [(['F', 'a', 'c', 'i', 'l', 'i', 't', 'y'], ['<', '/', 'a', '>']), (['R', 'e', 'g', 'i', 'o', 'n'], ['<', 'b', '/', '>']),
    (['I', 'n', 's', 't'], ['<', '/', 'c', '>'])] := ⟨by decide, by decide, by decide⟩

/-- C99 (flat master schema).  For every template with one hole, and all archetypes: the hole is filled
with an element for each archetype.  An archetype that cannot be made makes both schemas fail with its
error. -/
theorem C99_flat (make : Spec → Except Fail (List Char × List Char))
    (made : List (Spec × List Char × List Char)) (hm : ∀ e ∈ made, make e.1 = .ok e.2)
    (t u : List Char) (ht : '@' ∉ t) (s : Spec) (rest : List Spec) (x : Fail) (hs : make s = .error x) :
    flatSchema make (t ++ ['@', 'M', 'O', 'D', 'E', 'L', '_', 'S', 'C', 'H', 'E', 'M', 'A', 'S', '@'] ++ u) (made.map Prod.fst) =
      .ok (t ++ (made.flatMap fun e => clause e.1.nick e.2.2) ++ u) ∧
    (flatSchema make t (made.map Prod.fst) = .ok t) ∧
    flatSchema make u (made.map Prod.fst ++ s :: rest) = .error x ∧
    masterSchema make u (made.map Prod.fst ++ s :: rest) = .error x := by
  have hc : ∀ t0, collectFlat make (made.map Prod.fst) t0 =
      .ok (t0 ++ made.flatMap fun e => clause e.1.nick e.2.2) := by
    induction made with
    | nil => intro t0; simp [collectFlat]
    | cons e made ih =>
      intro t0
      obtain ⟨sp, kind, schema⟩ := e
      rw [List.map_cons, collectFlat]
      simp only [hm (sp, kind, schema) (by simp)]
      rw [ih (fun e he => hm e (by simp [he])), elementText_eq]
      simp
  have hce : ∀ t0, collectFlat make (made.map Prod.fst ++ s :: rest) t0 = .error x := by
    clear hc
    induction made with
    | nil => intro t0; simp [collectFlat, hs]
    | cons e made ih =>
      intro t0
      obtain ⟨sp, kind, schema⟩ := e
      rw [List.map_cons, List.cons_append, collectFlat]
      simp only [hm (sp, kind, schema) (by simp)]
      exact ih (fun e he => hm e (by simp [he])) _
  have hme : ∀ t0, collect make (made.map Prod.fst ++ s :: rest) t0 = .error x := by
    clear hc hce
    induction made with
    | nil => intro t0; simp [collect, hs]
    | cons e made ih =>
      intro t0
      obtain ⟨sp, kind, schema⟩ := e
      rw [List.map_cons, List.cons_append, collect]
      simp only [hm (sp, kind, schema) (by simp)]
      exact ih (fun e he => hm e (by simp [he])) _
  refine ⟨?_, ?_, ?_, ?_⟩
  · unfold flatSchema flatPlaceholder
    rw [hc, List.nil_append]
    simp only [Except.ok.injEq]
    rw [List.append_assoc, replaceFirst_skip _ _ _ _ ht, List.append_assoc]
    congr 1
  · unfold flatSchema flatPlaceholder
    rw [hc]
    simp only [Except.ok.injEq]
    have := replaceFirst_skip ['M', 'O', 'D', 'E', 'L', '_', 'S', 'C', 'H', 'E', 'M', 'A', 'S', '@']
      ([] ++ made.flatMap fun e => clause e.1.nick e.2.2) t [] ht
    simpa [replaceFirst] using this
  · unfold flatSchema
    rw [hce]
  · unfold masterSchema
    rw [hme]

/-- A case of `C99_flat`: no `@` in the text before the hole. -/
example : '@' ∉ ['<', 'c', 'h', 'o', 'i', 'c', 'e', '>'] := by decide

/-- C99 (loading).  Without a format the file is read, `IOError` if there is none, and converted
according to its extension; with a format the text itself is the input, converted according to the
format.  The master schema is made from the text of the schema file and the archetypes of the parsed
input. -/
theorem C99_load (w : World) (make : Spec → Except Fail (List Char × List Char))
    (f schema format text template : List Char) (root : Node) :
    (w.file f = none → w.load f ['n', 'o', 'n', 'e'] = .error (.err .io)) ∧
    (∀ s, w.file f = some s → w.load f ['n', 'o', 'n', 'e'] =
      if w.extension f = ['.', 'j', 's', 'o', 'n'] then w.json s
      else if w.extension f = ['.', 'p', 'y'] then w.py s else .ok s) ∧
    (format ≠ ['n', 'o', 'n', 'e'] → w.load f format =
      if format = ['j', 's', 'o', 'n'] then w.json f else if format = ['p', 'y'] then w.py f else .ok f) ∧
    (w.load f format = .ok text → w.parse text = .ok root → w.parseSpecs f format = parseSpecs root) ∧
    (w.load schema ['n', 'o', 'n', 'e'] = .ok template → w.load f format = .ok text →
      w.parse text = .ok root → ∀ specs, parseSpecs root = .ok specs →
      w.masterSchema make schema f format = masterSchema make template specs ∧
      (format = ['n', 'o', 'n', 'e'] → w.flatSchema make schema f format = flatSchema make template specs)) := by
  refine ⟨?_, ?_, ?_, ?_, ?_⟩
  · intro h
    simp [World.load, wNone, World.raw, h]
  · intro s h
    have h1 : ¬ ['n', 'o', 'n', 'e'] = ['j', 's', 'o', 'n'] := by decide
    have h2 : ¬ ['n', 'o', 'n', 'e'] = ['p', 'y'] := by decide
    simp only [World.load, wNone, World.raw, h, World.convert, wJson, wPy, if_true, h1, h2, or_false]
  · intro h
    have h1 : ¬ ([] : List Char) = ['.', 'j', 's', 'o', 'n'] := by decide
    have h2 : ¬ ([] : List Char) = ['.', 'p', 'y'] := by decide
    simp only [World.load, wNone, h, if_false, World.convert, wJson, wPy, h1, h2, false_or]
  · intro h1 h2
    simp only [World.parseSpecs, h1, h2]
  · intro h1 h2 h3 specs h4
    constructor
    · unfold World.masterSchema World.parseSpecs
      rw [wNone, h1]
      simp only [h2, h3, h4]
    · rintro rfl
      unfold World.flatSchema World.parseSpecs
      rw [wNone, h1]
      simp only [h2, h3, h4]

/-- A case of `C99_load`: the format `xml` takes the text as it is. -/
example (w : World) (f : List Char) : w.load f ['x', 'm', 'l'] = .ok f :=
  (C99_load w (fun _ => .error .range) f [] ['x', 'm', 'l'] [] [] (.text [])).2.2.1 (by decide)

/-! ## Disagreements -/

/-- C99 disagreement: an archetype listed a second time under another alias is dropped with its alias,
which then stands for an empty specification. -/
theorem C99_fails_twice :
    ∃ r, parseSpecs (document [specElement [(['n', 'a', 'm', 'e'], ['S']), (['a', 'l', 'i', 'a', 's'], ['a'])],
      specElement [(['n', 'a', 'm', 'e'], ['S']), (['a', 'l', 'i', 'a', 's'], ['b'])]]) = .ok r ∧
      r = [⟨[], ['S'], ['S'], ['a']⟩] ∧ lookup (loadSpecs r) ['b'] = ⟨[], [], [], []⟩ :=
  ⟨_, rfl, by decide +kernel, by decide +kernel⟩

/-- A case of `C99_fails_twice`: alone the second is found. -/
example : ∃ r, parseSpecs (document [specElement [(['n', 'a', 'm', 'e'], ['S']), (['a', 'l', 'i', 'a', 's'], ['b'])]]) = .ok r ∧
    lookup (loadSpecs r) ['b'] = ⟨[], ['S'], ['S'], ['b']⟩ := ⟨_, rfl, by decide +kernel⟩

/-- C99 disagreement: two archetypes with the same alias are not refused; the schema admits both, but
only the last can be used. -/
theorem C99_fails_alias :
    ∃ r, parseSpecs (document [specElement [(['n', 'a', 'm', 'e'], ['S']), (['a', 'l', 'i', 'a', 's'], ['a'])],
      specElement [(['n', 'a', 'm', 'e'], ['T']), (['a', 'l', 'i', 'a', 's'], ['a'])]]) = .ok r ∧ r.length = 2 ∧
      lookup (loadSpecs r) ['a'] = ⟨[], ['T'], ['T'], ['a']⟩ :=
  ⟨_, rfl, by decide +kernel, by decide +kernel⟩

/-- A case of `C99_fails_alias`: both are in the schema. -/
example : clauses [(⟨[], ['S'], ['S'], ['a']⟩, ['F'], ['1']), (⟨[], ['T'], ['T'], ['a']⟩, ['F'], ['2'])]
    ['F'] = clause ['a'] ['1'] ++ clause ['a'] ['2'] := by decide +kernel

/-- C99 disagreement: the hole of a kind without archetypes is not filled, although the code forces the
kinds to exist; they are forced in lower case, and the kinds begin with upper case. -/
theorem C99_fails_absent (make : Spec → Except Fail (List Char × List Char)) (s : Spec) (x : List Char)
    (hm : make s = .ok (['F', 'a', 'c', 'i', 'l', 'i', 't', 'y'], x)) (hx : '@' ∉ x) (hn : '@' ∉ s.nick) :
    masterSchema make (hole ['R', 'e', 'g', 'i', 'o', 'n'] ++ ['<', '/', 'a', '>']) [s] =
      .ok (hole ['R', 'e', 'g', 'i', 'o', 'n'] ++ ['<', '/', 'a', '>']) := by
  have h := C99_schema make [(s, ['F', 'a', 'c', 'i', 'l', 'i', 't', 'y'], x)] (by simpa using hm)
    (by simp [hx, hn]) [] (by simp) [(['R', 'e', 'g', 'i', 'o', 'n'], ['<', '/', 'a', '>'])]
    ⟨by simp, by decide, by decide⟩
  have hif : ¬ ((∃ e ∈ [(s, ['F', 'a', 'c', 'i', 'l', 'i', 't', 'y'], x)], e.2.1 = ['R', 'e', 'g', 'i', 'o', 'n']) ∨ ['R', 'e', 'g', 'i', 'o', 'n'] ∈ lowerKinds) := by
    rintro (h | h)
    · simp at h
    · revert h; decide
  simp only [fillIn, List.nil_append, if_neg hif, List.map_cons, List.map_nil] at h
  exact h

/-- A case of `C99_fails_absent`: the hole is not empty. -/
example : hole ['R', 'e', 'g', 'i', 'o', 'n'] ≠ [] := by decide

/-- C99 disagreement: the flat loader does not pass on the format, so an input that is given as text,
in whatever format, is taken for the name of a file. -/
theorem C99_fails_format (w : World) (make : Spec → Except Fail (List Char × List Char))
    (schema f format template : List Char) (hs : w.load schema ['n', 'o', 'n', 'e'] = .ok template)
    (hf : w.file f = none) : w.flatSchema make schema f format = .error (.err .io) := by
  unfold World.flatSchema World.parseSpecs
  rw [wNone, hs]
  simp only [World.load, wNone, World.raw, hf, if_true]

/-- A case of `C99_fails_format`: a world in which only the schema is a file. -/
example : ∃ w : World, w.load ['s'] ['n', 'o', 'n', 'e'] = .ok [] ∧ w.file ['<', 'a', '/', '>'] = none :=
  ⟨⟨fun f => if f = ['s'] then some [] else none, fun _ => [], .ok, .ok, fun _ => .ok (.text [])⟩,
    by decide +kernel, by decide⟩

end Cyclus.Schema
