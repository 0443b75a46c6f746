import Verif.Model.Discovery
import Mathlib.Data.List.TakeWhile
import Mathlib.Tactic.Common

/-!
# Properties C83, C84: discovery of archetypes and the search path
-/

namespace Cyclus.Discovery

/-! ### Specification -/

/-- A letter, digit or underscore. -/
def WordChar (c : Char) : Prop := c.isAlphanum = true ∨ c = '_'

/-- `w` occurs in `s` as a whole word: between characters that are not part of words, or the ends. -/
def WholeWord (w s : List Char) : Prop :=
  ∃ a b, s = a ++ w ++ b ∧ (∀ c ∈ w, WordChar c) ∧
    (∀ c, a.getLast? = some c → ¬ WordChar c) ∧ (∀ c, b.head? = some c → ¬ WordChar c)

/-- The word that names of constructors begin with. -/
def mark : List Char := ['C', 'o', 'n', 's', 't', 'r', 'u', 'c', 't']

/-- The archetypes named in a text: what follows `Construct` in a whole word. -/
def IsArchetype (n s : List Char) : Prop := n ≠ [] ∧ WholeWord (mark ++ n) s

/-! ### C83 -/

theorem isWord_iff (c : Char) : isWord c = true ↔ WordChar c := by simp [isWord, WordChar]

/-- What `scan` looks for after a character: `Construct` and a name, delimited on both sides; the
name may be empty only at the end of the text. -/
def Occurs (prev : Char) (n l : List Char) : Prop :=
  ∃ a b, l = a ++ (construct ++ n ++ b) ∧ (∀ c ∈ n, isWord c = true) ∧
    (isWord ((prev :: a).getLast (by simp)) = false) ∧
    (∀ c, b.head? = some c → isWord c = false) ∧ (n = [] → b = [])

theorem getLast_cons_cons (prev c : Char) (a : List Char) :
    (prev :: c :: a).getLast (by simp) = (c :: a).getLast (by simp) := by
  simp [List.getLast_cons]

theorem occurs_cons_iff {prev c : Char} {n cs : List Char}
    (h : ¬ (isWord prev = false ∧ ∃ b, c :: cs = construct ++ n ++ b ∧ (∀ x ∈ n, isWord x = true) ∧
      (∀ x, b.head? = some x → isWord x = false) ∧ (n = [] → b = []))) :
    Occurs prev n (c :: cs) ↔ Occurs c n cs := by
  constructor
  · rintro ⟨a, b, e, h1, h2, h3, h4⟩
    cases a with
    | nil => exact absurd ⟨h2, b, e, h1, h3, h4⟩ h
    | cons x a =>
      simp only [List.cons_append, List.cons.injEq] at e
      obtain ⟨rfl, e⟩ := e
      exact ⟨a, b, e, h1, by rw [← getLast_cons_cons prev]; exact h2, h3, h4⟩
  · rintro ⟨a, b, e, h1, h2, h3, h4⟩
    exact ⟨c :: a, b, by rw [e]; rfl, h1, by rw [getLast_cons_cons]; exact h2, h3, h4⟩

theorem takeWhile_unique {n b : List Char} (h1 : ∀ c ∈ n, isWord c = true)
    (h3 : ∀ c, b.head? = some c → isWord c = false) : (n ++ b).takeWhile isWord = n := by
  induction n with
  | nil =>
    cases b with
    | nil => rfl
    | cons x b => simp [h3 x rfl]
  | cons x n ih =>
    have := ih fun c hc => h1 c (by simp [hc])
    simp [h1 x (by simp), this]

theorem construct_word : ∀ c ∈ construct, isWord c = true := by decide

theorem scan_mem (l : List Char) : ∀ (k : ℕ) (prev : Char) (n : List Char),
    (∀ c ∈ l.take k, isWord c = true) → (0 < k → isWord prev = true) →
    (n ∈ scan k prev l ↔ Occurs prev n l) := by
  induction l with
  | nil =>
    intro k prev n _ _
    simp only [scan, List.not_mem_nil, false_iff]
    rintro ⟨a, b, e, -⟩
    have := congrArg List.length e
    simp [construct] at this
  | cons c cs ih =>
    intro k prev n hk hp
    cases k with
    | succ k =>
      have hpw := hp (Nat.succ_pos k)
      have hc : isWord c = true := hk c (by simp)
      simp only [scan]
      rw [ih k c n (fun x hx => hk x (by simp [hx])) fun _ => hc]
      exact (occurs_cons_iff fun h => by rw [hpw] at h; simp at h).symm
    | zero =>
      by_cases hpre : construct.isPrefixOf (c :: cs) = true
      · obtain ⟨t, ht⟩ := List.isPrefixOf_iff_prefix.1 hpre
        have hdrop : (c :: cs).drop construct.length = t := by rw [← ht]; simp
        have hcw : isWord c = true := by
          have : c = 'C' := by
            simp only [construct] at ht
            have := congrArg List.head? ht
            simpa using this.symm
          subst this
          rfl
        have hcs : cs = construct.tail ++ t := by
          have := congrArg List.tail ht
          simpa [construct] using this.symm
        have hclen : construct.length - 1 = construct.tail.length := by decide
        simp only [scan, hpre, if_true, hdrop]
        by_cases hcond : (isWord prev || ((t.takeWhile isWord).isEmpty && !t.isEmpty)) = true
        · rw [if_pos hcond]
          rw [ih _ c n ?_ fun _ => hcw]
          · refine (occurs_cons_iff ?_).symm
            rintro ⟨h2, b, e, h1, h3, h4⟩
            have et : t = n ++ b := by
              rw [← ht] at e
              rw [List.append_assoc] at e
              exact List.append_cancel_left e
            rw [h2] at hcond
            simp only [Bool.false_or, Bool.and_eq_true, List.isEmpty_iff, Bool.not_eq_true'] at hcond
            rw [et, takeWhile_unique h1 h3] at hcond
            have hn := hcond.1
            have := h4 hn
            rw [hn, this] at hcond
            simp at hcond
          · intro x hx
            rw [hcs, hclen] at hx
            simp only [List.take_left'] at hx
            exact construct_word x (List.mem_of_mem_tail hx)
        · rw [if_neg hcond]
          simp only [Bool.or_eq_true, Bool.and_eq_true, List.isEmpty_iff, Bool.not_eq_true',
            not_or, Bool.not_eq_true] at hcond
          obtain ⟨hpw, hemp⟩ := hcond
          have hrest : n ∈ scan (construct.length - 1 + (t.takeWhile isWord).length) c cs
              ↔ Occurs c n cs := by
            refine ih _ c n ?_ fun _ => hcw
            intro x hx
            rw [hcs, hclen, List.take_append] at hx
            simp only [List.mem_append] at hx
            rcases hx with hx | hx
            · exact construct_word x (List.mem_of_mem_tail (List.mem_of_mem_take hx))
            · rw [Nat.add_sub_cancel_left] at hx
              have hp : t.takeWhile isWord <+: t := List.takeWhile_prefix _
              rw [← List.prefix_iff_eq_take.1 hp] at hx
              exact List.mem_takeWhile_imp hx
          rw [List.mem_cons, hrest]
          have htw : t = t.takeWhile isWord ++ t.dropWhile isWord :=
            (List.takeWhile_append_dropWhile ..).symm
          constructor
          · rintro (rfl | ⟨a, b, e, h1, h2, h3, h4⟩)
            · refine ⟨[], t.dropWhile isWord, ?_, ?_, ?_, ?_, ?_⟩
              · rw [List.nil_append, List.append_assoc, ← htw, ht]
              · exact fun x hx => List.mem_takeWhile_imp hx
              · simpa using hpw
              · intro x hx
                have := List.head?_dropWhile_not isWord t
                rw [hx] at this
                simpa using this
              · intro hw
                have hte : t = [] := by
                  by_contra hne
                  exact hemp ⟨hw, by simpa using hne⟩
                rw [hte]; rfl
            · exact ⟨c :: a, b, by rw [e]; rfl, h1, by rw [getLast_cons_cons]; exact h2, h3, h4⟩
          · rintro ⟨a, b, e, h1, h2, h3, h4⟩
            cases a with
            | nil =>
              left
              have et : t = n ++ b := by
                rw [← ht, List.nil_append, List.append_assoc] at e
                exact List.append_cancel_left e
              rw [et, takeWhile_unique h1 h3]
            | cons x a =>
              right
              simp only [List.cons_append, List.cons.injEq] at e
              obtain ⟨rfl, e⟩ := e
              exact ⟨a, b, e, h1, by rw [← getLast_cons_cons prev]; exact h2, h3, h4⟩
      · have hscan : scan 0 prev (c :: cs) = scan 0 c cs := by
          simp only [scan]
          rw [if_neg hpre]
        rw [hscan, ih 0 c n (by simp) (by simp)]
        refine (occurs_cons_iff ?_).symm
        rintro ⟨-, b, e, -⟩
        refine hpre (List.isPrefixOf_iff_prefix.2 ⟨n ++ b, ?_⟩)
        rw [e, List.append_assoc]

/-- **C83 (partial).**  The names found in a text that does not begin with `Construct` are exactly the
archetypes named in it by whole words, apart from an empty name if the text ends in the word
`Construct`.  Missing: that last name (`C83_fails_end`) and texts that begin with the word
(`C83_fails_begin`). -/
theorem C83_names_partial {s : List Char} (h : ¬ mark <+: s) :
    ∃ l, discover s = some l ∧ (∀ n, n ≠ [] → (n ∈ l ↔ IsArchetype n s)) ∧
      ([] ∈ l → ∃ a, s = a ++ mark) := by
  cases s with
  | nil =>
    refine ⟨[], rfl, fun n hn => ?_, by simp⟩
    simp only [List.not_mem_nil, false_iff]
    rintro ⟨-, a, b, e, -⟩
    have := congrArg List.length e
    simp [mark] at this
  | cons c cs =>
    have hpre : ¬ construct.isPrefixOf (c :: cs) = true := fun hc =>
      h (List.isPrefixOf_iff_prefix.1 hc)
    refine ⟨scan 0 c cs, by rw [discover, if_neg hpre], fun n hn => ?_, fun h0 => ?_⟩
    · rw [scan_mem cs 0 c n (by simp) (by simp)]
      constructor
      · rintro ⟨a, b, e, h1, h2, h3, -⟩
        refine ⟨hn, c :: a, b, ?_, ?_, ?_, ?_⟩
        · rw [e]; simp [construct, mark]
        · intro x hx
          rcases List.mem_append.1 hx with hx | hx
          · exact (isWord_iff x).1 (construct_word x hx)
          · exact (isWord_iff x).1 (h1 x hx)
        · intro x hx hw
          rw [List.getLast?_eq_some_getLast (by simp), Option.some.injEq] at hx
          rw [hx, (isWord_iff x).2 hw] at h2
          simp at h2
        · intro x hx hw
          have := h3 x hx
          rw [(isWord_iff x).2 hw] at this
          simp at this
      · rintro ⟨-, a, b, e, h1, h2, h3⟩
        cases a with
        | nil =>
          exfalso
          refine h ⟨n ++ b, ?_⟩
          rw [e]; simp
        | cons x a =>
          simp only [List.cons_append, List.cons.injEq] at e
          obtain ⟨rfl, e⟩ := e
          refine ⟨a, b, by rw [e]; simp [construct, mark], fun x hx => (isWord_iff x).2 (h1 x (by simp [hx])),
            ?_, ?_, fun h0 => absurd h0 hn⟩
          · have := h2 _ (List.getLast?_eq_some_getLast (by simp))
            rw [← isWord_iff] at this
            simpa using this
          · intro y hy
            have := h3 y hy
            rw [← isWord_iff] at this
            simpa using this
    · rw [scan_mem cs 0 c [] (by simp) (by simp)] at h0
      obtain ⟨a, b, e, -, -, -, h4⟩ := h0
      rw [h4 rfl] at e
      exact ⟨c :: a, by rw [e]; simp [construct, mark]⟩

example : discover "x ConstructReactor(yConstructA, ConstructConstructB) ".toList
    = some ["Reactor".toList, "ConstructB".toList] := by decide +kernel

example : ¬ mark <+: "a ConstructSink".toList := by decide

/-- The code contradicts C83: a text that ends in the word `Construct` yields an archetype without a
name. -/
theorem C83_fails_end : discover " Construct".toList = some [[]] := by decide +kernel

/-- The code contradicts C83: for a text that begins with `Construct` it reads the character before the
first one. -/
theorem C83_fails_begin (t : List Char) : discover (mark ++ t) = none := by
  have h : construct.isPrefixOf (mark ++ t) = true :=
    List.isPrefixOf_iff_prefix.2 (List.prefix_append mark t)
  change (if construct.isPrefixOf (mark ++ t) then none
    else some (scan 0 'C' (mark.tail ++ t))) = none
  rw [if_pos h]

mutual
/-- All files in an entry of a directory tree, as the documentation promises to search them. -/
def Entry.files : Entry → List (List Char)
  | .file n => [n]
  | .dir _ es => filesOf es
/-- All files in a list of entries. -/
def filesOf : List Entry → List (List Char)
  | [] => []
  | e :: es => e.files ++ filesOf es
end

/-- **C83 (partial).**  `DiscoverSpecsInDir` looks at exactly the libraries that are files of the
directory itself.  Missing: those in directories below it (`C83_fails_recursive`). -/
theorem C83_files_partial (suffix : List Char) (es : List Entry) (n : List Char) :
    n ∈ visited suffix es ↔ Entry.file n ∈ es ∧ suffix <:+ n := by
  induction es with
  | nil => simp [visited]
  | cons e es ih =>
    cases e with
    | file m =>
      simp only [visited]
      by_cases hs : suffix.isSuffixOf m = true
      · rw [if_pos hs, List.mem_cons, ih]
        have hs' := List.isSuffixOf_iff_suffix.1 hs
        constructor
        · rintro (rfl | ⟨h1, h2⟩)
          · exact ⟨by simp, hs'⟩
          · exact ⟨by simp [h1], h2⟩
        · rintro ⟨h1, h2⟩
          rcases List.mem_cons.1 h1 with h1 | h1
          · cases h1; exact Or.inl rfl
          · exact Or.inr ⟨h1, h2⟩
      · rw [if_neg hs, ih]
        constructor
        · rintro ⟨h1, h2⟩; exact ⟨by simp [h1], h2⟩
        · rintro ⟨h1, h2⟩
          rcases List.mem_cons.1 h1 with h1 | h1
          · cases h1
            exact absurd (List.isSuffixOf_iff_suffix.2 h2) hs
          · exact ⟨h1, h2⟩
    | dir d es' => simp [visited, ih]

/-- The code contradicts C83: the documentation promises a recursive search, but libraries in
directories below the given one are never looked at. -/
theorem C83_fails_recursive : ∃ (es : List Entry) (n : List Char), n ∈ filesOf es ∧
    ".so".toList <:+ n ∧ n ∉ visited ".so".toList es :=
  ⟨[.dir "cycamore".toList [.file "libcycamore.so".toList]], "libcycamore.so".toList,
    by simp [filesOf, Entry.files], by decide, by simp [visited]⟩

example : visited ".so".toList [.file "libagents.so".toList, .file "README".toList]
    = ["libagents.so".toList] := by decide +kernel

/-! ### C84 -/

/-- **C84.**  The directories of `CYCLUS_PATH` are the parts of its value between the delimiters: none
contains one, and joined by them they give the value. -/
theorem C84_split (d : Char) (s : List Char) :
    (∀ p ∈ split d s, d ∉ p) ∧ List.intercalate [d] (split d s) = s ∧ split d s ≠ [] := by
  induction s with
  | nil => simp [split, List.intercalate]
  | cons c cs ih =>
    obtain ⟨h1, h2, h3⟩ := ih
    simp only [split]
    by_cases hc : c = d
    · rw [if_pos hc]
      refine ⟨?_, ?_, by simp⟩
      · intro p hp
        rcases List.mem_cons.1 hp with rfl | hp
        · simp
        · exact h1 p hp
      · obtain ⟨p, ps, hps⟩ := List.exists_cons_of_ne_nil h3
        rw [hps] at h2 ⊢
        simp only [List.intercalate, List.intersperse] at h2 ⊢
        simp [hc, h2]
    · rw [if_neg hc]
      obtain ⟨p, ps, hps⟩ := List.exists_cons_of_ne_nil h3
      rw [hps] at h1 h2 ⊢
      refine ⟨?_, ?_, by simp⟩
      · intro q hq
        rcases List.mem_cons.1 hq with rfl | hq
        · simp only [List.mem_cons, not_or]
          exact ⟨Ne.symm hc, h1 p (by simp)⟩
        · exact h1 q (by simp [hq])
      · cases ps with
        | nil => simp [List.intercalate] at h2 ⊢; rw [h2]
        | cons q qs =>
          simp only [List.intercalate, List.intersperse, List.flatten_cons] at h2 ⊢
          rw [List.cons_append, h2]

theorem findIn_spec {ex : List Char → Bool} {join : List Char → List Char → List Char}
    {path : List Char} (dirs : List (List Char)) :
    (∀ p, findIn ex join path dirs = some p → ∃ a d b, dirs = a ++ d :: b ∧ p = join d path ∧
      ex p = true ∧ ∀ d' ∈ a, ex (join d' path) = false) ∧
    (findIn ex join path dirs = none ↔ ∀ d ∈ dirs, ex (join d path) = false) := by
  induction dirs with
  | nil => simp [findIn]
  | cons d ds ih =>
    obtain ⟨i1, i2⟩ := ih
    simp only [findIn]
    by_cases h : ex (join d path) = true
    · rw [if_pos h]
      refine ⟨fun p hp => ?_, ?_⟩
      · simp only [Option.some.injEq] at hp
        subst hp
        exact ⟨[], d, ds, rfl, rfl, h, by simp⟩
      · simp [h]
    · rw [if_neg h]
      refine ⟨fun p hp => ?_, ?_⟩
      · obtain ⟨a, x, b, e, h1, h2, h3⟩ := i1 p hp
        refine ⟨d :: a, x, b, by rw [e]; rfl, h1, h2, ?_⟩
        intro d' hd'
        rcases List.mem_cons.1 hd' with rfl | hd'
        · simpa using h
        · exact h3 d' hd'
      · rw [i2]
        simp [h]

/-- **C84.**  A module is looked for in the directories of `CYCLUS_PATH` in their order, then in the
install path, then in the build path, and the first that exists is taken; if none exists a Python
module of the given name is taken, and otherwise an `IOError` is thrown. -/
theorem C84_module (ex : List Char → Bool) (join : List Char → List Char → List Char)
    (py : List Char → List Char) (env inst build path lib : List Char) :
    let dirs := split ':' env ++ [inst ++ "/lib/cyclus".toList, build ++ "/lib/cyclus".toList]
    let r := findModule ex join py (cyclusPath env inst build) path lib
    (∀ a d b, dirs = a ++ d :: b → ex (join d path) = true →
      (∀ d' ∈ a, ex (join d' path) = false) → r = .ok (join d path)) ∧
    ((∀ d ∈ dirs, ex (join d path) = false) →
      (lib ≠ [] → py lib ≠ [] → r = .ok (py lib)) ∧
      (lib = [] ∨ py lib = [] → r = .error .io)) := by
  intro dirs r
  have hr : r = findModule ex join py dirs path lib := rfl
  obtain ⟨f1, f2⟩ := findIn_spec (ex := ex) (join := join) (path := path) dirs
  refine ⟨fun a d b e h1 h2 => ?_, fun h => ?_⟩
  · rw [hr, findModule]
    cases hf : findIn ex join path dirs with
    | none =>
      have := f2.1 hf d (by rw [e]; simp)
      rw [h1] at this
      simp at this
    | some p =>
      obtain ⟨a', d', b', e', g1, g2, g3⟩ := f1 p hf
      have hlen : a.length = a'.length := by
        rcases Nat.lt_trichotomy a.length a'.length with hl | hl | hl
        · exfalso
          have : d ∈ a' := by
            have h5 := congrArg (fun l => l[a.length]?) (e.symm.trans e')
            simp only [List.getElem?_append_right (Nat.le_refl _), Nat.sub_self,
              List.getElem?_cons_zero, List.getElem?_append_left hl] at h5
            exact List.mem_of_getElem? h5.symm
          rw [g3 d this] at h1
          simp at h1
        · exact hl
        · exfalso
          have : d' ∈ a := by
            have h5 := congrArg (fun l => l[a'.length]?) (e'.symm.trans e)
            simp only [List.getElem?_append_right (Nat.le_refl _), Nat.sub_self,
              List.getElem?_cons_zero, List.getElem?_append_left hl] at h5
            exact List.mem_of_getElem? h5.symm
          have h6 := h2 d' this
          rw [← g1, g2] at h6
          simp at h6
      have hcons := (List.append_inj (e.symm.trans e') hlen).2
      simp only [List.cons.injEq] at hcons
      simp only
      rw [g1, hcons.1]
  · have hnone := f2.2 h
    refine ⟨fun h1 h2 => ?_, fun h1 => ?_⟩
    · rw [hr, findModule, hnone]
      simp [h1, h2]
    · rw [hr, findModule, hnone]
      rcases h1 with h1 | h1 <;> simp [h1]

/-- **C84.**  A data file is the one that the environment variable names if it exists, else the one in
the install path, else the one in the build path; an `IOError` is thrown if and only if none exists. -/
theorem C84_data (ex : List Char → Bool) (env inst build name : List Char) (he : ex [] = false) :
    let i := inst ++ "/share/cyclus/".toList ++ name
    let b := build ++ "/share/cyclus/".toList ++ name
    (ex env = true → dataFile ex env inst build name = .ok env) ∧
    (ex env = false → ex i = true → dataFile ex env inst build name = .ok i) ∧
    (ex env = false → ex i = false → ex b = true → dataFile ex env inst build name = .ok b) ∧
    (dataFile ex env inst build name = .error .io ↔ ex env = false ∧ ex i = false ∧ ex b = false) := by
  intro i b
  have hne : ex env = true → env ≠ [] := by
    rintro h rfl
    rw [he] at h
    simp at h
  unfold dataFile
  refine ⟨fun h => by rw [if_pos ⟨hne h, h⟩], fun h1 h2 => ?_, fun h1 h2 h3 => ?_, ?_⟩
  · rw [if_neg (by simp [h1]), if_pos h2]
  · rw [if_neg (by simp [h1]), if_neg (by simpa [i] using h2), if_pos h3]
  · by_cases h1 : ex env = true
    · rw [if_pos ⟨hne h1, h1⟩]
      simp [h1]
    · rw [if_neg (by simp [h1])]
      by_cases h2 : ex i = true
      · rw [if_pos h2]; simp [h2]
      · rw [if_neg h2]
        by_cases h3 : ex b = true
        · rw [if_pos h3]; simp [h3]
        · rw [if_neg h3]; simp [h1, h2, h3]

/-- Paths joined by a slash, for an example. -/
def slash (a b : List Char) : List Char := a ++ '/' :: b

example : cyclusPath "/a:/b".toList "/i".toList "/w".toList
    = ["/a".toList, "/b".toList, "/i/lib/cyclus".toList, "/w/lib/cyclus".toList] := by
  decide +kernel

example : findModule (fun p => p == "/b/lib.so".toList || p == "/i/lib/cyclus/lib.so".toList) slash
    (fun _ => []) (cyclusPath "/a:/b".toList "/i".toList "/w".toList) "lib.so".toList []
    = .ok "/b/lib.so".toList := by decide +kernel

/-- If `CYCLUS_PATH` is not set it still contributes one directory, the empty one, which is searched
first. -/
theorem C84_unset (inst build : List Char) : cyclusPath [] inst build
    = [[], inst ++ "/lib/cyclus".toList, build ++ "/lib/cyclus".toList] := rfl

end Cyclus.Discovery
