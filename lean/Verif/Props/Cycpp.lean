import Verif.Lemmas.Cycpp
import Mathlib.Logic.Relation
import Mathlib.Data.Fintype.Card
import Mathlib.Order.WellFounded
import Mathlib.Data.Finset.Basic
import Mathlib.Order.RelClasses
import Mathlib.Data.Set.Finite.Basic
import Mathlib.Order.Preorder.Finite

/-! C40, C41, C42 and C44: the type, shape, UUID and class helpers of the preprocessor. -/

namespace Cyclus.Cycpp

/-! ## C40: types and text -/

/-- The strings `type_to_str` accepts as they are. -/
def leafName (s : Str) : Prop :=
  s ∈ primNames ∨ s ∈ [resBuf, resMap, invTracker, resource, material, product]

theorem leaf_clean (s : Str) (h : leafName s) : Clean s := by
  unfold leafName primNames resBuf resMap invTracker resource material product at h
  simp only [List.mem_cons, List.not_mem_nil, or_false] at h
  rcases h with (h | h | h | h | h | h | h) | h | h | h | h | h | h <;> subst h <;>
    unfold Clean <;> decide +kernel

theorem leaf_prim (s : Str) (h : leafName s) : isPrim (.str s) = true := by
  unfold leafName at h
  simp only [List.mem_cons, List.not_mem_nil, or_false] at h
  simp only [isPrim, isBuffer]
  rcases h with h | h | h | h | h | h | h <;> simp [h]

/-- **C40 (parsing ends).** `parse_template` never recurses deeper than the text is long. -/
theorem C40_total (s : Str) (fuel : Nat) (h : s.length < fuel) :
    ∃ t, parseTemplate fuel s = some t :=
  Option.isSome_iff_exists.1 (parse_total fuel s h)

/-- **C40 (round trip), partial.** For every type built to any depth from the supported leaf
types and templates, none of which is one of the buffer tuples of `BUFFERS`, `type_to_str`
gives a text and `parse_template` reads the type back from it.  The full property has no
condition on buffers; see `C40_fails_buffer`. -/
theorem C40_roundtrip_partial (t : Ty)
    (ht : Built leafName (fun t => isBuffer t = true) t) :
    ∃ s, typeToStr isPrim t = .ok (.str s) ∧
      ∀ fuel, s.length < fuel → parseTemplate fuel s = some t := by
  have ht' : Built leafName (fun t => isPrim t = true) t := by
    induction ht with
    | str s hs => exact .str s hs
    | tup n args hn hne hb _ ih =>
      refine .tup n args hn hne ?_ ih
      simpa [isPrim] using hb
  obtain ⟨s, hs, hf⟩ := typeToStr_pr leaf_clean leaf_prim ht'
  refine ⟨s, hs, fun fuel hl => parse_pr leaf_clean ht' s fuel hf ?_⟩
  rw [← hf]
  exact lt_of_le_of_lt (List.length_filter_le _ _) hl

/-- **C40 (round trip, other leaf sets).** The same for any set of leaf names that can be
read back and any other tuples in the set of primitives. -/
theorem C40_roundtrip_general (prims : Ty → Bool) (leaf : Str → Prop)
    (hc : ∀ s, leaf s → Clean s) (hp : ∀ s, leaf s → prims (.str s) = true) (t : Ty)
    (ht : Built leaf (fun t => prims t = true) t) :
    ∃ s, typeToStr prims t = .ok (.str s) ∧
      ∀ fuel, s.length < fuel → parseTemplate fuel s = some t := by
  obtain ⟨s, hs, hf⟩ := typeToStr_pr hc hp ht
  refine ⟨s, hs, fun fuel hl => parse_pr hc ht s fuel hf ?_⟩
  rw [← hf]
  exact lt_of_le_of_lt (List.length_filter_le _ _) hl

def tMap (a b : Ty) : Ty := .tup "std::map".toList [a, b]
def tInt : Ty := .str "int".toList

/-- `std::map<int, std::map<int, std::string>>` is such a type. -/
example : Built leafName (fun t => isBuffer t = true)
    (tMap tInt (tMap tInt (.str "std::string".toList))) := by
  have hi : Built leafName (fun t => isBuffer t = true) tInt := .str _ (by
    unfold leafName primNames; decide)
  have hs : Built leafName (fun t => isBuffer t = true) (.str "std::string".toList) :=
    .str _ (by unfold leafName primNames; decide)
  have hm : ∀ a b, Built leafName (fun t => isBuffer t = true) a →
      Built leafName (fun t => isBuffer t = true) b →
      Built leafName (fun t => isBuffer t = true) (tMap a b) := by
    intro a b ha hb
    refine .tup _ _ (by unfold Clean; decide) (by simp) ?_ ?_
    · have hne : "std::map".toList ≠ invTracker := by decide
      cases a <;> cases b <;> simp only [tMap, isBuffer, hne] <;> simp
    · intro x hx
      simp at hx
      rcases hx with rfl | rfl <;> assumption
  exact hm _ _ hi (hm _ _ hi hs)

example : typeToStr isPrim (tMap tInt (tMap tInt (.str "std::string".toList))) =
    .ok (.str "std::map< int, std::map< int, std::string > >".toList) := by rfl

example : parseTemplate 60 "std::map< int, std::map< int, std::string > >".toList =
    some (tMap tInt (tMap tInt (.str "std::string".toList))) := by rfl

/-- **C40 fails for buffers.** `PRIMITIVES` is extended in place with the buffer tuples, so
`type_to_str` of `ResBuf<Material>` is not a text. -/
theorem C40_fails_buffer :
    ¬ ∃ s, typeToStr isPrim (.tup resBuf [.str material]) = .ok (.str s) := by
  rintro ⟨s, hs⟩
  have e : typeToStr isPrim (.tup resBuf [.str material]) =
      .ok (.tup resBuf [.str material]) := by rfl
  rw [e] at hs
  simp at hs

/-- **C40 fails for containers of buffers.** `type_to_str` of `std::vector<ResBuf<Material>>`
adds a tuple to a string, a TypeError. -/
theorem C40_fails_nested :
    typeToStr isPrim (.tup "std::vector".toList [.tup resBuf [.str material]]) =
      .error .cast := by rfl

/-- **C40 (splitting).** Every text has a cut at the separators outside all braces, and
`outter_split` gives its balanced pieces, in order and without white space at their ends. -/
theorem C40_split (ws : Char → Bool) (op cl sep : Char) (h1 : sep ≠ op) (h2 : sep ≠ cl)
    (s : Str) :
    (∃ P, IsCut op cl sep s P) ∧
    ∀ P, IsCut op cl sep s P → outterSplit ws op cl sep s =
      (P.filter fun p => depth op cl p = 0).map (strip ws) :=
  ⟨cut_exists _ s (le_refl _), fun P hP => loop_cut h1 h2 P s hP⟩

theorem depth_join {op cl sep : Char} (h1 : sep ≠ op) (h2 : sep ≠ cl) (P : List Str) :
    (∀ p ∈ P.dropLast, depth op cl p = 0) → ∀ q, P.getLast? = some q →
      depth op cl (join sep P) = depth op cl q := by
  induction P with
  | nil => intro _ q h; simp at h
  | cons p P ih =>
    cases P with
    | nil => intro _ q h; simp at h; subst h; rfl
    | cons b r =>
      intro hb q hq
      rw [join, depth_append, depth_cons_sep h1 h2, hb p (by simp),
        ih (fun x hx => hb x (by simp [List.dropLast, hx])) q (by simpa using hq)]
      omega

theorem strip_self (ws : Char → Bool) (p : Str) (h : ∀ c ∈ p, ws c = false) :
    strip ws p = p := by
  have aux : ∀ q : Str, (∀ c ∈ q, ws c = false) → q.dropWhile ws = q := by
    intro q hq
    cases q with
    | nil => rfl
    | cons c cs => simp [hq c (by simp)]
  unfold strip
  rw [aux p h, aux p.reverse (by simpa using h)]
  simp

theorem mem_join (sep : Char) (P : List Str) : ∀ p ∈ P, ∀ c ∈ p, c ∈ join sep P := by
  induction P with
  | nil => simp
  | cons a P ih =>
    cases P with
    | nil => intro p hp c hc; simp at hp; subst hp; exact hc
    | cons b r =>
      intro p hp c hc
      rw [join]
      rcases List.mem_cons.1 hp with rfl | hp
      · simp [hc]
      · have := ih p hp c hc
        simp [this]

/-- **C40 (joining), partial.** If the braces of a text balance and it has no white space,
joining the parts of `outter_split` gives back the text.  The full property has no such
conditions; see `C40_fails_blank` and `C40_fails_tail`. -/
theorem C40_join_partial (ws : Char → Bool) (op cl sep : Char) (h1 : sep ≠ op) (h2 : sep ≠ cl)
    (s : Str) (hb : depth op cl s = 0) (hw : ∀ c ∈ s, ws c = false) :
    join sep (outterSplit ws op cl sep s) = s := by
  obtain ⟨P, hP⟩ := cut_exists (op := op) (cl := cl) (sep := sep) _ s (le_refl _)
  have e : outterSplit ws op cl sep s = _ := loop_cut h1 h2 P s hP
  have hall : ∀ p ∈ P, depth op cl p = 0 := by
    intro p hp
    have hsplit := List.dropLast_append_getLast hP.ne
    rw [← hsplit] at hp
    rcases List.mem_append.1 hp with h | h
    · exact hP.balanced p h
    · simp at h
      subst h
      rw [← depth_join h1 h2 P hP.balanced _ (List.getLast?_eq_some_getLast hP.ne), hP.join]
      exact hb
  have hf : (P.filter fun p => depth op cl p = 0) = P := by
    rw [List.filter_eq_self]; intro p hp; simp [hall p hp]
  have hm : P.map (strip ws) = P := by
    conv_rhs => rw [← List.map_id P]
    apply List.map_congr_left
    intro p hp
    apply strip_self
    intro c hc
    apply hw
    rw [← hP.join]
    exact mem_join sep P p hp c hc
  rw [e, hf, hm, hP.join]

example : outterSplit (· = ' ') '(' ')' ',' "f(a,b),c".toList =
    ["f(a,b)".toList, "c".toList] := by decide +kernel

example : depth '(' ')' "f(a,b),c".toList = 0 ∧
    ∀ c ∈ "f(a,b),c".toList, (c = ' ') = false := by
  simp only [depth]
  decide +kernel

/-- **C40 fails with blanks.** White space around a separator is lost. -/
theorem C40_fails_blank :
    join ',' (outterSplit (· = ' ') '(' ')' ',' "a, b".toList) ≠ "a, b".toList := by
  decide +kernel

/-- **C40 fails without balance.** The text after an unclosed brace is dropped. -/
theorem C40_fails_tail :
    outterSplit (· = ' ') '(' ')' ',' "a,f(b,c".toList = ["a".toList] := by decide +kernel

/-- **C40 fails for typedefs.** `TypedefFilter` (`cli/cycpp.py:281-287`) splits with the
default braces, so the arguments of a template are cut apart: the second and first parts of
`typedef std::map<int, int> foo` are no type. -/
theorem C40_fails_typedef :
    outterSplit (· = ' ') '(' ')' ',' "std::map<int, int> foo".toList =
      ["std::map<int".toList, "int> foo".toList] := by decide +kernel

/-! ## C41: shapes -/

theorem flatten_spec (fuel : Nat) : ∀ (i : Nat) (r : List Ty), i ≤ r.length →
    positionsL (r.drop i) < fuel →
    ∃ out, flattenLoop fuel i r = some out ∧ out.length = i + positionsL (r.drop i) := by
  have papp : ∀ a b : List Ty, positionsL (a ++ b) = positionsL a + positionsL b := by
    intro a b
    induction a with
    | nil => simp [positionsL]
    | cons x a ih => simp [positionsL, ih]; omega
  induction fuel with
  | zero => intro i r _ h; omega
  | succ f ih =>
    intro i r hi hf
    unfold flattenLoop
    cases hr : r[i]? with
    | none =>
      have := List.getElem?_eq_none_iff.1 hr
      refine ⟨r, rfl, ?_⟩
      rw [List.drop_eq_nil_of_le this, positionsL]
      omega
    | some t =>
      obtain ⟨hlt, hget⟩ := List.getElem?_eq_some_iff.1 hr
      have hd : r.drop i = t :: r.drop (i + 1) := by
        rw [← hget]; exact List.drop_eq_getElem_cons hlt
      rw [hd, positionsL] at hf
      cases t with
      | str s =>
        simp only [positions] at hf
        obtain ⟨out, ho, hl⟩ := ih (i + 1) r (by omega) (by omega)
        refine ⟨out, ho, ?_⟩
        rw [hl, hd, positionsL, positions]
        omega
      | tup n args =>
        simp only [positions] at hf
        have hdr : (r.take (i + 1) ++ args ++ r.drop (i + 1)).drop (i + 1) =
            args ++ r.drop (i + 1) := by
          rw [List.append_assoc, List.drop_left' (by simp; omega)]
        obtain ⟨out, ho, hl⟩ := ih (i + 1) (r.take (i + 1) ++ args ++ r.drop (i + 1))
          (by simp; omega) (by rw [hdr, papp]; omega)
        refine ⟨out, ho, ?_⟩
        rw [hl, hdr, papp, hd, positionsL, positions]
        omega

theorem flatten_length (fuel : Nat) (t : Ty) (h : positions t < fuel) :
    ∃ out, flatten fuel t = some out ∧ out.length = positions t := by
  cases t with
  | str s => exact ⟨_, rfl, by simp [positions]⟩
  | tup n args =>
    have hp : positionsL (Ty.str n :: args) = positions (.tup n args) := by
      simp [positionsL, positions]
    obtain ⟨out, ho, hl⟩ := flatten_spec fuel 0 (.str n :: args) (by simp)
      (by rw [List.drop_zero, hp]; exact h)
    exact ⟨out, ho, by rw [hl, List.drop_zero, hp]; omega⟩

/-- What the documentation of `canonize_shape` promises: as many entries as the type has
positions, the given ones first and then -1. -/
def ShapeSpec (t : Ty) (given out : List Int) : Prop :=
  out = given ++ List.replicate (positions t - given.length) (-1) ∧ given.length ≤ positions t

/-- **C41, partial.** The loop of `canonize_shape` ends.  Without a shape, and with a shape
of the length of the type, the result is the padded shape; one that is too long is rejected.
Missing: a given shape that is shorter, for which see `C41_fails_short`. -/
theorem C41_partial (t : Ty) (fuel : Nat) (hf : positions t < fuel) :
    (∃ out, canonizeShape fuel t none = some (.ok (some out)) ∧ ShapeSpec t [] out) ∧
    (∀ sh : List Int, sh.length = positions t →
      canonizeShape fuel t (some sh) = some (.ok (some sh)) ∧ ShapeSpec t sh sh) ∧
    (∀ sh : List Int, positions t < sh.length →
      canonizeShape fuel t (some sh) = some (.error .value)) := by
  obtain ⟨r, hr, hl⟩ := flatten_length fuel t hf
  refine ⟨⟨_, by simp only [canonizeShape, hr]; rfl, by simp [hl], by simp⟩, ?_, ?_⟩
  · intro sh hs
    refine ⟨by simp only [canonizeShape, hr, hl, hs, if_pos], by simp [hs], by omega⟩
  · intro sh hs
    simp only [canonizeShape, hr, hl]
    rw [if_neg (by omega), if_neg (by omega)]

/-- **C41 fails for every short shape.** The result is not the padded shape but `None`. -/
theorem C41_fails_short (t : Ty) (fuel : Nat) (hf : positions t < fuel) (sh : List Int)
    (hs : sh.length < positions t) :
    canonizeShape fuel t (some sh) = some (.ok none) ∧
    ¬ ∃ out, canonizeShape fuel t (some sh) = some (.ok (some out)) ∧ ShapeSpec t sh out := by
  obtain ⟨r, hr, hl⟩ := flatten_length fuel t hf
  have e : canonizeShape fuel t (some sh) = some (.ok none) := by
    simp only [canonizeShape, hr, hl]
    rw [if_neg (by omega), if_pos hs]
  exact ⟨e, by rw [e]; simp⟩

/-- `std::map<int, std::vector<std::string>>` has four positions. -/
example : positions (tMap tInt (.tup "std::vector".toList [.str "std::string".toList])) = 4 := by
  rfl

example : canonizeShape 10 (tMap tInt (.tup "std::vector".toList [.str "std::string".toList]))
    none = some (.ok (some [-1, -1, -1, -1])) := by rfl

example : canonizeShape 10 (.tup "std::vector".toList [.str "std::string".toList])
    (some [5]) = some (.ok none) := by rfl

/-! ## C42: UUID literals -/

/-- The bytes of a UUID given by its digits: byte `i` is made of digits `2 i` and
`2 i + 1`. -/
def BytesOf (hex : Str) (bytes : List (Char × Char)) : Prop :=
  bytes.length = 16 ∧ ∀ i : ℕ, i < 16 →
    ∃ hi lo, hex[2 * i]? = some hi ∧ hex[2 * i + 1]? = some lo ∧ bytes[i]? = some (hi, lo)

theorem odds_get {α : Type} : ∀ (l : List α) (i : ℕ), (odds l)[i]? = l[2 * i + 1]?
  | [], i => by simp [odds]
  | [a], i => by simp [odds]
  | a :: b :: r, i => by
    cases i with
    | zero => simp [odds]
    | succ i =>
      rw [odds, List.getElem?_cons_succ, odds_get r i]
      have : 2 * (i + 1) + 1 = (2 * i + 1) + 1 + 1 := by omega
      rw [this, List.getElem?_cons_succ, List.getElem?_cons_succ]

theorem odds_length {α : Type} : ∀ l : List α, (odds l).length = l.length / 2
  | [] => by simp [odds]
  | [a] => by simp [odds]
  | a :: b :: r => by simp [odds, odds_length r]; omega

/-- What `_val_uuid` writes: sixteen bytes, byte `i` made of digits `i` and `2 i + 1`. -/
theorem uuid_pairs (hex : Str) (h : hex.length = 32) :
    (uuidPairs hex).length = 16 ∧ ∀ i : ℕ, i < 16 →
      ∃ hi lo, hex[i]? = some hi ∧ hex[2 * i + 1]? = some lo ∧
        (uuidPairs hex)[i]? = some (hi, lo) := by
  refine ⟨by simp [uuidPairs, odds_length, h], fun i hi => ?_⟩
  have h1 : hex[i]? = some hex[i] := List.getElem?_eq_getElem (by omega)
  have h2 : hex[2 * i + 1]? = some hex[2 * i + 1] := List.getElem?_eq_getElem (by omega)
  refine ⟨_, _, h1, h2, ?_⟩
  rw [uuidPairs, List.getElem?_zip_eq_some]
  exact ⟨h1, by rw [odds_get]; exact h2⟩

/-- **C42, partial.** The bytes written for a UUID are its bytes exactly when digit `i`
equals digit `2 i` for every byte `i`.  The full property is that they always are. -/
theorem C42_partial (hex : Str) (h : hex.length = 32) :
    BytesOf hex (uuidPairs hex) ↔ ∀ i : ℕ, i < 16 → hex[i]? = hex[2 * i]? := by
  obtain ⟨hl, hp⟩ := uuid_pairs hex h
  constructor
  · rintro ⟨-, hb⟩ i hi
    obtain ⟨a, b, h1, h2, h3⟩ := hp i hi
    obtain ⟨a', b', h1', h2', h3'⟩ := hb i hi
    rw [h3] at h3'
    simp at h3'
    rw [h1, h1', h3'.1]
  · intro hd
    refine ⟨hl, fun i hi => ?_⟩
    obtain ⟨a, b, h1, h2, h3⟩ := hp i hi
    exact ⟨a, b, by rw [← hd i hi, h1], h2, h3⟩

/-- A UUID of equal digits is written correctly. -/
example : BytesOf (List.replicate 32 'a') (uuidPairs (List.replicate 32 'a')) := by
  rw [C42_partial _ (by simp)]
  intro i hi
  rw [List.getElem?_replicate, List.getElem?_replicate, if_pos (by omega), if_pos (by omega)]

def sampleUuid : Str := "550e8400e29b41d4a716446655440000".toList

/-- **C42 fails.** The literal for `550e8400-e29b-41d4-a716-446655440000` begins with the
bytes 55, 5e, 04 in place of 55, 0e, 84. -/
theorem C42_fails : sampleUuid.length = 32 ∧ ¬ BytesOf sampleUuid (uuidPairs sampleUuid) ∧
    (uuidLiteral sampleUuid).take 16 = "{0x55, 0x5e, 0x0".toList := by
  refine ⟨by rfl, ?_, by rfl⟩
  rw [C42_partial _ (by rfl)]
  intro h
  exact absurd (h 1 (by omega)) (by decide +kernel)

/-- The text of the literal determines the pairs of digits. -/
theorem C42_text (l l' : List (Char × Char)) (hl : l.length = l'.length)
    (h : joinPairs l = joinPairs l') : l = l' := by
  induction l generalizing l' with
  | nil => cases l' with
    | nil => rfl
    | cons _ _ => simp at hl
  | cons p l ih =>
    cases l' with
    | nil => simp at hl
    | cons p' l' =>
      cases l with
      | nil =>
        cases l' with
        | nil =>
          simp [joinPairs] at h
          rw [Prod.ext_iff.2 h]
        | cons _ _ => simp at hl
      | cons q r =>
        cases l' with
        | nil => simp at hl
        | cons q' r' =>
          simp only [joinPairs, List.cons.injEq, List.append_cancel_left_eq] at h
          rw [Prod.ext_iff.2 ⟨h.1, h.2.1⟩, ih (q' :: r') (by simpa using hl) h.2.2]

/-! ## C44: class hierarchy -/

/-- `a` is an ancestor of `c`. -/
def Ancestor (d : PDict) : Nat → Nat → Prop := Relation.TransGen (IsParent d)

/-- The dictionaries have the same parents: an unknown class has none. -/
def SameParents (d d' : PDict) : Prop := ∀ p c, IsParent d p c ↔ IsParent d' p c

theorem isParent_iff (d : PDict) (p c : Nat) : IsParent d p c ↔ p ∈ (d c).getD [] := by
  unfold IsParent
  cases d c <;> simp

theorem same_set (d : PDict) (c : Nat) : SameParents d (d.set c ((d c).getD [])) := by
  intro p x
  rw [isParent_iff, isParent_iff, PDict.set]
  by_cases h : x = c
  · subst h; simp
  · simp [h]

theorem SameParents.trans {a b c : PDict} (h : SameParents a b) (h' : SameParents b c) :
    SameParents a c := fun p x => (h p x).trans (h' p x)

theorem SameParents.ancestor {a b : PDict} (h : SameParents a b) (x y : Nat) :
    Ancestor a x y ↔ Ancestor b x y := by
  have : IsParent a = IsParent b := by
    funext p c; exact propext (h p c)
  unfold Ancestor
  rw [this]

theorem parentLoop_spec (d0 : PDict) (fuel : Nat) (vs : List Nat) :
    (∀ v ∈ vs, ∀ d, SameParents d0 d → ∃ r d', parentClasses fuel v d = some (r, d') ∧
      (∀ x, x ∈ r ↔ Ancestor d0 x v) ∧ SameParents d0 d') →
    ∀ rents d, SameParents d0 d → ∃ r d', parentLoop (parentClasses fuel) vs rents d = some (r, d')
      ∧ (∀ x, x ∈ r ↔ x ∈ rents ∨ ∃ v ∈ vs, x = v ∨ Ancestor d0 x v) ∧ SameParents d0 d' := by
  induction vs with
  | nil => intro _ rents d hd; exact ⟨rents, d, rfl, by simp, hd⟩
  | cons v vs ih =>
    intro h rents d hd
    obtain ⟨r, d1, e, hr, h1⟩ := h v (by simp) d hd
    obtain ⟨r2, d2, e2, hr2, h2⟩ := ih (fun x hx => h x (by simp [hx])) (rents ++ [v] ++ r) d1 h1
    refine ⟨r2, d2, by rw [parentLoop, e]; exact e2, ?_, h2⟩
    intro x
    rw [hr2, List.mem_append, List.mem_append, hr]
    simp only [List.mem_cons, List.not_mem_nil, or_false, exists_eq_or_imp, or_assoc]

theorem ancestor_step (d : PDict) (x c : Nat) :
    Ancestor d x c ↔ ∃ v, IsParent d v c ∧ (x = v ∨ Ancestor d x v) := by
  unfold Ancestor
  rw [Relation.TransGen.tail'_iff]
  constructor
  · rintro ⟨b, h1, h2⟩
    refine ⟨b, h2, ?_⟩
    rcases Relation.reflTransGen_iff_eq_or_transGen.1 h1 with h | h
    · exact Or.inl h.symm
    · exact Or.inr h
  · rintro ⟨v, h1, h2⟩
    exact ⟨v, Relation.reflTransGen_iff_eq_or_transGen.2 (h2.imp Eq.symm id), h1⟩

theorem parentClasses_acc (d0 : PDict) (c : Nat) (hc : Acc (IsParent d0) c) :
    ∃ f0, ∀ fuel, f0 ≤ fuel → ∀ d, SameParents d0 d → ∃ r d', parentClasses fuel c d = some (r, d')
      ∧ (∀ x, x ∈ r ↔ Ancestor d0 x c) ∧ SameParents d0 d' := by
  induction hc with
  | intro c _ ih =>
    -- a bound for all parents
    have hb : ∀ l : List Nat, (∀ v ∈ l, IsParent d0 v c) → ∃ f0, ∀ v ∈ l, ∀ fuel, f0 ≤ fuel →
        ∀ d, SameParents d0 d → ∃ r d', parentClasses fuel v d = some (r, d')
          ∧ (∀ x, x ∈ r ↔ Ancestor d0 x v) ∧ SameParents d0 d' := by
      intro l
      induction l with
      | nil => intro _; exact ⟨0, by simp⟩
      | cons v l ihl =>
        intro hl
        obtain ⟨f1, h1⟩ := ih v (hl v (by simp))
        obtain ⟨f2, h2⟩ := ihl fun x hx => hl x (by simp [hx])
        refine ⟨max f1 f2, fun x hx fuel hf => ?_⟩
        rcases List.mem_cons.1 hx with rfl | hx
        · exact h1 fuel (by omega)
        · exact h2 x hx fuel (by omega)
    obtain ⟨f0, hf0⟩ := hb ((d0 c).getD []) fun v hv => (isParent_iff d0 v c).2 hv
    refine ⟨f0 + 1, fun fuel hf d hd => ?_⟩
    obtain ⟨f, rfl⟩ : ∃ f, fuel = f + 1 := ⟨fuel - 1, by omega⟩
    rw [parentClasses]
    have hmem : ∀ v, v ∈ (d c).getD [] ↔ IsParent d0 v c := by
      intro v; rw [← isParent_iff, ← hd v c]
    obtain ⟨r, d', e, hr, hd'⟩ := parentLoop_spec d0 f ((d c).getD [])
      (fun v hv => hf0 v ((isParent_iff d0 v c).1 ((hmem v).1 hv)) f (by omega)) []
      _ (hd.trans (same_set d c))
    refine ⟨r, d', e, fun x => ?_, hd'⟩
    rw [hr, ancestor_step]
    simp [hmem]

/-- A finite class graph without cycles has no infinite chains of parents. -/
theorem acc_of_acyclic (d : PDict) (hfin : ∃ keys : List Nat, ∀ c, d c ≠ none → c ∈ keys)
    (hac : ∀ c, ¬ Ancestor d c c) (c : Nat) : Acc (IsParent d) c := by
  obtain ⟨keys, hk⟩ := hfin
  let R : {x // x ∈ keys} → {x // x ∈ keys} → Prop := fun a b => Ancestor d a.1 b.1
  have : IsTrans {x // x ∈ keys} R := ⟨fun a b c h1 h2 => Relation.TransGen.trans h1 h2⟩
  have : Std.Irrefl R := ⟨fun a => hac a.1⟩
  have hwf : WellFounded R := Finite.wellFounded_of_trans_of_irrefl R
  have hout : ∀ x, x ∉ keys → Acc (IsParent d) x := by
    intro x hx
    refine Acc.intro x fun y hy => ?_
    obtain ⟨l, hl, -⟩ := hy
    exact absurd (hk x (by rw [hl]; simp)) hx
  have hin : ∀ x : {x // x ∈ keys}, Acc (IsParent d) x.1 := by
    intro x
    induction x using hwf.induction with
    | _ x ih =>
      refine Acc.intro x.1 fun y hy => ?_
      by_cases h : y ∈ keys
      · exact ih ⟨y, h⟩ (Relation.TransGen.single hy)
      · exact hout y h
  by_cases h : c ∈ keys
  · exact hin ⟨c, h⟩
  · exact hout c h

/-- **C44 (ancestors).** In every finite class graph without cycles `parent_classes` ends
with exactly the ancestors of the class; the dictionary it changes keeps the parents of
every class. -/
theorem C44_ancestors (d : PDict) (hfin : ∃ keys : List Nat, ∀ c, d c ≠ none → c ∈ keys)
    (hac : ∀ c, ¬ Ancestor d c c) (c : Nat) :
    ∃ f0, ∀ fuel, f0 ≤ fuel → ∃ r d', parentClasses fuel c d = some (r, d') ∧
      (∀ x, x ∈ r ↔ Ancestor d x c) ∧ SameParents d d' := by
  obtain ⟨f0, h⟩ := parentClasses_acc d c (acc_of_acyclic d hfin hac c)
  exact ⟨f0, fun fuel hf => h fuel hf d fun _ _ => Iff.rfl⟩

theorem grandLoop_spec (d0 : PDict) (fuel : Nat) (ps : List Nat) :
    (∀ v ∈ ps, ∀ d, SameParents d0 d → ∃ r d', parentClasses fuel v d = some (r, d') ∧
      (∀ x, x ∈ r ↔ Ancestor d0 x v) ∧ SameParents d0 d') →
    ∀ g d, SameParents d0 d → ∃ r d', grandLoop fuel ps g d = some (r, d')
      ∧ (∀ x, x ∈ r ↔ x ∈ g ∨ ∃ v ∈ ps, Ancestor d0 x v) ∧ SameParents d0 d' := by
  induction ps with
  | nil => intro _ g d hd; exact ⟨g, d, rfl, by simp, hd⟩
  | cons v vs ih =>
    intro h g d hd
    obtain ⟨r, d1, e, hr, h1⟩ := h v (by simp) d hd
    obtain ⟨r2, d2, e2, hr2, h2⟩ := ih (fun x hx => h x (by simp [hx])) (g ++ r) d1 h1
    refine ⟨r2, d2, by rw [grandLoop, e]; exact e2, ?_, h2⟩
    intro x
    rw [hr2, List.mem_append, hr]
    simp only [List.mem_cons, exists_eq_or_imp]
    tauto

/-- **C44 (parents in a set).** For a class of a finite class graph without cycles
`parent_intersection` gives exactly the direct parents of the class in the query set that
are not ancestors of another such parent. -/
theorem C44_intersection (d : PDict) (hfin : ∃ keys : List Nat, ∀ c, d c ≠ none → c ∈ keys)
    (hac : ∀ c, ¬ Ancestor d c c) (c : Nat) (hc : d c ≠ none) (query : List Nat) :
    ∃ f0, ∀ fuel, f0 ≤ fuel → ∃ out, parentIntersection fuel c query d = some (.ok out) ∧
      ∀ x, x ∈ out ↔ (x ∈ query ∧ IsParent d x c) ∧
        ∀ y, y ∈ query → IsParent d y c → ¬ Ancestor d x y := by
  obtain ⟨sup, hsup⟩ := Option.ne_none_iff_exists'.1 hc
  have hb : ∀ l : List Nat, ∃ f0, ∀ v ∈ l, ∀ fuel, f0 ≤ fuel →
      ∀ e, SameParents d e → ∃ r d', parentClasses fuel v e = some (r, d')
        ∧ (∀ x, x ∈ r ↔ Ancestor d x v) ∧ SameParents d d' := by
    intro l
    induction l with
    | nil => exact ⟨0, by simp⟩
    | cons v l ihl =>
      obtain ⟨f1, h1⟩ := parentClasses_acc d v (acc_of_acyclic d hfin hac v)
      obtain ⟨f2, h2⟩ := ihl
      refine ⟨max f1 f2, fun x hx fuel hf => ?_⟩
      rcases List.mem_cons.1 hx with rfl | hx
      · exact h1 fuel (by omega)
      · exact h2 x hx fuel (by omega)
  obtain ⟨f0, hf0⟩ := hb (query.filter (· ∈ sup))
  refine ⟨f0, fun fuel hf => ?_⟩
  obtain ⟨g, d', e, hg, -⟩ := grandLoop_spec d fuel (query.filter (· ∈ sup))
    (fun v hv => hf0 v hv fuel hf) [] d fun _ _ => Iff.rfl
  refine ⟨_, by simp only [parentIntersection, hsup, e]; rfl, fun x => ?_⟩
  have hp : ∀ y, IsParent d y c ↔ y ∈ sup := by
    intro y; rw [isParent_iff, hsup]; rfl
  simp only [List.mem_filter, decide_eq_true_eq, hg, List.not_mem_nil, false_or, not_exists,
    not_and, hp]
  constructor
  · rintro ⟨h1, h2⟩
    exact ⟨h1, fun y hy hy' => h2 y ⟨hy, hy'⟩⟩
  · rintro ⟨h1, h2⟩
    exact ⟨h1, fun y hy => h2 y hy.1 hy.2⟩

/-- **C44 (cycles).** A class that is its own ancestor makes `parent_classes` recurse without
end, at any depth allowed. -/
theorem C44_cycle (d0 : PDict) (c : Nat) (h : Ancestor d0 c c) (fuel : Nat) :
    parentClasses fuel c d0 = none := by
  -- every class with the property that it has a parent on a cycle's way fails
  have key : ∀ fuel x d, SameParents d0 d → (x = c ∨ Ancestor d0 c x) →
      parentClasses fuel x d = none := by
    intro fuel
    induction fuel with
    | zero => intro x d _ _; rfl
    | succ f ih =>
      intro x d hd hx
      have hx' : Ancestor d0 c x := by
        rcases hx with rfl | hx
        · exact h
        · exact hx
      obtain ⟨v, hv, hcv⟩ := (ancestor_step d0 c x).1 hx'
      have hmem : v ∈ (d x).getD [] := (isParent_iff d v x).1 ((hd v x).1 hv)
      rw [parentClasses]
      -- the loop meets v, or fails before
      have loop : ∀ (l : List Nat), v ∈ l → ∀ rents e, SameParents d0 e →
          parentLoop (parentClasses f) l rents e = none := by
        intro l
        induction l with
        | nil => intro hm; simp at hm
        | cons w l ihl =>
          intro hm rents e he
          rw [parentLoop]
          cases hw : parentClasses f w e with
          | none => rfl
          | some rd =>
            obtain ⟨r, e'⟩ := rd
            simp only
            rcases List.mem_cons.1 hm with rfl | hm
            · rw [ih v e he (hcv.imp Eq.symm id)] at hw
              simp at hw
            · refine ihl hm _ e' ?_
              -- parents are kept by every successful call
              have keep : ∀ f w (e : PDict) r e', parentClasses f w e = some (r, e') →
                  SameParents e e' := by
                intro f
                induction f with
                | zero => intro w e r e' h; simp [parentClasses] at h
                | succ f ihf =>
                  intro w e r e' h
                  rw [parentClasses] at h
                  have lk : ∀ (l rents : List Nat) (e e' : PDict) r,
                      parentLoop (parentClasses f) l rents e = some (r, e') →
                      SameParents e e' := by
                    intro l
                    induction l with
                    | nil =>
                      intro rents e e' r h
                      simp [parentLoop] at h
                      rw [h.2]
                      exact fun _ _ => Iff.rfl
                    | cons u l ihl' =>
                      intro rents e e' r h
                      rw [parentLoop] at h
                      cases hu : parentClasses f u e with
                      | none => rw [hu] at h; simp at h
                      | some p =>
                        obtain ⟨r1, e1⟩ := p
                        rw [hu] at h
                        exact (ihf u e r1 e1 hu).trans (ihl' _ e1 e' r h)
                  exact (same_set e w).trans (lk _ _ _ _ _ h)
              exact he.trans (keep f w e r e' hw)
      exact loop _ hmem _ _ (hd.trans (same_set d x))
  exact key fuel c d0 (fun _ _ => Iff.rfl) (Or.inl rfl)

/-- Agent 1, Facility 2 with parent Agent, archetype 3 with both as parents, archetype 4
derived from 3. -/
def sampleGraph : PDict := fun c =>
  if c = 1 then some [] else if c = 2 then some [1] else if c = 3 then some [1, 2]
  else if c = 4 then some [3] else none

theorem sample_rank (p c : Nat) (h : IsParent sampleGraph p c) : p < c := by
  obtain ⟨l, hl, hp⟩ := h
  unfold sampleGraph at hl
  split at hl
  · simp at hl; subst hl; simp at hp
  split at hl
  · simp at hl; subst hl; simp at hp; omega
  split at hl
  · simp at hl; subst hl; simp at hp; omega
  split at hl
  · simp at hl; subst hl; simp at hp; omega
  · simp at hl

theorem sample_acyclic (c : Nat) : ¬ Ancestor sampleGraph c c := by
  have : ∀ a b, Ancestor sampleGraph a b → a < b := by
    intro a b h
    induction h with
    | single h => exact sample_rank _ _ h
    | tail _ h ih => exact ih.trans (sample_rank _ _ h)
  intro h
  exact lt_irrefl _ (this c c h)

example : (∃ keys : List Nat, ∀ c, sampleGraph c ≠ none → c ∈ keys) ∧
    (∀ c, ¬ Ancestor sampleGraph c c) ∧ sampleGraph 3 ≠ none := by
  refine ⟨⟨[1, 2, 3, 4], fun c hc => ?_⟩, sample_acyclic, by decide⟩
  unfold sampleGraph at hc
  by_contra hn
  simp at hn
  simp [hn] at hc

example : (parentClasses 5 4 sampleGraph).map Prod.fst = some [3, 1, 2, 1] := by decide

/-- Of Agent and Facility only Facility is given for archetype 3. -/
example : parentIntersection 5 3 [1, 2] sampleGraph = some (.ok [2]) := by rfl

/-- **C44 fails for its documentation.** The documentation promises the elements of the
query set that are parents of the class "and not parents of any other class in query_set".
For a class whose only parent is Agent the result is Agent, although Agent is a parent of
Facility, which is in the query set. -/
theorem C44_fails_doc :
    ∃ (d : PDict) (c : Nat) (query out : List Nat),
      parentIntersection 5 c query d = some (.ok out) ∧
      ∃ x ∈ out, ∃ y ∈ query, IsParent d x y :=
  ⟨fun c => if c = 1 then some [] else if c = 2 then some [1] else if c = 5 then some [1]
      else none, 5, [1, 2], [1], by rfl, 1, by simp, 2, by simp, [1], by rfl, by simp⟩

/-- **C44 fails for classes derived from archetypes.** Archetype 4 has the ancestors Agent
and Facility, but as its direct parent is not in the query set the result is empty: the
generated `InitFrom` and `InfileToDb` of such a class call none of them. -/
theorem C44_fails_indirect :
    parentIntersection 5 4 [1, 2] sampleGraph = some (.ok []) ∧ Ancestor sampleGraph 2 4 := by
  refine ⟨by rfl, ?_⟩
  exact (Relation.TransGen.single ⟨[1, 2], by rfl, by simp⟩).tail
    (b := 3) ⟨[3], by rfl, by simp⟩

end Cyclus.Cycpp
