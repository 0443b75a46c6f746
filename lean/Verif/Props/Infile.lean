import Verif.Model.Infile
import Verif.Props.SimInfo

/-!
# C96: queries of the input file return what the file says
-/

namespace Cyclus.Infile

/-- The node is an element, with the name if the step has one. -/
def Names : Step → Node → Prop
  | .named x, c => ∃ cs, c = .element x cs
  | .any, c => ∃ x cs, c = .element x cs

/-- The node at a position (the indices of the children on the way) lies on the path. -/
inductive Reaches : List Step → Node → List ℕ → Node → Prop
  | here (n : Node) : Reaches [] n [] n
  | step {s : Step} {ss : List Step} {n c m : Node} {i : ℕ} {p : List ℕ}
      (hc : n.children[i]? = some c) (hs : Names s c) (h : Reaches ss c p m) :
      Reaches (s :: ss) n (i :: p) m

theorem selects_iff (s : Step) (c : Node) : s.selects c = true ↔ Names s c := by
  cases s <;> cases c <;> simp [Step.selects, Names, eq_comm]

/-- `descend` together with positions. -/
def positions : List Step → Node → List (List ℕ × Node)
  | [], n => [([], n)]
  | s :: ss, n => (n.children.zipIdx.filter fun ci => s.selects ci.1).flatMap fun ci =>
      (positions ss ci.1).map fun pm => (ci.2 :: pm.1, pm.2)

theorem filter_zipIdx (f : Node → Bool) (l : List Node) (k : ℕ) :
    ((l.zipIdx k).filter fun ci => f ci.1).map Prod.fst = l.filter f := by
  induction l generalizing k with
  | nil => rfl
  | cons c cs ih =>
    rw [List.zipIdx_cons, List.filter_cons, List.filter_cons]
    by_cases h : f c = true
    · simp only [h, if_true, List.map_cons, ih]
    · simp only [h, if_false, ih, Bool.false_eq_true]

theorem positions_descend (ss : List Step) (n : Node) :
    (positions ss n).map Prod.snd = descend ss n := by
  induction ss generalizing n with
  | nil => rfl
  | cons s ss ih =>
    simp only [positions, descend, List.map_flatMap, List.map_map, Function.comp_def]
    rw [← filter_zipIdx s.selects n.children 0, List.flatMap_map]
    congr 1
    funext ci
    exact ih ci.1

theorem mem_positions (ss : List Step) (n : Node) (p : List ℕ) (m : Node) :
    (p, m) ∈ positions ss n ↔ Reaches ss n p m := by
  induction ss generalizing n p m with
  | nil =>
    simp only [positions, List.mem_singleton, Prod.mk.injEq]
    constructor
    · rintro ⟨rfl, rfl⟩
      exact .here _
    · intro h
      cases h
      exact ⟨rfl, rfl⟩
  | cons s ss ih =>
    simp only [positions, List.mem_flatMap, List.mem_map, List.mem_filter, List.mem_zipIdx_iff_getElem?,
      selects_iff]
    constructor
    · rintro ⟨⟨c, i⟩, ⟨hc, hs⟩, ⟨p', m'⟩, hm, he⟩
      simp only [Prod.mk.injEq] at he
      obtain ⟨rfl, rfl⟩ := he
      exact .step hc hs ((ih _ _ _).mp hm)
    · intro h
      cases h with
      | step hc hs h => exact ⟨(_, _), ⟨hc, hs⟩, (_, _), (ih _ _ _).mpr h, rfl⟩

theorem positions_sorted (ss : List Step) (n : Node) :
    (positions ss n).Pairwise fun a b => List.Lex (· < ·) a.1 b.1 := by
  induction ss generalizing n with
  | nil => simp [positions]
  | cons s ss ih =>
    simp only [positions]
    rw [List.pairwise_flatMap]
    constructor
    · intro ci _
      rw [List.pairwise_map]
      exact (ih ci.1).imp fun h => .cons h
    · apply List.Pairwise.filter
      have : ∀ (l : List Node) (k : ℕ), (l.zipIdx k).Pairwise fun a b => a.2 < b.2 := by
        intro l
        induction l with
        | nil => simp
        | cons c cs ihl =>
          intro k
          rw [List.zipIdx_cons, List.pairwise_cons]
          refine ⟨?_, ihl _⟩
          rintro ⟨d, i⟩ h
          have := List.le_snd_of_mem_zipIdx h
          omega
      refine (this _ 0).imp ?_
      intro a b hab x hx y hy
      simp only [List.mem_map] at hx hy
      obtain ⟨_, _, rfl⟩ := hx
      obtain ⟨_, _, rfl⟩ := hy
      exact .rel hab

/-- C96 (paths).  A query yields exactly the nodes on its path, from the current node or from the
document, each once and in the order of the document; all of them are elements unless the query is
`.`.  `NMatches` is their number. -/
theorem C96_find (t : Tree) (q : Query) (start : Node)
    (hs : start = if q.absolute then .element [] [t.root] else t.cur) :
    (∃ ps : List (List ℕ × Node), t.find q = ps.map Prod.snd ∧
      (ps.Pairwise fun a b => List.Lex (· < ·) a.1 b.1) ∧
      (∀ p m, (p, m) ∈ ps ↔ Reaches q.steps start p m) ∧ t.nMatches q = ps.length) ∧
    (q.steps ≠ [] → ∀ m ∈ t.find q, ∃ x cs, m = .element x cs) := by
  have hf : t.find q = (positions q.steps start).map Prod.snd := by
    rw [positions_descend, hs]; rfl
  refine ⟨⟨positions q.steps start, hf, positions_sorted _ _, mem_positions _ _, ?_⟩, ?_⟩
  · unfold Tree.nMatches
    rw [hf, List.length_map]
  · intro hne m hm
    rw [hf] at hm
    obtain ⟨⟨p, m'⟩, hpm, rfl⟩ := List.mem_map.mp hm
    have hr := (mem_positions _ _ _ _).mp hpm
    generalize q.steps = ss at hne hr
    clear hs hf hpm hm
    simp only
    induction hr with
    | here => exact absurd rfl hne
    | step hc hn h ih =>
      rename_i s ss n c m i p
      cases ss with
      | nil =>
        cases h
        cases s with
        | named x => obtain ⟨cs, rfl⟩ := hn; exact ⟨_, _, rfl⟩
        | any => exact hn
      | cons => exact ih (by simp)

/-- A case of `C96_find`: `<a><b/>text<c><b/></c><b/></a>`. -/
example : Reaches [.any, .named ['b']] (.element ['a'] [.element ['b'] [], .text ['t'],
    .element ['c'] [.element ['b'] []], .element ['b'] []]) [2, 0] (.element ['b'] []) :=
  .step rfl ⟨_, _, rfl⟩ (.step rfl ⟨_, rfl⟩ (.here _))

theorem tooFew_nonneg (n : ℕ) (i : ℤ) (h0 : 0 ≤ i) (h1 : i < 2 ^ 31) :
    tooFew n i = true ↔ (n : ℤ) ≤ i := by
  unfold tooFew
  rw [Int.emod_eq_of_lt (by omega) (by omega)]
  simp only [decide_eq_true_eq]
  omega

theorem tooFew_neg (n : ℕ) (hn : n < 2 ^ 63) (i : ℤ) (h0 : i < -1) (h1 : -2 ^ 31 ≤ i) :
    tooFew n i = true := by
  unfold tooFew
  simp only [decide_eq_true_eq]
  omega

theorem tooFew_one (n : ℕ) : tooFew n (-1) = false := by
  unfold tooFew
  simp

/-- What `getString` and the other accesses by index do, in one place: `lookup` is the i-th node, or an
error. -/
theorem access {α : Type} (ns : List Node) (hn : ns.length < 2 ^ 63) (i : ℤ) (h0 : -2 ^ 31 ≤ i)
    (h1 : i < 2 ^ 31) (f : Node → Except Fail α) :
    pick ns i f =
    if i = -1 then .error .range else
      if i < 0 then .error (.err .value) else
        match ns[i.toNat]? with
        | none => .error (.err .value)
        | some n => f n := by
  unfold pick
  by_cases hm : i = -1
  · subst hm
    rw [tooFew_one, if_pos rfl]
    rfl
  · rw [if_neg hm]
    by_cases hneg : i < 0
    · rw [if_pos hneg, tooFew_neg _ hn i (by omega) h0]
      rfl
    · rw [if_neg hneg]
      by_cases hl : (ns.length : ℤ) ≤ i
      · rw [(tooFew_nonneg ns.length i (by omega) h1).mpr hl, List.getElem?_eq_none (by omega)]
        rfl
      · have : tooFew ns.length i = false := by
          rw [Bool.eq_false_iff]
          intro h
          exact hl ((tooFew_nonneg _ _ (by omega) h1).mp h)
        rw [this]
        have hlt : i.toNat < ns.length := by omega
        unfold at'
        rw [if_neg hneg, List.getElem?_eq_getElem hlt]
        rfl

theorem content_ok (n : Node) (s : List Char) :
    content n = .ok s ↔ ∃ x, n = .element x [.text s] := by
  cases n with
  | element x cs =>
    match cs with
    | [] => simp [content]
    | [c] => cases c <;> simp [content]
    | _ :: _ :: _ => simp [content]
  | _ => simp [content]

theorem content_value (n : Node) :
    content n = .error (.err .value) ↔ ∃ x cs, n = .element x cs ∧ cs.length ≠ 1 := by
  cases n with
  | element x cs =>
    match cs with
    | [] => simp [content]
    | [c] => cases c <;> simp [content]
    | _ :: _ :: _ => simp [content]
  | _ => simp [content]

theorem content_cast (n : Node) :
    content n = .error (.err .cast) ↔
      (∀ x cs, n ≠ .element x cs) ∨ ∃ x c, n = .element x [c] ∧ ∀ s, c ≠ .text s := by
  cases n with
  | element x cs =>
    match cs with
    | [] => simp [content]
    | [c] => cases c <;> simp [content]
    | _ :: _ :: _ => simp [content]
  | _ => simp [content]

theorem content_other (n : Node) (e : Fail) (h : content n = .error e) :
    e = .err .value ∨ e = .err .cast := by
  cases n with
  | element x cs =>
    match cs with
    | [] => simp [content] at h; simp [← h]
    | [c] => cases c <;> simp [content] at h <;> simp [← h]
    | _ :: _ :: _ => simp [content] at h; simp [← h]
  | _ => simp [content] at h; simp [← h]

theorem getString_eq (t : Tree) (q : Query) (i : ℤ) (h0 : -2 ^ 31 ≤ i) (h1 : i < 2 ^ 31)
    (hn : (t.find q).length < 2 ^ 63) :
    t.getString q i = if t.find q = [] then .error (.err .key) else
      if i = -1 then .error .range else
        if i < 0 then .error (.err .value) else
          match (t.find q)[i.toNat]? with
          | none => .error (.err .value)
          | some n => content n := by
  unfold Tree.getString
  rw [access (t.find q) hn i h0 h1 content]
  by_cases h : t.find q = []
  · simp [h]
  · simp [h]

/-- C96 (text).  `GetString` returns a text exactly if the match with the index is an element whose
only child is this text; it throws a `KeyError` exactly if there is no match, a `ValueError` exactly if
there is no match with this index or it does not have exactly one child, and a `CastError` exactly if
it is not an element or its only child is not text.  (The index -1 escapes the check and makes `at`
throw.) -/
theorem C96_string (t : Tree) (q : Query) (i : ℤ) (h0 : -2 ^ 31 ≤ i) (h1 : i < 2 ^ 31)
    (hn : (t.find q).length < 2 ^ 63) :
    (∀ s, t.getString q i = .ok s ↔
      0 ≤ i ∧ ∃ x, (t.find q)[i.toNat]? = some (.element x [.text s])) ∧
    (t.getString q i = .error (.err .key) ↔ t.find q = []) ∧
    (t.getString q i = .error (.err .value) ↔ t.find q ≠ [] ∧
      (i < -1 ∨ ((t.find q).length : ℤ) ≤ i ∨
        (0 ≤ i ∧ ∃ x cs, (t.find q)[i.toNat]? = some (.element x cs) ∧ cs.length ≠ 1))) ∧
    (t.getString q i = .error (.err .cast) ↔ 0 ≤ i ∧ ∃ m, (t.find q)[i.toNat]? = some m ∧
      ((∀ x cs, m ≠ .element x cs) ∨ ∃ x c, m = .element x [c] ∧ ∀ s, c ≠ .text s)) ∧
    (t.getString q i = .error .range ↔ t.find q ≠ [] ∧ i = -1) := by
  rw [getString_eq t q i h0 h1 hn]
  generalize t.find q = ns at hn
  by_cases he : ns = []
  · subst he
    rw [if_pos rfl]
    simp
  · rw [if_neg he]
    by_cases hm : i = -1
    · subst hm
      simp [he]
      omega
    · rw [if_neg hm]
      by_cases hneg : i < 0
      · rw [if_pos hneg]
        have h2 : i < -1 := by omega
        simp [he, h2, hm, hneg]
      · rw [if_neg hneg]
        have h2 : 0 ≤ i := by omega
        have h3 : ¬ i < -1 := by omega
        cases hg : ns[i.toNat]? with
        | none =>
          have : ns.length ≤ i.toNat := by rwa [List.getElem?_eq_none_iff] at hg
          have : (ns.length : ℤ) ≤ i := by omega
          simp [he, this, hm]
        | some n =>
          have hl : i.toNat < ns.length := (List.getElem?_eq_some_iff.mp hg).1
          have hl' : ¬ (ns.length : ℤ) ≤ i := by omega
          simp only [he, hm, h2, h3, hl', true_and, false_or, ne_eq, not_false_eq_true, and_false,
            Option.some.injEq, content_ok, content_value, exists_eq_left', content_cast, iff_false,
            iff_self, implies_true]
          refine ⟨?_, ?_⟩
          · intro h
            rcases content_other n _ h with h | h <;> simp at h
          · intro h
            rcases content_other n _ h with h | h <;> simp at h

/-- A case of `C96_string`: the second of two names. -/
example : (Tree.new (.element ['r'] [.text ['\n'], .element ['n'] [.text ['x']],
    .element ['n'] [.text ['y']]])).getString (.child ['n']) 1 = .ok ['y'] := by decide +kernel

theorem asTree_ok (r e : Node) (u : Tree) :
    asTree r e = .ok u ↔ u.root = r ∧ e = u.cur ∧ ∃ x cs, u.cur = .element x cs := by
  obtain ⟨r', c⟩ := u
  cases e with
  | element x cs =>
    simp only [asTree, Except.ok.injEq, Tree.mk.injEq]
    constructor
    · rintro ⟨rfl, rfl⟩
      exact ⟨rfl, rfl, _, _, rfl⟩
    · rintro ⟨rfl, rfl, _⟩
      exact ⟨rfl, rfl⟩
  | _ =>
    simp only [asTree, reduceCtorEq, false_iff]
    rintro ⟨_, rfl, x, cs, h⟩
    cases h

theorem asTree_value (r e : Node) : ¬ asTree r e = .error (.err .value) := by
  cases e <;> simp [asTree]

/-- C96 (elements).  `NElements` and `GetElementName` count and name the child elements of the current
node in order, and `SubTree` moves to the match with the index; all other indices throw a `ValueError`
(and -1 makes `at` throw).  A subtree keeps the document. -/
theorem C96_elements (t : Tree) (q : Query) (i : ℤ) (h0 : -2 ^ 31 ≤ i) (h1 : i < 2 ^ 31)
    (hn : (t.find q).length < 2 ^ 63) (hc : t.cur.children.length < 2 ^ 63) :
    (∃ es : List (List Char × List Node),
      (t.cur.children.filter Node.isElement) = es.map (fun e => .element e.1 e.2) ∧
      t.nElements = es.length ∧
      (∀ x, t.getElementName i = .ok x ↔ 0 ≤ i ∧ ∃ cs, es[i.toNat]? = some (x, cs)) ∧
      (t.getElementName i = .error (.err .value) ↔ i < -1 ∨ (es.length : ℤ) ≤ i)) ∧
    (∀ u, t.subTree q i = .ok u ↔ 0 ≤ i ∧ u.root = t.root ∧
      (t.find q)[i.toNat]? = some u.cur ∧ ∃ x cs, u.cur = .element x cs) ∧
    (t.subTree q i = .error (.err .value) ↔ i < -1 ∨ ((t.find q).length : ℤ) ≤ i) := by
  constructor
  · have hex : ∀ l : List Node, ∃ es : List (List Char × List Node),
        l.filter Node.isElement = es.map (fun e => .element e.1 e.2) := by
      intro l
      induction l with
      | nil => exact ⟨[], rfl⟩
      | cons c cs ih =>
        obtain ⟨es, hes⟩ := ih
        cases c with
        | element x ys => exact ⟨(x, ys) :: es, by
            rw [List.filter_cons_of_pos rfl, hes]; rfl⟩
        | text s => exact ⟨es, by simpa [Node.isElement] using hes⟩
        | cdata s => exact ⟨es, by simpa [Node.isElement] using hes⟩
        | comment s => exact ⟨es, by simpa [Node.isElement] using hes⟩
    obtain ⟨es, hes⟩ := hex t.cur.children
    have hlen : (t.cur.children.filter Node.isElement).length < 2 ^ 63 :=
      lt_of_le_of_lt (List.length_filter_le _ _) hc
    have key : t.getElementName i = _ := access (t.cur.children.filter Node.isElement) hlen i h0 h1
      elementName
    have key' : t.getElementName i = if i = -1 then .error .range else
        if i < 0 then .error (.err .value) else
          match es[i.toNat]? with
          | none => .error (.err .value)
          | some e => .ok e.1 := by
      rw [show t.getElementName i = _ from key, hes]
      simp only [List.getElem?_map]
      cases es[i.toNat]? <;> rfl
    refine ⟨es, hes, ?_, ?_, ?_⟩
    · unfold Tree.nElements
      rw [hes, List.length_map]
    · intro x
      rw [key']
      by_cases hm : i = -1
      · subst hm; simp
      · rw [if_neg hm]
        by_cases hneg : i < 0
        · rw [if_pos hneg]; simp [hneg]
        · rw [if_neg hneg]
          have h2 : 0 ≤ i := by omega
          cases hg : es[i.toNat]? with
          | none => simp
          | some e =>
            obtain ⟨a, b⟩ := e
            simp [h2]
    · rw [key']
      by_cases hm : i = -1
      · subst hm; simp; omega
      · rw [if_neg hm]
        by_cases hneg : i < 0
        · rw [if_pos hneg]
          have : i < -1 := by omega
          simp [this]
        · rw [if_neg hneg]
          have h3 : ¬ i < -1 := by omega
          cases hg : es[i.toNat]? with
          | none =>
            rw [List.getElem?_eq_none_iff] at hg
            have : (es.length : ℤ) ≤ i := by omega
            simp [this]
          | some e =>
            have hl : i.toNat < es.length := (List.getElem?_eq_some_iff.mp hg).1
            have : ¬ (es.length : ℤ) ≤ i := by omega
            simp [this, h3]
  · have key : t.subTree q i = _ := access (t.find q) hn i h0 h1
      (asTree t.root)
    simp only [key]
    by_cases hm : i = -1
    · subst hm; simp; omega
    · simp only [if_neg hm]
      by_cases hneg : i < 0
      · simp only [if_pos hneg]
        have : i < -1 := by omega
        have h2 : ¬ 0 ≤ i := by omega
        simp [this, h2]
      · simp only [if_neg hneg]
        have h3 : ¬ i < -1 := by omega
        have h2 : 0 ≤ i := by omega
        cases hg : (t.find q)[i.toNat]? with
        | none =>
          rw [List.getElem?_eq_none_iff] at hg
          have : ((t.find q).length : ℤ) ≤ i := by omega
          simp [this]
        | some e =>
          have hl : i.toNat < (t.find q).length := (List.getElem?_eq_some_iff.mp hg).1
          have : ¬ ((t.find q).length : ℤ) ≤ i := by omega
          simp only [h2, h3, this, Option.some.injEq, true_and, or_self, iff_false]
          exact ⟨asTree_ok t.root e, asTree_value t.root e⟩

/-- A case of `C96_elements`. -/
example : (Tree.new (.element ['r'] [.comment ['c'], .element ['a'] [], .text ['t'],
    .element ['b'] []])).getElementName 1 = .ok ['b'] := by decide +kernel

/-! ## Numbers and truth values -/

/-- White space. -/
def Blank (s : List Char) : Prop := ∀ c ∈ s, Info.isSpace c = true

/-- The text is the decimal numeral of an integer, with an optional sign and white space around. -/
def Numeral (z : ℤ) (s : List Char) : Prop :=
  ∃ pre post w ds, Blank pre ∧ Blank post ∧ ds ≠ [] ∧ Info.Decimal ds w ∧
    ((s = pre ++ w ++ post ∧ z = Info.value ds) ∨ (s = pre ++ ('+' :: w) ++ post ∧ z = Info.value ds) ∨
      (s = pre ++ ('-' :: w) ++ post ∧ z = -(Info.value ds : ℤ)))

theorem takeWhile_true {f : Char → Bool} {c : Char} (l : List Char) (h : c ∈ l.takeWhile f) :
    f c = true := by
  induction l with
  | nil => simp at h
  | cons x xs ih =>
    rw [List.takeWhile_cons] at h
    split at h
    · rcases List.mem_cons.mp h with rfl | h
      · assumption
      · exact ih h
    · simp at h

theorem trim_spec (s : List Char) : ∃ pre post, Blank pre ∧ Blank post ∧ s = pre ++ trim s ++ post := by
  refine ⟨s.takeWhile Info.isSpace, ((s.dropWhile Info.isSpace).reverse.takeWhile Info.isSpace).reverse,
    ?_, ?_, ?_⟩
  · intro c hc
    exact takeWhile_true _ hc
  · intro c hc
    rw [List.mem_reverse] at hc
    exact takeWhile_true _ hc
  · unfold trim
    rw [List.append_assoc, ← List.reverse_append, List.takeWhile_append_dropWhile, List.reverse_reverse,
      List.takeWhile_append_dropWhile]

theorem trim_blank {pre post w : List Char} (hp : Blank pre) (hq : Blank post) (hw : w ≠ [])
    (hh : ∀ c ∈ w.head?, Info.isSpace c = false) (hl : ∀ c ∈ w.getLast?, Info.isSpace c = false) :
    trim (pre ++ w ++ post) = w := by
  unfold trim
  rw [List.append_assoc, List.dropWhile_append_of_pos hp]
  have h1 : (w ++ post).dropWhile Info.isSpace = w ++ post := by
    cases w with
    | nil => exact absurd rfl hw
    | cons c cs =>
      have := hh c rfl
      simp [this]
  rw [h1, List.reverse_append, List.dropWhile_append_of_pos (by
    intro c hc; exact hq c (List.mem_reverse.mp hc))]
  have h2 : w.reverse.dropWhile Info.isSpace = w.reverse := by
    cases hr : w.reverse with
    | nil => rfl
    | cons c cs =>
      have : w.getLast? = some c := by
        rw [← List.head?_reverse, hr]; rfl
      have := hl c this
      simp [this]
  rw [h2, List.reverse_reverse]

theorem digit_some {c : Char} {d : ℕ} (h : Info.digit c = some d) :
    d < 10 ∧ c = Char.ofNat (d + 48) := by
  unfold Info.digit at h
  split at h
  · rename_i hc
    injection h with h
    have h0 : 48 ≤ c.toNat := hc.1
    have h9 : c.toNat ≤ 57 := hc.2
    have h48 : '0'.toNat = 48 := rfl
    rw [h48] at h
    refine ⟨by omega, ?_⟩
    rw [← h, Nat.sub_add_cancel h0]
    exact (Char.ofNat_toNat c).symm
  · exact absurd h (by simp)

theorem digits_iff (s : List Char) (acc n : ℕ) :
    digits s acc = some n ↔ ∃ ds, Info.Decimal ds s ∧ n = Info.value ds + 10 ^ ds.length * acc := by
  induction s generalizing acc n with
  | nil =>
    simp only [digits, Option.some.injEq]
    constructor
    · rintro rfl
      exact ⟨[], ⟨by simp, rfl⟩, by simp [Info.value]⟩
    · rintro ⟨ds, ⟨_, h⟩, rfl⟩
      have : ds = [] := by
        cases ds with
        | nil => rfl
        | cons => simp at h
      subst this
      simp [Info.value]
  | cons c cs ih =>
    have hval : ∀ (d : ℕ) (ds : List ℕ) (acc : ℕ), Info.value ds + 10 ^ ds.length * (10 * acc + d) =
        Info.value (d :: ds) + 10 ^ (d :: ds).length * acc := by
      intro d ds acc
      unfold Info.value
      rw [List.reverse_cons, Nat.ofDigits_append]
      simp only [List.length_reverse, List.length_cons, Nat.ofDigits_singleton, pow_succ]
      ring
    simp only [digits]
    cases hd : Info.digit c with
    | none =>
      simp only [reduceCtorEq, false_iff, not_exists, not_and]
      rintro ds ⟨h, he⟩ _
      cases ds with
      | nil => simp at he
      | cons d ds =>
        simp only [List.map_cons, List.cons.injEq] at he
        rw [he.1, Info.digit_ofNat (h d (by simp))] at hd
        exact absurd hd (by simp)
    | some d =>
      obtain ⟨hlt, hc⟩ := digit_some hd
      simp only
      rw [ih]
      constructor
      · rintro ⟨ds, ⟨h, he⟩, rfl⟩
        refine ⟨d :: ds, ⟨?_, ?_⟩, hval d ds acc⟩
        · intro x hx
          rcases List.mem_cons.mp hx with rfl | hx
          · exact hlt
          · exact h x hx
        · simp [he, hc]
      · rintro ⟨ds, ⟨h, he⟩, rfl⟩
        cases ds with
        | nil => simp at he
        | cons e ds =>
          simp only [List.map_cons, List.cons.injEq] at he
          have hde : d = e := by
            have := Info.digit_ofNat (h e (by simp))
            rw [← he.1, hd] at this
            exact Option.some.inj this
          subst hde
          exact ⟨ds, ⟨fun x hx => h x (by simp [hx]), he.2⟩, (hval d ds acc).symm⟩

theorem unsigned_iff (s : List Char) (n : ℕ) :
    unsigned s = some n ↔ ∃ ds, ds ≠ [] ∧ Info.Decimal ds s ∧ n = Info.value ds := by
  unfold unsigned
  cases s with
  | nil =>
    simp only [List.isEmpty_nil, if_true, reduceCtorEq, false_iff, not_exists, not_and]
    rintro ds hne ⟨_, h⟩
    cases ds with
    | nil => exact absurd rfl hne
    | cons => simp at h
  | cons c cs =>
    simp only [List.isEmpty_cons, Bool.false_eq_true, if_false, digits_iff, Nat.mul_zero, Nat.add_zero]
    constructor
    · rintro ⟨ds, h, rfl⟩
      refine ⟨ds, ?_, h, rfl⟩
      rintro rfl
      simpa using h.2
    · rintro ⟨ds, _, h, rfl⟩
      exact ⟨ds, h, rfl⟩

theorem Decimal.head {ds : List ℕ} {s : List Char} (h : Info.Decimal ds s) :
    ∀ c ∈ s, Info.isSpace c = false ∧ c ≠ '-' ∧ c ≠ '+' := by
  obtain ⟨h, rfl⟩ := h
  intro c hc
  obtain ⟨d, hd, rfl⟩ := List.mem_map.mp hc
  exact Info.space_ofNat (h d hd)

theorem Decimal.ne {ds : List ℕ} {s : List Char} (h : Info.Decimal ds s) (hne : ds ≠ []) : s ≠ [] := by
  obtain ⟨h, rfl⟩ := h
  simpa using hne

theorem signed_trim (s : List Char) (z : ℤ) : signed (trim s) = some z ↔ Numeral z s := by
  constructor
  · intro hv
    obtain ⟨pre, post, hp, hq, he⟩ := trim_spec s
    unfold signed at hv
    split at hv
    · rename_i cs hcs
      rw [hcs] at he
      rw [Option.map_eq_some_iff] at hv
      obtain ⟨n, hn, rfl⟩ := hv
      obtain ⟨ds, hne, hd, rfl⟩ := (unsigned_iff _ _).mp hn
      exact ⟨pre, post, cs, ds, hp, hq, hne, hd, Or.inr (Or.inr ⟨he, rfl⟩)⟩
    · rename_i cs hcs
      rw [hcs] at he
      rw [Option.map_eq_some_iff] at hv
      obtain ⟨n, hn, rfl⟩ := hv
      obtain ⟨ds, hne, hd, rfl⟩ := (unsigned_iff _ _).mp hn
      exact ⟨pre, post, cs, ds, hp, hq, hne, hd, Or.inr (Or.inl ⟨he, rfl⟩)⟩
    · rw [Option.map_eq_some_iff] at hv
      obtain ⟨n, hn, rfl⟩ := hv
      obtain ⟨ds, hne, hd, rfl⟩ := (unsigned_iff _ _).mp hn
      exact ⟨pre, post, trim s, ds, hp, hq, hne, hd, Or.inl ⟨he, rfl⟩⟩
  · rintro ⟨pre, post, w, ds, hp, hq, hne, hd, h⟩
    have hw := Decimal.ne hd hne
    have hlast : ∀ c ∈ w.getLast?, Info.isSpace c = false := fun c hc =>
      (Decimal.head hd c (List.mem_of_getLast? hc)).1
    have hun := (unsigned_iff w _).mpr ⟨ds, hne, hd, rfl⟩
    have hlast' : ∀ x : Char, ∀ c ∈ (x :: w).getLast?, Info.isSpace c = false := by
      intro x c hc
      apply hlast
      cases w with
      | nil => exact absurd rfl hw
      | cons y ys => simpa using hc
    have hsign : Info.isSpace '+' = false ∧ Info.isSpace '-' = false := by decide
    rcases h with ⟨rfl, rfl⟩ | ⟨rfl, rfl⟩ | ⟨rfl, rfl⟩
    · rw [trim_blank hp hq hw (fun c hc => (Decimal.head hd c (List.mem_of_mem_head? hc)).1) hlast]
      unfold signed
      split
      · exact absurd rfl (Decimal.head hd '-' (by simp)).2.1
      · exact absurd rfl (Decimal.head hd '+' (by simp)).2.2
      · rw [hun]; rfl
    · rw [trim_blank hp hq (by simp) (by
        intro c hc
        simp only [List.head?_cons, Option.mem_def, Option.some.injEq] at hc
        rw [← hc]; exact hsign.1) (hlast' _)]
      simp only [signed, hun, Option.map_some]
    · rw [trim_blank hp hq (by simp) (by
        intro c hc
        simp only [List.head?_cons, Option.mem_def, Option.some.injEq] at hc
        rw [← hc]; exact hsign.2) (hlast' _)]
      simp only [signed, hun, Option.map_some]

theorem lexicalInt_trim (s : List Char) (z : ℤ) :
    lexicalInt (trim s) = some z ↔ Numeral z s ∧ -2 ^ 31 ≤ z ∧ z < 2 ^ 31 := by
  rw [← signed_trim]
  unfold lexicalInt
  cases signed (trim s) with
  | none => simp
  | some v =>
    rw [Option.bind_some, Option.some.injEq]
    by_cases hr : -2 ^ 31 ≤ v ∧ v < 2 ^ 31
    · rw [if_pos hr, Option.some.injEq]
      constructor
      · rintro rfl; exact ⟨rfl, hr⟩
      · exact fun h => h.1
    · rw [if_neg hr]
      constructor
      · intro h; exact absurd h (by simp)
      · rintro ⟨rfl, h⟩; exact absurd h hr

/-- C96 (integers).  `Query<int>` returns a number exactly if the text is its decimal numeral, with an
optional sign and any white space around, in the range of `int`; it fails as `GetString` does, and with
`bad_lexical_cast` on all other texts. -/
theorem C96_int (t : Tree) (q : Query) (i : ℤ) :
    (∀ z, queryInt t q i = .ok z ↔
      ∃ s, t.getString q i = .ok s ∧ Numeral z s ∧ -2 ^ 31 ≤ z ∧ z < 2 ^ 31) ∧
    (∀ e, t.getString q i = .error e → queryInt t q i = .error e) ∧
    (∀ s, t.getString q i = .ok s → (¬ ∃ z, Numeral z s ∧ -2 ^ 31 ≤ z ∧ z < 2 ^ 31) →
      queryInt t q i = .error .lexical) := by
  unfold queryInt
  cases t.getString q i with
  | error e => simp
  | ok s =>
    refine ⟨?_, by simp, ?_⟩
    · intro z
      simp only [Except.ok.injEq, exists_eq_left']
      rw [← lexicalInt_trim]
      cases lexicalInt (trim s) <;> simp [lexical]
    · intro s' hs' h
      injection hs' with hs'
      subst hs'
      cases hl : lexicalInt (trim s) with
      | none => simp only [hl, lexical]
      | some z => exact absurd ⟨z, (lexicalInt_trim s z).mp hl⟩ h

/-- A case of `C96_int`. -/
example : Numeral (-12) [' ', '-', '1', '2', '\n'] :=
  ⟨[' '], ['\n'], ['1', '2'], [1, 2], by simp [Blank, Info.isSpace], by simp [Blank, Info.isSpace],
    by simp, ⟨by decide, by decide⟩, Or.inr (Or.inr ⟨rfl, by simp [Info.value, Nat.ofDigits]⟩)⟩

/-- Equal up to the case of ASCII letters. -/
def SameLetters (s w : List Char) : Prop := s.map lower = w

/-- The words for true: of XML Schema, and `t`. -/
def TrueWord (s : List Char) : Prop :=
  ∃ w ∈ [['t', 'r', 'u', 'e'], ['t'], ['1']], SameLetters s w

theorem lower_space (c : Char) : Info.isSpace c = true → Info.isSpace (lower c) = true := by
  intro h
  have : lower c = c := by
    unfold lower
    rw [if_neg]
    rintro ⟨h1, h2⟩
    have h1 : 65 ≤ c.toNat := h1
    unfold Info.isSpace at h
    simp only [decide_eq_true_eq] at h
    rcases h with rfl | rfl | rfl | rfl | rfl | rfl <;> revert h1 <;> decide
  rwa [this]

theorem trueWord_trim (s : List Char) :
    (((trim s).map lower = ['t', 'r', 'u', 'e'] ∨ (trim s).map lower = ['t'] ∨
      (trim s).map lower = ['1'])) ↔
      ∃ pre w post, Blank pre ∧ Blank post ∧ TrueWord w ∧ s = pre ++ w ++ post := by
  have hT : ∀ w, TrueWord w ↔ (w.map lower = ['t', 'r', 'u', 'e'] ∨ w.map lower = ['t'] ∨
      w.map lower = ['1']) := by
    intro w
    simp [TrueWord, SameLetters]
  rw [← hT]
  constructor
  · intro h
    obtain ⟨pre, post, hp, hq, he⟩ := trim_spec s
    exact ⟨pre, trim s, post, hp, hq, h, he⟩
  · rintro ⟨pre, w, post, hp, hq, hw, rfl⟩
    have hns : ∀ c ∈ w, Info.isSpace c = false := by
      intro c hc
      have hm : lower c ∈ w.map lower := List.mem_map_of_mem hc
      rcases (hT w).mp hw with h | h | h <;> rw [h] at hm <;>
        simp only [List.mem_cons, List.not_mem_nil, or_false] at hm <;>
        (rw [Bool.eq_false_iff]; intro hcs; have h2 := lower_space c hcs)
      · rcases hm with hm | hm | hm | hm <;> rw [hm] at h2 <;> revert h2 <;> decide
      · rw [hm] at h2; revert h2; decide
      · rw [hm] at h2; revert h2; decide
    have hne : w ≠ [] := by
      rintro rfl
      simp [TrueWord, SameLetters] at hw
    rw [trim_blank hp hq hne (fun c hc => hns c (List.mem_of_mem_head? hc))
      (fun c hc => hns c (List.mem_of_getLast? hc))]
    exact hw

theorem find_one {t : Tree} {q : Query} {m : Node} (h : t.find q = [m]) :
    t.getString q 0 = content m := by
  rw [getString_eq t q 0 (by omega) (by omega) (by rw [h]; norm_num), h]
  simp

/-- C96 (optional parameters).  If nothing matches, the default is returned.  If exactly one element
matches, the value is that of its text, as with `Query`.  Truth values are those of the first match:
true exactly if the text is `true`, `t` or `1` in any case with any white space around.  Errors of `GetString` are passed on.
The full statement says that the value of the file is used whenever there is one; see
`C96_fails_twice` and `C96_fails_text`. -/
theorem C96_optional_partial (dbl : List Char → Option ℚ) (t : Tree) (q : Query) (z : ℤ) (x : ℚ)
    (s : List Char) (b : Bool) :
    (t.find q = [] → optionalInt t q z = .ok z ∧ optionalDouble dbl t q x = .ok x ∧
      optionalString t q s = .ok s ∧ optionalBool t q b = .ok b) ∧
    (∀ m, t.find q = [m] → optionalInt t q z = queryInt t q 0 ∧
      optionalDouble dbl t q x = queryDouble dbl t q 0 ∧ optionalString t q s = t.getString q 0 ∧
      (∀ w, t.getString q 0 = .ok w → (∀ v, queryDouble dbl t q 0 = .ok v ↔
        dbl (trim w) = some v))) ∧
    (t.find q ≠ [] → (∀ e, t.getString q 0 = .error e → optionalBool t q b = .error e) ∧
      (∀ w, t.getString q 0 = .ok w → ∃ r, optionalBool t q b = .ok r ∧
        (r = true ↔ ∃ pre v post, Blank pre ∧ Blank post ∧ TrueWord v ∧ w = pre ++ v ++ post))) := by
  refine ⟨?_, ?_, ?_⟩
  · intro h
    have hn : t.nMatches q = 0 := by unfold Tree.nMatches; rw [h]; rfl
    simp [optionalInt, optionalDouble, optionalString, optionalBool, hn]
  · intro m h
    have hn : t.nMatches q = 1 := by unfold Tree.nMatches; rw [h]; rfl
    refine ⟨?_, ?_, ?_, ?_⟩
    · unfold optionalInt queryInt; rw [if_pos hn]
    · unfold optionalDouble queryDouble; rw [if_pos hn]
    · unfold optionalString; rw [if_pos hn]
    · intro w hw v
      unfold queryDouble
      rw [hw]
      simp only
      cases dbl (trim w) <;> simp [lexical]
  · intro hne
    have hn : t.nMatches q ≠ 0 := by
      unfold Tree.nMatches
      intro h
      exact hne (List.eq_nil_of_length_eq_zero h)
    constructor
    · intro e he
      unfold optionalBool
      rw [if_neg hn, he]
    · intro w hw
      unfold optionalBool
      rw [if_neg hn, hw]
      refine ⟨_, rfl, ?_⟩
      rw [← trueWord_trim]
      simp only [decide_eq_true_eq]

/-- A case of `C96_optional_partial`: ` True `. -/
example : optionalBool (Tree.new (.element ['r'] [.element ['b'] [.text [' ', 'T', 'r', 'u', 'e', ' ']]]))
    (.child ['b']) false = .ok true := by decide +kernel

/-- C96 disagreement: an optional parameter that is given twice is silently replaced by its default,
whatever the two values are; only for truth values the first is used. -/
theorem C96_fails_twice (dbl : List Char → Option ℚ) (t : Tree) (q : Query) (h : 2 ≤ (t.find q).length)
    (z : ℤ) (x : ℚ) (s : List Char) :
    optionalInt t q z = .ok z ∧ optionalDouble dbl t q x = .ok x ∧ optionalString t q s = .ok s ∧
    ∃ t q z, queryInt t q 0 = .ok 5 ∧ queryInt t q 1 = .ok 5 ∧ optionalInt t q z ≠ .ok 5 := by
  have hn : t.nMatches q ≠ 1 := by unfold Tree.nMatches; omega
  refine ⟨by unfold optionalInt; rw [if_neg hn], by unfold optionalDouble; rw [if_neg hn],
    by unfold optionalString; rw [if_neg hn],
    Tree.new (.element ['r'] [.element ['n'] [.text ['5']], .element ['n'] [.text ['5']]]),
    .child ['n'], 7, by decide +kernel, by decide +kernel, by decide +kernel⟩

/-- A case of `C96_fails_twice`. -/
example : 2 ≤ ((Tree.new (.element ['r'] [.element ['n'] [.text ['5']],
    .element ['n'] [.text ['6']]])).find (.child ['n'])).length := by decide +kernel

/-- C96 disagreement: the text of an element cannot be read if it is empty, if a comment stands beside
it, or if it is a CDATA section. -/
theorem C96_fails_text (x s c : List Char) :
    (Tree.new (.element ['r'] [.element x []])).getString (.child x) 0 = .error (.err .value) ∧
    (Tree.new (.element ['r'] [.element x [.text s, .comment c]])).getString (.child x) 0 =
      .error (.err .value) ∧
    (Tree.new (.element ['r'] [.element x [.cdata s]])).getString (.child x) 0 =
      .error (.err .cast) := by
  have hf : ∀ cs, (Tree.new (.element ['r'] [.element x cs])).find (.child x) = [.element x cs] := by
    intro cs
    simp [Tree.find, Tree.new, Query.child, descend, Node.children, Step.selects]
  exact ⟨find_one (hf _), find_one (hf _), find_one (hf _)⟩

/-- A case of `C96_fails_text`. -/
example : (['n'] : List Char) ≠ [] := by decide

/-! ## Recipes -/

/-- What a child `nuclide` of the recipe says: its nuclide and amount. -/
def Says (nuc : List Char → Except Fail ℤ) (num : List Char → ℚ) (t : Tree) (i : ℕ) (k : ℤ) (v : ℚ) :
    Prop :=
  ∃ n, (t.find (.child ['n', 'u', 'c', 'l', 'i', 'd', 'e']))[i]? = some n ∧ ∃ id c,
    (⟨t.root, n⟩ : Tree).getString (.child ['i', 'd']) 0 = .ok id ∧ nuc id = .ok k ∧
    (⟨t.root, n⟩ : Tree).getString (.child ['c', 'o', 'm', 'p']) 0 = .ok c ∧ v = num c

theorem subTree_ok (t : Tree) (q : Query) (hn : (t.find q).length < 2 ^ 31) (i : ℕ)
    (hi : i < (t.find q).length) (u : Tree) (h : t.subTree q i = .ok u) :
    u.root = t.root ∧ (t.find q)[i]? = some u.cur := by
  have key : t.subTree q i = _ := access (t.find q) (by omega) i (by omega) (by omega)
      (asTree t.root)
  rw [key] at h
  rw [if_neg (by omega), if_neg (by omega), Int.toNat_natCast, List.getElem?_eq_getElem hi] at h
  obtain ⟨h1, h2, _⟩ := (asTree_ok _ _ _).mp h
  rw [List.getElem?_eq_getElem hi, h2]
  exact ⟨h1, rfl⟩

theorem says_nuclide (nuc : List Char → Except Fail ℤ) (num : List Char → ℚ) (t : Tree)
    (v : List (ℤ × ℚ)) (i : ℕ)
    (hn : (t.find (.child ['n', 'u', 'c', 'l', 'i', 'd', 'e'])).length < 2 ^ 31) (k : ℤ) (x : ℚ)
    (h : Says nuc num t i k x) : nuclide nuc num t v i = .ok (put v k x) := by
  obtain ⟨n, h1, id, c, h2, h3, h4, rfl⟩ := h
  have hi := (List.getElem?_eq_some_iff.mp h1).1
  have hsub : t.subTree (.child ['n', 'u', 'c', 'l', 'i', 'd', 'e']) i = .ok ⟨t.root, n⟩ := by
    have key : t.subTree (.child ['n', 'u', 'c', 'l', 'i', 'd', 'e']) i = _ :=
      access (t.find _) (by omega) i (by omega) (by omega) (asTree t.root)
    rw [key, if_neg (by omega), if_neg (by omega), Int.toNat_natCast, h1]
    refine (asTree_ok _ _ _).mpr ⟨rfl, rfl, ?_⟩
    exact (C96_find t (.child ['n', 'u', 'c', 'l', 'i', 'd', 'e']) _ rfl).2 (by simp [Query.child]) n
      (List.mem_of_getElem? h1)
  unfold nuclide
  rw [hsub]
  simp only [h2, h3, h4]

theorem nuclide_ok (nuc : List Char → Except Fail ℤ) (num : List Char → ℚ) (t : Tree)
    (v w : List (ℤ × ℚ)) (i : ℕ)
    (hn : (t.find (.child ['n', 'u', 'c', 'l', 'i', 'd', 'e'])).length < 2 ^ 31)
    (hi : i < (t.find (.child ['n', 'u', 'c', 'l', 'i', 'd', 'e'])).length)
    (h : nuclide nuc num t v i = .ok w) :
    ∃ k x, Says nuc num t i k x ∧ w = put v k x := by
  unfold nuclide at h
  cases hs : t.subTree (.child ['n', 'u', 'c', 'l', 'i', 'd', 'e']) i with
  | error e => rw [hs] at h; simp at h
  | ok u =>
    obtain ⟨h1, h2⟩ := subTree_ok t _ hn i hi u hs
    have hu : (⟨t.root, u.cur⟩ : Tree) = u := by rw [← h1]
    rw [hs] at h
    simp only at h
    cases hid : u.getString (.child ['i', 'd']) 0 with
    | error e => rw [hid] at h; simp at h
    | ok id =>
      rw [hid] at h
      simp only at h
      cases hk : nuc id with
      | error e => rw [hk] at h; simp at h
      | ok k =>
        rw [hk] at h
        simp only at h
        cases hc : u.getString (.child ['c', 'o', 'm', 'p']) 0 with
        | error e => rw [hc] at h; simp at h
        | ok c =>
          rw [hc] at h
          injection h with h
          exact ⟨k, num c, ⟨u.cur, h2, id, c, by rw [hu]; exact hid, hk, by rw [hu]; exact hc, rfl⟩,
            h.symm⟩

/-- The map says about each nuclide what its last of the first `n` entries said. -/
structure LastSaid (nuc : List Char → Except Fail ℤ) (num : List Char → ℚ) (t : Tree) (n : ℕ)
    (m : List (ℤ × ℚ)) : Prop where
  nodup : (m.map Prod.fst).Nodup
  all : ∀ i < n, ∃ k v, Says nuc num t i k v
  mem : ∀ k v, (k, v) ∈ m ↔ ∃ i < n, Says nuc num t i k v ∧
    ∀ j < n, i < j → ∀ v', ¬ Says nuc num t j k v'

theorem Says.unique {nuc : List Char → Except Fail ℤ} {num : List Char → ℚ} {t : Tree} {i : ℕ}
    {k k' : ℤ} {v v' : ℚ} (h : Says nuc num t i k v) (h' : Says nuc num t i k' v') :
    k = k' ∧ v = v' := by
  obtain ⟨n, h1, id, c, h2, h3, h4, h5⟩ := h
  obtain ⟨n', h1', id', c', h2', h3', h4', h5'⟩ := h'
  rw [h1] at h1'
  injection h1' with h1'
  subst h1'
  rw [h2] at h2'
  injection h2' with h2'
  subst h2'
  rw [h3] at h3'
  injection h3' with h3'
  rw [h4] at h4'
  injection h4' with h4'
  subst h4'
  exact ⟨h3', by rw [h5, h5']⟩

theorem LastSaid.put {nuc : List Char → Except Fail ℤ} {num : List Char → ℚ} {t : Tree} {n : ℕ}
    {m : List (ℤ × ℚ)} (h : LastSaid nuc num t n m) {k : ℤ} {v : ℚ} (hs : Says nuc num t n k v) :
    LastSaid nuc num t (n + 1) (put m k v) := by
  refine ⟨?_, ?_, ?_⟩
  · unfold Infile.put
    rw [List.map_cons, List.nodup_cons]
    constructor
    · intro hm
      obtain ⟨⟨a, b⟩, hab, rfl⟩ := List.mem_map.mp hm
      simp at hab
    · exact h.nodup.sublist (List.Sublist.map _ List.filter_sublist)
  · intro i hi
    rcases Nat.lt_succ_iff_lt_or_eq.mp hi with hi | rfl
    · exact h.all i hi
    · exact ⟨k, v, hs⟩
  · intro k' v'
    unfold Infile.put
    rw [List.mem_cons, List.mem_filter]
    simp only [Prod.mk.injEq, decide_eq_true_eq, ne_eq, decide_not, Bool.not_eq_eq_eq_not, Bool.not_true,
      decide_eq_false_iff_not]
    constructor
    · rintro (⟨rfl, rfl⟩ | ⟨hm, hk⟩)
      · exact ⟨n, by omega, hs, fun j hj hnj => by omega⟩
      · obtain ⟨i, hi, hsi, hlast⟩ := (h.mem k' v').mp hm
        refine ⟨i, by omega, hsi, ?_⟩
        intro j hj hij w hw
        rcases Nat.lt_succ_iff_lt_or_eq.mp hj with hj | rfl
        · exact hlast j hj hij w hw
        · exact hk (hs.unique hw).1.symm
    · rintro ⟨i, hi, hsi, hlast⟩
      rcases Nat.lt_succ_iff_lt_or_eq.mp hi with hi | rfl
      · by_cases hk : k' = k
        · subst hk
          exact absurd hs (hlast n (by omega) hi v)
        · exact Or.inr ⟨(h.mem k' v').mpr ⟨i, hi, hsi, fun j hj => hlast j (by omega)⟩, hk⟩
      · obtain ⟨rfl, rfl⟩ := hs.unique hsi
        exact Or.inl ⟨rfl, rfl⟩

/-- C96 (recipes).  If `ReadRecipe` succeeds, the basis is exactly `atom` or `mass`, each child
`nuclide` has been read, and the composition has each of their nuclides once, with the amount given
last for it; so, if no nuclide is listed twice, exactly what the file says.  A basis with any other
text is refused with an `IOError`; with a valid basis and readable children it succeeds. -/
theorem C96_recipe (nuc : List Char → Except Fail ℤ) (num : List Char → ℚ) (t : Tree)
    (hn : (t.find (.child ['n', 'u', 'c', 'l', 'i', 'd', 'e'])).length < 2 ^ 31) :
    (∀ atom m, readRecipe nuc num t = .ok (atom, m) →
      t.getString (.child ['b', 'a', 's', 'i', 's']) 0 =
        .ok (if atom then ['a', 't', 'o', 'm'] else ['m', 'a', 's', 's']) ∧
      LastSaid nuc num t (t.find (.child ['n', 'u', 'c', 'l', 'i', 'd', 'e'])).length m ∧
      ((∀ i j k v v', Says nuc num t i k v → Says nuc num t j k v' → i = j) →
        ∀ k v, (k, v) ∈ m ↔ ∃ i, Says nuc num t i k v)) ∧
    (∀ s, t.getString (.child ['b', 'a', 's', 'i', 's']) 0 = .ok s → s ≠ ['a', 't', 'o', 'm'] →
      s ≠ ['m', 'a', 's', 's'] → readRecipe nuc num t = .error (.err .io)) ∧
    (∀ s, t.getString (.child ['b', 'a', 's', 'i', 's']) 0 = .ok s →
      s = ['a', 't', 'o', 'm'] ∨ s = ['m', 'a', 's', 's'] →
      (∀ i < (t.find (.child ['n', 'u', 'c', 'l', 'i', 'd', 'e'])).length, ∃ k v, Says nuc num t i k v) →
      ∃ r, readRecipe nuc num t = .ok r) := by
  refine ⟨?_, ?_, ?_⟩
  · intro atom m h
    unfold readRecipe at h
    cases hb : t.getString (.child ['b', 'a', 's', 'i', 's']) 0 with
    | error e => rw [hb] at h; simp at h
    | ok b =>
      rw [hb] at h
      simp only at h
      by_cases hbb : b = ['a', 't', 'o', 'm'] ∨ b = ['m', 'a', 's', 's']
      · rw [if_pos hbb] at h
        have hloop : ∀ n ≤ (t.find (.child ['n', 'u', 'c', 'l', 'i', 'd', 'e'])).length, ∀ w,
            (List.range n).foldlM (nuclide nuc num t) [] = .ok w → LastSaid nuc num t n w := by
          intro n
          induction n with
          | zero =>
            intro _ w hw
            simp only [List.range_zero, List.foldlM_nil] at hw
            cases hw
            exact ⟨by simp, by simp, by simp⟩
          | succ n ih =>
            intro hle w hw
            rw [List.range_succ, List.foldlM_append] at hw
            cases hp : (List.range n).foldlM (nuclide nuc num t) [] with
            | error e =>
              rw [hp] at hw
              cases hw
            | ok u =>
              rw [hp] at hw
              have hw' : nuclide nuc num t u n = .ok w := by
                cases hq : nuclide nuc num t u n with
                | error e =>
                  simp only [List.foldlM_cons, bind, Except.bind, hq] at hw
                  cases hw
                | ok x =>
                  simp only [List.foldlM_cons, bind, Except.bind, hq, List.foldlM_nil, pure,
                    Except.pure] at hw
                  exact hw
              obtain ⟨k, x, hs, rfl⟩ := nuclide_ok nuc num t u w n hn (by omega) hw'
              exact (ih (by omega) u hp).put hs
        cases hf : (List.range (t.nMatches (.child ['n', 'u', 'c', 'l', 'i', 'd', 'e']))).foldlM
            (nuclide nuc num t) [] with
        | error e => rw [hf] at h; simp at h
        | ok w =>
          rw [hf] at h
          simp only [Except.ok.injEq, Prod.mk.injEq] at h
          obtain ⟨ha, rfl⟩ := h
          have hl := hloop _ le_rfl w hf
          refine ⟨?_, hl, ?_⟩
          · congr 1
            rcases hbb with rfl | rfl
            · simp at ha; simp [← ha]
            · simp at ha; simp [← ha]
          · intro huniq k v
            rw [hl.mem]
            constructor
            · rintro ⟨i, _, hs, _⟩
              exact ⟨i, hs⟩
            · rintro ⟨i, hs⟩
              have hi : i < (t.find (.child ['n', 'u', 'c', 'l', 'i', 'd', 'e'])).length := by
                obtain ⟨n, h1, _⟩ := hs
                exact (List.getElem?_eq_some_iff.mp h1).1
              refine ⟨i, hi, hs, ?_⟩
              intro j hj hij v' hv'
              have := huniq i j k v v' hs hv'
              omega
      · rw [if_neg hbb] at h
        simp at h
  · intro s hs h1 h2
    unfold readRecipe
    rw [hs]
    simp [h1, h2]
  · intro s hs hb hall
    have hloop : ∀ n ≤ (t.find (.child ['n', 'u', 'c', 'l', 'i', 'd', 'e'])).length, ∃ w,
        (List.range n).foldlM (nuclide nuc num t) [] = .ok w := by
      intro n
      induction n with
      | zero => exact fun _ => ⟨[], rfl⟩
      | succ n ih =>
        intro hle
        obtain ⟨w, hw⟩ := ih (by omega)
        obtain ⟨k, v, hkv⟩ := hall n (by omega)
        refine ⟨put w k v, ?_⟩
        rw [List.range_succ, List.foldlM_append, hw]
        simp only [List.foldlM_cons, bind, Except.bind, List.foldlM_nil, pure, Except.pure,
          says_nuclide nuc num t w n hn k v hkv]
    obtain ⟨w, hw⟩ := hloop _ le_rfl
    unfold readRecipe
    rw [hs]
    simp only
    rw [if_pos hb]
    have hw' : (List.range (t.nMatches (.child ['n', 'u', 'c', 'l', 'i', 'd', 'e']))).foldlM
        (nuclide nuc num t) [] = .ok w := hw
    rw [hw']
    exact ⟨_, rfl⟩

/-- A recipe with two nuclides. -/
def sample (basis a b : List Char) : Tree := Tree.new (.element ['r'] [
  .element ['b', 'a', 's', 'i', 's'] [.text basis],
  .element ['n', 'u', 'c', 'l', 'i', 'd', 'e'] [.element ['i', 'd'] [.text a],
    .element ['c', 'o', 'm', 'p'] [.text ['1']]],
  .element ['n', 'u', 'c', 'l', 'i', 'd', 'e'] [.element ['i', 'd'] [.text b],
    .element ['c', 'o', 'm', 'p'] [.text ['3']]]])

/-- Numbers of one digit, for examples. -/
def one (s : List Char) : ℕ := (s.head?.bind Info.digit).getD 0

/-- A case of `C96_recipe`. -/
example : readRecipe (fun s => .ok (one s)) (fun s => one s)
    (sample ['m', 'a', 's', 's'] ['1'] ['2']) = .ok (false, [(2, 3), (1, 1)]) := by decide +kernel

/-- C96 disagreement: of a nuclide that is listed twice, only the last amount is kept instead of the
sum, without an error; and white space around the basis, allowed around numbers, is refused. -/
theorem C96_fails_recipe :
    readRecipe (fun s => .ok (one s)) (fun s => one s) (sample ['m', 'a', 's', 's'] ['1'] ['1']) =
      .ok (false, [(1, 3)]) ∧
    readRecipe (fun s => .ok (one s)) (fun s => one s) (sample [' ', 'm', 'a', 's', 's'] ['1'] ['2']) =
      .error (.err .io) := by
  constructor <;> decide +kernel

/-- A case of `C96_fails_recipe`: the first amount is not zero. -/
example : one ['1'] = 1 ∧ one ['3'] = 3 := by decide +kernel

end Cyclus.Infile
