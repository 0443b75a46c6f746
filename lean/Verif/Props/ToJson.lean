import Verif.Props.ToXml
import Mathlib.Data.List.Lex
import Mathlib.Data.Char
import Mathlib.Data.List.Induction
import Mathlib.Order.Defs.LinearOrder

/-!
# C98: the JSON made from XML says the same, and converting back gives the same elements
-/

namespace Cyclus.Convert

open Infile (Node Fail)

/-- The name of an element. -/
def nodeName : Node → List Char
  | .element n _ => n
  | _ => []

/-- The values of siblings with the same name: one is a value, several are an array. -/
inductive Combine : List J → J → Prop
  | one (v : J) : Combine [v] v
  | more (a b : J) (r : List J) : Combine (a :: b :: r) (.arr (a :: b :: r))

/-- The members of an object made from named values in order: sorted by name, each name once, with the
values of this name combined in order. -/
structure Grouped (kvs : List (List Char × J)) (ms : List (List Char × J)) : Prop where
  sorted : ms.Pairwise fun a b => a.1 < b.1
  mem : ∀ k v, (k, v) ∈ ms ↔ Combine ((kvs.filter (·.1 = k)).map Prod.snd) v

/-- The value that an element stands for. -/
inductive Val : Node → J → Prop
  | text (n s : List Char) : Val (.element n [.text s]) (.str s)
  | empty (n : List Char) (cs : List Node) (he : ∀ c ∈ cs, c.isElement = false) (hl : cs.length ≠ 1) :
      Val (.element n cs) .null
  | obj (n : List Char) (cs : List Node) (pairs : List (Node × J)) (ms : List (List Char × J))
      (he : cs.filter Node.isElement = pairs.map Prod.fst) (hne : pairs ≠ [])
      (hv : ∀ p ∈ pairs, Val p.1 p.2)
      (hg : Grouped (pairs.map fun p => (nodeName p.1, p.2)) ms) : Val (.element n cs) (.obj ms)

/-- Somewhere inside is an element whose only content is a comment or a CDATA section. -/
inductive Bad : Node → Prop
  | here (n : List Char) (c : Node) (h1 : c.isElement = false) (h2 : ∀ s, c ≠ .text s) :
      Bad (.element n [c])
  | deep (n : List Char) (cs : List Node) (c : Node) (hc : c ∈ cs) (h : Bad c) : Bad (.element n cs)

/-! ## Grouping -/

theorem addMember_mem (k : List Char) (v : J) (ms : List (List Char × J)) (m : List Char × J) :
    m ∈ addMember k v ms ↔ m = (k, v) ∨ m ∈ ms := by
  induction ms with
  | nil => simp [addMember]
  | cons a as ih =>
    unfold addMember
    split
    · simp
    · simp only [List.mem_cons, ih]
      tauto

theorem addMember_sorted (k : List Char) (v : J) (ms : List (List Char × J))
    (hs : ms.Pairwise fun a b => a.1 < b.1) (hk : ∀ m ∈ ms, m.1 ≠ k) :
    (addMember k v ms).Pairwise fun a b => a.1 < b.1 := by
  induction ms with
  | nil => simp [addMember]
  | cons a as ih =>
    rw [List.pairwise_cons] at hs
    unfold addMember
    by_cases h : k < a.1
    · have hn : nameLt k a.1 = true := by simp [nameLt, h]
      rw [if_pos hn, List.pairwise_cons, List.pairwise_cons]
      refine ⟨?_, hs⟩
      intro m hm
      rcases List.mem_cons.mp hm with rfl | hm
      · exact h
      · exact lt_trans h (hs.1 m hm)
    · have hn : ¬ nameLt k a.1 = true := by simp [nameLt, h]
      rw [if_neg hn, List.pairwise_cons]
      refine ⟨?_, ih hs.2 fun m hm => hk m (by simp [hm])⟩
      intro m hm
      rcases (addMember_mem _ _ _ _).mp hm with rfl | hm
      · exact lt_of_le_of_ne (not_lt.mp h) (hk a (by simp))
      · exact hs.1 m hm

theorem Combine.unique {vs : List J} {v w : J} (h : Combine vs v) (h' : Combine vs w) : v = w := by
  cases h <;> cases h' <;> rfl

theorem Combine.exists {vs : List J} (h : vs ≠ []) : ∃ v, Combine vs v := by
  match vs, h with
  | [v], _ => exact ⟨v, .one v⟩
  | a :: b :: r, _ => exact ⟨_, .more a b r⟩

theorem Combine.append {vs : List J} {old v : J} (h : Combine vs old)
    (hn : ∀ x ∈ vs, x.isArr = false) : Combine (vs ++ [v]) (appendTo old v) := by
  cases h with
  | one =>
    have := hn old (by simp)
    cases old with
    | arr => simp [J.isArr] at this
    | _ => exact .more _ _ _
  | more a b r => exact .more a b (r ++ [v])

theorem grouped_fold (kvs : List (List Char × J)) (hn : ∀ p ∈ kvs, p.2.isArr = false) :
    Grouped kvs (kvs.foldl (fun ms p => insertOrAppend ms p.1 p.2) []) := by
  induction kvs using List.reverseRecOn with
  | nil =>
    refine ⟨by simp, ?_⟩
    intro k v
    simp only [List.foldl_nil, List.not_mem_nil, List.filter_nil, List.map_nil, false_iff]
    intro h
    cases h
  | append_singleton kvs p ih =>
    have ih := ih fun q hq => hn q (by simp [hq])
    rw [List.foldl_append, List.foldl_cons, List.foldl_nil]
    generalize kvs.foldl (fun ms p => insertOrAppend ms p.1 p.2) [] = ms at ih
    obtain ⟨k0, v0⟩ := p
    unfold insertOrAppend
    simp only
    by_cases hany : ms.any (·.1 = k0) = true
    · rw [if_pos hany]
      constructor
      · rw [List.pairwise_map]
        refine ih.sorted.imp ?_
        intro a b hab
        have hfst : ∀ m : List Char × J,
            (if m.1 = k0 then (k0, appendTo m.2 v0) else m).1 = m.1 := by
          intro m
          split
          · rename_i h; exact h.symm
          · rfl
        rw [hfst, hfst]
        exact hab
      · intro k v
        rw [List.filter_append, List.map_append, List.mem_map]
        by_cases hk : k0 = k
        · subst hk
          simp only [List.any_eq_true, decide_eq_true_eq] at hany
          obtain ⟨⟨k1, old⟩, hm, rfl⟩ := hany
          have hc := (ih.mem _ old).mp hm
          have hc' := hc.append (v := v0) (by
            intro x hx
            obtain ⟨q, hq, rfl⟩ := List.mem_map.mp hx
            exact hn q (by simp [(List.mem_filter.mp hq).1]))
          simp only [List.filter_cons, decide_true, if_true, List.filter_nil, List.map_cons, List.map_nil]
          constructor
          · rintro ⟨⟨k', w⟩, hw, he⟩
            by_cases hk' : k' = k1
            · subst hk'
              simp only [if_true, Prod.mk.injEq, true_and] at he
              rw [← he]
              have := ((ih.mem _ w).mp hw).unique hc
              rw [this]
              exact hc'
            · rw [if_neg hk'] at he
              simp only [Prod.mk.injEq] at he
              exact absurd he.1 hk'
          · intro h
            refine ⟨(k1, old), hm, ?_⟩
            rw [if_pos rfl, hc'.unique h]
        · have hf : [(k0, v0)].filter (fun x => decide (x.1 = k)) = [] := by simp [hk]
          rw [hf, List.map_nil, List.append_nil, ← ih.mem]
          constructor
          · rintro ⟨⟨k', w⟩, hw, he⟩
            by_cases hk' : k' = k0
            · subst hk'
              simp only [if_true, Prod.mk.injEq] at he
              exact absurd he.1 hk
            · rw [if_neg hk'] at he
              rw [← he]
              exact hw
          · intro h
            refine ⟨(k, v), h, ?_⟩
            rw [if_neg (Ne.symm hk)]
    · rw [if_neg hany]
      have hno : ∀ m ∈ ms, m.1 ≠ k0 := by
        intro m hm he
        apply hany
        rw [List.any_eq_true]
        exact ⟨m, hm, by simp [he]⟩
      refine ⟨addMember_sorted _ _ _ ih.sorted hno, ?_⟩
      intro k v
      rw [List.filter_append, List.map_append, addMember_mem]
      by_cases hk : k0 = k
      · subst hk
        have hempty : (kvs.filter (·.1 = k0)).map Prod.snd = [] := by
          by_contra hne
          obtain ⟨w, hw⟩ := Combine.exists hne
          exact hno (k0, w) ((ih.mem _ _).mpr hw) rfl
        rw [hempty]
        simp only [List.filter_cons, decide_true, if_true, List.filter_nil, List.map_cons, List.map_nil,
          List.nil_append, Prod.mk.injEq, true_and]
        constructor
        · rintro (rfl | h)
          · exact .one _
          · exact absurd rfl (hno _ h)
        · intro h
          cases h
          exact Or.inl rfl
      · have hf : [(k0, v0)].filter (fun x => decide (x.1 = k)) = [] := by simp [hk]
        rw [hf, List.map_nil, List.append_nil, ← ih.mem]
        constructor
        · rintro (h | h)
          · simp only [Prod.mk.injEq] at h
            exact absurd h.1.symm hk
          · exact h
        · exact Or.inr

theorem Val.notArr {x : Node} {j : J} (h : Val x j) : j.isArr = false := by
  cases h <;> rfl

theorem leaf_ok {n : List Char} {cs : List Node} (he : (cs.filter Node.isElement).isEmpty = true)
    {v : J} (h : leaf n cs = .ok v) : Val (.element n cs) v := by
  have hall : ∀ c ∈ cs, c.isElement = false := by
    intro c hc
    rw [List.isEmpty_iff, List.filter_eq_nil_iff] at he
    simpa using he c hc
  unfold leaf at h
  match cs, he, hall, h with
  | [], _, hall, h =>
    simp only [Infile.content, Except.ok.injEq] at h
    subst h
    exact .empty n [] hall (by simp)
  | [.text s], _, _, h =>
    simp only [Infile.content, Except.ok.injEq] at h
    subst h
    exact .text n s
  | [.element a b], _, hall, _ => exact absurd (hall (.element a b) (by simp)) (by simp [Node.isElement])
  | [.cdata s], _, _, h => simp [Infile.content] at h
  | [.comment s], _, _, h => simp [Infile.content] at h
  | a :: b :: r, _, hall, h =>
    simp only [Infile.content, Except.ok.injEq] at h
    subst h
    exact .empty n _ hall (by simp)

theorem addXml_spec : (cs : List Node) → (acc : List (List Char × J)) → ∀ ms, addXml cs acc = .ok ms →
    ∃ pairs : List (Node × J), cs.filter Node.isElement = pairs.map Prod.fst ∧
      (∀ p ∈ pairs, Val p.1 p.2) ∧
      ms = (pairs.map fun p => (nodeName p.1, p.2)).foldl (fun ms p => insertOrAppend ms p.1 p.2) acc
  | [], acc => by
    intro ms h
    rw [addXml] at h
    injection h with h
    exact ⟨[], rfl, by simp, h.symm⟩
  | .element name cs :: rest, acc => by
    intro ms h
    rw [addXml] at h
    have ih1 := addXml_spec cs []
    by_cases he : (cs.filter Node.isElement).isEmpty = true
    · rw [if_pos he] at h
      cases hl : leaf name cs with
      | error e => rw [hl] at h; simp at h
      | ok v =>
        rw [hl] at h
        obtain ⟨ps, h1, h2, h3⟩ := addXml_spec rest _ ms h
        refine ⟨(.element name cs, v) :: ps, ?_, ?_, ?_⟩
        · rw [List.filter_cons_of_pos rfl, h1]; rfl
        · intro p hp
          rcases List.mem_cons.mp hp with rfl | hp
          · exact leaf_ok he hl
          · exact h2 p hp
        · exact h3
    · rw [if_neg he] at h
      cases hl : addXml cs [] with
      | error e => rw [hl] at h; simp at h
      | ok sub =>
        rw [hl] at h
        obtain ⟨ps, h1, h2, h3⟩ := addXml_spec rest _ ms h
        obtain ⟨qs, g1, g2, g3⟩ := ih1 sub hl
        have hqs : qs ≠ [] := by
          rintro rfl
          apply he
          rw [g1]
          rfl
        refine ⟨(.element name cs, .obj sub) :: ps, ?_, ?_, ?_⟩
        · rw [List.filter_cons_of_pos rfl, h1]; rfl
        · intro p hp
          rcases List.mem_cons.mp hp with rfl | hp
          · refine .obj name cs qs sub g1 hqs g2 ?_
            rw [g3]
            apply grouped_fold
            intro p hp
            obtain ⟨q, hq, rfl⟩ := List.mem_map.mp hp
            exact (g2 q hq).notArr
          · exact h2 p hp
        · exact h3
  | .text s :: rest, acc => by
    intro ms h
    rw [addXml] at h
    · obtain ⟨ps, h1, h2, h3⟩ := addXml_spec rest acc ms h
      exact ⟨ps, by simpa [Node.isElement] using h1, h2, h3⟩
    · simp
  | .cdata s :: rest, acc => by
    intro ms h
    rw [addXml] at h
    · obtain ⟨ps, h1, h2, h3⟩ := addXml_spec rest acc ms h
      exact ⟨ps, by simpa [Node.isElement] using h1, h2, h3⟩
    · simp
  | .comment s :: rest, acc => by
    intro ms h
    rw [addXml] at h
    · obtain ⟨ps, h1, h2, h3⟩ := addXml_spec rest acc ms h
      exact ⟨ps, by simpa [Node.isElement] using h1, h2, h3⟩
    · simp

theorem leaf_error {n : List Char} {cs : List Node} (he : (cs.filter Node.isElement).isEmpty = true) :
    (Bad (.element n cs) → leaf n cs = .error (.err .cast)) ∧
    (¬ Bad (.element n cs) → ∃ v, leaf n cs = .ok v) := by
  have hall : ∀ c ∈ cs, c.isElement = false := by
    intro c hc
    rw [List.isEmpty_iff, List.filter_eq_nil_iff] at he
    simpa using he c hc
  unfold leaf
  constructor
  · intro h
    cases h with
    | here _ c h1 h2 =>
      cases c with
      | element a b => simp [Node.isElement] at h1
      | text s => exact absurd rfl (h2 s)
      | cdata s => rfl
      | comment s => rfl
    | deep _ _ c hc h =>
      have := hall c hc
      cases h <;> simp [Node.isElement] at this
  · intro h
    match cs, hall, h with
    | [], _, _ => exact ⟨_, rfl⟩
    | [.text s], _, _ => exact ⟨_, rfl⟩
    | [.element a b], hall, _ => exact absurd (hall (.element a b) (by simp)) (by simp [Node.isElement])
    | [.cdata s], _, h => exact absurd (.here n _ rfl (by simp)) h
    | [.comment s], _, h => exact absurd (.here n _ rfl (by simp)) h
    | a :: b :: r, _, _ => cases a <;> exact ⟨_, rfl⟩

theorem addXml_error : (cs : List Node) → (acc : List (List Char × J)) →
    ((∃ c ∈ cs, Bad c) → addXml cs acc = .error (.err .cast)) ∧
    ((¬ ∃ c ∈ cs, Bad c) → ∃ ms, addXml cs acc = .ok ms)
  | [], acc => by
    simp [addXml]
  | .element name cs :: rest, acc => by
    have ih1 := addXml_error cs []
    rw [addXml]
    by_cases he : (cs.filter Node.isElement).isEmpty = true
    · rw [if_pos he]
      by_cases hb : Bad (.element name cs)
      · rw [(leaf_error he).1 hb]
        exact ⟨fun _ => rfl, fun h => absurd ⟨_, by simp, hb⟩ h⟩
      · obtain ⟨v, hv⟩ := (leaf_error he).2 hb
        rw [hv]
        have ih := addXml_error rest (insertOrAppend acc name v)
        simpa [hb] using ih
    · rw [if_neg he]
      have hbad : Bad (.element name cs) ↔ ∃ c ∈ cs, Bad c := by
        constructor
        · intro h
          cases h with
          | here _ c h1 h2 => simp [h1] at he
          | deep _ _ c hc h => exact ⟨c, hc, h⟩
        · rintro ⟨c, hc, h⟩
          exact .deep _ _ c hc h
      by_cases hb : ∃ c ∈ cs, Bad c
      · rw [ih1.1 hb]
        exact ⟨fun _ => rfl, fun h => absurd ⟨_, by simp, hbad.mpr hb⟩ h⟩
      · obtain ⟨sub, hsub⟩ := ih1.2 hb
        rw [hsub]
        have hb' : ¬ Bad (.element name cs) := fun h => hb (hbad.mp h)
        have ih := addXml_error rest (insertOrAppend acc name (.obj sub))
        simpa [hb'] using ih
  | .text s :: rest, acc => by
    rw [addXml]
    · have hb : ¬ Bad (.text s) := by intro h; cases h
      simpa [hb] using addXml_error rest acc
    · simp
  | .cdata s :: rest, acc => by
    rw [addXml]
    · have hb : ¬ Bad (.cdata s) := by intro h; cases h
      simpa [hb] using addXml_error rest acc
    · simp
  | .comment s :: rest, acc => by
    rw [addXml]
    · have hb : ¬ Bad (.comment s) := by intro h; cases h
      simpa [hb] using addXml_error rest acc
    · simp

/-- C98 (values).  The conversion of a root element fails, with a `CastError`, exactly if somewhere
inside is an element whose only content is a comment or a CDATA section.  Otherwise it gives an object
with one member for the root, whose value is an object made of the child elements: each text is a
string, an element without text is null, an element with elements is an object, and the values of
siblings with the same name form an array in the order of the file. -/
theorem C98_values (name : List Char) (cs : List Node) :
    ((∃ c ∈ cs, Bad c) ↔ toJson name cs = .error (.err .cast)) ∧
    ((¬ ∃ c ∈ cs, Bad c) ↔ ∃ j, toJson name cs = .ok j) ∧
    (∀ j, toJson name cs = .ok j → ∃ (pairs : List (Node × J)) (ms : List (List Char × J)),
      j = .obj [(name, .obj ms)] ∧
      cs.filter Node.isElement = pairs.map Prod.fst ∧ (∀ p ∈ pairs, Val p.1 p.2) ∧
      Grouped (pairs.map fun p => (nodeName p.1, p.2)) ms) := by
  have h := addXml_error cs []
  unfold toJson
  refine ⟨⟨fun hb => by rw [h.1 hb], fun he => ?_⟩, ⟨fun hb => ?_, ?_⟩, ?_⟩
  · by_contra hb
    obtain ⟨ms, hms⟩ := h.2 hb
    rw [hms] at he
    simp at he
  · obtain ⟨ms, hms⟩ := h.2 hb
    rw [hms]
    exact ⟨_, rfl⟩
  · rintro ⟨j, hj⟩ hb
    rw [h.1 hb] at hj
    simp at hj
  · intro j hj
    cases hms : addXml cs [] with
    | error e => rw [hms] at hj; simp at hj
    | ok ms =>
      rw [hms] at hj
      injection hj with hj
      obtain ⟨ps, h1, h2, h3⟩ := addXml_spec cs [] ms hms
      refine ⟨ps, ms, hj.symm, h1, h2, ?_⟩
      rw [h3]
      apply grouped_fold
      intro p hp
      obtain ⟨q, hq, rfl⟩ := List.mem_map.mp hp
      exact (h2 q hq).notArr

/-- A case of `C98_values`: `<r><b>x</b><a/><b>y</b></r>`. -/
example : toJson ['r'] [.element ['b'] [.text ['x']], .element ['a'] [], .element ['b'] [.text ['y']]] =
    .ok (.obj [(['r'], .obj [(['a'], .null), (['b'], .arr [.str ['x'], .str ['y']])])]) := by
  have h : (['a'] : List Char) < ['b'] := by decide
  simp [h, toJson, addXml, leaf, Infile.content, insertOrAppend, addMember, appendTo, nameLt, Node.isElement]

/-! ## There and back -/

/-- The name of an element. -/
def X.name : X → List Char
  | .empty n => n
  | .text n _ => n
  | .node n _ => n

/-- The same element with the child elements sorted by name, those of the same name in the order of the
file, and without comments and the text between elements. -/
inductive Norm : Node → X → Prop
  | text (n s : List Char) : Norm (.element n [.text s]) (.text n s)
  | empty (n : List Char) (cs : List Node) (he : ∀ c ∈ cs, c.isElement = false) (hl : cs.length ≠ 1) :
      Norm (.element n cs) (.empty n)
  | node (n : List Char) (cs : List Node) (ps : List (Node × X)) (ys : List X)
      (he : cs.filter Node.isElement = ps.map Prod.fst) (hne : ps ≠ []) (hv : ∀ p ∈ ps, Norm p.1 p.2)
      (hs : ys.Pairwise fun a b => a.name ≤ b.name)
      (hf : ∀ k, ys.filter (fun y => y.name = k) = (ps.map Prod.snd).filter fun y => y.name = k) :
      Norm (.element n cs) (.node n ys)

/-- The element has only text. -/
def IsText : Node → Prop := fun x => ∃ n s, x = .element n [.text s]

/-- The element has elements inside. -/
def HasElements : Node → Prop := fun x => ∃ n cs, x = .element n cs ∧ ∃ c ∈ cs, c.isElement = true

/-- Elements that survive the way there and back: no text needs escaping, and of siblings with the same
name all have only text or all have elements. -/
inductive Nice : Node → Prop
  | text (n s : List Char) (h : Plain s) : Nice (.element n [.text s])
  | empty (n : List Char) (cs : List Node) (he : ∀ c ∈ cs, c.isElement = false) (hl : cs.length ≠ 1) :
      Nice (.element n cs)
  | node (n : List Char) (cs : List Node) (he : ∃ c ∈ cs, c.isElement = true)
      (hv : ∀ c ∈ cs, c.isElement = true → Nice c)
      (hg : ∀ k, ((cs.filter Node.isElement).filter fun c => nodeName c = k).length ≤ 1 ∨
        (∀ c ∈ cs, c.isElement = true → nodeName c = k → IsText c) ∨
        (∀ c ∈ cs, c.isElement = true → nodeName c = k → HasElements c)) : Nice (.element n cs)

variable (shown : ℚ → List Char)

theorem elementsItems_flatMap (n : List Char) (xs : List J) :
    elementsItems shown n xs = xs.flatMap (elements shown n) := by
  induction xs with
  | nil => rfl
  | cons x xs ih => simp [elementsItems, ih]

theorem elementsMembers_flatMap (ms : List (List Char × J)) :
    elementsMembers shown ms = ms.flatMap fun m => elements shown m.1 m.2 := by
  induction ms with
  | nil => rfl
  | cons m ms ih => obtain ⟨n, v⟩ := m; simp [elementsMembers, ih]

theorem regularItems_iff (xs : List J) : RegularItems shown xs ↔ ∀ x ∈ xs, Regular shown x := by
  induction xs with
  | nil => simp [RegularItems]
  | cons x xs ih => simp [RegularItems, ih]

theorem regularMembers_iff (ms : List (List Char × J)) :
    RegularMembers shown ms ↔ ∀ m ∈ ms, Regular shown m.2 := by
  induction ms with
  | nil => simp [RegularMembers]
  | cons m ms ih => obtain ⟨n, v⟩ := m; simp [RegularMembers, ih]

theorem filter_flatMap_name {α : Type} (l : List α) (key : α → List Char) (f : α → List X)
    (hname : ∀ a ∈ l, ∀ y ∈ f a, y.name = key a) (k : List Char) :
    (l.flatMap f).filter (fun y => y.name = k) = (l.filter fun a => key a = k).flatMap f := by
  induction l with
  | nil => rfl
  | cons a l ih =>
    rw [List.flatMap_cons, List.filter_append, ih fun b hb => hname b (by simp [hb])]
    by_cases h : key a = k
    · rw [List.filter_cons_of_pos (by simp [h]), List.flatMap_cons]
      congr 1
      rw [List.filter_eq_self]
      intro y hy
      simp [hname a (by simp) y hy, h]
    · rw [List.filter_cons_of_neg (by simp [h])]
      have : (f a).filter (fun y => y.name = k) = [] := by
        rw [List.filter_eq_nil_iff]
        intro y hy
        simp [hname a (by simp) y hy, h]
      rw [this, List.nil_append]

/-- The induction for the way there and back. -/
theorem back (x : Node) (j : J) (hv : Val x j) (hn : Nice x) :
    Regular shown j ∧ ∃ y, Norm x y ∧ elements shown (nodeName x) j = [y] ∧ y.name = nodeName x ∧
      (IsText x → Scalar j) ∧ (HasElements x → j.isObj = true) := by
  induction hv with
  | text n s =>
    refine ⟨?_, .text n s, .text n s, rfl, rfl, fun _ => trivial, ?_⟩
    · cases hn with
      | text _ _ h => exact h
      | empty _ _ _ h => exact absurd rfl h
      | node _ _ he => simp [Node.isElement] at he
    · rintro ⟨n', cs, h, c, hc, he⟩
      injection h with _ h
      subst h
      simp at hc
      subst hc
      simp [Node.isElement] at he
  | empty n cs he hl =>
    refine ⟨trivial, .empty n, .empty n cs he hl, rfl, rfl, ?_, ?_⟩
    · rintro ⟨n', s, h⟩
      injection h with _ h
      subst h
      exact absurd rfl hl
    · rintro ⟨n', cs', h, c, hc, h2⟩
      injection h with _ h
      subst h
      rw [he c hc] at h2
      simp at h2
  | obj n cs pairs ms he hne hv hg ih =>
    have hmemcs : ∀ p ∈ pairs, p.1 ∈ cs ∧ p.1.isElement = true := by
      intro p hp
      have : p.1 ∈ cs.filter Node.isElement := by
        rw [he]
        exact List.mem_map_of_mem hp
      exact List.mem_filter.mp this
    have hnice : (∀ c ∈ cs, c.isElement = true → Nice c) ∧
        (∀ k, ((cs.filter Node.isElement).filter fun c => nodeName c = k).length ≤ 1 ∨
        (∀ c ∈ cs, c.isElement = true → nodeName c = k → IsText c) ∨
        (∀ c ∈ cs, c.isElement = true → nodeName c = k → HasElements c)) := by
      obtain ⟨p, hp⟩ := List.exists_mem_of_ne_nil _ hne
      have hpe := hmemcs p hp
      cases hn with
      | text _ s _ =>
        have := hpe.1
        simp at this
        rw [this] at hpe
        simp [Node.isElement] at hpe
      | empty _ _ h _ =>
        rw [h p.1 hpe.1] at hpe
        simp at hpe
      | node _ _ _ h1 h2 => exact ⟨h1, h2⟩
    have ih' : ∀ p ∈ pairs, Regular shown p.2 ∧ ∃ y, Norm p.1 y ∧
        elements shown (nodeName p.1) p.2 = [y] ∧ y.name = nodeName p.1 ∧
        (IsText p.1 → Scalar p.2) ∧ (HasElements p.1 → p.2.isObj = true) := by
      intro p hp
      exact ih p hp (hnice.1 p.1 (hmemcs p hp).1 (hmemcs p hp).2)
    -- the elements of the children
    obtain ⟨ps, hps1, hps2⟩ : ∃ ps : List (Node × X), ps.map Prod.fst = pairs.map Prod.fst ∧
        (∀ p ∈ ps, Norm p.1 p.2) ∧ (ps.map Prod.snd) =
          pairs.flatMap (fun p => elements shown (nodeName p.1) p.2) := by
      clear he hne hv hg ih hmemcs hnice hn
      induction pairs with
      | nil => exact ⟨[], rfl, by simp, rfl⟩
      | cons p pairs ihp =>
        obtain ⟨ps, h1, h2, h3⟩ := ihp fun q hq => ih' q (by simp [hq])
        obtain ⟨_, y, hy, hel, _⟩ := ih' p (by simp)
        refine ⟨(p.1, y) :: ps, by simp [h1], ?_, by simp [h3, hel]⟩
        intro q hq
        rcases List.mem_cons.mp hq with rfl | hq
        · exact hy
        · exact h2 q hq
    obtain ⟨hps2, hps3⟩ := hps2
    have hvals : ∀ k v, (k, v) ∈ ms →
        Combine ((pairs.filter fun p => nodeName p.1 = k).map Prod.snd) v := by
      intro k v hm
      have := (hg.mem k v).mp hm
      rw [List.filter_map, List.map_map] at this
      exact this
    have hgroup : ∀ k v, (k, v) ∈ ms → Regular shown v ∧ elements shown k v =
        (pairs.filter fun p => nodeName p.1 = k).flatMap fun p => elements shown (nodeName p.1) p.2 := by
      intro k v hm
      have hc := hvals k v hm
      have hflat : ∀ l : List (Node × J), (∀ p ∈ l, nodeName p.1 = k) →
          (l.map Prod.snd).flatMap (elements shown k) =
            l.flatMap fun p => elements shown (nodeName p.1) p.2 := by
        intro l hl
        rw [List.flatMap_map]
        apply List.flatMap_congr
        intro p hp
        rw [hl p hp]
      have hkey : ∀ p ∈ pairs.filter fun p => nodeName p.1 = k, p ∈ pairs ∧ nodeName p.1 = k := by
        intro p hp
        simpa using List.mem_filter.mp hp
      have hflat' := hflat (pairs.filter fun p => nodeName p.1 = k) fun p hp => (hkey p hp).2
      generalize hvs : (pairs.filter fun p => nodeName p.1 = k).map Prod.snd = vs at hc hflat'
      have hreg : ∀ w ∈ vs, Regular shown w := by
        intro w hw
        rw [← hvs] at hw
        obtain ⟨p, hp, rfl⟩ := List.mem_map.mp hw
        exact (ih' p (hkey p hp).1).1
      cases hc with
      | one =>
        refine ⟨hreg v (by simp), ?_⟩
        rw [← hflat']
        simp
      | more a b r =>
        refine ⟨?_, ?_⟩
        · rw [Regular]
          refine ⟨by simp, ?_, (regularItems_iff shown _).mpr hreg⟩
          rcases hnice.2 k with h | h | h
          · exfalso
            have hlen := congrArg List.length hvs
            rw [List.length_map] at hlen
            rw [he, List.filter_map, List.length_map] at h
            have h' : (pairs.filter fun p => nodeName p.1 = k).length ≤ 1 := h
            rw [hlen] at h'
            simp at h'
          · right
            intro w hw
            rw [← hvs] at hw
            obtain ⟨p, hp, rfl⟩ := List.mem_map.mp hw
            obtain ⟨hp1, hp2⟩ := hkey p hp
            obtain ⟨_, y, _, _, _, hs, _⟩ := ih' p hp1
            exact hs (h p.1 (hmemcs p hp1).1 (hmemcs p hp1).2 hp2)
          · left
            intro w hw
            rw [← hvs] at hw
            obtain ⟨p, hp, rfl⟩ := List.mem_map.mp hw
            obtain ⟨hp1, hp2⟩ := hkey p hp
            obtain ⟨_, y, _, _, _, _, hs⟩ := ih' p hp1
            exact hs (h p.1 (hmemcs p hp1).1 (hmemcs p hp1).2 hp2)
        · rw [elements, elementsItems_flatMap, hflat']
    have hnames : ∀ p ∈ pairs, ∀ y ∈ elements shown (nodeName p.1) p.2, y.name = nodeName p.1 := by
      intro p hp y hy
      obtain ⟨_, y', _, hel, hnm, _⟩ := ih' p hp
      rw [hel, List.mem_singleton] at hy
      rw [hy, hnm]
    have hmnames : ∀ m ∈ ms, ∀ y ∈ elements shown m.1 m.2, y.name = m.1 := by
      intro m hm y hy
      rw [(hgroup m.1 m.2 hm).2, List.mem_flatMap] at hy
      obtain ⟨p, hp, hy⟩ := hy
      have hp' := List.mem_filter.mp hp
      rw [hnames p hp'.1 y hy]
      simpa using hp'.2
    refine ⟨(regularMembers_iff shown ms).mpr fun m hm => (hgroup m.1 m.2 hm).1,
      .node n (elementsMembers shown ms), ?_, rfl, rfl, ?_, fun _ => rfl⟩
    · refine .node n cs ps _ (by rw [he, hps1]) ?_ hps2 ?_ ?_
      · rintro rfl
        apply hne
        simpa using hps1.symm
      · rw [elementsMembers_flatMap, List.pairwise_flatMap]
        constructor
        · intro m hm
          rw [List.pairwise_iff_forall_sublist]
          intro a b hab
          have ha : a ∈ elements shown m.1 m.2 := hab.subset (by simp)
          have hb : b ∈ elements shown m.1 m.2 := hab.subset (by simp)
          exact le_of_eq ((hmnames m hm a ha).trans (hmnames m hm b hb).symm)
        · refine List.Pairwise.imp_of_mem ?_ hg.sorted
          intro m1 m2 h1 h2 hlt y1 hy1 y2 hy2
          rw [hmnames m1 h1 y1 hy1, hmnames m2 h2 y2 hy2]
          exact le_of_lt hlt
      · intro k
        rw [hps3, elementsMembers_flatMap, filter_flatMap_name ms Prod.fst _ hmnames,
          filter_flatMap_name pairs (fun p => nodeName p.1) _ hnames]
        by_cases hex : ∃ v, (k, v) ∈ ms
        · obtain ⟨v, hkv⟩ := hex
          have hsingle : ms.filter (fun a => a.1 = k) = [(k, v)] := by
            have hsub : (ms.filter fun a => a.1 = k).Pairwise fun a b => a.1 < b.1 :=
              hg.sorted.sublist List.filter_sublist
            have hall : ∀ a ∈ ms.filter (fun a => a.1 = k), a.1 = k := by
              intro a ha
              simpa using (List.mem_filter.mp ha).2
            have hin : (k, v) ∈ ms.filter (fun a => a.1 = k) := by
              rw [List.mem_filter]
              exact ⟨hkv, by simp⟩
            generalize ms.filter (fun a => a.1 = k) = l at hsub hall hin
            match l, hsub, hall, hin with
            | [a], _, _, hin =>
              simp only [List.mem_singleton] at hin
              rw [hin]
            | a :: b :: r, hsub, hall, _ =>
              rw [List.pairwise_cons] at hsub
              have h1 := hsub.1 b (by simp)
              rw [hall a (by simp), hall b (by simp)] at h1
              exact absurd h1 (lt_irrefl _)
          rw [hsingle, List.flatMap_cons, List.flatMap_nil, List.append_nil]
          exact (hgroup k v hkv).2
        · have h1 : ms.filter (fun a => a.1 = k) = [] := by
            rw [List.filter_eq_nil_iff]
            intro a ha hk
            apply hex
            refine ⟨a.2, ?_⟩
            have : a.1 = k := by simpa using hk
            rw [← this]
            exact ha
          have h2 : (pairs.filter fun p => nodeName p.1 = k) = [] := by
            by_contra hne2
            have : (pairs.filter fun p => nodeName p.1 = k).map Prod.snd ≠ [] := by
              simpa using hne2
            obtain ⟨v, hc⟩ := Combine.exists this
            apply hex
            refine ⟨v, (hg.mem k v).mpr ?_⟩
            rw [List.filter_map, List.map_map]
            exact hc
          rw [h1, h2]
          rfl
    · rintro ⟨n', s, h⟩
      injection h with _ h
      subst h
      obtain ⟨p, hp⟩ := List.exists_mem_of_ne_nil _ hne
      have := hmemcs p hp
      have h1 := this.1
      simp at h1
      rw [h1] at this
      simp [Node.isElement] at this

/-- C98 (there and back).  For every root element with elements inside in which no text needs escaping
and, at each depth, siblings with the same name all have only text or all have elements: converting to
JSON and the result to XML gives the text of the same element, with the child elements sorted by name,
those of the same name in the order of the file.  The full statement has no conditions; see the
disagreements below. -/
theorem C98_back_partial (name : List Char) (cs : List Node) (hn : Nice (.element name cs))
    (he : ∃ c ∈ cs, c.isElement = true) (j : J) (hj : toJson name cs = .ok j) :
    ∃ y, Norm (.element name cs) y ∧ toXml shown j = render [] y := by
  obtain ⟨ps, ms, rfl, h1, h2, h3⟩ := (C98_values name cs).2.2 j hj
  have hne : ps ≠ [] := by
    rintro rfl
    obtain ⟨c, hc, hce⟩ := he
    have : c ∈ cs.filter Node.isElement := List.mem_filter.mpr ⟨hc, hce⟩
    rw [h1] at this
    simp at this
  obtain ⟨hr, y, hy, hel, _⟩ := back shown _ _ (.obj name cs ps ms h1 hne h2 h3) hn
  refine ⟨y, hy, ?_⟩
  have hel' : elements shown name (.obj ms) = [y] := hel
  rw [C97_convert_partial shown [(name, .obj ms)] (by simpa [RegularMembers] using hr)]
  simp only [elementsMembers, hel', renderAll, List.append_nil]

/-- A case of `C98_back_partial`: `<r>\n<b>x</b><a/><b>y</b></r>`. -/
example : Nice (.element ['r'] [.text ['\n'], .element ['b'] [.text ['x']], .element ['a'] [],
    .element ['b'] [.text ['y']]]) := by
  refine .node _ _ ⟨.element ['a'] [], by simp, rfl⟩ ?_ ?_
  · intro c hc he
    simp only [List.mem_cons, List.not_mem_nil, or_false] at hc
    rcases hc with rfl | rfl | rfl | rfl
    · simp [Node.isElement] at he
    · exact .text _ _ (by simp [Plain])
    · exact .empty _ _ (by simp) (by simp)
    · exact .text _ _ (by simp [Plain])
  · intro k
    by_cases hk : k = ['b']
    · subst hk
      right; left
      intro c hc he hk
      simp only [List.mem_cons, List.not_mem_nil, or_false] at hc
      rcases hc with rfl | rfl | rfl | rfl
      · simp [Node.isElement] at he
      · exact ⟨_, _, rfl⟩
      · simp [nodeName] at hk
      · exact ⟨_, _, rfl⟩
    · left
      have hk' : ¬ ['b'] = k := fun h => hk h.symm
      simp only [List.filter, Node.isElement, nodeName, hk', decide_false]
      split <;> simp

/-! ## Disagreements -/

/-- C98 disagreement: text between elements is lost, whatever it is, and the text of an element is lost
if a comment stands beside it. -/
theorem C98_fails_text (n m s c : List Char) (rest : List Node) :
    toJson n (.text s :: rest) = toJson n rest ∧
    toJson n [.element m [.text s, .comment c]] = .ok (.obj [(n, .obj [(m, .null)])]) := by
  constructor
  · unfold toJson
    rw [addXml]
    simp
  · simp [toJson, addXml, leaf, Infile.content, insertOrAppend, addMember, Node.isElement]

/-- A case of `C98_fails_text`: without the comment the text is kept. -/
example : toJson ['r'] [.element ['a'] [.text ['x']]] =
    .ok (.obj [(['r'], .obj [(['a'], .str ['x'])])]) := by
  simp [toJson, addXml, leaf, Infile.content, insertOrAppend, addMember, appendTo, nameLt, Node.isElement]

/-- C98 disagreement: an element that contains only a comment makes the whole conversion fail, although
one without content, or with two comments, is converted to null. -/
theorem C98_fails_comment (n m c : List Char) :
    toJson n [.element m [.comment c]] = .error (.err .cast) ∧
    toJson n [.element m []] = .ok (.obj [(n, .obj [(m, .null)])]) ∧
    toJson n [.element m [.comment c, .comment c]] = .ok (.obj [(n, .obj [(m, .null)])]) := by
  simp [toJson, addXml, leaf, Infile.content, insertOrAppend, addMember, Node.isElement]

/-- A case of `C98_fails_comment`. -/
example : Bad (.element ['a'] [.comment ['c']]) := .here _ _ rfl (by simp)

/-- C98 disagreement: two empty elements of the same name come back as two empty elements inside of one
of this name. -/
theorem C98_fails_empty :
    ∃ j, toJson ['r'] [.element ['a'] [], .element ['a'] []] = .ok j ∧
      toXml shown j = ['<', 'r', '>', '\n', ' ', ' ', '<', 'a', '>', ' ', ' ', '<', 'a', '/', '>', '\n', ' ', ' ', '<', 'a', '/', '>', '\n', '<', '/', 'a', '>', '\n', '<', '/', 'r', '>', '\n'] := by
  refine ⟨.obj [(['r'], .obj [(['a'], .arr [.null, .null])])], ?_, ?_⟩
  · simp [toJson, addXml, leaf, Infile.content, insertOrAppend, addMember, appendTo]
  simp [toXml, emit, emitMembers, emitItems, insertOrAppend, addMember, appendTo, indentMember, J.isObj,
    J.isArr, openTag, closeTag, emptyTag, outdent]

/-- A case of `C98_fails_empty`: what should come back. -/
example : render [] (.node ['r'] [.empty ['a'], .empty ['a']]) =
    ['<', 'r', '>', '\n', ' ', ' ', '<', 'a', '/', '>', '\n', ' ', ' ', '<', 'a', '/', '>', '\n', '<', '/', 'r', '>', '\n'] := by
  simp [render, renderAll]

end Cyclus.Convert
