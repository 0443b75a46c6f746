import Verif.Lemmas.InfileSays

/-!
# What the generated schema matches
-/

namespace Cyclus.InfileGen

open Infile (Node Tree Query Step)

variable {N : TypeNames} {D : Str → Str → Prop}

theorem build_element {t : Ty} {nm : Names} {sch ui : Ann} {p : Pat} (h : buildSchema N t nm sch ui = .ok p) :
    ∃ q, p = .element nm.root q := by
  cases t <;> cases nm <;> simp only [buildSchema] at h <;> (try exact absurd h (by simp)) <;>
    (repeat' (split at h)) <;> first | exact ⟨_, (Except.ok.inj h).symm⟩ | exact absurd h (by simp)

theorem matches_element {n : Str} {q : Pat} {l : List Node} (h : Matches D (.element n q) l) :
    ∃ cs, l = [.element n cs] := by
  cases h with
  | leaf ht hd => exact ⟨_, rfl⟩
  | element hp h => exact ⟨_, rfl⟩

theorem matches_leaf {n d : Str} {x : Node} :
    Matches D (.element n (.data d)) [x] ↔ ∃ cs s, x = .element n cs ∧ textOf cs = some s ∧ D d s := by
  constructor
  · intro h
    cases h with
    | leaf ht hd => exact ⟨_, _, rfl, ht, hd⟩
    | element hp h => exact absurd trivial hp
  · rintro ⟨cs, s, rfl, ht, hd⟩
    exact .leaf ht hd

theorem matches_inner {n : Str} {q : Pat} {x : Node} (hq : ¬ IsData q) :
    Matches D (.element n q) [x] ↔ ∃ cs, x = .element n cs ∧ Matches D q (seen cs) := by
  constructor
  · intro h
    cases h with
    | leaf ht hd => exact absurd trivial hq
    | element hp h => exact ⟨_, rfl, h⟩
  · rintro ⟨cs, rfl, h⟩
    exact .element hq h

theorem matches_some {n : Str} {q : Pat} {l : List Node} :
    Matches D (.oneOrMore (.element n q)) l ↔ l ≠ [] ∧ ∀ c ∈ l, Matches D (.element n q) [c] := by
  constructor
  · intro h
    generalize hp : Pat.oneOrMore (.element n q) = p at h
    induction h with
    | one h _ =>
      obtain rfl := Pat.oneOrMore.inj hp
      obtain ⟨cs, rfl⟩ := matches_element h
      exact ⟨by simp, fun c hc => by rw [List.mem_singleton.mp hc]; exact h⟩
    | more h hm _ ih =>
      obtain rfl := Pat.oneOrMore.inj hp
      obtain ⟨cs, rfl⟩ := matches_element h
      obtain ⟨_, ih⟩ := ih rfl
      refine ⟨by simp, fun c hc => ?_⟩
      rcases List.mem_append.mp hc with hc | hc
      · rw [List.mem_singleton.mp hc]; exact h
      · exact ih c hc
    | _ => exact absurd hp (by simp)
  · rintro ⟨hne, h⟩
    induction l with
    | nil => exact absurd rfl hne
    | cons c l ih =>
      have hc := h c (by simp)
      cases l with
      | nil => exact .one hc
      | cons d l => exact .more (l := [c]) hc (ih (by simp) fun e he => h e (by simp [he]))

theorem shuffle_nil_right {a l : List Node} : Shuffle a [] l ↔ l = a := by
  constructor
  · intro h
    generalize hb : ([] : List Node) = b at h
    induction h with
    | nil => rfl
    | left x h ih => rw [ih hb]
    | right x h ih => exact absurd hb (by simp)
  · rintro rfl
    induction l with
    | nil => exact .nil
    | cons x l ih => exact .left x ih

theorem shuffle_nil_left {b l : List Node} : Shuffle [] b l ↔ l = b := by
  constructor
  · intro h
    generalize ha : ([] : List Node) = a at h
    induction h with
    | nil => rfl
    | left x h ih => exact absurd ha (by simp)
    | right x h ih => rw [ih ha]
  · rintro rfl
    induction l with
    | nil => exact .nil
    | cons x l ih => exact .right x ih

theorem shuffle_two {y z : Node} {l : List Node} : Shuffle [y] [z] l ↔ l = [y, z] ∨ l = [z, y] := by
  constructor
  · intro h
    cases h with
    | left x h => left; rw [shuffle_nil_left.mp h]
    | right x h => right; rw [shuffle_nil_right.mp h]
  · rintro (rfl | rfl)
    · exact .left _ (.right _ .nil)
    · exact .right _ (.left _ .nil)

theorem matches_two {n m : Str} {q r : Pat} {l : List Node} :
    Matches D (.interleave [.element n q, .element m r]) l ↔
      ∃ y z, (l = [y, z] ∨ l = [z, y]) ∧ Matches D (.element n q) [y] ∧ Matches D (.element m r) [z] := by
  constructor
  · intro h
    cases h with
    | cons ha hb hl =>
      cases hb with
      | cons hb hc hm =>
        cases hc
        obtain ⟨as, rfl⟩ := matches_element ha
        obtain ⟨bs, rfl⟩ := matches_element hb
        rw [shuffle_nil_right.mp hm] at hl
        exact ⟨_, _, shuffle_two.mp hl, ha, hb⟩
  · rintro ⟨y, z, hl, hy, hz⟩
    exact .cons hy (.cons hz .nil (shuffle_nil_right.mpr rfl)) (shuffle_two.mpr hl)

theorem xsdOf_spec (p : Prim) : xsdOf p = schemaType p := by
  cases p <;> decide +kernel

theorem type_spec {p : Prim} {sch ui : Ann} {d : Str} :
    typeOf N p (if sch.truth then sch else ui) = .ok d ↔ DataType N p sch ui d := by
  unfold DataType
  rw [← xsdOf_spec]
  simp only
  generalize (if sch.truth = true then sch else ui) = g
  cases g with
  | none => simp only [typeOf, Except.ok.injEq, true_and, reduceCtorEq, false_and, exists_false, or_false]; exact eq_comm
  | list l => simp [typeOf]
  | str s =>
    simp only [typeOf, reduceCtorEq, false_and, false_or, Ann.str.injEq, exists_eq_left']
    cases hN : N.all s with
    | true => simp; exact eq_comm
    | false =>
      cases hd : N.dflt s with
      | none => simp
      | some o => cases o <;> simp; exact eq_comm

/-- The pattern of a variable matches the elements of its form. -/
theorem build_spec (t : Ty) : ∀ (nm : Names) (sch ui : Ann) (p : Pat) (x : Node),
    buildSchema N t nm sch ui = .ok p →
    (Matches D p [x] ↔ Form (Allowed N D) t nm sch ui x) := by
  induction t with
  | prim q =>
    intro nm sch ui p x h
    cases nm <;> simp only [buildSchema] at h <;> try exact absurd h (by simp)
    rename_i n
    cases ht : typeOf N q (if sch.truth then sch else ui) with
    | error e => rw [ht] at h; exact absurd h (by simp)
    | ok d =>
      rw [ht] at h
      obtain rfl := Except.ok.inj h
      rw [matches_leaf, Form]
      constructor
      · rintro ⟨cs, s, rfl, hs, hd⟩
        exact ⟨cs, rfl, d, s, type_spec.mp ht, hs, hd⟩
      · rintro ⟨cs, rfl, d', s, hd', hs, hd⟩
        rw [← type_spec, ht] at hd'
        obtain rfl := Except.ok.inj hd'
        exact ⟨cs, s, rfl, hs, hd⟩
  | seq k e ih =>
    intro nm sch ui p x h
    cases nm <;> simp only [buildSchema] at h <;> try exact absurd h (by simp)
    rename_i n ne
    cases hb : buildSchema N e ne (sch.part 1) (ui.part 1) with
    | error er => rw [hb] at h; exact absurd h (by simp)
    | ok pe =>
      rw [hb] at h
      obtain rfl := Except.ok.inj h
      have key := fun c => ih ne _ _ pe c hb
      obtain ⟨q, rfl⟩ := build_element hb
      rw [matches_inner (by simp [IsData]), Form]
      refine exists_congr fun cs => and_congr_right fun _ => ?_
      rw [matches_some]
      exact and_congr_right fun _ => forall_congr' fun c => forall_congr' fun _ => key c
  | pair a b iha ihb =>
    intro nm sch ui p x h
    cases nm <;> simp only [buildSchema] at h <;> try exact absurd h (by simp)
    rename_i n na nb
    cases ha : buildSchema N a na (sch.part 1) (ui.part 1) with
    | error er => rw [ha] at h; exact absurd h (by simp)
    | ok pa =>
      cases hb : buildSchema N b nb (sch.part 2) (ui.part 2) with
      | error er => rw [ha] at h; simp only [hb] at h; exact absurd h (by simp)
      | ok pb =>
        rw [ha] at h
        simp only [hb] at h
        obtain rfl := Except.ok.inj h
        have ka := fun c => iha na _ _ pa c ha
        have kb := fun c => ihb nb _ _ pb c hb
        obtain ⟨qa, rfl⟩ := build_element ha
        obtain ⟨qb, rfl⟩ := build_element hb
        rw [matches_inner (by simp [IsData]), Form]
        refine exists_congr fun cs => and_congr_right fun _ => ?_
        rw [matches_two]
        exact exists_congr fun y => exists_congr fun z => and_congr_right fun _ => and_congr (ka y) (kb z)
  | map a b iha ihb =>
    intro nm sch ui p x h
    cases nm <;> simp only [buildSchema] at h <;> try exact absurd h (by simp)
    rename_i n item na nb
    cases ha : buildSchema N a na (sch.part 1) (ui.part 1) with
    | error er => rw [ha] at h; exact absurd h (by simp)
    | ok pa =>
      cases hb : buildSchema N b nb (sch.part 2) (ui.part 2) with
      | error er => rw [ha] at h; simp only [hb] at h; exact absurd h (by simp)
      | ok pb =>
        rw [ha] at h
        simp only [hb] at h
        obtain rfl := Except.ok.inj h
        have ka := fun c => iha na _ _ pa c ha
        have kb := fun c => ihb nb _ _ pb c hb
        obtain ⟨qa, rfl⟩ := build_element ha
        obtain ⟨qb, rfl⟩ := build_element hb
        rw [matches_inner (by simp [IsData]), Form]
        refine exists_congr fun cs => and_congr_right fun _ => ?_
        rw [matches_some]
        refine and_congr_right fun _ => forall_congr' fun c => forall_congr' fun _ => ?_
        rw [matches_inner (by simp [IsData])]
        refine exists_congr fun ds => and_congr_right fun _ => ?_
        rw [matches_two]
        exact exists_congr fun y => exists_congr fun z => and_congr_right fun _ => and_congr (ka y) (kb z)

/-! ## The elements and what is seen -/

theorem elements_seen {cs : List Node} (h : ∀ c ∈ seen cs, c.isElement = true) : elements cs = seen cs := by
  have h1 : elements cs = (seen cs).filter Node.isElement := by
    unfold elements seen
    rw [List.filter_filter]
    refine List.filter_congr fun c _ => ?_
    cases c <;> simp [Node.isElement, ignored]
  rw [h1, List.filter_eq_self]
  exact h

theorem form_name {leaf : Prim → Ann → Ann → List Node → Prop} {t : Ty} {nm : Names} {sch ui : Ann} {x : Node}
    (h : Form leaf t nm sch ui x) : ∃ cs, x = .element nm.root cs := by
  cases t with
  | prim p => obtain ⟨cs, rfl, _⟩ := h; exact ⟨_, rfl⟩
  | seq k e =>
    cases nm <;> simp only [Form] at h
    obtain ⟨cs, rfl, _⟩ := h; exact ⟨_, rfl⟩
  | pair a b =>
    cases nm <;> simp only [Form] at h
    obtain ⟨cs, rfl, _⟩ := h; exact ⟨_, rfl⟩
  | map k v =>
    cases nm <;> simp only [Form] at h
    obtain ⟨cs, rfl, _⟩ := h; exact ⟨_, rfl⟩

theorem form_isElement {leaf : Prim → Ann → Ann → List Node → Prop} {t : Ty} {nm : Names} {sch ui : Ann}
    {x : Node} (h : Form leaf t nm sch ui x) : x.isElement = true := by
  obtain ⟨cs, rfl⟩ := form_name h; rfl

theorem text_no_elements {cs : List Node} {s : Str} (h : textOf cs = some s) : elements cs = [] := by
  induction cs generalizing s with
  | nil => rfl
  | cons c cs ih =>
    unfold elements at ih ⊢
    cases c with
    | element n ds => simp [textOf] at h
    | text r =>
      simp only [textOf, Option.map_eq_some_iff] at h
      obtain ⟨r', hr, _⟩ := h
      simp [Node.isElement, ih hr]
    | cdata r =>
      simp only [textOf, Option.map_eq_some_iff] at h
      obtain ⟨r', hr, _⟩ := h
      simp [Node.isElement, ih hr]
    | comment r =>
      simp only [textOf] at h
      simp [Node.isElement, ih h]

theorem forall₂_of_forall {α β : Type} {R : α → β → Prop} (l : List α) (h : ∀ a ∈ l, ∃ b, R a b) :
    ∃ m, List.Forall₂ R l m := by
  induction l with
  | nil => exact ⟨[], .nil⟩
  | cons a l ih =>
    obtain ⟨b, hb⟩ := h a (by simp)
    obtain ⟨m, hm⟩ := ih fun c hc => h c (by simp [hc])
    exact ⟨b :: m, .cons hb hm⟩

theorem plain_inner {n : Str} {cs : List Node} (hne : elements cs ≠ []) (h : Plain (.element n cs)) :
    (elements cs).length < 2 ^ 31 ∧ ∀ c ∈ elements cs, Plain c := by
  cases h with
  | leaf n h => exact absurd rfl hne
  | inner n hne hfew h => exact ⟨hfew, h⟩

/-- An element of the form for a variable says a value, when its leaves can be converted. -/
theorem form_says (L : Lib) (t : Ty) : ∀ (nm : Names) (sch ui : Ann) (x : Node), Fit t nm →
    Form (Allowed N D) t nm sch ui x → Plain x → Converts L N D t sch ui → ∃ v, Says L t nm ui x v := by
  induction t with
  | prim p =>
    intro nm sch ui x hf h hp hc
    obtain ⟨cs, rfl, d, s, hd, hs, hD⟩ := h
    cases hp with
    | leaf n hne =>
      rename_i s'
      have : s = s' := by simpa [textOf, eq_comm] using hs
      subst this
      obtain ⟨v, hv⟩ := hc d s hd hD hne
      exact ⟨v, s, rfl, hv⟩
    | inner n hne hfew h => exact absurd (text_no_elements hs) hne
  | seq k e ih =>
    intro nm sch ui x hf h hp hc
    cases nm <;> simp only [Fit] at hf
    simp only [Form] at h
    obtain ⟨cs, rfl, hne, h⟩ := h
    have he := elements_seen fun c hc => form_isElement (h c hc)
    obtain ⟨hfew, hp⟩ := plain_inner (by rw [he]; exact hne) hp
    obtain ⟨vs, hvs⟩ := forall₂_of_forall (elements cs) fun c hcs =>
      ih _ _ _ c hf (h c (by rw [← he]; exact hcs)) (hp c hcs) hc
    exact ⟨.seq vs, cs, vs, rfl, hfew, hvs, rfl⟩
  | pair a b iha ihb =>
    intro nm sch ui x hf h hp hc
    cases nm <;> simp only [Fit] at hf
    simp only [Form] at h
    obtain ⟨cs, rfl, y, z, hyz, hy, hz⟩ := h
    have he : elements cs = seen cs := elements_seen fun c hc => by
      rcases hyz with e | e <;> rw [e] at hc <;> simp only [List.mem_cons, List.not_mem_nil, or_false] at hc <;>
        rcases hc with rfl | rfl <;> first | exact form_isElement hy | exact form_isElement hz
    rw [← he] at hyz
    obtain ⟨hfew, hp⟩ := plain_inner (by rcases hyz with e | e <;> simp [e]) hp
    obtain ⟨va, hva⟩ := iha _ _ _ y hf.1 hy (hp y (by rcases hyz with e | e <;> simp [e])) hc.1
    obtain ⟨vb, hvb⟩ := ihb _ _ _ z hf.2 hz (hp z (by rcases hyz with e | e <;> simp [e])) hc.2
    exact ⟨.pair va vb, cs, y, z, va, vb, rfl, hyz, hva, hvb, rfl⟩
  | map k w ihk ihw =>
    intro nm sch ui x hf h hp hc
    cases nm <;> simp only [Fit] at hf
    rename_i n item nk nw
    simp only [Form] at h
    obtain ⟨cs, rfl, hne, h⟩ := h
    have he := elements_seen (cs := cs) fun c hc => by obtain ⟨ds, rfl, _⟩ := h c hc; rfl
    obtain ⟨hfew, hp⟩ := plain_inner (by rw [he]; exact hne) hp
    obtain ⟨vs, hvs⟩ := forall₂_of_forall (R := fun c (kw : Val × Val) => ∃ ds y z, c = .element item ds ∧
        (elements ds = [y, z] ∨ elements ds = [z, y]) ∧ Says L k nk (ui.part 1) y kw.1 ∧
        Says L w nw (ui.part 2) z kw.2) (elements cs) fun c hcs => by
      obtain ⟨ds, rfl, y, z, hyz, hy, hz⟩ := h c (by rw [← he]; exact hcs)
      have he' : elements ds = seen ds := elements_seen fun c hc => by
        rcases hyz with e | e <;> rw [e] at hc <;> simp only [List.mem_cons, List.not_mem_nil, or_false] at hc <;>
          rcases hc with rfl | rfl <;> first | exact form_isElement hy | exact form_isElement hz
      rw [← he'] at hyz
      obtain ⟨_, hp'⟩ := plain_inner (by rcases hyz with e | e <;> simp [e]) (hp _ hcs)
      obtain ⟨va, hva⟩ := ihk _ _ _ y hf.1 hy (hp' y (by rcases hyz with e | e <;> simp [e])) hc.1
      obtain ⟨vb, hvb⟩ := ihw _ _ _ z hf.2 hz (hp' z (by rcases hyz with e | e <;> simp [e])) hc.2
      exact ⟨(va, vb), ds, y, z, rfl, hyz, hva, hvb⟩
    exact ⟨.map vs, cs, vs, rfl, hfew, hvs, rfl⟩

/-! ## Classes -/

theorem named_cons (n : Str) (c : Node) (l : List Node) : named n (c :: l) = named n [c] ++ named n l := by
  unfold named; rw [← List.filter_append]; rfl

theorem named_elem (n m : Str) (cs l : List Node) :
    named n (.element m cs :: l) = if m = n then .element m cs :: named n l else named n l := by
  unfold named
  by_cases h : m = n <;> simp [h]

theorem mem_named {n : Str} {l : List Node} {c : Node} : c ∈ named n l ↔ c ∈ l ∧ ∃ cs, c = .element n cs := by
  unfold named
  rw [List.mem_filter]
  refine and_congr_right fun _ => ?_
  cases c <;> simp

theorem shuffle_mem {a b l : List Node} (h : Shuffle a b l) (c : Node) : c ∈ l ↔ c ∈ a ∨ c ∈ b := by
  induction h with
  | nil => simp
  | left x h ih => simp [ih, or_assoc]
  | right x h ih => simp [ih]; tauto

theorem shuffle_filter (p : Node → Bool) (l : List Node) :
    Shuffle (l.filter p) (l.filter fun c => !p c) l := by
  induction l with
  | nil => exact .nil
  | cons c l ih =>
    by_cases h : p c = true
    · simp [h]; exact .left c ih
    · simp [h]; exact .right c ih

theorem named_shuffle {n : Str} {a b l : List Node} (h : Shuffle a b l) (hb : named n b = []) :
    named n l = named n a := by
  induction h with
  | nil => rfl
  | @left a' b' l' x h ih => rw [named_cons n x l', named_cons n x a', ih hb]
  | right x h ih =>
    rw [named_cons] at hb ⊢
    obtain ⟨h1, h2⟩ := List.append_eq_nil_iff.mp hb
    rw [h1, ih h2]; rfl

theorem shuffle_comm {a b l : List Node} (h : Shuffle a b l) : Shuffle b a l := by
  induction h with
  | nil => exact .nil
  | left x _ ih => exact .right x ih
  | right x _ ih => exact .left x ih

/-- The schema of a class matches the children of the form for the class. -/
theorem class_spec (vs : List Var) (hn : (vs.filter fun v => !v.internal).Pairwise fun v w => v.names.root ≠ w.names.root)
    (ps : List Pat) (h : varPats N vs = .ok ps) (l : List Node) :
    Matches D (.interleave ps) l ↔ ClassForm N D vs l := by
  induction vs generalizing ps l with
  | nil =>
    obtain rfl := Except.ok.inj h
    constructor
    · intro h; cases h; exact ⟨by simp, by simp⟩
    · rintro ⟨h, _⟩
      cases l with
      | nil => exact .nil
      | cons c l => obtain ⟨v, hv, _⟩ := h c (by simp); exact absurd hv (by simp)
  | cons v vs ih =>
    unfold varPats at h
    cases hi : v.internal with
    | true =>
      rw [hi, if_pos rfl] at h
      rw [ih (by simpa [List.filter_cons, hi] using hn) ps h l]
      unfold ClassForm
      simp [hi]
    | false =>
      rw [hi, if_neg (by simp)] at h
      cases hb : buildSchema N v.ty v.names v.schema v.ui with
      | error e => rw [hb] at h; exact absurd h (by simp)
      | ok p =>
        rw [hb] at h
        simp only at h
        cases hv : varPats N vs with
        | error e => rw [hv] at h; exact absurd h (by simp)
        | ok ps' =>
          rw [hv] at h
          obtain rfl := Except.ok.inj h
          have hn' := hn
          rw [List.filter_cons, hi] at hn'
          simp only [Bool.not_false, if_true, List.pairwise_cons] at hn'
          obtain ⟨hroot, hn'⟩ := hn'
          have hroot : ∀ w ∈ vs, w.internal = false → v.names.root ≠ w.names.root :=
            fun w hw hwi => hroot w (by simp [hw, hwi])
          have key := fun x => build_spec (D := D) v.ty v.names v.schema v.ui p x hb
          obtain ⟨q, rfl⟩ := build_element hb
          have split : ∀ l', Matches D (if v.dflt.isSome then .optional (.element v.names.root q)
              else .element v.names.root q) l' ↔
              ((∃ x, l' = [x] ∧ Form (Allowed N D) v.ty v.names v.schema v.ui x) ∨
                (v.dflt ≠ none ∧ l' = [])) := by
            intro l'
            cases hd : v.dflt with
            | none =>
              simp only [Option.isSome_none, Bool.false_eq_true, if_false, ne_eq, not_true_eq_false, false_and,
                or_false]
              constructor
              · intro h
                obtain ⟨cs, rfl⟩ := matches_element h
                exact ⟨_, rfl, (key _).mp h⟩
              · rintro ⟨x, rfl, hx⟩
                exact (key x).mpr hx
            | some d =>
              simp only [Option.isSome_some, if_true, ne_eq, reduceCtorEq, not_false_eq_true, true_and]
              constructor
              · intro h
                cases h with
                | absent => right; rfl
                | present h =>
                  obtain ⟨cs, rfl⟩ := matches_element h
                  exact .inl ⟨_, rfl, (key _).mp h⟩
              · rintro (⟨x, rfl, hx⟩ | rfl)
                · exact .present ((key x).mpr hx)
                · exact .absent
          constructor
          · intro h
            cases h with
            | @cons _ _ a b _ ha hb' hl =>
              obtain ⟨hb1, hb2⟩ := (ih hn' ps' hv b).mp hb'
              rw [split] at ha
              have hanamed : named v.names.root a = a ∧ ∀ c ∈ a, ∃ ds, c = .element v.names.root ds := by
                rcases ha with ⟨x, rfl, hx⟩ | ⟨_, rfl⟩
                · obtain ⟨cs, rfl⟩ := form_name hx
                  exact ⟨by simp [named], by simp⟩
                · exact ⟨rfl, by simp⟩
              have hbnamed : named v.names.root b = [] := by
                rw [List.eq_nil_iff_forall_not_mem]
                intro c hc
                obtain ⟨hcb, cs, rfl⟩ := mem_named.mp hc
                obtain ⟨w, hw, hwi, ds, e⟩ := hb1 _ hcb
                exact hroot w hw hwi (Node.element.inj e).1
              refine ⟨fun c hc => ?_, fun w hw hwi => ?_⟩
              · rcases (shuffle_mem hl c).mp hc with hc | hc
                · exact ⟨v, by simp, hi, hanamed.2 c hc⟩
                · obtain ⟨w, hw, r⟩ := hb1 c hc
                  exact ⟨w, by simp [hw], r⟩
              · rcases List.mem_cons.mp hw with rfl | hw
                · rw [named_shuffle hl hbnamed, hanamed.1]
                  exact ha
                · have hne := hroot w hw hwi
                  have han : named w.names.root a = [] := by
                    rw [List.eq_nil_iff_forall_not_mem]
                    intro c hc
                    obtain ⟨hca, cs, rfl⟩ := mem_named.mp hc
                    obtain ⟨ds, e⟩ := hanamed.2 _ hca
                    exact hne (Node.element.inj e).1.symm
                  rw [named_shuffle (shuffle_comm hl) han]
                  exact hb2 w hw hwi
          · rintro ⟨h1, h2⟩
            let pr : Node → Bool := fun c => match c with
              | .element m _ => m = v.names.root
              | _ => false
            have hfilter : l.filter pr = named v.names.root l := rfl
            refine .cons (a := l.filter pr) (b := l.filter fun c => !pr c) ?_ ?_ (shuffle_filter pr l)
            · rw [split, hfilter]
              exact h2 v (by simp) hi
            · rw [ih hn' ps' hv]
              refine ⟨fun c hc => ?_, fun w hw hwi => ?_⟩
              · obtain ⟨hcl, hcp⟩ := List.mem_filter.mp hc
                obtain ⟨w, hw, hwi, ds, rfl⟩ := h1 c hcl
                rcases List.mem_cons.mp hw with rfl | hw
                · simp [pr] at hcp
                · exact ⟨w, hw, hwi, ds, rfl⟩
              · have hne := hroot w hw hwi
                have : named w.names.root (l.filter fun c => !pr c) = named w.names.root l := by
                  unfold named
                  rw [List.filter_filter]
                  refine List.filter_congr fun c _ => ?_
                  cases c with
                  | element m cs =>
                    by_cases hm : m = w.names.root
                    · subst hm; simp [pr, Ne.symm hne]
                    · simp [hm]
                  | _ => simp
                rw [this]
                exact h2 w (by simp [hw]) hwi

end Cyclus.InfileGen
