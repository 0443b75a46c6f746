import Verif.Model.Initial
import Verif.Props.Schema
import Verif.Props.SimInfo

/-!
# C100: the initial agents are those of the input file
-/

namespace Cyclus.Initial

open Infile (Node Tree Query Fail Step)
open Load (Spec)
open Schema (named isNamed)

variable {α : Type}

/-! ## Specification -/

/-- The first child with a name has this text. -/
def Text (n : Node) (k s : List Char) : Prop := ∃ x rest, named k n = .element x [.text s] :: rest

/-- An element defines a prototype: its name, and the state made from the archetype whose alias is the
first element inside of `config`. -/
def Defines (init : Spec → Node → Except Fail α) (specs : List (List Char × Spec)) (n : Node)
    (d : List Char × α) : Prop :=
  Text n ['n', 'a', 'm', 'e'] d.1 ∧ ∃ x cs rest nick inner more,
    named ['c', 'o', 'n', 'f', 'i', 'g'] n = .element x cs :: rest ∧
    cs.filter Node.isElement = .element nick inner :: more ∧
    init (Schema.lookup specs nick) n = .ok d.2

/-- The regions of a document. -/
def regions (root : Node) : List Node := named ['r', 'e', 'g', 'i', 'o', 'n'] root
/-- The institutions of a document. -/
def institutions (root : Node) : List Node := (regions root).flatMap (named ['i', 'n', 's', 't', 'i', 't', 'u', 't', 'i', 'o', 'n'])
/-- The facilities that a document defines. -/
def facilities (root : Node) : List Node := named ['f', 'a', 'c', 'i', 'l', 'i', 't', 'y'] root
/-- The entries of the list of facilities of an institution. -/
def entries (n : Node) : List Node := (named ['i', 'n', 'i', 't', 'i', 'a', 'l', 'f', 'a', 'c', 'i', 'l', 'i', 't', 'y', 'l', 'i', 's', 't'] n).flatMap (named ['e', 'n', 't', 'r', 'y'])

/-- Facilities to build: prototype and number. -/
structure EFac where
  proto : List Char
  number : ℤ

/-- An institution with its facilities. -/
structure EInst where
  name : List Char
  facs : List EFac

/-- A region with its institutions. -/
structure EReg where
  name : List Char
  insts : List EInst

/-- The entry says this; the number is an `int`. -/
def SaysFac (n : Node) (f : EFac) : Prop :=
  Text n ['p', 'r', 'o', 't', 'o', 't', 'y', 'p', 'e'] f.proto ∧
  ∃ s, Text n ['n', 'u', 'm', 'b', 'e', 'r'] s ∧ Infile.Numeral f.number s ∧ -2 ^ 31 ≤ f.number ∧ f.number < 2 ^ 31

/-- The institution says this. -/
def SaysInst (n : Node) (i : EInst) : Prop :=
  Text n ['n', 'a', 'm', 'e'] i.name ∧ List.Forall₂ SaysFac (entries n) i.facs

/-- The region says this. -/
def SaysReg (n : Node) (r : EReg) : Prop :=
  Text n ['n', 'a', 'm', 'e'] r.name ∧ List.Forall₂ SaysInst (named ['i', 'n', 's', 't', 'i', 't', 'u', 't', 'i', 'o', 'n'] n) r.insts

/-- The facilities of an institution, which is agent number `p`. -/
def facsOut (p : ℕ) (fs : List EFac) : List (List Char × Option ℕ) :=
  fs.flatMap fun f => List.replicate f.number.toNat (f.proto, some p)

/-- The agents of the institutions of region `p`, the first of which gets number `k`: each institution
is followed by its facilities. -/
def instsOut (p : ℕ) : ℕ → List EInst → List (List Char × Option ℕ)
  | _, [] => []
  | k, i :: is =>
    (i.name, some p) :: facsOut k i.facs ++ instsOut p (k + 1 + (facsOut k i.facs).length) is

/-- All agents, the first of which gets number `k`: each region is followed by its institutions. -/
def regsOut : ℕ → List EReg → List (List Char × Option ℕ)
  | _, [] => []
  | k, r :: rs =>
    (r.name, none) :: instsOut k (k + 1) r.insts ++
      regsOut (k + 1 + (instsOut k (k + 1) r.insts).length) rs

/-- No list of elements is too long for an `int`. -/
structure Small (root : Node) : Prop where
  facs : (facilities root).length < 2 ^ 31
  insts : (institutions root).length < 2 ^ 31
  regs : (regions root).length < 2 ^ 31
  each : ∀ n ∈ institutions root, (entries n).length < 2 ^ 31

/-! ## Loops -/

theorem text_iff (t : Tree) (k s : List Char) : t.getString (.child k) 0 = .ok s ↔ Text t.cur k s := by
  rw [Schema.getString_zero, Schema.find_child]
  rfl

theorem subTree_at (t : Tree) (q : Query) (i : ℕ) (n : Node) (hb : (t.find q).length < 2 ^ 31)
    (hi : (t.find q)[i]? = some n) (he : n.isElement = true) :
    t.subTree q i = .ok ⟨t.root, n⟩ := by
  have hlt : i < (t.find q).length := by
    by_contra h
    rw [List.getElem?_eq_none (by omega)] at hi
    simp at hi
  unfold Tree.subTree Infile.pick
  have hf : Infile.tooFew (t.find q).length (i : ℤ) = false := by
    unfold Infile.tooFew
    rw [decide_eq_false_iff_not]
    have : ((i : ℤ) + 1) % 2 ^ 64 = (i : ℤ) + 1 := by omega
    rw [this]
    omega
  rw [hf]
  have hat : Infile.at' (t.find q) (i : ℤ) = .ok n := by
    unfold Infile.at'
    rw [if_neg (by omega), Int.toNat_natCast, hi]
  rw [if_neg (by simp), hat]
  cases n with
  | element x cs => rfl
  | _ => simp [Node.isElement] at he

/-- The loop over the nodes themselves. -/
def over {σ : Type} (root : Node) (body : Tree → σ → Except Fail σ) : List Node → σ → Except Fail σ
  | [], s => .ok s
  | n :: ns, s =>
    match body ⟨root, n⟩ s with
    | .error e => .error e
    | .ok s' => over root body ns s'

theorem forEach_over {σ : Type} (t : Tree) (q : Query) (body : Tree → σ → Except Fail σ)
    (hb : (t.find q).length < 2 ^ 31) (he : ∀ n ∈ t.find q, n.isElement = true) (s : σ) :
    forEach t q body (t.nMatches q) 0 s = over t.root body (t.find q) s := by
  have key : ∀ n i s, i + n = (t.find q).length →
      forEach t q body n i s = over t.root body ((t.find q).drop i) s := by
    intro n
    induction n with
    | zero =>
      intro i s h
      rw [List.drop_of_length_le (by omega)]
      rfl
    | succ n ih =>
      intro i s h
      have hi : i < (t.find q).length := by omega
      rw [forEach, subTree_at t q i _ hb (List.getElem?_eq_getElem hi) (he _ (List.getElem_mem hi)),
        List.drop_eq_getElem_cons hi]
      simp only [over]
      cases body ⟨t.root, (t.find q)[i]⟩ s with
      | error e => rfl
      | ok s' => exact ih (i + 1) s' (by omega)
  exact key _ 0 s (by simp [Tree.nMatches])

theorem named_element (k : List Char) (n : Node) : ∀ m ∈ named k n, m.isElement = true := by
  intro m hm
  have := (List.mem_filter.mp hm).2
  cases m with
  | element => rfl
  | _ => simp [isNamed] at this

theorem find_root {root : Node} (hr : root.isElement = true) (k : List Char) :
    (Tree.new root).find ⟨true, [.any, .named k]⟩ = named k root := by
  unfold Tree.find
  simp only [if_true, Tree.new, Infile.descend, Schema.selects_named]
  have hc : (Node.element [] [root]).children = [root] := rfl
  have hs : Step.any.selects root = true := by
    cases root with
    | element => rfl
    | _ => simp [Node.isElement] at hr
  rw [hc, List.filter_cons_of_pos hs]
  simp [named]

theorem find_root_two {root : Node} (hr : root.isElement = true) (k l : List Char) :
    (Tree.new root).find ⟨true, [.any, .named k, .named l]⟩ = (named k root).flatMap (named l) := by
  unfold Tree.find
  simp only [if_true, Tree.new, Infile.descend, Schema.selects_named]
  have hc : (Node.element [] [root]).children = [root] := rfl
  have hs : Step.any.selects root = true := by
    cases root with
    | element => rfl
    | _ => simp [Node.isElement] at hr
  rw [hc, List.filter_cons_of_pos hs]
  simp [named]
  rfl

theorem find_entries (t : Tree) : t.find entryPath = entries t.cur := by
  unfold Tree.find entryPath entries
  simp only [Bool.false_eq_true, if_false, Infile.descend, Schema.selects_named]
  simp [named]
  rfl

theorem flatMap_element (k : List Char) (ns : List Node) :
    ∀ m ∈ ns.flatMap (named k), m.isElement = true := by
  intro m hm
  obtain ⟨n, _, hn⟩ := List.mem_flatMap.mp hm
  exact named_element k n m hn

theorem forall₂_left {A B : Type} {R : A → B → Prop} {as : List A} {bs : List B}
    (h : List.Forall₂ R as bs) : ∀ a ∈ as, ∃ b ∈ bs, R a b := by
  induction h with
  | nil => simp
  | cons h _ ih =>
    intro a ha
    rcases List.mem_cons.mp ha with rfl | ha
    · exact ⟨_, by simp, h⟩
    · obtain ⟨b, hb, hr⟩ := ih a ha
      exact ⟨b, by simp [hb], hr⟩

theorem forall₂_right {A B : Type} {R : A → B → Prop} {as : List A} {bs : List B}
    (h : List.Forall₂ R as bs) : ∀ b ∈ bs, ∃ a ∈ as, R a b := by
  induction h with
  | nil => simp
  | cons h _ ih =>
    intro b hb
    rcases List.mem_cons.mp hb with rfl | hb
    · exact ⟨_, by simp, h⟩
    · obtain ⟨a, ha, hr⟩ := ih b hb
      exact ⟨a, by simp [ha], hr⟩

theorem small_insts {root : Node} (hs : Small root) :
    ∀ n ∈ regions root, (named ['i', 'n', 's', 't', 'i', 't', 'u', 't', 'i', 'o', 'n'] n).length < 2 ^ 31 := by
  intro n hnm
  have h1 := hs.insts
  unfold institutions at h1
  obtain ⟨a, b, hab⟩ := List.append_of_mem hnm
  rw [hab, List.flatMap_append, List.flatMap_cons, List.length_append, List.length_append] at h1
  omega

/-! ## Prototypes -/

theorem aliasOf_ok (t : Tree) (x : List Char) (cs rest : List Node) (nick : List Char)
    (inner more : List Node)
    (h1 : named ['c', 'o', 'n', 'f', 'i', 'g'] t.cur = .element x cs :: rest)
    (h2 : cs.filter Node.isElement = .element nick inner :: more) : aliasOf t = .ok nick := by
  have h0 : t.subTree (.child ['c', 'o', 'n', 'f', 'i', 'g']) 0 = .ok ⟨t.root, .element x cs⟩ := by
    unfold Tree.subTree Infile.pick
    rw [Schema.find_child, h1]
    have hf : Infile.tooFew (Node.element x cs :: rest).length 0 = false := by
      simp [Infile.tooFew]
    rw [hf]
    rfl
  unfold aliasOf
  rw [h0]
  simp only [Tree.getElementName, Infile.pick, Node.children, h2]
  have hf : Infile.tooFew (Node.element nick inner :: more).length 0 = false := by
    simp [Infile.tooFew]
  rw [hf]
  rfl

theorem define_ok (init : Spec → Node → Except Fail α) (specs : List (List Char × Spec)) (root n : Node)
    (d : List Char × α) (h : Defines init specs n d) (protos : List (List Char × α)) :
    define init specs ⟨root, n⟩ protos =
      if d.1 ∈ protos.map Prod.fst then .error (.err .key) else .ok (protos ++ [d]) := by
  obtain ⟨h1, x, cs, rest, nick, inner, more, h2, h3, h4⟩ := h
  unfold define
  rw [(text_iff ⟨root, n⟩ _ _).mpr h1]
  simp only
  rw [aliasOf_ok ⟨root, n⟩ x cs rest nick inner more h2 h3]
  simp only [h4]
  have : protos.any (fun e => decide (e.1 = d.1)) = true ↔ d.1 ∈ protos.map Prod.fst := by
    simp [List.any_eq_true]
  by_cases hm : d.1 ∈ protos.map Prod.fst
  · rw [if_pos hm, if_pos (this.mpr hm)]
  · rw [if_neg hm, if_neg (fun h => hm (this.mp h))]

theorem over_append {σ : Type} (root : Node) (body : Tree → σ → Except Fail σ) (a b : List Node) (s : σ) :
    over root body (a ++ b) s = match over root body a s with
      | .error e => .error e
      | .ok s' => over root body b s' := by
  induction a generalizing s with
  | nil => rfl
  | cons n a ih =>
    rw [List.cons_append, over, over]
    cases body ⟨root, n⟩ s with
    | error e => rfl
    | ok s' => exact ih s'

theorem prototypes_over (init : Spec → Node → Except Fail α) (specs : List (List Char × Spec))
    (root : Node) (hr : root.isElement = true) (hs : Small root) :
    prototypes init specs (Tree.new root) =
      over root (define init specs) (facilities root ++ institutions root ++ regions root) [] := by
  have h1 : (Tree.new root).find facilityPath = facilities root := find_root hr _
  have h2 : (Tree.new root).find instPath = institutions root := find_root_two hr _ _
  have h3 : (Tree.new root).find regionPath = regions root := find_root hr _
  unfold prototypes
  rw [over_append, over_append, forEach_over _ _ _ (by rw [h1]; exact hs.facs)
    (by rw [h1]; exact named_element _ _), h1]
  have hroot : (Tree.new root).root = root := rfl
  rw [hroot]
  cases over root (define init specs) (facilities root) [] with
  | error e => rfl
  | ok p1 =>
    simp only
    rw [forEach_over _ _ _ (by rw [h2]; exact hs.insts) (by rw [h2]; exact flatMap_element _ _), h2, hroot]
    cases over root (define init specs) (institutions root) p1 with
    | error e => rfl
    | ok p2 =>
      simp only
      rw [forEach_over _ _ _ (by rw [h3]; exact hs.regs) (by rw [h3]; exact named_element _ _), h3, hroot]

theorem over_define (init : Spec → Node → Except Fail α) (specs : List (List Char × Spec)) (root : Node)
    (ns : List Node) (ds : List (List Char × α)) (h : List.Forall₂ (Defines init specs) ns ds) :
    ∀ p, (p.map Prod.fst).Nodup →
      ((((p ++ ds).map Prod.fst).Nodup → over root (define init specs) ns p = .ok (p ++ ds)) ∧
      (¬ ((p ++ ds).map Prod.fst).Nodup → over root (define init specs) ns p = .error (.err .key))) := by
  induction h with
  | nil =>
    intro p hp
    refine ⟨fun _ => by simp [over], fun h => ?_⟩
    simp only [List.append_nil] at h
    exact absurd hp h
  | cons hd _ ih =>
    rename_i n d ns ds _
    intro p hp
    rw [over, define_ok init specs root n d hd]
    by_cases hm : d.1 ∈ p.map Prod.fst
    · rw [if_pos hm]
      refine ⟨fun hn => ?_, fun _ => rfl⟩
      rw [List.map_append, List.nodup_append] at hn
      exact absurd rfl (hn.2.2 d.1 hm d.1 (by simp))
    · rw [if_neg hm]
      have hp' : ((p ++ [d]).map Prod.fst).Nodup := by
        rw [List.map_append, List.nodup_append]
        refine ⟨hp, by simp, ?_⟩
        intro a ha b hb
        simp only [List.map_cons, List.map_nil, List.mem_singleton] at hb
        rw [hb]
        rintro rfl
        exact hm ha
      have := ih (p ++ [d]) hp'
      rw [List.append_assoc, List.singleton_append] at this
      exact this

/-! ## Agents -/

/-- What was built, as prototypes and parents. -/
def shape (b : List (Built α)) : List (List Char × Option ℕ) := b.map fun x => (x.proto, x.parent)

/-- Each agent has the state of its prototype. -/
def Faithful (protos : List (List Char × α)) (b : List (Built α)) : Prop :=
  ∀ x ∈ b, (x.proto, x.value) ∈ protos

theorem buildAgent_ok (protos : List (List Char × α)) (p : List Char) (parent : Option ℕ)
    (b : List (Built α)) (hf : Faithful protos b) (hp : p ∈ protos.map Prod.fst) :
    ∃ b', buildAgent protos p parent b = .ok b' ∧ shape b' = shape b ++ [(p, parent)] ∧
      Faithful protos b' := by
  unfold buildAgent
  cases h : protos.find? (·.1 = p) with
  | none =>
    rw [List.find?_eq_none] at h
    obtain ⟨e, he, rfl⟩ := List.mem_map.mp hp
    exact absurd (by simp) (h e he)
  | some e =>
    refine ⟨_, rfl, by simp [shape], ?_⟩
    intro x hx
    rcases List.mem_append.mp hx with hx | hx
    · exact hf x hx
    · simp only [List.mem_singleton] at hx
      subst hx
      have h1 := List.find?_some h
      simp only [decide_eq_true_eq] at h1
      have := List.mem_of_find?_eq_some h
      simp only
      rw [← h1]
      exact this

theorem buildMany_ok (protos : List (List Char × α)) (p : List Char) (k : ℕ) (n : ℕ)
    (hp : 0 < n → p ∈ protos.map Prod.fst) :
    ∀ b, Faithful protos b → ∃ b', buildMany protos p k n b = .ok b' ∧
      shape b' = shape b ++ List.replicate n (p, some k) ∧ Faithful protos b' := by
  induction n with
  | zero => intro b hf; exact ⟨b, rfl, by simp, hf⟩
  | succ n ih =>
    intro b hf
    obtain ⟨b1, h1, h2, h3⟩ := buildAgent_ok protos p (some k) b hf (hp (by omega))
    obtain ⟨b2, h4, h5, h6⟩ := ih (fun _ => hp (by omega)) b1 h3
    refine ⟨b2, ?_, ?_, h6⟩
    · rw [buildMany, h1]
      exact h4
    · rw [h5, h2, List.append_assoc, List.singleton_append, List.replicate_succ]

theorem atoi_numeral {z : ℤ} {s : List Char} (h : Infile.Numeral z s) (h0 : -2 ^ 31 ≤ z)
    (h1 : z < 2 ^ 31) : Info.castLong (Info.strtol s) = z := by
  have hz : Info.strtol s = z := by
    obtain ⟨pre, post, w, ds, hpre, hpost, hne, hd, hc⟩ := h
    have hr : ∀ c ∈ post.head?, Info.digit c = none := by
      intro c hc
      have hm : c ∈ post := List.mem_of_mem_head? hc
      have := hpost c hm
      unfold Info.isSpace at this
      simp only [decide_eq_true_eq] at this
      rcases this with rfl | rfl | rfl | rfl | rfl | rfl <;> decide
    obtain ⟨k1, k2, k3⟩ := Info.C95_numbers ds hne w pre post hd hpre hr
    rcases hc with ⟨rfl, rfl⟩ | ⟨rfl, rfl⟩ | ⟨rfl, rfl⟩
    · rw [k1]; omega
    · rw [k2]; omega
    · rw [k3]; omega
  rw [hz, Info.castLong_small z h0 h1]

theorem over_shape {E : Type} (protos : List (List Char × α)) (root : Node)
    (body : Tree → List (Built α) → Except Fail (List (Built α))) (Says : Node → E → Prop)
    (out : ℕ → E → List (List Char × Option ℕ)) (all : ℕ → List E → List (List Char × Option ℕ))
    (hnil : ∀ k, all k [] = []) (hcons : ∀ k e es, all k (e :: es) = out k e ++
      all (k + (out k e).length) es)
    (ns : List Node) (es : List E) (hs : List.Forall₂ Says ns es)
    (hbody : ∀ n ∈ ns, ∀ e ∈ es, Says n e → ∀ b, Faithful protos b → ∃ b', body ⟨root, n⟩ b = .ok b' ∧
      shape b' = shape b ++ out b.length e ∧ Faithful protos b') :
    ∀ b, Faithful protos b → ∃ b', over root body ns b = .ok b' ∧
      shape b' = shape b ++ all b.length es ∧ Faithful protos b' := by
  induction hs with
  | nil => intro b hf; exact ⟨b, rfl, by simp [hnil], hf⟩
  | cons h _ ih =>
    rename_i n e ns es _
    intro b hf
    obtain ⟨b1, h1, h2, h3⟩ := hbody n (by simp) e (by simp) h b hf
    obtain ⟨b2, h4, h5, h6⟩ := ih (fun m hm x hx => hbody m (by simp [hm]) x (by simp [hx])) b1 h3
    refine ⟨b2, ?_, ?_, h6⟩
    · rw [over, h1]
      exact h4
    · have hl : b1.length = b.length + (out b.length e).length := by
        have := congrArg List.length h2
        simpa [shape] using this
      rw [h5, h2, hl, hcons, List.append_assoc]

theorem entry_ok (protos : List (List Char × α)) (root n : Node) (k : ℕ) (f : EFac) (hs : SaysFac n f)
    (hp : 0 < f.number → f.proto ∈ protos.map Prod.fst) (b : List (Built α)) (hf : Faithful protos b) :
    ∃ b', buildEntry protos k ⟨root, n⟩ b = .ok b' ∧
      shape b' = shape b ++ List.replicate f.number.toNat (f.proto, some k) ∧ Faithful protos b' := by
  obtain ⟨h1, s, h2, h3, h4, h5⟩ := hs
  obtain ⟨b', h6, h7, h8⟩ := buildMany_ok protos f.proto k f.number.toNat (fun h => hp (by omega)) b hf
  refine ⟨b', ?_, h7, h8⟩
  unfold buildEntry
  rw [(text_iff ⟨root, n⟩ _ _).mpr h1]
  simp only
  rw [(text_iff ⟨root, n⟩ _ _).mpr h2]
  simp only
  rw [atoi_numeral h3 h4 h5]
  exact h6

theorem inst_ok (protos : List (List Char × α)) (root n : Node) (p : ℕ) (i : EInst) (hs : SaysInst n i)
    (hb : (entries n).length < 2 ^ 31) (hn : i.name ∈ protos.map Prod.fst)
    (hp : ∀ f ∈ i.facs, 0 < f.number → f.proto ∈ protos.map Prod.fst) (b : List (Built α))
    (hf : Faithful protos b) :
    ∃ b', buildInst protos p ⟨root, n⟩ b = .ok b' ∧
      shape b' = shape b ++ (i.name, some p) :: facsOut b.length i.facs ∧ Faithful protos b' := by
  obtain ⟨h1, h2⟩ := hs
  obtain ⟨b1, h3, h4, h5⟩ := buildAgent_ok protos i.name (some p) b hf hn
  have hfind : (Tree.mk root n).find entryPath = entries n := find_entries ⟨root, n⟩
  obtain ⟨b2, h6, h7, h8⟩ := over_shape protos root (buildEntry protos b.length) SaysFac
    (fun _ f => List.replicate f.number.toNat (f.proto, some b.length))
    (fun _ fs => facsOut b.length fs) (fun _ => rfl) (fun _ _ _ => rfl) (entries n) i.facs h2
    (fun m _ f hfm hsay b' hb' => entry_ok protos root m b.length f hsay (hp f hfm) b' hb') b1 h5
  refine ⟨b2, ?_, ?_, h8⟩
  · unfold buildInst
    rw [(text_iff ⟨root, n⟩ _ _).mpr h1]
    simp only [h3]
    rw [forEach_over _ _ _ (by rw [hfind]; exact hb) (by rw [hfind]; exact flatMap_element _ _), hfind]
    exact h6
  · rw [h7, h4, List.append_assoc, List.singleton_append]

theorem region_ok (protos : List (List Char × α)) (root n : Node) (r : EReg) (hs : SaysReg n r)
    (hb : (named ['i', 'n', 's', 't', 'i', 't', 'u', 't', 'i', 'o', 'n'] n).length < 2 ^ 31)
    (hb2 : ∀ m ∈ named ['i', 'n', 's', 't', 'i', 't', 'u', 't', 'i', 'o', 'n'] n, (entries m).length < 2 ^ 31)
    (hn : r.name ∈ protos.map Prod.fst) (hi : ∀ i ∈ r.insts, i.name ∈ protos.map Prod.fst)
    (hp : ∀ i ∈ r.insts, ∀ f ∈ i.facs, 0 < f.number → f.proto ∈ protos.map Prod.fst)
    (b : List (Built α)) (hf : Faithful protos b) :
    ∃ b', buildRegion protos ⟨root, n⟩ b = .ok b' ∧
      shape b' = shape b ++ (r.name, none) :: instsOut b.length (b.length + 1) r.insts ∧
      Faithful protos b' := by
  obtain ⟨h1, h2⟩ := hs
  obtain ⟨b1, h3, h4, h5⟩ := buildAgent_ok protos r.name none b hf hn
  have hfind : (Tree.mk root n).find (.child ['i', 'n', 's', 't', 'i', 't', 'u', 't', 'i', 'o', 'n']) = named ['i', 'n', 's', 't', 'i', 't', 'u', 't', 'i', 'o', 'n'] n :=
    Schema.find_child ⟨root, n⟩ _
  have hl1 : b1.length = b.length + 1 := by
    have := congrArg List.length h4
    simpa [shape] using this
  obtain ⟨b2, h6, h7, h8⟩ := over_shape protos root (buildInst protos b.length) SaysInst
    (fun k i => (i.name, some b.length) :: facsOut k i.facs)
    (fun k is => instsOut b.length k is) (fun _ => rfl)
    (fun k i is => by
      simp only [instsOut, List.cons_append, List.length_cons]
      congr 3
      omega)
    (named ['i', 'n', 's', 't', 'i', 't', 'u', 't', 'i', 'o', 'n'] n) r.insts h2
    (fun m hm i him hsay b' hb' => inst_ok protos root m b.length i hsay (hb2 m hm) (hi i him) (hp i him)
      b' hb') b1 h5
  refine ⟨b2, ?_, ?_, h8⟩
  · unfold buildRegion
    rw [(text_iff ⟨root, n⟩ _ _).mpr h1]
    simp only [h3]
    rw [forEach_over _ _ _ (by rw [hfind]; exact hb) (by rw [hfind]; exact named_element _ _), hfind]
    exact h6
  · rw [h7, h4, hl1, List.append_assoc, List.singleton_append]

/-- C100 (agents).  For every document whose definitions of facilities, institutions and regions have
different names and can be made, and whose regions list institutions and facilities that are defined:
the loader defines exactly these prototypes, each with the state made from its own element, and builds
exactly the regions, institutions and facilities of the file, the latter as often as the file says, each
with the state of the prototype of its name, and each institution under its region and each facility
under its institution. -/
theorem C100_agents (init : Spec → Node → Except Fail α) (specs : List (List Char × Spec)) (root : Node)
    (hr : root.isElement = true) (hs : Small root) (ds : List (List Char × α))
    (hd : List.Forall₂ (Defines init specs)
      (facilities root ++ institutions root ++ regions root) ds)
    (hn : (ds.map Prod.fst).Nodup) (regs : List EReg) (hregs : List.Forall₂ SaysReg (regions root) regs)
    (hp : ∀ r ∈ regs, ∀ i ∈ r.insts, ∀ f ∈ i.facs, 0 < f.number → f.proto ∈ ds.map Prod.fst) :
    ∃ built, load init specs root = .ok (ds, built) ∧
      (built.map fun x => (x.proto, x.parent)) = regsOut 0 regs ∧
      ∀ x ∈ built, (x.proto, x.value) ∈ ds := by
  have hproto : prototypes init specs (Tree.new root) = .ok ds := by
    rw [prototypes_over init specs root hr hs]
    exact (over_define init specs root _ ds hd [] (by simp)).1 (by simpa using hn)
  have hdef : ∀ ns ds', List.Forall₂ (Defines init specs) ns ds' → ∀ n ∈ ns, ∀ s,
      Text n ['n', 'a', 'm', 'e'] s → s ∈ ds'.map Prod.fst := by
    intro ns ds' h
    induction h with
    | nil => simp
    | cons h _ ih =>
      intro n hn s ht
      rcases List.mem_cons.mp hn with rfl | hn
      · obtain ⟨⟨x, rest, h1⟩, _⟩ := h
        obtain ⟨y, rest', h2⟩ := ht
        rw [h1] at h2
        simp only [List.cons.injEq, Node.element.injEq, Node.text.injEq] at h2
        rw [← h2.1.2.1]
        simp
      · simp [ih n hn s ht]
  have hregname : ∀ ns rs, List.Forall₂ SaysReg ns rs → (∀ n ∈ ns, n ∈ regions root) →
      ∀ r ∈ rs, r.name ∈ ds.map Prod.fst ∧ ∀ i ∈ r.insts, i.name ∈ ds.map Prod.fst := by
    intro ns rs h
    induction h with
    | nil => simp
    | cons h _ ih =>
      rename_i n r ns rs _
      intro hmem x hx
      rcases List.mem_cons.mp hx with rfl | hx
      · obtain ⟨h1, h2⟩ := h
        have hnr := hmem n (by simp)
        refine ⟨hdef _ _ hd n (by simp [hnr]) _ h1, ?_⟩
        have hinst : ∀ ms is, List.Forall₂ SaysInst ms is → (∀ m ∈ ms, m ∈ institutions root) →
            ∀ i ∈ is, i.name ∈ ds.map Prod.fst := by
          intro ms is h
          induction h with
          | nil => simp
          | cons h _ ih2 =>
            rename_i m i ms is _
            intro hmem2 y hy
            rcases List.mem_cons.mp hy with rfl | hy
            · exact hdef _ _ hd m (by simp [hmem2 m (by simp)]) _ h.1
            · exact ih2 (fun z hz => hmem2 z (by simp [hz])) y hy
        refine hinst _ _ h2 ?_
        intro m hm
        exact List.mem_flatMap.mpr ⟨n, hnr, hm⟩
      · exact ih (fun z hz => hmem z (by simp [hz])) x hx
  have hrn := hregname _ _ hregs fun _ h => h
  have hfind : (Tree.new root).find regionPath = regions root := find_root hr _
  have hlen := small_insts hs
  obtain ⟨built, h1, h2, h3⟩ := over_shape ds root (buildRegion ds) SaysReg
    (fun k r => (r.name, none) :: instsOut k (k + 1) r.insts) regsOut (fun _ => rfl)
    (fun k r rs => by
      simp only [regsOut, List.cons_append, List.length_cons]
      congr 3
      omega)
    (regions root) regs hregs
    (fun m hm r hrm hsay b' hb' => region_ok ds root m r hsay (hlen m hm)
      (fun i hi => hs.each i (List.mem_flatMap.mpr ⟨m, hm, hi⟩)) (hrn r hrm).1 (hrn r hrm).2
      (hp r hrm) b' hb') [] (by intro x hx; simp at hx)
  refine ⟨built, ?_, by simpa [shape] using h2, h3⟩
  unfold load
  rw [hproto]
  simp only
  rw [forEach_over _ _ _ (by rw [hfind]; exact hs.regs) (by rw [hfind]; exact named_element _ _), hfind]
  have hroot : (Tree.new root).root = root := rfl
  rw [hroot, h1]

/-- A definition with a name and one element as configuration, and with further contents. -/
def defn (tag name : List Char) (more : List Node) : Node :=
  .element tag ([.element ['n', 'a', 'm', 'e'] [.text name],
    .element ['c', 'o', 'n', 'f', 'i', 'g'] [.element ['A'] []]] ++ more)

/-- A list of facilities. -/
def list (proto number : List Char) : Node :=
  .element ['i', 'n', 'i', 't', 'i', 'a', 'l', 'f', 'a', 'c', 'i', 'l', 'i', 't', 'y', 'l', 'i', 's', 't'] [.element ['e', 'n', 't', 'r', 'y'] [.element ['p', 'r', 'o', 't', 'o', 't', 'y', 'p', 'e'] [.text proto],
    .element ['n', 'u', 'm', 'b', 'e', 'r'] [.text number]]]

/-- A document with a facility `f`, and a region `r` with an institution `i` and facilities. -/
def sample (proto number : List Char) : Node :=
  .element ['s', 'i', 'm', 'u', 'l', 'a', 't', 'i', 'o', 'n'] [defn ['f', 'a', 'c', 'i', 'l', 'i', 't', 'y'] ['f'] [], defn ['r', 'e', 'g', 'i', 'o', 'n'] ['r']
    [defn ['i', 'n', 's', 't', 'i', 't', 'u', 't', 'i', 'o', 'n'] ['i'] [list proto number]]]

/-- A case of `C100_agents`: its conditions hold for two facilities `f`. -/
example : ∃ (ds : List (List Char × ℕ)) (regs : List EReg),
    List.Forall₂ (Defines (fun _ _ => .ok 7) [])
      (facilities (sample ['f'] ['2']) ++ institutions (sample ['f'] ['2']) ++
        regions (sample ['f'] ['2'])) ds ∧
    (ds.map Prod.fst).Nodup ∧ List.Forall₂ SaysReg (regions (sample ['f'] ['2'])) regs ∧
    regsOut 0 regs = [(['r'], none), (['i'], some 0), (['f'], some 1), (['f'], some 1)] := by
  refine ⟨[(['f'], 7), (['i'], 7), (['r'], 7)], [⟨['r'], [⟨['i'], [⟨['f'], 2⟩]⟩]⟩], ?_, by decide, ?_, ?_⟩
  · refine .cons ?_ (.cons ?_ (.cons ?_ .nil)) <;>
      exact ⟨⟨_, _, rfl⟩, _, _, _, _, _, _, rfl, rfl, rfl⟩
  · refine .cons ⟨⟨_, _, rfl⟩, .cons ⟨⟨_, _, rfl⟩, .cons ⟨⟨_, _, rfl⟩, ['2'], ⟨_, _, rfl⟩, ?_, by decide,
      by decide⟩ .nil⟩ .nil⟩ .nil
    exact ⟨[], [], ['2'], [2], by simp [Infile.Blank], by simp [Infile.Blank], by simp,
      ⟨by decide, by decide⟩, Or.inl ⟨rfl, by decide⟩⟩
  · decide +kernel

/-- C100 (refusals).  A second definition with the same name, of whatever kind, is refused with a
`KeyError`, and nothing is built.  A definition that cannot be made fails with its error if those before
it are in order. -/
theorem C100_refuses (init : Spec → Node → Except Fail α) (specs : List (List Char × Spec)) (root : Node)
    (hr : root.isElement = true) (hs : Small root) :
    (∀ ds, List.Forall₂ (Defines init specs)
      (facilities root ++ institutions root ++ regions root) ds → ¬ (ds.map Prod.fst).Nodup →
      load init specs root = .error (.err .key)) ∧
    (∀ pre n post ds e, facilities root ++ institutions root ++ regions root = pre ++ n :: post →
      List.Forall₂ (Defines init specs) pre ds → (ds.map Prod.fst).Nodup →
      define init specs ⟨root, n⟩ ds = .error e → load init specs root = .error e) := by
  constructor
  · intro ds hd hn
    unfold load
    rw [prototypes_over init specs root hr hs,
      (over_define init specs root _ ds hd [] (by simp)).2 (by simpa using hn)]
  · intro pre n post ds e he hd hn hdef
    unfold load
    rw [prototypes_over init specs root hr hs, he, over_append,
      (over_define init specs root _ ds hd [] (by simp)).1 (by simpa using hn)]
    simp only [List.nil_append, over, hdef]

/-- A case of `C100_refuses`: a facility called like the region. -/
example : List.Forall₂ (Defines (fun _ _ => .ok 7) [])
    (facilities (.element ['s', 'i', 'm', 'u', 'l', 'a', 't', 'i', 'o', 'n'] [defn ['f', 'a', 'c', 'i', 'l', 'i', 't', 'y'] ['r'] [], defn ['r', 'e', 'g', 'i', 'o', 'n'] ['r'] []]) ++
      institutions (.element ['s', 'i', 'm', 'u', 'l', 'a', 't', 'i', 'o', 'n'] [defn ['f', 'a', 'c', 'i', 'l', 'i', 't', 'y'] ['r'] [], defn ['r', 'e', 'g', 'i', 'o', 'n'] ['r'] []]) ++
      regions (.element ['s', 'i', 'm', 'u', 'l', 'a', 't', 'i', 'o', 'n'] [defn ['f', 'a', 'c', 'i', 'l', 'i', 't', 'y'] ['r'] [], defn ['r', 'e', 'g', 'i', 'o', 'n'] ['r'] []]))
    [(['r'], 7), (['r'], 7)] := by
  refine .cons ?_ (.cons ?_ .nil) <;> exact ⟨⟨_, _, rfl⟩, _, _, _, _, _, _, rfl, rfl, rfl⟩

/-! ## Unknown prototypes -/

/-- Either a `KeyError` or a value. -/
def Key {σ : Type} (r : Except Fail σ) : Prop := r = .error (.err .key) ∨ ∃ s, r = .ok s

theorem over_key {σ : Type} (root : Node) (body : Tree → σ → Except Fail σ) (ns : List Node)
    (hall : ∀ n ∈ ns, ∀ s, Key (body ⟨root, n⟩ s)) :
    (∀ s, Key (over root body ns s)) ∧
    (∀ n ∈ ns, (∀ s, body ⟨root, n⟩ s = .error (.err .key)) →
      ∀ s, over root body ns s = .error (.err .key)) := by
  induction ns with
  | nil => exact ⟨fun s => Or.inr ⟨s, rfl⟩, by simp⟩
  | cons m ns ih =>
    obtain ⟨ih1, ih2⟩ := ih fun n hn => hall n (by simp [hn])
    constructor
    · intro s
      rw [over]
      rcases hall m (by simp) s with h | ⟨s', h⟩
      · rw [h]; exact Or.inl rfl
      · rw [h]; exact ih1 s'
    · intro n hn hbad s
      rw [over]
      rcases hall m (by simp) s with h | ⟨s', h⟩
      · rw [h]
      · rw [h]
        rcases List.mem_cons.mp hn with rfl | hn
        · rw [hbad s] at h
          simp at h
        · exact ih2 n hn hbad s'

theorem buildAgent_key (protos : List (List Char × α)) (p : List Char) (parent : Option ℕ)
    (b : List (Built α)) : Key (buildAgent protos p parent b) ∧
      (p ∉ protos.map Prod.fst → buildAgent protos p parent b = .error (.err .key)) := by
  unfold buildAgent
  cases h : protos.find? (·.1 = p) with
  | none => exact ⟨Or.inl rfl, fun _ => rfl⟩
  | some e =>
    refine ⟨Or.inr ⟨_, rfl⟩, fun hp => ?_⟩
    have h1 := List.find?_some h
    simp only [decide_eq_true_eq] at h1
    exact absurd (List.mem_map.mpr ⟨e, List.mem_of_find?_eq_some h, h1⟩) hp

theorem buildMany_key (protos : List (List Char × α)) (p : List Char) (k n : ℕ) :
    (∀ b, Key (buildMany protos p k n b)) ∧
      (0 < n → p ∉ protos.map Prod.fst → ∀ b, buildMany protos p k n b = .error (.err .key)) := by
  induction n with
  | zero => exact ⟨fun b => Or.inr ⟨b, rfl⟩, by simp⟩
  | succ n ih =>
    constructor
    · intro b
      rw [buildMany]
      rcases (buildAgent_key protos p (some k) b).1 with h | ⟨b', h⟩
      · rw [h]; exact Or.inl rfl
      · rw [h]; exact ih.1 b'
    · intro _ hp b
      rw [buildMany, (buildAgent_key protos p (some k) b).2 hp]

theorem entry_key (protos : List (List Char × α)) (root n : Node) (k : ℕ) (f : EFac) (hs : SaysFac n f) :
    (∀ b, Key (buildEntry protos k ⟨root, n⟩ b)) ∧
      (0 < f.number → f.proto ∉ protos.map Prod.fst →
        ∀ b, buildEntry protos k ⟨root, n⟩ b = .error (.err .key)) := by
  obtain ⟨h1, s, h2, h3, h4, h5⟩ := hs
  have : ∀ b, buildEntry protos k ⟨root, n⟩ b = buildMany protos f.proto k f.number.toNat b := by
    intro b
    unfold buildEntry
    rw [(text_iff ⟨root, n⟩ _ _).mpr h1]
    simp only
    rw [(text_iff ⟨root, n⟩ _ _).mpr h2]
    simp only
    rw [atoi_numeral h3 h4 h5]
  refine ⟨fun b => by rw [this]; exact (buildMany_key ..).1 b, fun hpos hp b => ?_⟩
  rw [this]
  exact (buildMany_key protos f.proto k f.number.toNat).2 (by omega) hp b

theorem inst_key (protos : List (List Char × α)) (root n : Node) (p : ℕ) (i : EInst) (hs : SaysInst n i)
    (hb : (entries n).length < 2 ^ 31) :
    (∀ b, Key (buildInst protos p ⟨root, n⟩ b)) ∧
      ((∃ f ∈ i.facs, 0 < f.number ∧ f.proto ∉ protos.map Prod.fst) →
        ∀ b, buildInst protos p ⟨root, n⟩ b = .error (.err .key)) := by
  obtain ⟨h1, h2⟩ := hs
  have hfind : (Tree.mk root n).find entryPath = entries n := find_entries ⟨root, n⟩
  have hbody : ∀ k, ∀ m ∈ entries n, ∀ b, Key (buildEntry protos k ⟨root, m⟩ b) := by
    intro k m hm b
    obtain ⟨f, _, hf⟩ := forall₂_left h2 m hm
    exact (entry_key protos root m k f hf).1 b
  have heq : ∀ b, buildInst protos p ⟨root, n⟩ b = match buildAgent protos i.name (some p) b with
      | .error e => .error e
      | .ok b' => over root (buildEntry protos b.length) (entries n) b' := by
    intro b
    unfold buildInst
    rw [(text_iff ⟨root, n⟩ _ _).mpr h1]
    simp only
    cases buildAgent protos i.name (some p) b with
    | error e => rfl
    | ok b' =>
      simp only
      rw [forEach_over _ _ _ (by rw [hfind]; exact hb) (by rw [hfind]; exact flatMap_element _ _), hfind]
  constructor
  · intro b
    rw [heq]
    rcases (buildAgent_key protos i.name (some p) b).1 with h | ⟨b', h⟩
    · rw [h]; exact Or.inl rfl
    · rw [h]; exact (over_key root _ _ (hbody _)).1 b'
  · rintro ⟨f, hf, hpos, hun⟩ b
    obtain ⟨m, hm, hsay⟩ := forall₂_right h2 f hf
    rw [heq]
    rcases (buildAgent_key protos i.name (some p) b).1 with h | ⟨b', h⟩
    · rw [h]
    · rw [h]
      exact (over_key root _ _ (hbody _)).2 m hm
        ((entry_key protos root m b.length f hsay).2 hpos hun) b'

theorem region_key (protos : List (List Char × α)) (root n : Node) (r : EReg) (hs : SaysReg n r)
    (hb : (named ['i', 'n', 's', 't', 'i', 't', 'u', 't', 'i', 'o', 'n'] n).length < 2 ^ 31)
    (hb2 : ∀ m ∈ named ['i', 'n', 's', 't', 'i', 't', 'u', 't', 'i', 'o', 'n'] n, (entries m).length < 2 ^ 31) :
    (∀ b, Key (buildRegion protos ⟨root, n⟩ b)) ∧
      ((∃ i ∈ r.insts, ∃ f ∈ i.facs, 0 < f.number ∧ f.proto ∉ protos.map Prod.fst) →
        ∀ b, buildRegion protos ⟨root, n⟩ b = .error (.err .key)) := by
  obtain ⟨h1, h2⟩ := hs
  have hfind : (Tree.mk root n).find (.child ['i', 'n', 's', 't', 'i', 't', 'u', 't', 'i', 'o', 'n']) = named ['i', 'n', 's', 't', 'i', 't', 'u', 't', 'i', 'o', 'n'] n :=
    Schema.find_child ⟨root, n⟩ _
  have hbody : ∀ k, ∀ m ∈ named ['i', 'n', 's', 't', 'i', 't', 'u', 't', 'i', 'o', 'n'] n, ∀ b, Key (buildInst protos k ⟨root, m⟩ b) := by
    intro k m hm b
    obtain ⟨i, _, hi⟩ := forall₂_left h2 m hm
    exact (inst_key protos root m k i hi (hb2 m hm)).1 b
  have heq : ∀ b, buildRegion protos ⟨root, n⟩ b = match buildAgent protos r.name none b with
      | .error e => .error e
      | .ok b' => over root (buildInst protos b.length) (named ['i', 'n', 's', 't', 'i', 't', 'u', 't', 'i', 'o', 'n'] n) b' := by
    intro b
    unfold buildRegion
    rw [(text_iff ⟨root, n⟩ _ _).mpr h1]
    simp only
    cases buildAgent protos r.name none b with
    | error e => rfl
    | ok b' =>
      simp only
      rw [forEach_over _ _ _ (by rw [hfind]; exact hb) (by rw [hfind]; exact named_element _ _), hfind]
  constructor
  · intro b
    rw [heq]
    rcases (buildAgent_key protos r.name none b).1 with h | ⟨b', h⟩
    · rw [h]; exact Or.inl rfl
    · rw [h]; exact (over_key root _ _ (hbody _)).1 b'
  · rintro ⟨i, hi, hbad⟩ b
    obtain ⟨m, hm, hsay⟩ := forall₂_right h2 i hi
    rw [heq]
    rcases (buildAgent_key protos r.name none b).1 with h | ⟨b', h⟩
    · rw [h]
    · rw [h]
      exact (over_key root _ _ (hbody _)).2 m hm
        ((inst_key protos root m b.length i hsay (hb2 m hm)).2 hbad) b'

/-- C100 (unknown prototypes).  A file whose definitions are in order, but which asks for at least one
facility of a prototype that is not defined, is refused with a `KeyError`. -/
theorem C100_unknown (init : Spec → Node → Except Fail α) (specs : List (List Char × Spec)) (root : Node)
    (hr : root.isElement = true) (hs : Small root) (ds : List (List Char × α))
    (hd : List.Forall₂ (Defines init specs)
      (facilities root ++ institutions root ++ regions root) ds)
    (hn : (ds.map Prod.fst).Nodup) (regs : List EReg) (hregs : List.Forall₂ SaysReg (regions root) regs)
    (hp : ∃ r ∈ regs, ∃ i ∈ r.insts, ∃ f ∈ i.facs, 0 < f.number ∧ f.proto ∉ ds.map Prod.fst) :
    load init specs root = .error (.err .key) := by
  have hproto : prototypes init specs (Tree.new root) = .ok ds := by
    rw [prototypes_over init specs root hr hs]
    exact (over_define init specs root _ ds hd [] (by simp)).1 (by simpa using hn)
  have hfind : (Tree.new root).find regionPath = regions root := find_root hr _
  have hlen := small_insts hs
  have hbody : ∀ m ∈ regions root, ∀ r, SaysReg m r →
      (∀ b, Key (buildRegion ds ⟨root, m⟩ b)) ∧
      ((∃ i ∈ r.insts, ∃ f ∈ i.facs, 0 < f.number ∧ f.proto ∉ ds.map Prod.fst) →
        ∀ b, buildRegion ds ⟨root, m⟩ b = .error (.err .key)) := fun m hm r hsay =>
    region_key ds root m r hsay (hlen m hm)
      fun i hi => hs.each i (List.mem_flatMap.mpr ⟨m, hm, hi⟩)
  obtain ⟨r, hrm, hbad⟩ := hp
  obtain ⟨m, hm, hsay⟩ := forall₂_right hregs r hrm
  have hover := (over_key root (buildRegion ds) (regions root) (fun m hm b => by
    obtain ⟨r, _, hsay⟩ := forall₂_left hregs m hm
    exact (hbody m hm r hsay).1 b)).2 m hm ((hbody m hm r hsay).2 hbad) []
  unfold load
  rw [hproto]
  simp only
  rw [forEach_over _ _ _ (by rw [hfind]; exact hs.regs) (by rw [hfind]; exact named_element _ _), hfind]
  have hroot : (Tree.new root).root = root := rfl
  rw [hroot, hover]

/-- A case of `C100_unknown`: one facility `g`, which is not defined. -/
example : ∃ regs : List EReg, List.Forall₂ SaysReg (regions (sample ['g'] ['1'])) regs ∧
    ∃ r ∈ regs, ∃ i ∈ r.insts, ∃ f ∈ i.facs, 0 < f.number ∧
      f.proto ∉ ([(['f'], 7), (['i'], 7), (['r'], 7)] : List (List Char × ℕ)).map Prod.fst := by
  refine ⟨[⟨['r'], [⟨['i'], [⟨['g'], 1⟩]⟩]⟩], ?_, _, .head _, _, .head _, _, .head _, by decide, by decide⟩
  refine .cons ⟨⟨_, _, rfl⟩, .cons ⟨⟨_, _, rfl⟩, .cons ⟨⟨_, _, rfl⟩, ['1'], ⟨_, _, rfl⟩, ?_, by decide,
    by decide⟩ .nil⟩ .nil⟩ .nil
  exact ⟨[], [], ['1'], [1], by simp [Infile.Blank], by simp [Infile.Blank], by simp,
    ⟨by decide, by decide⟩, Or.inl ⟨rfl, by decide⟩⟩

/-! ## Disagreements -/

/-- What was built of a document, if loading succeeds. -/
def result (root : Node) : Option (List (List Char × Option ℕ)) :=
  match load (fun _ _ => .ok 7) [] root with
  | .error _ => none
  | .ok r => some (shape r.2)

/-- C100 disagreement: the list of facilities of an institution may name regions and institutions, which
are then built inside of the institution; a number of 2147483648, which the schema admits, builds
nothing. -/
theorem C100_fails :
    result (sample ['r'] ['1']) = some [(['r'], none), (['i'], some 0), (['r'], some 1)] ∧
    result (sample ['f'] ['2', '1', '4', '7', '4', '8', '3', '6', '4', '8']) =
      some [(['r'], none), (['i'], some 0)] := by
  constructor <;> decide +kernel

/-- A case of `C100_fails`: two facilities are built as asked. -/
example : result (sample ['f'] ['2']) =
    some [(['r'], none), (['i'], some 0), (['f'], some 1), (['f'], some 1)] := by decide +kernel

end Cyclus.Initial
