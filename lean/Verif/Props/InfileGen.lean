import Verif.Lemmas.InfileRun

/-!
# C113: input that the generated schema admits is read by the generated code, as written
-/

namespace Cyclus.InfileGen

open Infile (Node Tree Query Step)

/-! ## Names of elements -/

/-- A part of what the developer gives as alias: an element of a list, or a text for the first part. -/
def piece : Ann → ℕ → Ann
  | .list l, i => l.getD i .none
  | .str s, 0 => .str s
  | _, _ => .none

/-- Each part of an annotation for schema types or kinds of input is what the developer gives for it: the element of
the list, or a text for the container itself; otherwise nothing. -/
theorem C113_part (a : Ann) (i : ℕ) : a.part i = piece a i := by
  cases a with
  | none => rfl
  | str s => cases i <;> rfl
  | list l => rfl

example : Ann.part (.list [.none, .str ['x']]) 1 = .str ['x'] ∧ Ann.part (.str ['x']) 1 = .none := ⟨rfl, rfl⟩

/-- A name or nothing. -/
def Word : Ann → Prop
  | .list _ => False
  | _ => True

/-- What may be given as alias. -/
def Alias : Ty → Ann → Prop
  | .prim _, a => Word a
  | .seq _ e, a => Word (piece a 0) ∧ Alias e (piece a 1)
  | .pair x y, a => Word (piece a 0) ∧ Alias x (piece a 1) ∧ Alias y (piece a 2)
  | .map k v, a => Word (piece (piece a 0) 0) ∧ Word (piece (piece a 0) 1) ∧ Alias k (piece a 1) ∧
      Alias v (piece a 2)

/-- The name given, or the one for want of it. -/
def Chosen (a : Ann) (dflt n : Str) : Prop := (∃ s, s ≠ [] ∧ a = .str s ∧ n = s) ∨ ((a = .none ∨ a = .str []) ∧ n = dflt)

/-- The names of the elements of a variable: those given, else the name of the variable, and `val`,
`first`, `second`, `key` and `item` for the parts. -/
def Called : Ty → Str → Ann → Names → Prop
  | .prim _, d, a, .prim n => Chosen a d n
  | .seq _ e, d, a, .seq n ne => Chosen (piece a 0) d n ∧ Called e ['v', 'a', 'l'] (piece a 1) ne
  | .pair x y, d, a, .pair n nx ny => Chosen (piece a 0) d n ∧
      Called x ['f', 'i', 'r', 's', 't'] (piece a 1) nx ∧ Called y ['s', 'e', 'c', 'o', 'n', 'd'] (piece a 2) ny
  | .map k v, d, a, .map n i nk nv => Chosen (piece (piece a 0) 0) d n ∧
      Chosen (piece (piece a 0) 1) ['i', 't', 'e', 'm'] i ∧
      Called k ['k', 'e', 'y'] (piece a 1) nk ∧ Called v ['v', 'a', 'l'] (piece a 2) nv
  | _, _, _, _ => False

theorem expand_piece (a : Ann) (n i : ℕ) (h : i < n) : (expand n a).getD i .none = piece a i := by
  have hr : ∀ (m j : ℕ), (List.replicate m Ann.none)[j]?.getD Ann.none = .none := by
    intro m j
    rw [List.getElem?_replicate]
    split <;> rfl
  cases a with
  | none => simp only [expand, List.getD_eq_getElem?_getD, hr]; rfl
  | str s =>
    cases i with
    | zero => rfl
    | succ i => simp only [expand, List.getD_eq_getElem?_getD, List.getElem?_cons_succ, hr]; rfl
  | list l =>
    simp only [expand, piece, List.getD_eq_getElem?_getD]
    by_cases hi : i < l.length
    · rw [List.getElem?_append_left hi]
    · rw [List.getElem?_append_right (by omega), hr, List.getElem?_eq_none (by omega)]; rfl

theorem orStr_word {a : Ann} {d : Str} (h : Word a) : ∃ n, a.orStr d = .str n ∧ Chosen a d n := by
  cases a with
  | none => exact ⟨d, rfl, .inr ⟨.inl rfl, rfl⟩⟩
  | str s =>
    cases s with
    | nil => exact ⟨d, rfl, .inr ⟨.inr rfl, rfl⟩⟩
    | cons c cs => exact ⟨c :: cs, rfl, .inl ⟨c :: cs, by simp, rfl, rfl⟩⟩
  | list l => exact h.elim

/-- The alias of a variable becomes one name for each element of its type: those the developer gives, and
the others by default. -/
theorem C113_alias (t : Ty) : ∀ (name : Str) (a : Ann), Alias t a →
    ∃ nm, canonize t name a = nm.toAnn ∧ Fit t nm ∧ Called t name a nm := by
  induction t with
  | prim p =>
    intro name a h
    obtain ⟨n, hn, hc⟩ := orStr_word (d := name) h
    exact ⟨.prim n, by rw [canonize, hn]; rfl, trivial, hc⟩
  | seq k e ih =>
    intro name a h
    obtain ⟨n, hn, hc⟩ := orStr_word (d := name) h.1
    obtain ⟨ne, hne, hf, hce⟩ := ih sVal _ h.2
    refine ⟨.seq n ne, ?_, hf, hc, hce⟩
    simp only [canonize, expand_piece a 2 0 (by norm_num), expand_piece a 2 1 (by norm_num), hn, hne, Names.toAnn]
  | pair x y ihx ihy =>
    intro name a h
    obtain ⟨n, hn, hc⟩ := orStr_word (d := name) h.1
    obtain ⟨nx, hnx, hfx, hcx⟩ := ihx sFirst _ h.2.1
    obtain ⟨ny, hny, hfy, hcy⟩ := ihy sSecond _ h.2.2
    refine ⟨.pair n nx ny, ?_, ⟨hfx, hfy⟩, hc, hcx, hcy⟩
    simp only [canonize, expand_piece a 3 0 (by norm_num), expand_piece a 3 1 (by norm_num),
      expand_piece a 3 2 (by norm_num), hn, hnx, hny, Names.toAnn]
  | map k v ihk ihv =>
    intro name a h
    obtain ⟨n, hn, hc⟩ := orStr_word (d := name) h.1
    obtain ⟨i, hi, hci⟩ := orStr_word (d := sItem) h.2.1
    obtain ⟨nk, hnk, hfk, hck⟩ := ihk sKey _ h.2.2.1
    obtain ⟨nv, hnv, hfv, hcv⟩ := ihv sVal _ h.2.2.2
    refine ⟨.map n i nk nv, ?_, ⟨hfk, hfv⟩, hc, hci, hck, hcv⟩
    simp only [canonize, expand_piece a 3 0 (by norm_num), expand_piece a 3 1 (by norm_num),
      expand_piece a 3 2 (by norm_num), expand_piece (piece a 0) 2 0 (by norm_num),
      expand_piece (piece a 0) 2 1 (by norm_num), hn, hi, hnk, hnv, Names.toAnn]

/-- A map from texts to vectors of numbers, with a name for the map and one for the values. -/
example : Alias (.map (.prim .string) (.seq .vector (.prim .int)))
    (.list [.str ['m'], .none, .list [.str ['w']]]) ∧
    canonize (.map (.prim .string) (.seq .vector (.prim .int))) ['x']
      (.list [.str ['m'], .none, .list [.str ['w']]]) =
      (Names.map ['m'] ['i', 't', 'e', 'm'] (.prim ['k', 'e', 'y']) (.seq ['w'] (.prim ['v', 'a', 'l']))).toAnn :=
  ⟨⟨trivial, trivial, trivial, trivial, trivial⟩, rfl⟩

/-! ## The schema -/

/-- Every primitive part has a data type. -/
def Typed (N : TypeNames) : Ty → Ann → Ann → Prop
  | .prim p, sch, ui => ∃ d, DataType N p sch ui d
  | .seq _ e, sch, ui => Typed N e (sch.part 1) (ui.part 1)
  | .pair a b, sch, ui => Typed N a (sch.part 1) (ui.part 1) ∧ Typed N b (sch.part 2) (ui.part 2)
  | .map k v, sch, ui => Typed N k (sch.part 1) (ui.part 1) ∧ Typed N v (sch.part 2) (ui.part 2)

/-- There is a pattern exactly if every primitive part has a data type. -/
theorem C113_schema_total (N : TypeNames) (t : Ty) : ∀ (nm : Names) (sch ui : Ann), Fit t nm →
    ((∃ p, buildSchema N t nm sch ui = .ok p) ↔ Typed N t sch ui) := by
  induction t with
  | prim p =>
    intro nm sch ui hf
    cases nm <;> simp only [Fit] at hf
    simp only [Typed, ← type_spec, buildSchema]
    cases typeOf N p (if sch.truth then sch else ui) <;> simp
  | seq k e ih =>
    intro nm sch ui hf
    cases nm <;> simp only [Fit] at hf
    rename_i n ne
    simp only [Typed, ← ih ne _ _ hf, buildSchema]
    cases buildSchema N e ne (sch.part 1) (ui.part 1) <;> simp
  | pair a b iha ihb =>
    intro nm sch ui hf
    cases nm <;> simp only [Fit] at hf
    rename_i n na nb
    simp only [Typed, ← iha na _ _ hf.1, ← ihb nb _ _ hf.2, buildSchema]
    cases buildSchema N a na (sch.part 1) (ui.part 1) <;> cases buildSchema N b nb (sch.part 2) (ui.part 2) <;> simp
  | map a b iha ihb =>
    intro nm sch ui hf
    cases nm <;> simp only [Fit] at hf
    rename_i n i na nb
    simp only [Typed, ← iha na _ _ hf.1, ← ihb nb _ _ hf.2, buildSchema]
    cases buildSchema N a na (sch.part 1) (ui.part 1) <;> cases buildSchema N b nb (sch.part 2) (ui.part 2) <;> simp

/-- The pattern of a variable matches the elements that have the form for its type, with leaves of the data
types. -/
theorem C113_schema (N : TypeNames) (D : Str → Str → Prop) (t : Ty) (nm : Names) (sch ui : Ann) (p : Pat)
    (h : buildSchema N t nm sch ui = .ok p) (l : List Node) :
    Matches D p l ↔ ∃ x, l = [x] ∧ Form (Allowed N D) t nm sch ui x := by
  have key := fun x => build_spec (D := D) t nm sch ui p x h
  obtain ⟨q, rfl⟩ := build_element h
  constructor
  · intro hm
    obtain ⟨cs, rfl⟩ := matches_element hm
    exact ⟨_, rfl, (key _).mp hm⟩
  · rintro ⟨x, rfl, hx⟩
    exact (key x).mpr hx

/-- The schema of a class matches the children with one element for each variable; those with a default
may be missing, and internal variables have none. -/
theorem C113_schema_class (N : TypeNames) (D : Str → Str → Prop) (vs : List Var) (hne : vs ≠ [])
    (hn : (vs.filter fun v => !v.internal).Pairwise fun v w => v.names.root ≠ w.names.root)
    (p : Pat) (h : schema N vs = .ok p) (l : List Node) :
    Matches D p l ↔ ClassForm N D vs l := by
  unfold schema at h
  rw [if_neg (by simpa using hne)] at h
  cases hp : varPats N vs with
  | error e => rw [hp] at h; exact absurd h (by simp)
  | ok ps =>
    rw [hp] at h
    obtain rfl := Except.ok.inj h
    exact class_spec vs hn ps hp l

/-- The schema is one of RELAX NG unless all variables are internal. -/
theorem C113_proper_partial (N : TypeNames) (vs : List Var) (hex : vs = [] ∨ ∃ v ∈ vs, v.internal = false)
    (p : Pat) (h : schema N vs = .ok p) : Proper p := by
  have hb : ∀ (t : Ty) (nm : Names) (sch ui : Ann) (p : Pat), buildSchema N t nm sch ui = .ok p → Proper p := by
    intro t
    induction t with
    | prim q =>
      intro nm sch ui p h
      cases nm <;> simp only [buildSchema] at h <;> try exact absurd h (by simp)
      split at h
      · exact absurd h (by simp)
      · obtain rfl := Except.ok.inj h
        exact .element (.data _)
    | seq k e ih =>
      intro nm sch ui p h
      cases nm <;> simp only [buildSchema] at h <;> try exact absurd h (by simp)
      split at h
      · exact absurd h (by simp)
      · rename_i he
        obtain rfl := Except.ok.inj h
        exact .element (.oneOrMore (ih _ _ _ _ he))
    | pair a b iha ihb =>
      intro nm sch ui p h
      cases nm <;> simp only [buildSchema] at h <;> try exact absurd h (by simp)
      split at h
      · exact absurd h (by simp)
      · rename_i ha
        split at h
        · exact absurd h (by simp)
        · rename_i hb
          obtain rfl := Except.ok.inj h
          refine .element (.interleave (by simp) fun q hq => ?_)
          simp only [List.mem_cons, List.not_mem_nil, or_false] at hq
          rcases hq with rfl | rfl
          · exact iha _ _ _ _ ha
          · exact ihb _ _ _ _ hb
    | map a b iha ihb =>
      intro nm sch ui p h
      cases nm <;> simp only [buildSchema] at h <;> try exact absurd h (by simp)
      split at h
      · exact absurd h (by simp)
      · rename_i ha
        split at h
        · exact absurd h (by simp)
        · rename_i hb
          obtain rfl := Except.ok.inj h
          refine .element (.oneOrMore (.element (.interleave (by simp) fun q hq => ?_)))
          simp only [List.mem_cons, List.not_mem_nil, or_false] at hq
          rcases hq with rfl | rfl
          · exact iha _ _ _ _ ha
          · exact ihb _ _ _ _ hb
  have hv : ∀ (vs : List Var) (ps : List Pat), varPats N vs = .ok ps →
      (∀ q ∈ ps, Proper q) ∧ ((∃ v ∈ vs, v.internal = false) → ps ≠ []) := by
    intro vs
    induction vs with
    | nil => intro ps h; obtain rfl := Except.ok.inj h; simp
    | cons v vs ih =>
      intro ps h
      unfold varPats at h
      split at h
      · rename_i hi
        obtain ⟨h1, h2⟩ := ih ps h
        refine ⟨h1, fun ⟨w, hw, hwi⟩ => ?_⟩
        rcases List.mem_cons.mp hw with rfl | hw
        · rw [hi] at hwi; exact absurd hwi (by simp)
        · exact h2 ⟨w, hw, hwi⟩
      · split at h
        · exact absurd h (by simp)
        · rename_i q hq
          split at h
          · exact absurd h (by simp)
          · rename_i ps' hps
            obtain rfl := Except.ok.inj h
            refine ⟨fun r hr => ?_, fun _ => by simp⟩
            rcases List.mem_cons.mp hr with rfl | hr
            · have := hb _ _ _ _ _ hq
              split
              · exact .optional this
              · exact this
            · exact (ih ps' hps).1 r hr
  unfold schema at h
  split at h
  · obtain rfl := Except.ok.inj h
    exact .text
  · rename_i hne
    cases hp : varPats N vs with
    | error e => rw [hp] at h; exact absurd h (by simp)
    | ok ps =>
      rw [hp] at h
      obtain rfl := Except.ok.inj h
      rcases hex with rfl | hex
      · exact absurd hne (by simp)
      · exact .interleave ((hv vs ps hp).2 hex) (hv vs ps hp).1

/-! ## Reading -/

/-- The tree is that of an agent whose configuration is an element with the children. -/
def Config (T : Tree) (cs : List Node) : Prop :=
  ∃ m more, (T.find ⟨false, [.named ['c', 'o', 'n', 'f', 'i', 'g'], .any]⟩) = .element m cs :: more

/-- The row has the values in the order of the variables. -/
def Row (val : Var → Val) (vs : List Var) : List (Str × CTy × Val) := vs.map fun v => (v.name, .val v.ty, val v)

/-- Whatever the elements for the variables, or their defaults, say is recorded. -/
theorem C113_reads_partial (L : Lib) (vs : List Var) (hs : Sound vs) (T : Tree) (cs : List Node) (hT : Config T cs)
    (val : Var → Val) (hg : ∀ v ∈ vs, Gets L cs v (val v)) : run L vs T = .ok (.ok (Row val vs)) := by
  obtain ⟨m, more, hT⟩ := hT
  exact run_spec L vs hs T m cs (by rw [hT]; rfl) val hg

/-- Input that the schema admits is read, and recorded as written: each variable gets what its element
says, or its default if it has no element.

Full statement: without `hplain` (leaves may be empty or have comments), without `hconv` (data types may
admit texts that the code cannot convert) and without the conditions of `Sound` on types and names. -/
theorem C113_class_partial (L : Lib) (N : TypeNames) (D : Str → Str → Prop) (vs : List Var) (hne : vs ≠ [])
    (hs : Sound vs) (hn : (vs.filter fun v => !v.internal).Pairwise fun v w => v.names.root ≠ w.names.root)
    (p : Pat) (hp : schema N vs = .ok p) (T : Tree) (cs : List Node) (hT : Config T cs)
    (hm : Matches D p (seen cs)) (hplain : ∀ c ∈ elements cs, Plain c)
    (hconv : ∀ v ∈ vs, v.internal = false → Converts L N D v.ty v.schema v.ui)
    (hd : ∀ v ∈ vs, ∀ d, v.dflt = some d → ∃ w, Stands L v.ty v.ui d w) :
    ∃ val : Var → Val, (∀ v ∈ vs, Gets L cs v (val v)) ∧ run L vs T = .ok (.ok (Row val vs)) := by
  obtain ⟨h1, h2⟩ := (C113_schema_class N D vs hne hn p hp (seen cs)).mp hm
  have he : elements cs = seen cs := elements_seen fun c hc => by
    obtain ⟨v, _, _, ds, rfl⟩ := h1 c hc; rfl
  have hnamed : ∀ n, named n (seen cs) = named n cs := by
    intro n
    rw [← he, ← named_selects, ← named_selects, ← filter_named]
  have hget : ∀ v ∈ vs, ∃ w, Gets L cs v w := by
    intro v hv
    cases hi : v.internal with
    | true =>
      cases hdf : v.dflt with
      | none => exact absurd hdf (hs.given v hv hi)
      | some d =>
        obtain ⟨w, hw⟩ := hd v hv d hdf
        exact ⟨w, .inr ⟨.inl hi, d, hdf, hw⟩⟩
    | false =>
      rcases h2 v hv hi with ⟨x, hx, hf⟩ | ⟨hdf, hx⟩
      · have hmem : x ∈ elements cs := by
          rw [he]
          exact (mem_named.mp (show x ∈ named v.names.root (seen cs) by rw [hx]; simp)).1
        obtain ⟨w, hw⟩ := form_says L v.ty v.names v.schema v.ui x (hs.fit v hv) hf (hplain x hmem) (hconv v hv hi)
        exact ⟨w, .inl ⟨hi, x, by rw [← hnamed]; exact hx, hw⟩⟩
      · cases hdf' : v.dflt with
        | none => exact absurd hdf' hdf
        | some d =>
          obtain ⟨w, hw⟩ := hd v hv d hdf'
          exact ⟨w, .inr ⟨.inr (by rw [← hnamed]; exact hx), d, hdf', hw⟩⟩
  classical
  refine ⟨fun v => if h : v ∈ vs then (hget v h).choose else .int 0, ?_, ?_⟩
  · intro v hv
    simp only [hv, dif_pos]
    exact (hget v hv).choose_spec
  · refine C113_reads_partial L vs hs T cs hT _ fun v hv => ?_
    simp only [hv, dif_pos]
    exact (hget v hv).choose_spec

/-- What the input says about a variable is one value. -/
theorem C113_unique (L : Lib) (vs : List Var) (hs : Sound vs) (cs : List Node) (v : Var) (hv : v ∈ vs) (a b : Val)
    (ha : Gets L cs v a) (hb : Gets L cs v b) : a = b := by
  have hsays : ∀ x, Says L v.ty v.names v.ui x a → Says L v.ty v.names v.ui x b → a = b := by
    intro x h1 h2
    obtain ⟨ds, rfl⟩ := says_name h1
    let T : Tree := ⟨.element [] [], .element [] [.element v.names.root ds]⟩
    have hx : (T.find ⟨false, [.named v.names.root]⟩)[0]? = some (.element v.names.root ds) := by
      rw [find_child]; simp [T, Node.children, Step.selects]
    have key := fun w h => direct_says L v.ty v.names v.ui true T [] ⟨false, [.named v.names.root]⟩ 0 _ w
      (hs.fit v hv) (hs.proper v hv) (hs.readable v hv)
      (by rw [List.nil_append]; exact parse_name (proper_root (hs.proper v hv))) hx (by norm_num) h
    exact Res.ok.inj ((key a h1).symm.trans (key b h2))
  have hstands : ∀ d, v.dflt = some d → Stands L v.ty v.ui d a → Stands L v.ty v.ui d b → a = b := by
    intro d hd h1 h2
    have hu := hs.unnested v hv (by rw [hd]; simp)
    have key := fun w h => val_spec L v.ty v.ui d ['_'] w [] [] h hu (nameOk_under _ (by simp)) rfl
    have := Res.ok.inj ((key a h1).symm.trans (key b h2))
    simpa using this
  rcases ha with ⟨hi, x, hx, h1⟩ | ⟨hi, d, hd, h1⟩ <;> rcases hb with ⟨hj, y, hy, h2⟩ | ⟨hj, e, he, h2⟩
  · rw [hx] at hy
    obtain rfl : x = y := by simpa using hy
    exact hsays x h1 h2
  · rcases hj with hj | hj
    · rw [hi] at hj; exact absurd hj (by simp)
    · rw [hx] at hj; exact absurd hj (by simp)
  · rcases hi with hi | hi
    · rw [hi] at hj; exact absurd hj (by simp)
    · rw [hy] at hi; exact absurd hi (by simp)
  · rw [hd] at he
    obtain rfl := Option.some.inj he
    exact hstands d hd h1 h2

/-! ## Data types whose texts can be converted -/

/-- The lexical space of `xsd:int`, white space being collapsed. -/
def XsdInt (s : Str) : Prop :=
  ∃ (z : ℤ) (pre post w : Str) (ds : List ℕ), (∀ c ∈ pre, XmlSpace c = true) ∧ (∀ c ∈ post, XmlSpace c = true) ∧
    ds ≠ [] ∧ Info.Decimal ds w ∧ -2 ^ 31 ≤ z ∧ z < 2 ^ 31 ∧
    ((s = pre ++ w ++ post ∧ z = Info.value ds) ∨ (s = pre ++ ('+' :: w) ++ post ∧ z = Info.value ds) ∨
      (s = pre ++ ('-' :: w) ++ post ∧ z = -(Info.value ds : ℤ)))

/-- The type has only texts and integers as parts. -/
def Basic : Ty → Prop
  | .prim p => p = .int ∨ p = .string
  | .seq _ e => Basic e
  | .pair a b => Basic a ∧ Basic b
  | .map k v => Basic k ∧ Basic v

/-- What the schema admits for texts and integers, when the developer gives no other data types, can be
converted. -/
theorem C113_basic (L : Lib) (N : TypeNames) (D : Str → Str → Prop)
    (hD : ∀ s, D ['i', 'n', 't'] s → XsdInt s) (t : Ty) (ht : Basic t) : Converts L N D t .none .none := by
  induction t with
  | prim p =>
    intro d s hd hs _
    rcases hd with ⟨_, rfl⟩ | ⟨g, hg, _⟩
    · rcases ht with rfl | rfl
      · obtain ⟨z, pre, post, w, ds, h1, h2, h3, h4, h5, h6, h7⟩ := hD s hs
        have hsp : ∀ c, XmlSpace c = true → Info.isSpace c = true := by
          intro c hc
          simp only [XmlSpace, Bool.or_eq_true, decide_eq_true_eq] at hc
          rcases hc with ((rfl | rfl) | rfl) | rfl <;> decide
        exact ⟨.int z, .inr ⟨by simp, z, ⟨pre, post, w, ds, fun c hc => hsp c (h1 c hc), fun c hc => hsp c (h2 c hc),
          h3, h4, h7⟩, h5, h6, rfl⟩⟩
      · exact ⟨.str s, .inr ⟨by simp, rfl⟩⟩
    · simp [Ann.truth] at hg
  | seq k e ih => exact ih ht
  | pair a b iha ihb => exact ⟨iha ht.1, ihb ht.2⟩
  | map a b iha ihb => exact ⟨iha ht.1, ihb ht.2⟩

/-! ## Values of leaves and defaults -/

/-- The texts for truth values: a sign, zeros, and `0` or `1`; a minus only with `0`. -/
def BoolText (b : Bool) (s : Str) : Prop :=
  ∃ sign n, s = sign ++ List.replicate n '0' ++ [if b then '1' else '0'] ∧
    (sign = [] ∨ sign = ['+'] ∨ (sign = ['-'] ∧ b = false))

theorem all_zero {s : Str} (h : s.all (fun c => decide (c = '0')) = true) : s = List.replicate s.length '0' := by
  refine List.eq_replicate_of_mem fun c hc => ?_
  simpa using List.all_eq_true.mp h c hc

/-- Just the texts for truth values are read as truth values. -/
theorem C113_bool (s : Str) (b : Bool) : lexicalBool s = some b ↔ BoolText b s := by
  constructor
  · intro h
    unfold lexicalBool at h
    rcases List.eq_nil_or_concat s with rfl | ⟨t, c, rfl⟩
    · cases h
    · simp only [List.concat_eq_append, List.getLast?_append, List.getLast?_singleton, Option.some_or,
        List.dropLast_concat] at h
      have key : ∀ sign r, t = sign ++ r → r.all (fun c => decide (c = '0')) = true →
          (c = '0' ∨ c = '1') → decide (c = '1') = b →
          (sign = [] ∨ sign = ['+'] ∨ (sign = ['-'] ∧ c = '0')) → BoolText b (t ++ [c]) := by
        intro sign r ht hr hc hb hs
        refine ⟨sign, r.length, ?_, ?_⟩
        · rw [ht, ← all_zero hr]
          rcases hc with rfl | rfl
          · rw [← hb]; rfl
          · rw [← hb]; rfl
        · rcases hs with hs | hs | ⟨hs, rfl⟩
          · exact .inl hs
          · exact .inr (.inl hs)
          · exact .inr (.inr ⟨hs, by rw [← hb]; rfl⟩)
      rw [List.concat_eq_append]
      split at h
      · rename_i hc
        have fin : ∀ sign r, t = sign ++ r → (sign = [] ∨ sign = ['+'] ∨ (sign = ['-'] ∧ c = '0')) →
            (if r.all (fun c => decide (c = '0')) = true then some (decide (c = '1')) else none) = some b →
            BoolText b (t ++ [c]) := by
          intro sign r ht hs h
          split at h
          · exact key sign r ht ‹_› hc (by simpa using h) hs
          · cases h
        split at h
        · exact fin ['+'] _ rfl (.inr (.inl rfl)) h
        · by_cases h0 : c = '0'
          · rw [if_pos h0] at h
            exact fin ['-'] _ rfl (.inr (.inr ⟨rfl, h0⟩)) h
          · rw [if_neg h0] at h
            simp at h
        · exact fin [] _ rfl (.inl rfl) h
      · cases h
  · rintro ⟨sign, n, rfl, hs⟩
    unfold lexicalBool
    simp only [List.getLast?_append, List.getLast?_singleton, Option.some_or, List.dropLast_concat]
    rcases hs with rfl | rfl | ⟨rfl, rfl⟩
    · cases n <;> cases b <;> simp [List.replicate_succ]
    · cases b <;> simp
    · simp

example : BoolText false ['-', '0', '0'] ∧ lexicalBool ['-', '0', '0'] = some false ∧ lexicalBool ['-', '1'] = none ∧
    lexicalBool ['t', 'r', 'u', 'e'] = none ∧ lexicalBool ['2', '1'] = none ∧ lexicalBool ['0', 'e'] = none :=
  ⟨⟨['-'], 1, rfl, .inr (.inr ⟨rfl, rfl⟩)⟩, by decide, by decide, by decide, by decide, by decide⟩

/-- The text between the quotes of a string literal of C++, and the text it stands for. -/
inductive Literal : Str → Str → Prop
  | nil : Literal [] []
  | plain {c : Char} {s t : Str} : c ≠ '"' → c ≠ '\n' → c ≠ '\\' → Literal s t → Literal (c :: s) (c :: t)
  | escape {c d : Char} {s t : Str} :
    (c, d) ∈ [('n', '\n'), ('t', '\t'), ('r', '\r'), ('\\', '\\'), ('"', '"'), ('\'', '\'')] → Literal s t →
    Literal ('\\' :: c :: s) (d :: t)

/-- A text default becomes the text that C++ reads between the quotes. -/
theorem C113_literal (s t : Str) : cLit s = some t ↔ Literal s t := by
  constructor
  · obtain ⟨n, hn⟩ : ∃ n, s.length ≤ n := ⟨_, le_rfl⟩
    induction n generalizing s t with
    | zero =>
      intro h
      obtain rfl := List.length_eq_zero_iff.mp (by omega : s.length = 0)
      simp only [cLit, Option.some.injEq] at h
      subst h
      exact .nil
    | succ n ih =>
      intro h
      cases s with
      | nil =>
        simp only [cLit, Option.some.injEq] at h
        subst h
        exact .nil
      | cons c s =>
        simp only [List.length_cons] at hn
        by_cases h1 : c = '"'
        · subst h1; simp [cLit] at h
        by_cases h2 : c = '\n'
        · subst h2; simp [cLit] at h
        by_cases h3 : c = '\\'
        · subst h3
          cases s with
          | nil => simp [cLit] at h
          | cons c s =>
            simp only [List.length_cons] at hn
            have fin : ∀ d, (c, d) ∈ [('n', '\n'), ('t', '\t'), ('r', '\r'), ('\\', '\\'), ('"', '"'), ('\'', '\'')] →
                (cLit s).map (d :: ·) = some t → Literal ('\\' :: c :: s) t := by
              intro d hd hm
              rw [Option.map_eq_some_iff] at hm
              obtain ⟨u, hu, rfl⟩ := hm
              exact .escape hd (ih _ _ (by omega) hu)
            unfold cLit at h
            simp only at h
            by_cases k1 : c = 'n'
            · subst k1; exact fin _ (by simp) h
            rw [if_neg k1] at h
            by_cases k2 : c = 't'
            · subst k2; exact fin _ (by simp) h
            rw [if_neg k2] at h
            by_cases k3 : c = 'r'
            · subst k3; exact fin _ (by simp) h
            rw [if_neg k3] at h
            by_cases k4 : c = '\\'
            · subst k4; exact fin _ (by simp) h
            rw [if_neg k4] at h
            by_cases k5 : c = '"'
            · subst k5; exact fin _ (by simp) h
            rw [if_neg k5] at h
            by_cases k6 : c = '\''
            · subst k6; exact fin _ (by simp) h
            rw [if_neg k6] at h
            cases h
        · rw [cLit] at h
          · rw [Option.map_eq_some_iff] at h
            obtain ⟨u, hu, rfl⟩ := h
            exact .plain h1 h2 h3 (ih _ _ (by omega) hu)
          all_goals simp_all
  · intro h
    induction h with
    | nil => rfl
    | @plain c s t h1 h2 h3 _ ih =>
      rw [cLit, ih]
      · rfl
      all_goals simp_all
    | @escape c d s t hm _ ih =>
      simp only [List.mem_cons, Prod.mk.injEq, List.not_mem_nil, or_false] at hm
      rcases hm with ⟨rfl, rfl⟩ | ⟨rfl, rfl⟩ | ⟨rfl, rfl⟩ | ⟨rfl, rfl⟩ | ⟨rfl, rfl⟩ | ⟨rfl, rfl⟩ <;>
        simp [cLit, ih]

example : Literal ['a', '\\', 'n'] ['a', '\n'] ∧ cLit ['a', '"', 'b'] = none :=
  ⟨.plain (by decide) (by decide) (by decide) (.escape (by simp) .nil), by decide⟩

/-- The defaults that stand for `false`, and the lists that defaults of containers stand for. -/
theorem C113_default (d : PyVal) :
    (d.truth = false ↔ d = .none ∨ d = .bool false ∨ d = .int 0 ∨ d = .float 0 ∨ d = .str [] ∨ d = .list [] ∨
      d = .dict []) ∧
    ∀ l, d.elems = some l ↔ d = .list l ∨ (d = .none ∧ l = []) := by
  constructor
  · cases d with
    | none => simp [PyVal.truth]
    | bool b => simp [PyVal.truth]
    | int z => simp [PyVal.truth]
    | float q => simp [PyVal.truth]
    | str s => simp [PyVal.truth]
    | list l => simp [PyVal.truth]
    | dict l => simp [PyVal.truth]
  · intro l
    cases d <;> simp [PyVal.elems, eq_comm]

example : (PyVal.int 2).truth = true ∧ PyVal.none.elems = some [] := ⟨by decide, rfl⟩

/-- No code is made for a class just when an internal variable has no default; otherwise there is code. -/
theorem C113_generates (vs : List Var) :
    ((∃ v ∈ vs, v.internal = true ∧ v.dflt = none) → infileToDb vs = .error .runtime) ∧
    ((¬ ∃ v ∈ vs, v.internal = true ∧ v.dflt = none) → ∃ c, infileToDb vs = .ok c) := by
  have h : ((∃ v ∈ vs, v.internal = true ∧ v.dflt = none) → varsCode vs = .error .runtime) ∧
      ((¬ ∃ v ∈ vs, v.internal = true ∧ v.dflt = none) → ∃ c, varsCode vs = .ok c) := by
    induction vs with
    | nil => simp [varsCode]
    | cons v vs ih =>
      by_cases hv : v.internal = true ∧ v.dflt = none
      · have : varCode v = .error .runtime := by simp [varCode, hv]
        exact ⟨fun _ => by simp [varsCode, this], fun h => absurd ⟨v, by simp, hv⟩ h⟩
      · obtain ⟨c, hc⟩ : ∃ c, varCode v = .ok c := by
          unfold varCode
          split
          · rename_i hi
            cases hd : v.dflt with
            | none => exact absurd ⟨hi, hd⟩ hv
            | some d => exact ⟨_, rfl⟩
          · cases v.dflt <;> exact ⟨_, rfl⟩
        constructor
        · rintro ⟨w, hw, hw'⟩
          rcases List.mem_cons.mp hw with rfl | hw
          · exact absurd hw' hv
          · rw [varsCode, hc, ih.1 ⟨w, hw, hw'⟩]
        · intro h
          obtain ⟨cs, hcs⟩ := ih.2 fun ⟨w, hw, hw'⟩ => h ⟨w, List.mem_cons_of_mem _ hw, hw'⟩
          exact ⟨c ++ cs, by rw [varsCode, hc, hcs]⟩
  constructor
  · intro hx
    rw [infileToDb, h.1 hx]
  · intro hx
    obtain ⟨c, hc⟩ := h.2 hx
    exact ⟨_, by rw [infileToDb, hc]⟩

example : infileToDb [⟨['x'], .prim .int, .prim ['x'], .none, .none, none, true⟩] = .error .runtime := rfl

/-- A name can be declared just when it is new in the innermost scope, whatever the scopes around it have. -/
theorem C113_declare (x : Str) (b : Bind) (s : Scope) (ρ : Env) :
    (declare x b (s :: ρ) = none ↔ x ∈ s.map Prod.fst) ∧
    (x ∉ s.map Prod.fst → declare x b (s :: ρ) = some (((x, b) :: s) :: ρ)) := by
  unfold declare
  simp only
  cases h : s.lookup x with
  | none =>
    rw [List.lookup_eq_none_iff] at h
    have hx : x ∉ s.map Prod.fst := by
      intro hm
      obtain ⟨y, hy, rfl⟩ := List.mem_map.mp hm
      simpa using h y hy
    simp [hx]
  | some y =>
    have hx : x ∈ s.map Prod.fst := by
      by_contra hc
      have : s.lookup x = none := by
        rw [List.lookup_eq_none_iff]
        intro p hp
        simp only [bne_iff_ne, ne_eq]
        rintro rfl
        exact hc (List.mem_map.mpr ⟨p, hp, rfl⟩)
      rw [this] at h
      cases h
    simp [hx]

example : declare ['x'] ⟨int', none⟩ [[(['x'], ⟨int', none⟩)], []] = none := by
  rw [(C113_declare _ _ _ _).1]; simp

/-! ## Where input is not read as written -/

/-- An agent with the configuration. -/
def agent (cs : List Node) : Tree :=
  ⟨.element [] [], .element ['a'] [.element ['c', 'o', 'n', 'f', 'i', 'g'] [.element ['A'] cs]]⟩

theorem agent_config (cs : List Node) : Config (agent cs) cs := by
  refine ⟨['A'], [], ?_⟩
  simp [agent, Tree.find, Infile.descend, Node.children, Step.selects]

/-- A state variable without annotations. -/
def plainVar (x : Str) (t : Ty) (nm : Names) : Var := ⟨x, t, nm, .none, .none, none, false⟩

theorem sound_one {v : Var} (h1 : v.name ∉ own) (h2 : Fit v.ty v.names) (h3 : Proper' v.names)
    (h4 : Readable true v.ty) (h5 : v.dflt ≠ none → Unnested v.ty) (h6 : v.internal = false) : Sound [v] :=
  ⟨by simp, by simpa using h1, by simp [h6], by simpa using h2, by simpa using h3, by simpa using h4,
    by simpa using h5, by simp [h6]⟩

/-- `true` is a truth value for the schema; the code takes only `0` and `1`. -/
theorem C113_fails_bool (L : Lib) (N : TypeNames) (D : Str → Str → Prop)
    (hD : D ['b', 'o', 'o', 'l', 'e', 'a', 'n'] ['t', 'r', 'u', 'e']) :
    ∃ vs T cs p, Sound vs ∧ Config T cs ∧ schema N vs = .ok p ∧ Matches D p (seen cs) ∧
      (∀ c ∈ elements cs, Plain c) ∧ run L vs T = .ok (.throws (.infile .lexical)) := by
  refine ⟨[plainVar ['b'] (.prim .bool) (.prim ['b'])], agent [.element ['b'] [.text ['t', 'r', 'u', 'e']]], _, _,
    sound_one (by decide) trivial (show isName _ = true by decide) trivial (fun h => absurd rfl h) rfl,
    agent_config _, rfl, .cons (.leaf rfl hD) .nil (.left _ .nil), ?_, rfl⟩
  intro c hc
  rw [show elements [.element ['b'] [.text ['t', 'r', 'u', 'e']]] =
    [.element ['b'] [.text ['t', 'r', 'u', 'e']]] from rfl, List.mem_singleton] at hc
  subst hc
  exact .leaf _ (by simp)

/-- An empty text, a text with a comment and a CDATA section are admitted for a text, and not read. -/
theorem C113_fails_empty (L : Lib) (N : TypeNames) (D : Str → Str → Prop)
    (hD : ∀ s, D ['s', 't', 'r', 'i', 'n', 'g'] s) :
    ∃ vs p, Sound vs ∧ schema N vs = .ok p ∧
      (Matches D p (seen [.element ['s'] []]) ∧
        run L vs (agent [.element ['s'] []]) = .ok (.throws (.infile (.err .value)))) ∧
      (Matches D p (seen [.element ['s'] [.text ['a'], .comment ['b']]]) ∧
        run L vs (agent [.element ['s'] [.text ['a'], .comment ['b']]]) = .ok (.throws (.infile (.err .value)))) ∧
      (Matches D p (seen [.element ['s'] [.cdata ['a']]]) ∧
        run L vs (agent [.element ['s'] [.cdata ['a']]]) = .ok (.throws (.infile (.err .cast)))) :=
  ⟨[plainVar ['s'] (.prim .string) (.prim ['s'])], _,
    sound_one (by decide) trivial (show isName _ = true by decide) trivial (fun h => absurd rfl h) rfl, rfl,
    ⟨.cons (.leaf rfl (hD _)) .nil (.left _ .nil), rfl⟩, ⟨.cons (.leaf rfl (hD _)) .nil (.left _ .nil), rfl⟩,
    ⟨.cons (.leaf rfl (hD _)) .nil (.left _ .nil), rfl⟩⟩

/-- The variables of a class whose names the generated code can handle. -/
def Named (vs : List Var) : Prop :=
  vs.Pairwise (fun v w => v.name ≠ w.name) ∧ (∀ v ∈ vs, v.name ∉ own) ∧ (∀ v ∈ vs, Fit v.ty v.names) ∧
    ∀ v ∈ vs, Proper' v.names

/-- A vector of maps is described by the schema; the code asks for elements with the name `['val', 'item']`. -/
theorem C113_fails_vecmap (L : Lib) (N : TypeNames) (D : Str → Str → Prop)
    (hD : D ['i', 'n', 't'] ['1']) :
    ∃ vs T cs p, Named vs ∧ Config T cs ∧ schema N vs = .ok p ∧ Matches D p (seen cs) ∧
      run L vs T = .ok (.throws .xpath) := by
  refine ⟨[plainVar ['v'] (.seq .vector (.map (.prim .int) (.prim .int)))
      (.seq ['v'] (.map sVal sItem (.prim sKey) (.prim sVal)))],
    agent [.element ['v'] [.element sVal [.element sItem [.element sKey [.text ['1']], .element sVal [.text ['1']]]]]],
    _, _, ⟨by simp, by decide, ?_, ?_⟩, agent_config _, rfl, .cons (.element (by exact fun h => h) (.one (.element (by exact fun h => h)
      (.one (.element (by exact fun h => h) (.cons (.leaf rfl hD) (.cons (.leaf rfl hD) .nil (.left _ .nil))
        (.left _ (.right _ .nil)))))))) .nil (.left _ .nil), rfl⟩
  · simp [plainVar, Fit]
  · simp only [List.mem_singleton, forall_eq, plainVar, Proper', Names.root]
    decide

/-- A pair in a pair is described by the schema; the code declares `first0` twice and does not compile. -/
theorem C113_fails_pairpair (L : Lib) (N : TypeNames) (D : Str → Str → Prop) (hD : D ['i', 'n', 't'] ['1']) :
    ∃ vs T cs p, Named vs ∧ Config T cs ∧ schema N vs = .ok p ∧ Matches D p (seen cs) ∧
      run L vs T = .ok .rejected := by
  refine ⟨[plainVar ['v'] (.pair (.pair (.prim .int) (.prim .int)) (.prim .int))
      (.pair ['v'] (.pair sFirst (.prim sFirst) (.prim sSecond)) (.prim sSecond))],
    agent [.element ['v'] [.element sFirst [.element sFirst [.text ['1']], .element sSecond [.text ['1']]],
      .element sSecond [.text ['1']]]],
    _, _, ⟨by simp, by decide, ?_, ?_⟩, agent_config _, rfl, .cons (.element (by exact fun h => h)
      (.cons (.element (by exact fun h => h) (.cons (.leaf rfl hD) (.cons (.leaf rfl hD) .nil (.left _ .nil))
        (.left _ (.right _ .nil)))) (.cons (.leaf rfl hD) .nil (.left _ .nil)) (.left _ (.right _ .nil)))) .nil
      (.left _ .nil), rfl⟩
  · simp [plainVar, Fit]
  · simp only [List.mem_singleton, forall_eq, plainVar, Proper', Names.root]
    decide

/-- A variable of type `double` with the name `n` is not the one the code assigns to: the value 5/2 is
recorded as the integer 2. -/
theorem C113_fails_local (L : Lib) (N : TypeNames) (D : Str → Str → Prop) :
    ∃ v p, v.ty = .prim .double ∧ v.dflt = some (.float (5 / 2)) ∧ schema N [v] = .ok p ∧ Matches D p (seen []) ∧
      run L [v] (agent []) = .ok (.ok [(['n'], .val (.prim .int), .int 2)]) :=
  ⟨⟨['n'], .prim .double, .prim ['n'], .none, .none, some (.float (5 / 2)), false⟩, _, rfl, rfl, rfl,
    .cons .absent .nil .nil, by with_unfolding_all rfl⟩

/-- The text of a default is put between quotes as it is: `C:\new` has a line break afterwards. -/
theorem C113_fails_default (L : Lib) (N : TypeNames) (D : Str → Str → Prop) :
    ∃ v p, Sound [v] ∧ v.dflt = some (.str ['C', ':', '\\', 'n', 'e', 'w']) ∧ schema N [v] = .ok p ∧
      Matches D p (seen []) ∧
      run L [v] (agent []) = .ok (.ok [(['s'], .val (.prim .string), .str ['C', ':', '\n', 'e', 'w'])]) :=
  ⟨⟨['s'], .prim .string, .prim ['s'], .none, .none, some (.str ['C', ':', '\\', 'n', 'e', 'w']), false⟩, _,
    sound_one (by decide) trivial (show isName _ = true by decide) trivial (fun _ => trivial) rfl, rfl, rfl,
    .cons .absent .nil .nil, rfl⟩

/-- A default for a vector of vectors does not compile: the variable `elem` gets elements of itself. -/
theorem C113_fails_nested (L : Lib) (N : TypeNames) (D : Str → Str → Prop) :
    ∃ v p, Named [v] ∧ v.dflt = some (.list [.list [.int 1]]) ∧ schema N [v] = .ok p ∧ Matches D p (seen []) ∧
      run L [v] (agent []) = .ok .rejected := by
  refine ⟨⟨['v'], .seq .vector (.seq .vector (.prim .int)), .seq ['v'] (.seq sVal (.prim sVal)), .none, .none,
    some (.list [.list [.int 1]]), false⟩, _, ⟨by simp, by decide, ?_, ?_⟩, rfl, rfl, .cons .absent .nil .nil, rfl⟩
  · simp [Fit]
  · simp only [List.mem_singleton, forall_eq, Proper']
    decide

/-- With an internal variable `x`, a variable `x_tmp` of another type does not compile. -/
theorem C113_fails_temp (L : Lib) (N : TypeNames) (D : Str → Str → Prop) (hD : ∀ s, D ['s', 't', 'r', 'i', 'n', 'g'] s) :
    ∃ vs T cs p, Named vs ∧ Config T cs ∧ schema N vs = .ok p ∧ Matches D p (seen cs) ∧
      run L vs T = .ok .rejected := by
  refine ⟨[⟨['x'], .prim .int, .prim ['x'], .none, .none, some (.int 1), true⟩,
      plainVar ['x', '_', 't', 'm', 'p'] (.prim .string) (.prim ['x', '_', 't', 'm', 'p'])],
    agent [.element ['x', '_', 't', 'm', 'p'] [.text ['a']]], _, _, ⟨?_, by decide, ?_, ?_⟩, agent_config _, rfl,
    .cons (.leaf rfl (hD _)) .nil (.left _ .nil), rfl⟩
  · simp [plainVar]
  · simp [plainVar, Fit]
  · simp only [List.mem_cons, List.not_mem_nil, or_false, forall_eq_or_imp, forall_eq, plainVar, Proper']
    decide

/-- The schema of a class with internal variables only is no RELAX NG: an `interleave` without content. -/
theorem C113_fails_internal (N : TypeNames) :
    ∃ v p, v.internal = true ∧ v.dflt ≠ none ∧ schema N [v] = .ok p ∧ ¬ Proper p := by
  refine ⟨⟨['x'], .prim .int, .prim ['x'], .none, .none, some (.int 1), true⟩, _, rfl, by simp, rfl, ?_⟩
  intro h
  cases h with
  | interleave hne _ => exact hne rfl

/-! ## A class -/

/-- A number, a map from texts to vectors of numbers, a text with a default and an internal number. -/
def sample : List Var :=
  [plainVar ['x'] (.prim .int) (.prim ['x']),
    plainVar ['m'] (.map (.prim .string) (.seq .vector (.prim .int)))
      (.map ['m'] sItem (.prim sKey) (.seq sVal (.prim sVal))),
    ⟨['y'], .prim .string, .prim ['y'], .none, .none, some (.str ['q']), false⟩,
    ⟨['z'], .prim .int, .prim ['z'], .none, .none, some (.int 7), true⟩]

/-- White space, a map with one item of two numbers, and a number. -/
def sampleInput : List Node :=
  [.text ['\n'],
    .element ['m'] [.text [' '], .element sItem [.element sVal [.element sVal [.text ['1']], .comment ['c'],
      .element sVal [.text ['-', '2']]], .element sKey [.text ['a']]]],
    .element ['x'] [.text [' ', '5']]]

theorem sample_sound : Sound sample := by
  refine ⟨?_, by decide, ?_, ?_, ?_, ?_, ?_, ?_⟩
  · simp [sample, plainVar]
  · intro v hv
    simp only [sample, List.mem_cons, List.not_mem_nil, or_false] at hv
    rcases hv with rfl | rfl | rfl | rfl <;> decide
  · simp [sample, plainVar, Fit]
  · simp only [sample, List.mem_cons, List.not_mem_nil, or_false, forall_eq_or_imp, forall_eq, plainVar, Proper',
      Names.root]
    decide
  · simp [sample, plainVar, Readable, Ty.isMap]
  · simp [sample, plainVar, Unnested]
  · simp [sample, plainVar]

/-- The hypotheses of `C113_class_partial` hold for the sample, and this is what is recorded. -/
example (L : Lib) (N : TypeNames) : ∃ p, schema N sample = .ok p ∧
    Matches (fun d s => d = ['i', 'n', 't'] → XsdInt s) p (seen sampleInput) ∧
    (∀ c ∈ elements sampleInput, Plain c) ∧
    (∀ v ∈ sample, v.internal = false → Converts L N (fun d s => d = ['i', 'n', 't'] → XsdInt s) v.ty v.schema v.ui) ∧
    (∀ v ∈ sample, ∀ d, v.dflt = some d → ∃ w, Stands L v.ty v.ui d w) ∧
    run L sample (agent sampleInput) = .ok (.ok
      [(['x'], .val (.prim .int), .int 5),
        (['m'], .val (.map (.prim .string) (.seq .vector (.prim .int))),
          .map [(.str ['a'], .seq [.int 1, .int (-2)])]),
        (['y'], .val (.prim .string), .str ['q']), (['z'], .val (.prim .int), .int 7)]) := by
  have hone : XsdInt ['1'] := ⟨1, [], [], ['1'], [1], by simp, by simp, by simp, by simp [Info.Decimal], by norm_num,
    by norm_num, .inl ⟨rfl, rfl⟩⟩
  have htwo : XsdInt ['-', '2'] := ⟨-2, [], [], ['2'], [2], by simp, by simp, by simp, by simp [Info.Decimal],
    by norm_num, by norm_num, .inr (.inr ⟨rfl, rfl⟩)⟩
  have hfive : XsdInt [' ', '5'] := ⟨5, [' '], [], ['5'], [5], by simp [XmlSpace], by simp, by simp,
    by simp [Info.Decimal], by norm_num, by norm_num, .inl ⟨rfl, rfl⟩⟩
  refine ⟨_, rfl, .cons (.leaf rfl fun _ => hfive) (.cons (.element (by exact fun h => h) (.one (.element (by exact fun h => h)
    (.cons (.leaf rfl fun h => absurd h (by decide)) (.cons (.element (by exact fun h => h) (.more (.leaf rfl fun _ => hone)
      (.one (.leaf rfl fun _ => htwo)))) .nil (.left _ .nil)) (.right _ (.left _ .nil))))))
      (.cons .absent .nil .nil) (.left _ .nil)) (.right _ (.left _ .nil)), ?_, ?_, ?_, rfl⟩
  · intro c hc
    have : c = .element ['m'] [.text [' '], .element sItem [.element sVal [.element sVal [.text ['1']],
        .comment ['c'], .element sVal [.text ['-', '2']]], .element sKey [.text ['a']]]] ∨
        c = .element ['x'] [.text [' ', '5']] := by
      rw [show elements sampleInput = sampleInput.tail from rfl] at hc
      simpa [sampleInput] using hc
    rcases this with rfl | rfl
    · refine .inner _ (by decide) (by decide) fun c hc => ?_
      rw [show elements _ = [Node.element sItem [.element sVal [.element sVal [.text ['1']], .comment ['c'],
        .element sVal [.text ['-', '2']]], .element sKey [.text ['a']]]] from rfl, List.mem_singleton] at hc
      subst hc
      refine .inner _ (by decide) (by decide) fun c hc => ?_
      rw [show elements _ = [Node.element sVal [.element sVal [.text ['1']], .comment ['c'],
        .element sVal [.text ['-', '2']]], .element sKey [.text ['a']]] from rfl] at hc
      simp only [List.mem_cons, List.not_mem_nil, or_false] at hc
      rcases hc with rfl | rfl
      · refine .inner _ (by decide) (by decide) fun c hc => ?_
        rw [show elements _ = [Node.element sVal [.text ['1']], .element sVal [.text ['-', '2']]] from rfl] at hc
        simp only [List.mem_cons, List.not_mem_nil, or_false] at hc
        rcases hc with rfl | rfl <;> exact .leaf _ (by simp)
      · exact .leaf _ (by simp)
    · exact .leaf _ (by simp)
  · intro v hv _
    have hb : Basic v.ty ∧ v.schema = .none ∧ v.ui = .none := by
      simp only [sample, List.mem_cons, List.not_mem_nil, or_false] at hv
      rcases hv with rfl | rfl | rfl | rfl <;> simp [plainVar, Basic]
    rw [hb.2.1, hb.2.2]
    exact C113_basic L N _ (fun s h => h rfl) v.ty hb.1
  · intro v hv d hd
    simp only [sample, List.mem_cons, List.not_mem_nil, or_false] at hv
    rcases hv with rfl | rfl | rfl | rfl
    · exact absurd hd (by simp [plainVar])
    · exact absurd hd (by simp [plainVar])
    · obtain rfl := Option.some.inj hd
      exact ⟨.str ['q'], .inr ⟨by simp, _, rfl, by simp, rfl⟩⟩
    · obtain rfl := Option.some.inj hd
      exact ⟨.int 7, .inr ⟨by simp, 7, rfl, by norm_num, by norm_num, rfl⟩⟩

end Cyclus.InfileGen
