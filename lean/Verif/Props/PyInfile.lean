import Verif.Lemmas.PyInfile
import Verif.Props.InfileGen

/-!
# C119: agents written in Python read what the input file says
-/

namespace Cyclus.PyInfile

open Infile (Node Tree)
open InfileGen

/-- The user interface types of the parts are those that C++ uses: preparing an annotation changes no part. -/
theorem C119_parts (a b : Ty) (k : Seq) (ui : Ann) :
    item (prepare (.seq k a) ui) 1 = .ok (prepare a (ui.part 1)) ∧
    item (prepare (.pair a b) ui) 1 = .ok (prepare a (ui.part 1)) ∧
    item (prepare (.pair a b) ui) 2 = .ok (prepare b (ui.part 2)) ∧
    item (prepare (.map a b) ui) 1 = .ok (prepare a (ui.part 1)) ∧
    item (prepare (.map a b) ui) 2 = .ok (prepare b (ui.part 2)) :=
  ⟨item_seq k a ui, (item_pair a b ui).1, (item_pair a b ui).2, (item_map a b ui).1, (item_map a b ui).2⟩

example : prepare (.seq .vector (.prim .int)) (.str ['x']) = .list [.str ['x'], .none] := rfl

/-- What an element says is read. -/
theorem C119_reads (L : Lib) (t : Ty) (nm : Names) (ui : Ann) (T : Tree) (x : Node) (v : Val) (hf : Fit t nm)
    (hp : Proper' nm) (hr : PyReadable t ui) (hx : named nm.root T.cur.children = [x]) (hs : Says L t nm ui x v) :
    read L t nm.toAnn (prepare t ui) T 0 [] = .ok v :=
  read_says L t nm ui T x v hf hp hr hx hs

/-- A pair of texts inside a pair, which the generated C++ cannot read. -/
def exTy : Ty := .pair (.prim .string) (.pair (.prim .string) (.prim .string))

/-- The names `p`, `first`, `second` and again `first`, `second`. -/
def exNames : Names := .pair ['p'] (.prim sFirst) (.pair sSecond (.prim sFirst) (.prim sSecond))

/-- An element with a text. -/
def leaf (n s : Str) : Node := .element n [.text s]

example (L : Lib) : Fit exTy exNames ∧ Proper' exNames ∧ PyReadable exTy .none ∧ ¬ Readable true exTy ∧
    Says L exTy exNames .none
      (.element ['p'] [leaf sFirst ['a'], .element sSecond [leaf sSecond ['c'], leaf sFirst ['b']]])
      (.pair (.str ['a']) (.pair (.str ['b']) (.str ['c']))) := by
  refine ⟨by simp [exTy, exNames, Fit], by
    simp only [exNames, Proper', Names.root]; decide, by simp [exTy, PyReadable, Ann.part],
    by simp [exTy, Readable, Ty.isPair], ?_⟩
  refine ⟨_, leaf sFirst ['a'], _, _, _, rfl, .inl rfl, ⟨['a'], rfl, .inr ⟨by simp [Ann.part], rfl⟩⟩, ?_, rfl⟩
  exact ⟨_, leaf sFirst ['b'], leaf sSecond ['c'], _, _, rfl, .inr rfl, ⟨['b'], rfl, .inr ⟨by simp [Ann.part], rfl⟩⟩,
    ⟨['c'], rfl, .inr ⟨by simp [Ann.part], rfl⟩⟩, rfl⟩

/-- On any tree, the C++ that the preprocessor generates for the same variable stores the value that Python
reads, and throws what Python meets. -/
theorem C119_same (L : Lib) (v : Var) (hf : Fit v.ty v.names) (hr : Readable true v.ty)
    (hpy : PyReadable v.ty v.ui) (hfree : v.name ∉ own) (T : Tree) (ρ : Env) (b : Option Val)
    (hT : treeOf sSub ρ = some T) (hb : lookup v.name ρ = some ⟨.val v.ty, b⟩) :
    exec L (readCode v) ρ =
      match read L v.ty v.names.toAnn (prepare v.ty v.ui) T 0 [] with
      | .ok val => Res.ofOption (update v.name val ρ)
      | .error (.cpp f) => .throws f
      | .error _ => .rejected := by
  have hne : v.name ≠ v.name ++ sUVal := by
    intro h
    have := congrArg List.length h
    simp [sUVal] at this
  have hloc : ∀ y ∈ locals v.ty .dflt 0, v.name ≠ y := by
    intro y hy
    have : y ∈ own := by
      revert hy
      cases v.ty <;> simp only [locals, List.mem_cons, List.not_mem_nil, or_false, false_imp_iff] <;>
        rintro hy <;> (rcases hy with rfl | rfl | rfl | rfl) <;> decide
    rintro rfl
    exact hfree this
  rw [readCode, exec_block, reader_spec L v.ty v.names v.ui _ v.name .dflt [] 0 true ρ T 0 b hf hr (fun _ => rfl)
    (by simp [sUVal]) (by decide) hne hloc hT rfl hb, read_direct L v.ty v.names v.ui T hf hpy]
  cases direct L v.ty v.names v.ui T [] 0 <;> rfl

example (L : Lib) : PyReadable (.map (.prim .string) (.prim .int)) (.list [.none, .none, .str sNuclide]) ∧
    Readable true (.map (.prim .string) (.prim .int)) ∧
    read L (.map (.prim .string) (.prim .int)) (Names.map ['m'] sItem (.prim sKey) (.prim sVal)).toAnn
      (prepare (.map (.prim .string) (.prim .int)) .none) (Tree.new (.element ['A'] [])) 0 [] =
        .error (.cpp (.infile (.err .value))) :=
  ⟨by simp [PyReadable, Ann.part], by simp [Readable], rfl⟩

/-- A default that denotes a value is recorded as that value. -/
theorem C119_default (t : Ty) (d : PyVal) (v : Val) (h : Denotes t d v) : toCpp t d = .ok v :=
  toCpp_denotes t d v h

example : Denotes (.seq .vector (.seq .list (.prim .double))) (.list [.list [.int 1, .float 2.5]])
    (.seq [.seq [.dbl 1, .dbl 2.5]]) :=
  ⟨_, _, rfl, .cons ⟨_, _, rfl, .cons ⟨1, .inr ⟨1, rfl, by norm_num⟩, rfl⟩
    (.cons ⟨2.5, .inl rfl, rfl⟩ .nil), rfl⟩ .nil, rfl⟩

/-- A default for an integer is recorded exactly if it is an integer of 32 bits or a truth value; a default for
a number is recorded exactly if it is a number or a truth value. -/
theorem C119_numbers (d : PyVal) (v : Val) :
    (toCpp (.prim .int) d = .ok v ↔ ∃ z : ℤ, -2 ^ 31 ≤ z ∧ z < 2 ^ 31 ∧ v = .int z ∧
      (d = .int z ∨ (d = .bool true ∧ z = 1) ∨ (d = .bool false ∧ z = 0))) ∧
    (toCpp (.prim .double) d = .ok v ↔ ∃ q : ℚ, v = .dbl q ∧
      (d = .float q ∨ (∃ z : ℤ, d = .int z ∧ q = z) ∨ (d = .bool true ∧ q = 1) ∨ (d = .bool false ∧ q = 0))) := by
  constructor
  · cases d with
    | bool b => cases b <;> simp [toCpp, toPrim, toInt, Except.map, eq_comm]
    | int z =>
      by_cases h : -2 ^ 31 ≤ z ∧ z < 2 ^ 31
      · simp only [toCpp, toPrim, toInt, if_pos h, Except.map, Except.ok.injEq]
        constructor
        · rintro rfl
          exact ⟨z, h.1, h.2, rfl, .inl rfl⟩
        · rintro ⟨z', -, -, rfl, h'⟩
          simp at h'
          rw [h']
      · simp only [toCpp, toPrim, toInt, if_neg h, Except.map, reduceCtorEq, false_iff, not_exists]
        rintro z' ⟨h1, h2, rfl, h'⟩
        simp at h'
        subst h'
        exact h ⟨h1, h2⟩
    | _ => simp [toCpp, toPrim, toInt, Except.map]
  · cases d with
    | bool b => cases b <;> simp [toCpp, toPrim, toDouble, Except.map, eq_comm]
    | int z => simp [toCpp, toPrim, toDouble, Except.map, eq_comm]
    | float q => simp [toCpp, toPrim, toDouble, Except.map, eq_comm]
    | _ => simp [toCpp, toPrim, toDouble, Except.map]

example : toCpp (.prim .int) (.int (2 ^ 31)) = .error .overflow := by
  simp [toCpp, toPrim, toInt, Except.map]

/-- A text with a null character is cut there. -/
theorem C119_fails_null (s t : Str) (hs : Char.ofNat 0 ∉ s) :
    toCpp (.prim .string) (.str (s ++ Char.ofNat 0 :: t)) = .ok (.str s) := by
  have : (s ++ Char.ofNat 0 :: t).takeWhile (· ≠ Char.ofNat 0) = s := by
    induction s with
    | nil => simp
    | cons c s ih =>
      simp only [List.mem_cons, not_or] at hs
      rw [List.cons_append, List.takeWhile_cons, if_pos (by simp [Ne.symm hs.1]), ih hs.2]
  simp only [toCpp, toPrim, this]

example : Char.ofNat 0 ∉ ['a'] := by decide

/-- Each variable gets what its element says, or its default if it has no element, and is recorded.

Full statement: without the conditions of `PySound` on the types (containers in containers, keys and values of
maps that are containers, blobs and UUIDs), and with defaults that name nuclides. -/
theorem C119_class_partial (L : Lib) (vs : List Var) (hs : PySound vs) (T : Tree) (cs : List Node)
    (hT : Config T cs) (val : Var → Val) (hg : ∀ v ∈ vs, PyGets L cs v (val v)) :
    infileToDb L vs T = .ok (Row val vs) := by
  obtain ⟨m, more, hT⟩ := hT
  have hsub := config_sub T m cs (by rw [hT]; rfl)
  obtain ⟨hs', h1, h2⟩ := rows_spec L ⟨T.root, .element m cs⟩ val vs fun v hv =>
    hold_spec L v (val v) ⟨T.root, .element m cs⟩ (hs.fit v hv) (hs.proper v hv) (hs.readable v hv) (hg v hv)
  rw [infileToDb, hsub, ok_bind, h1, ok_bind, h2]
  rfl

/-- A list of texts, and an internal number with the default 3. -/
def exVars : List Var :=
  [⟨['l'], .seq .list (.prim .string), .seq ['l'] (.prim sVal), .none, .none, some (.list []), false⟩,
    ⟨['c'], .prim .int, .prim ['c'], .none, .none, some (.int 3), true⟩]

/-- Their values. -/
def exVal (v : Var) : Val := if v.internal then .int 3 else .seq [.str ['a'], .str ['b']]

example (L : Lib) : PySound exVars ∧ (∀ v ∈ exVars, PyGets L [.element ['l'] [leaf sVal ['a'], leaf sVal ['b']]] v
    (exVal v)) ∧ infileToDb L exVars (agent [.element ['l'] [leaf sVal ['a'], leaf sVal ['b']]]) =
      .ok (Row exVal exVars) := by
  have hs : PySound exVars := ⟨by simp [exVars, Fit], by
    simp only [exVars, List.mem_cons, List.not_mem_nil, or_false, forall_eq_or_imp, forall_eq, Proper']
    exact ⟨fun _ => by decide, fun h => by simp at h⟩, by
    simp [exVars, PyReadable, Ann.part]⟩
  have hg : ∀ v ∈ exVars, PyGets L [.element ['l'] [leaf sVal ['a'], leaf sVal ['b']]] v (exVal v) := by
    intro v hv
    simp only [exVars, List.mem_cons, List.not_mem_nil, or_false] at hv
    rcases hv with rfl | rfl
    · refine .inl ⟨rfl, _, rfl, _, [.str ['a'], .str ['b']], rfl, by decide, ?_, rfl⟩
      exact .cons ⟨['a'], rfl, .inr ⟨by simp [Ann.part], rfl⟩⟩ (.cons ⟨['b'], rfl, .inr ⟨by simp [Ann.part], rfl⟩⟩ .nil)
    · exact .inr ⟨.inl rfl, _, rfl, 3, rfl, by norm_num, by norm_num, rfl⟩
  exact ⟨hs, hg, C119_class_partial L _ hs _ _ (agent_config _) _ hg⟩

/-- A class that both languages can handle records the same row in both: the generated C++ and the
method of Python agree. -/
theorem C119_row_same (L : Lib) (vs : List Var) (hs : PySound vs) (hs' : Sound vs) (T : Tree) (cs : List Node)
    (hT : Config T cs) (val : Var → Val) (hg : ∀ v ∈ vs, PyGets L cs v (val v))
    (hg' : ∀ v ∈ vs, Gets L cs v (val v)) :
    ∃ row, infileToDb L vs T = .ok row ∧ run L vs T = .ok (.ok row) :=
  ⟨_, C119_class_partial L vs hs T cs hT val hg, C113_reads_partial L vs hs' T cs hT val hg'⟩

example (L : Lib) : ∃ row, infileToDb L [plainVar ['s'] (.prim .string) (.prim ['s'])] (agent [leaf ['s'] ['a']]) =
      .ok row ∧ run L [plainVar ['s'] (.prim .string) (.prim ['s'])] (agent [leaf ['s'] ['a']]) = .ok (.ok row) := by
  have hsays : Says L (.prim .string) (.prim ['s']) .none (leaf ['s'] ['a']) (.str ['a']) :=
    ⟨['a'], rfl, .inr ⟨by simp, rfl⟩⟩
  refine C119_row_same L _ ⟨by simp [plainVar, Fit], ?_, by simp [plainVar, PyReadable]⟩
    (sound_one (v := plainVar ['s'] (.prim .string) (.prim ['s'])) (by decide) trivial
      (show isName _ = true by decide) trivial (fun h => absurd rfl h) rfl) _ _ (agent_config _) (fun _ => .str ['a']) ?_ ?_
  · intro v hv _
    rw [List.mem_singleton] at hv
    subst hv
    exact show isName _ = true by decide
  · intro v hv
    rw [List.mem_singleton] at hv
    subst hv
    exact .inl ⟨rfl, _, rfl, hsays⟩
  · intro v hv
    rw [List.mem_singleton] at hv
    subst hv
    exact .inl ⟨rfl, _, rfl, hsays⟩

/-! ## What is not recorded -/

theorem subtree_list (T : Tree) (n : Str) (l : List Ann) (i : ℕ) :
    subtree T (.list (.str n :: l)) i = subtree T (.str n) i := rfl

theorem bind_err {α β : Type} {r : R α} {f : α → R β} (h : ∀ a, r = .ok a → ∃ e, f a = .error e) :
    ∃ e, r.bind f = .error e := by
  cases r with
  | error e => exact ⟨e, rfl⟩
  | ok a => exact h a rfl

theorem each_err {α β : Type} (f : α → R β) {l : List α} {x : α} (hx : x ∈ l) (h : ∃ e, f x = .error e) :
    ∃ e, each f l = .error e := by
  induction l with
  | nil => simp at hx
  | cons y ys ih =>
    rw [each]
    refine bind_err fun b hb => ?_
    rcases List.mem_cons.mp hx with rfl | hx
    · obtain ⟨e, he⟩ := h
      rw [he] at hb
      cases hb
    · obtain ⟨e, he⟩ := ih hx
      exact ⟨e, by rw [he]; rfl⟩

/-- Nothing is recorded when the turn of a variable fails. -/
theorem hold_err (L : Lib) (vs : List Var) (T : Tree) (v : Var) (hv : v ∈ vs)
    (h : ∀ sub, subtree T (.str sConfig) 0 = .ok sub → ∃ e, hold L sub v = .error e) :
    ∃ e, infileToDb L vs T = .error e := by
  unfold infileToDb
  refine bind_err fun sub hsub => bind_err fun hs hh => ?_
  obtain ⟨e, he⟩ := each_err (hold L sub) hv (h sub hsub)
  rw [he] at hh
  cases hh

/-- Every row has the names of the variables in their order, with their types. -/
theorem C119_row (L : Lib) (vs : List Var) (T : Tree) (row : List (Str × CTy × Val))
    (h : infileToDb L vs T = .ok row) : row.map (fun r => (r.1, r.2.1)) = vs.map fun v => (v.name, .val v.ty) := by
  have hlen : ∀ {α β : Type} (f : α → R β) (l : List α) (r : List β), each f l = .ok r → r.length = l.length := by
    intro α β f l
    induction l with
    | nil => intro r hr; cases hr; rfl
    | cons x xs ih =>
      intro r hr
      rw [each] at hr
      cases hf : f x with
      | error e => rw [hf] at hr; cases hr
      | ok y =>
        rw [hf, ok_bind] at hr
        cases hx : each f xs with
        | error e => rw [hx] at hr; cases hr
        | ok ys =>
          rw [hx] at hr
          cases hr
          simp [ih _ hx]
  have hnames : ∀ (vs : List Var) (hs : List Held) (row : List (Str × CTy × Val)), hs.length = vs.length →
      each (fun x : Var × Held => (x.2.toVal x.1.ty).bind fun w => .ok (x.1.name, CTy.val x.1.ty, w)) (vs.zip hs) =
        .ok row → row.map (fun r => (r.1, r.2.1)) = vs.map fun v => (v.name, .val v.ty) := by
    intro vs
    induction vs with
    | nil => intro hs row _ hr; simp only [List.zip_nil_left, each] at hr; cases hr; rfl
    | cons v vs ih =>
      intro hs row hl hr
      cases hs with
      | nil => simp at hl
      | cons h hs =>
        rw [List.zip_cons_cons, each] at hr
        simp only at hr
        cases hw : h.toVal v.ty with
        | error e => rw [hw] at hr; cases hr
        | ok w =>
          rw [hw, ok_bind, ok_bind] at hr
          cases hx : each (fun x : Var × Held => (x.2.toVal x.1.ty).bind fun w =>
              (.ok (x.1.name, CTy.val x.1.ty, w) : R _)) (vs.zip hs) with
          | error e => rw [hx] at hr; cases hr
          | ok ys =>
            rw [hx] at hr
            cases hr
            rw [List.map_cons, List.map_cons, ih hs ys (by simpa using hl) hx]
  unfold infileToDb at h
  cases hsub : subtree T (.str sConfig) 0 with
  | error e => rw [hsub] at h; cases h
  | ok sub =>
    rw [hsub, ok_bind] at h
    cases hh : each (hold L sub) vs with
    | error e => rw [hh] at h; cases h
    | ok hs =>
      rw [hh, ok_bind] at h
      exact hnames vs hs row (hlen _ _ _ hh) h

example (L : Lib) : infileToDb L [⟨['c'], .prim .int, .prim ['c'], .none, .none, some (.int 3), true⟩] (agent []) =
    .ok [(['c'], .val (.prim .int), .int 3)] := rfl

/-- An internal variable without a default, and an element that is missing for a variable without a default,
are errors: no row is recorded. -/
theorem C119_required (L : Lib) (vs : List Var) (T : Tree) (v : Var) (hv : v ∈ vs) (hd : v.dflt = none)
    (h : v.internal = true ∨ ∃ cs, Config T cs ∧ named v.names.root cs = [] ∧ Fit v.ty v.names ∧ Proper' v.names) :
    ∃ e, infileToDb L vs T = .error e := by
  refine hold_err L vs T v hv fun sub hsub => ?_
  unfold hold
  by_cases hi : v.internal = true
  · simp [hi, hd]
  · rw [Bool.not_eq_true] at hi
    simp only [hi, Bool.false_eq_true, if_false, hd]
    obtain ⟨cs, ⟨m, more, hT⟩, hn, hf, hp⟩ := h.resolve_left (by simp [hi])
    rw [config_sub T m cs (by rw [hT]; rfl)] at hsub
    cases hsub
    have hfind : (⟨T.root, .element m cs⟩ : Tree).find ⟨false, [.named v.names.root]⟩ = [] := by
      rw [find_child, named_selects]; exact hn
    have hsubt : subtree ⟨T.root, .element m cs⟩ (.str v.names.root) 0 = .error (.cpp (.infile (.err .value))) := by
      rw [subtree_name, parse_name (proper_root hp), cpp_ok, ok_bind]
      unfold Tree.subTree
      rw [hfind]
      rfl
    have key : ∃ e, read L v.ty v.names.toAnn (prepare v.ty v.ui) ⟨T.root, .element m cs⟩ 0 [] = .error e := by
      revert hf hp hfind hsubt
      cases v.ty <;> cases v.names <;> intro hf hp hfind hsubt <;> simp only [Fit] at hf
      · rename_i p n
        simp only [Names.root] at hfind
        simp only [read, Names.toAnn, concat, ok_bind, List.nil_append, queryInfile, parse_name hp, cpp_ok]
        have hg : ∀ i : ℤ, (⟨T.root, .element m cs⟩ : Tree).getString ⟨false, [.named n]⟩ i = .error (.err .key) := by
          intro i
          unfold Tree.getString
          rw [hfind]
          rfl
        split
        · rw [hg]; exact ⟨_, rfl⟩
        · split
          · cases p <;> simp [Lib.query, Infile.queryInt, Infile.queryDouble, hg, Except.map, Except.bind,
              Res.ofExcept, cpp]
          · exact ⟨_, rfl⟩
      · refine ⟨.cpp (.infile (.err .value)), ?_⟩
        rw [read_seq]
        simp only [Names.toAnn, item, List.getElem?_cons_zero, ok_bind]
        simp only [Names.root] at hsubt
        rw [hsubt]
        rfl
      · refine ⟨.cpp (.infile (.err .value)), ?_⟩
        rw [read]
        simp only [Names.toAnn, item, List.getElem?_cons_zero, ok_bind]
        simp only [Names.root] at hsubt
        rw [hsubt]
        rfl
      · refine ⟨.cpp (.infile (.err .value)), ?_⟩
        rw [read_map]
        simp only [Names.toAnn, item, List.getElem?_cons_zero, ok_bind]
        simp only [Names.root] at hsubt
        rw [subtree_list, hsubt]
        rfl
    obtain ⟨e, he⟩ := key
    exact ⟨e, by rw [he]; rfl⟩

example (L : Lib) : ∃ e, infileToDb L [plainVar ['s'] (.prim .string) (.prim ['s'])] (agent []) = .error e :=
  C119_required L _ _ (plainVar ['s'] (.prim .string) (.prim ['s'])) (by simp) rfl (.inr ⟨[], agent_config [], rfl, trivial, show isName _ = true by decide⟩)

/-! ## Where input is not read as written -/

theorem turns_err {α : Type} (f : ℕ → R α) (n : ℕ) (hn : 0 < n) (h : ∃ e, f 0 = .error e) :
    ∃ e, turns f n 0 = .error e := by
  obtain ⟨m, rfl⟩ : ∃ m, n = m + 1 := ⟨n - 1, by omega⟩
  obtain ⟨e, he⟩ := h
  exact ⟨e, by rw [turns, he]; rfl⟩

theorem subtree_none (T : Tree) (n : Str) (i : ℕ) (hn : isName n = true) (h : named n T.cur.children = []) :
    ∃ e, subtree T (.str n) i = .error e := by
  have hfind : T.find ⟨false, [.named n]⟩ = [] := by rw [find_child, named_selects]; exact h
  rw [subtree_name, parse_name hn, cpp_ok, ok_bind]
  unfold Tree.subTree
  rw [hfind]
  have hat : Infile.at' [] (i : ℤ) = .error .range := by
    unfold Infile.at'
    split
    · rfl
    · rw [List.getElem?_nil]
  unfold Infile.pick
  rw [hat]
  split <;> exact ⟨_, rfl⟩

/-- Names that are not given: the elements of a container are `val`, the parts of a pair `first` and `second`,
and a map has items `item` with `key` and `val`. -/
theorem C119_names (L : Lib) (k : Seq) (e x y : Ty) (n : Str) (ui : Ann) (T : Tree) (i : ℕ) (path : Str) :
    read L (.seq k e) (.list [.str n, .none]) ui T i path =
      read L (.seq k e) (.list [.str n, .str ['v', 'a', 'l']]) ui T i path ∧
    read L (.pair x y) (.list [.str n, .none, .none]) ui T i path =
      read L (.pair x y) (.list [.str n, .str ['f', 'i', 'r', 's', 't'],
        .str ['s', 'e', 'c', 'o', 'n', 'd']]) ui T i path ∧
    read L (.map x y) (.list [.str n, .none, .none]) ui T i path =
      read L (.map x y) (.list [.list [.str n, .str ['i', 't', 'e', 'm']], .str ['k', 'e', 'y'],
        .str ['v', 'a', 'l']]) ui T i path ∧
    read L (.map x y) (.list [.list [.str n, .none], .none, .none]) ui T i path =
      read L (.map x y) (.list [.list [.str n, .str ['i', 't', 'e', 'm']], .str ['k', 'e', 'y'],
        .str ['v', 'a', 'l']]) ui T i path :=
  ⟨rfl, rfl, rfl, rfl⟩

/-- Only values without containers and maps have a hash. -/
theorem C119_hash (v : Val) : hashable v = true ↔ Hashes v := by
  constructor
  · intro h
    induction v using hashable.induct with
    | case1 | case2 => simp [hashable] at h
    | case3 a b ha hb =>
      rw [hashable, Bool.and_eq_true] at h
      exact .pair (ha h.1) (hb h.2)
    | case4 v h1 h2 h3 =>
      cases v with
      | bool b => exact .bool b
      | int b => exact .int b
      | dbl b => exact .dbl b
      | str b => exact .str b
      | blob b => exact .blob b
      | uuid b => exact .uuid b
      | tree b => exact .tree b
      | seq l => exact absurd rfl (h1 l)
      | map l => exact absurd rfl (h2 l)
      | pair a b => exact absurd rfl (h3 a b)
  · intro h
    induction h with
    | pair _ _ ha hb => rw [hashable, ha, hb]; rfl
    | _ => rfl

example : Hashes (.pair (.int 1) (.str ['a'])) ∧ ¬ Hashes (.pair (.int 1) (.seq [])) :=
  ⟨.pair (.int 1) (.str ['a']), fun h => by cases h with | pair _ h => cases h⟩

/-- The elements of a set are looked up from the set, wherever it is. -/
theorem C119_set_path (L : Lib) (e : Ty) (a ui : Ann) (T : Tree) (i : ℕ) (path : Str) :
    read L (.seq .set e) a ui T i path = read L (.seq .vector e) a ui T i [] ∨
      ∃ err, read L (.seq .set e) a ui T i path = .error err := by
  have h : ∀ l, collected .set l = collected .vector l ∨ ∃ err, collected .set l = .error err := by
    intro l
    unfold collected
    by_cases hl : l.all hashable
    · exact .inl (if_pos hl)
    · exact .inr ⟨_, if_neg hl⟩
  rw [show read L (.seq .set e) a ui T i path = (item a 0).bind fun a0 => (subtree T a0 i).bind fun sub =>
    (item a 1).bind fun a1 => (valName a1).bind fun val => (nmatches sub val).bind fun n =>
      (turns (fun j => (item ui 1).bind fun u => read L e val u sub j []) n 0).bind (collected .set) from by
        rw [read]; rfl,
    show read L (.seq .vector e) a ui T i [] = (item a 0).bind fun a0 => (subtree T a0 i).bind fun sub =>
    (item a 1).bind fun a1 => (valName a1).bind fun val => (nmatches sub val).bind fun n =>
      (turns (fun j => (item ui 1).bind fun u => read L e val u sub j []) n 0).bind (collected .vector) from by
        rw [read]; rfl]
  rcases item a 0 with _ | a0
  · exact .inl rfl
  rcases h1 : subtree T a0 i with _ | sub
  · left; simp only [Except.bind, h1]
  rcases h2 : item a 1 with _ | a1
  · left; simp only [Except.bind, h1]
  rcases h3 : valName a1 with _ | val
  · left; simp only [Except.bind, h1, h3]
  rcases h4 : nmatches sub val with _ | n
  · left; simp only [Except.bind, h1, h3, h4]
  rcases h5 : turns (fun j => (item ui 1).bind fun u => read L e val u sub j []) n 0 with _ | l
  · left
    simp only [ok_bind, h1, h3, h4, h5]
    rfl
  · simp only [ok_bind, h1, h3, h4, h5]
    exact h l

/-- A container of containers, pairs or maps that has an element is not read: the names of the inner elements
are lost on the way. -/
theorem C119_fails_nested (L : Lib) (k : Seq) (e : Ty) (he : e.kind ≠ 0) (n : Str) (ne : Names) (ui : Ann)
    (T : Tree) (x : Node) (v : Val) (vs : List Val) (hf : Fit e ne) (hp : Proper' (.seq n ne))
    (hx : named n T.cur.children = [x]) (hs : Says L (.seq k e) (.seq n ne) ui x (.seq (v :: vs))) :
    ∃ err, read L (.seq k e) (Names.seq n ne).toAnn (prepare (.seq k e) ui) T 0 [] = .error err := by
  obtain ⟨cs, ws, rfl, hlen, hall, hw⟩ := hs
  cases hw
  have hsub : subtree T (.str n) 0 = .ok ⟨T.root, .element n cs⟩ := by
    rw [subtree_name, parse_name hp.1, cpp_ok, ok_bind, subTree_at T _ 0 n cs
      (by rw [find_child, named_selects, hx]; rfl) (by norm_num)]
    rfl
  have hroots : ∀ c ∈ elements cs, ∃ ds, c = .element ne.root ds := by
    intro c hc
    obtain ⟨j, hj, rfl⟩ := List.getElem_of_mem hc
    exact says_name (List.Forall₂.get hall hj (by rw [← hall.length_eq]; exact hj))
  have hnamed : named ne.root cs = elements cs := by
    rw [← named_selects, filter_named, List.filter_eq_self]
    intro c hc
    obtain ⟨ds, rfl⟩ := hroots c hc
    exact selects_named _ _
  have hother : ∀ m, m ≠ ne.root → named m cs = [] := by
    intro m hm
    rw [← named_selects, filter_named, List.filter_eq_nil_iff]
    intro c hc
    obtain ⟨ds, rfl⟩ := hroots c hc
    simp [Infile.Step.selects, hm]
  have hpos : 0 < (named ne.root cs).length := by
    rw [hnamed, hall.length_eq]; simp
  have hN : nmatches ⟨T.root, .element n cs⟩ (.str ne.root) = .ok (named ne.root cs).length := by
    simp only [nmatches, text, ok_bind, parse_name (proper_root hp.2), cpp_ok, Tree.nMatches, find_child,
      named_selects]
    rfl
  rw [read_seq, item_seq]
  simp only [Names.toAnn, item, List.getElem?_cons_zero, List.getElem?_cons_succ, ok_bind]
  rw [hsub, ok_bind]
  -- the first letter of the name, instead of the name
  have hword : ∀ (m : Str), isName m = true → m = ne.root → ∀ (f : Tree → Ann → R Val),
      ∃ err, ((item (.str m) 0).bind fun a0 => (subtree ⟨T.root, .element n cs⟩ a0 0).bind fun s =>
        (item (.str m) 1).bind (f s)) = .error err := by
    intro m hm hmr f
    cases m with
    | nil => simp [isName] at hm
    | cons c r =>
      simp only [item, List.getElem?_cons_zero, ok_bind]
      refine bind_err fun s hsub' => ?_
      cases r with
      | nil => exact ⟨_, rfl⟩
      | cons d r =>
        have hc : isName [c] = true := by simp only [isName, Bool.and_eq_true] at hm ⊢; exact ⟨hm.1, rfl⟩
        obtain ⟨err, herr⟩ := subtree_none ⟨T.root, .element n cs⟩ [c] 0 hc
          (hother [c] (by rw [← hmr]; simp))
        rw [herr] at hsub'
        cases hsub'
  cases e with
  | prim p => simp [Ty.kind] at he
  | seq k' e' =>
    cases ne <;> simp only [Fit] at hf
    rename_i m me
    simp only [Names.toAnn, valName, item, List.getElem?_cons_zero, ok_bind]
    rw [show nmatches _ (.str m) = _ from hN, ok_bind]
    refine bind_err fun l hl => ?_
    obtain ⟨err, herr⟩ := turns_err (fun j => read L (.seq k' e') (.str m) (prepare (.seq k' e') (ui.part 1))
      ⟨T.root, .element n cs⟩ j (innerPath k [])) _ hpos (by
        simp only [read_seq]
        exact hword m hp.2.1 rfl (fun _ _ => _))
    rw [herr] at hl
    cases hl
  | pair a b =>
    cases ne <;> simp only [Fit] at hf
    rename_i m ma mb
    simp only [Names.toAnn, valName, item, List.getElem?_cons_zero, ok_bind]
    rw [show nmatches _ (.str m) = _ from hN, ok_bind]
    refine bind_err fun l hl => ?_
    obtain ⟨err, herr⟩ := turns_err (fun j => read L (.pair a b) (.str m) (prepare (.pair a b) (ui.part 1))
      ⟨T.root, .element n cs⟩ j (innerPath k [])) _ hpos (by
        simp only [read]
        exact hword m hp.2.1 rfl (fun _ _ => _))
    rw [herr] at hl
    cases hl
  | map a b =>
    cases ne <;> simp only [Fit] at hf
    rename_i m it ma mb
    simp only [Names.toAnn, valName, item, List.getElem?_cons_zero, ok_bind]
    rw [show nmatches _ (.list [.str m, .str it]) = _ from hN, ok_bind]
    refine bind_err fun l hl => ?_
    obtain ⟨err, herr⟩ := turns_err (fun j => read L (.map a b) (.list [.str m, .str it])
      (prepare (.map a b) (ui.part 1)) ⟨T.root, .element n cs⟩ j (innerPath k [])) _ hpos (by
        simp only [read_map, item, List.getElem?_cons_zero, List.getElem?_cons_succ, ok_bind]
        refine bind_err fun s _ => bind_err fun nm _ => ?_
        exact ⟨_, rfl⟩)
    rw [herr] at hl
    cases hl

example (L : Lib) : ∃ err, read L (.seq .vector (.seq .vector (.prim .string)))
    (Names.seq ['x'] (.seq sVal (.prim sVal))).toAnn (prepare (.seq .vector (.seq .vector (.prim .string))) .none)
    ⟨.element [] [], .element ['A'] [.element ['x'] [.element sVal [leaf sVal ['a']]]]⟩ 0 [] = .error err := by
  refine C119_fails_nested L .vector _ (by simp [Ty.kind]) ['x'] _ .none _ _ (.seq [.str ['a']]) [] trivial ?_ rfl
    ⟨_, _, rfl, by decide, .cons ⟨_, _, rfl, by decide, .cons ⟨['a'], rfl, .inr ⟨by simp [Ann.part], rfl⟩⟩ .nil, rfl⟩ .nil, rfl⟩
  simp only [Proper']
  decide

/-- A map whose keys or values are containers, pairs or maps is not read when it has an item: the elements
are looked up outside the item. -/
theorem C119_fails_map (L : Lib) (k w : Ty) (n it : Str) (nk nw : Names) (ui : Ann) (T : Tree) (x : Node)
    (v : Val × Val) (vs : List (Val × Val)) (hf : Fit (.map k w) (.map n it nk nw))
    (hp : Proper' (.map n it nk nw)) (hkw : (k.kind ≠ 0 ∧ nk.root ≠ it) ∨ (w.kind ≠ 0 ∧ nw.root ≠ it))
    (hx : named n T.cur.children = [x]) (hs : Says L (.map k w) (.map n it nk nw) ui x (.map (v :: vs))) :
    ∃ err, read L (.map k w) (Names.map n it nk nw).toAnn (prepare (.map k w) ui) T 0 [] = .error err := by
  obtain ⟨cs, ws, rfl, hlen, hall, hw⟩ := hs
  cases hw
  obtain ⟨hpn, hpi, hpk, hpw, hne⟩ := hp
  have hsub : subtree T (.str n) 0 = .ok ⟨T.root, .element n cs⟩ := by
    rw [subtree_name, parse_name hpn, cpp_ok, ok_bind, subTree_at T _ 0 n cs
      (by rw [find_child, named_selects, hx]; rfl) (by norm_num)]
    rfl
  have hroots : ∀ c ∈ elements cs, ∃ ds, c = .element it ds := by
    intro c hc
    obtain ⟨j, hj, rfl⟩ := List.getElem_of_mem hc
    obtain ⟨ds, _, _, h, _⟩ := List.Forall₂.get hall hj (by rw [← hall.length_eq]; exact hj)
    exact ⟨ds, h⟩
  have hnamed : named it cs = elements cs := by
    rw [← named_selects, filter_named, List.filter_eq_self]
    intro c hc
    obtain ⟨ds, rfl⟩ := hroots c hc
    exact selects_named _ _
  have hother : ∀ m, m ≠ it → named m cs = [] := by
    intro m hm
    rw [← named_selects, filter_named, List.filter_eq_nil_iff]
    intro c hc
    obtain ⟨ds, rfl⟩ := hroots c hc
    simp [Infile.Step.selects, hm]
  have hpos : 0 < (named it cs).length := by
    rw [hnamed, hall.length_eq]; simp
  have hN : nmatches ⟨T.root, .element n cs⟩ (.str it) = .ok (named it cs).length := by
    simp only [nmatches, text, ok_bind, parse_name hpi, cpp_ok, Tree.nMatches, find_child, named_selects]
    rfl
  -- a container is looked up among the items
  have hmiss : ∀ (t : Ty) (nm : Names) (u : Ann) (path dflt : Str), Fit t nm → Proper' nm → t.kind ≠ 0 →
      nm.root ≠ it →
      ∃ err, read L t (orElse dflt nm.toAnn) u ⟨T.root, .element n cs⟩ 0 path = .error err := by
    intro t nm u path dflt hft hpt hk hr
    obtain ⟨err, herr⟩ := subtree_none ⟨T.root, .element n cs⟩ nm.root 0 (proper_root hpt) (hother _ hr)
    refine ⟨err, ?_⟩
    cases t <;> cases nm <;> simp only [Fit] at hft
    · simp [Ty.kind] at hk
    · rw [read_seq]
      simp only [Names.toAnn, orElse, item, List.getElem?_cons_zero, ok_bind]
      simp only [Names.root] at herr
      rw [herr]
      rfl
    · rw [read]
      simp only [Names.toAnn, orElse, item, List.getElem?_cons_zero, ok_bind]
      simp only [Names.root] at herr
      rw [herr]
      rfl
    · rw [read_map]
      simp only [Names.toAnn, orElse, item, List.getElem?_cons_zero, ok_bind]
      simp only [Names.root] at herr
      rw [subtree_list, herr]
      rfl
  have hu := item_map k w ui
  rw [read_map, hu.1, hu.2]
  simp only [Names.toAnn, item, List.getElem?_cons_zero, List.getElem?_cons_succ, ok_bind]
  rw [show subtree T (.list [.str n, .str it]) 0 = _ from hsub]
  simp only [ok_bind, itemName, item, List.getElem?_cons_succ, List.getElem?_cons_zero, concat,
    List.nil_append]
  rw [show orElse sItem (.str it) = .str it from rfl]
  simp only [concat, ok_bind, List.nil_append]
  rw [hN, ok_bind]
  refine bind_err fun l hl => ?_
  obtain ⟨err, herr⟩ := turns_err (fun j =>
    (read L k (orElse sKey nk.toAnn) (prepare k (ui.part 1)) ⟨T.root, .element n cs⟩ j (it ++ ['/'])).bind fun x =>
      (read L w (orElse sVal nw.toAnn) (prepare w (ui.part 2)) ⟨T.root, .element n cs⟩ j (it ++ ['/'])).bind fun y =>
        if hashable x = true then (.ok (x, y) : R _) else .error .type) _ hpos (by
      rcases hkw with ⟨h1, h2⟩ | ⟨h1, h2⟩
      · obtain ⟨err, herr⟩ := hmiss k nk (prepare k (ui.part 1)) (it ++ ['/']) sKey hf.1 hpk h1 h2
        exact ⟨err, by rw [herr]; rfl⟩
      · refine bind_err fun a _ => ?_
        obtain ⟨err, herr⟩ := hmiss w nw (prepare w (ui.part 2)) (it ++ ['/']) sVal hf.2 hpw h1 h2
        exact ⟨err, by rw [herr]; rfl⟩)
  rw [show turns _ _ _ = _ from herr] at hl
  cases hl

example (L : Lib) : ∃ err, read L (.map (.prim .string) (.seq .vector (.prim .string)))
    (Names.map ['m'] sItem (.prim sKey) (.seq sVal (.prim sVal))).toAnn
    (prepare (.map (.prim .string) (.seq .vector (.prim .string))) .none)
    ⟨.element [] [], .element ['A'] [.element ['m'] [.element sItem
      [leaf sKey ['a'], .element sVal [leaf sVal ['b']]]]]⟩ 0 [] = .error err := by
  refine C119_fails_map L _ _ ['m'] sItem _ _ .none _ _ (.str ['a'], .seq [.str ['b']]) [] ⟨trivial, trivial⟩ ?_
    (.inr ⟨by simp [Ty.kind], by decide⟩) rfl
    ⟨_, _, rfl, by decide, .cons ⟨_, _, _, rfl, .inl rfl, ⟨['a'], rfl, .inr ⟨by simp [Ann.part], rfl⟩⟩,
      ⟨_, _, rfl, by decide, .cons ⟨['b'], rfl, .inr ⟨by simp [Ann.part], rfl⟩⟩ .nil, rfl⟩⟩ .nil, rfl⟩
  simp only [Proper']
  decide

/-- Blobs and UUIDs are not read, whatever the file has. -/
theorem C119_fails_blob (L : Lib) (p : Prim) (hp : p = .blob ∨ p = .uuid) (n : Str) (ui : Ann)
    (hui : ui ≠ .str sNuclide) (T : Tree) :
    read L (.prim p) (Names.prim n).toAnn (prepare (.prim p) ui) T 0 [] = .error .type := by
  have hn : ui.isNuclide = false := by
    rw [Bool.eq_false_iff, ne_eq, isNuclide_iff]; exact hui
  rcases hp with rfl | rfl <;> simp [read, Names.toAnn, concat, ok_bind, queryInfile, prepare, hn, queryable]

example (L : Lib) : ∃ s v, L.blob s = some v → Says L (.prim .blob) (.prim ['b']) .none (leaf ['b'] s) (.blob v) :=
  ⟨[], [], fun h => ⟨[], rfl, .inr ⟨by simp, [], h, rfl⟩⟩⟩

/-- A default that names a nuclide is not converted, as it is in the generated C++: nothing is recorded. -/
theorem C119_fails_nuclide (L : Lib) (s : Str) (z : ℤ) (hs : ∀ c ∈ s, c ≠ '"' ∧ c ≠ '\\' ∧ c ≠ '\n')
    (hz : L.nuc s = .ok z) :
    ∃ vs, Sound vs ∧ PySound vs ∧ run L vs (agent []) = .ok (.ok [(['u'], .val (.prim .int), .int z)]) ∧
      infileToDb L vs (agent []) = .error .type := by
  let v : Var := ⟨['u'], .prim .int, .prim ['u'], .str sNuclide, .none, some (.str s), false⟩
  have hsound : Sound [v] :=
    sound_one (show ['u'] ∉ own by decide) trivial (show isName _ = true by decide) trivial (fun _ => trivial) rfl
  refine ⟨[v], hsound, ⟨by simp [v, Fit], ?_, by simp [v, PyReadable]⟩, ?_, rfl⟩
  · intro w hw _
    rw [List.mem_singleton] at hw
    subst hw
    exact show isName _ = true by decide
  · have := C113_reads_partial L [v] hsound (agent []) [] (agent_config []) (fun _ => .int z) (by
      intro w hw
      rw [List.mem_singleton] at hw
      subst hw
      exact .inr ⟨.inr rfl, _, rfl, .inl ⟨rfl, rfl, .inl ⟨s, z, rfl, hs, hz, rfl⟩⟩⟩)
    exact this

example : ∃ L : Lib, L.nuc ['U'] = .ok 92 := ⟨⟨fun _ => none, fun _ => none, fun _ => none, fun _ => .ok 92, .ok⟩, rfl⟩

end Cyclus.PyInfile
