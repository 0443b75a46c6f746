import Verif.Model.SolverConf
import Verif.Model.Precond
import Verif.Props.Infile
import Verif.Props.ProgTranslator

/-!
# C105: the solver that the input file asks for is the one that solves the exchanges
-/

namespace Cyclus.Conf

open Infile

namespace C105

/-! ## What an input file asks for -/

/-- `"allow_exclusive_orders"`. -/
def allow : List Char :=
  ['a', 'l', 'l', 'o', 'w', '_', 'e', 'x', 'c', 'l', 'u', 's', 'i', 'v', 'e', '_',
    'o', 'r', 'd', 'e', 'r', 's']

/-- Exactly one of the nodes is an element with the name, and `k` are its children. -/
def One (x : List Char) (cs k : List Node) : Prop :=
  ∃ a b, cs = a ++ .element x k :: b ∧ ∀ n ∈ a ++ b, ∀ k', n ≠ .element x k'

/-- None of the nodes is an element with the name. -/
def Zero (x : List Char) (cs : List Node) : Prop := ∀ n ∈ cs, ∀ k, n ≠ .element x k

/-- The first element among the nodes has the name and the children `k`. -/
def First (x : List Char) (cs k : List Node) : Prop :=
  ∃ a b, cs = a ++ .element x k :: b ∧ ∀ n ∈ a, ∀ y k', n ≠ .element y k'

/-- An optional element that holds a text. -/
def Leaf (x : List Char) (cs : List Node) : Option (List Char) → Prop
  | none => Zero x cs
  | some s => One x cs [.text s]

/-- An optional boolean, as the schema allows it, with its default. -/
def Flag (dflt : Bool) : Option (List Char) → Bool → Prop
  | none, b => b = dflt
  | some s, b => ((trim s = ['t', 'r', 'u', 'e'] ∨ trim s = ['1']) ∧ b = true) ∨
      ((trim s = ['f', 'a', 'l', 's', 'e'] ∨ trim s = ['0']) ∧ b = false)

/-- An optional positive number of seconds; the default is five minutes. -/
def Seconds (dbl : List Char → Option ℚ) : Option (List Char) → ℚ → Prop
  | none, q => q = 5 * 60
  | some s, q => dbl (trim s) = some q ∧ 0 < q

/-- The children of the root of the input file ask for a solver: the greedy one by default or by
name, or COIN. -/
inductive Asks (dbl : List Char → Option ℚ) : List Node → Solver → Prop
  | absent {cs ctl : List Node} (hc : One ['c', 'o', 'n', 't', 'r', 'o', 'l'] cs ctl) (hs : Zero ['s', 'o', 'l', 'v', 'e', 'r'] ctl) :
      Asks dbl cs (.greedy true)
  | unnamed {cs ctl sv : List Node} {e : Option (List Char)} {x : Bool}
      (hc : One ['c', 'o', 'n', 't', 'r', 'o', 'l'] cs ctl) (hs : One ['s', 'o', 'l', 'v', 'e', 'r'] ctl sv)
      (hf : Zero ['c', 'o', 'n', 'f', 'i', 'g'] sv) (he : Leaf allow sv e) (hx : Flag true e x) :
      Asks dbl cs (.greedy x)
  | greedy {cs ctl sv cf k : List Node} {e p : Option (List Char)} {x : Bool}
      (hc : One ['c', 'o', 'n', 't', 'r', 'o', 'l'] cs ctl) (hs : One ['s', 'o', 'l', 'v', 'e', 'r'] ctl sv)
      (hf : One ['c', 'o', 'n', 'f', 'i', 'g'] sv cf) (h1 : First ['g', 'r', 'e', 'e', 'd', 'y'] cf k) (hg : One ['g', 'r', 'e', 'e', 'd', 'y'] cf k)
      (he : Leaf allow sv e) (hx : Flag true e x)
      (hp : Leaf ['p', 'r', 'e', 'c', 'o', 'n', 'd', 'i', 't', 'i', 'o', 'n', 'e', 'r'] k p) :
      Asks dbl cs (.greedy x)
  | coin {cs ctl sv cf k : List Node} {e tm ve mp : Option (List Char)} {x v m : Bool} {q : ℚ}
      (hc : One ['c', 'o', 'n', 't', 'r', 'o', 'l'] cs ctl) (hs : One ['s', 'o', 'l', 'v', 'e', 'r'] ctl sv)
      (hf : One ['c', 'o', 'n', 'f', 'i', 'g'] sv cf) (h1 : First ['c', 'o', 'i', 'n', '-', 'o', 'r'] cf k) (hg : One ['c', 'o', 'i', 'n', '-', 'o', 'r'] cf k)
      (he : Leaf allow sv e) (hx : Flag true e x)
      (ht : Leaf ['t', 'i', 'm', 'e', 'o', 'u', 't'] k tm) (hq : Seconds dbl tm q)
      (hv : Leaf ['v', 'e', 'r', 'b', 'o', 's', 'e'] k ve) (hv' : Flag false ve v)
      (hm : Leaf ['m', 'p', 's'] k mp) (hm' : Flag false mp m) :
      Asks dbl cs (.prog q x v m)

/-- The database has no rows of a simulation. -/
structure Fresh (db : Db) (sim : ℕ) : Prop where
  info : ∀ r ∈ db.info, r.1 ≠ sim
  greedy : ∀ r ∈ db.greedy, r.1 ≠ sim
  coin : ∀ r ∈ db.coin, r.1 ≠ sim
  commod : ∀ r ∈ db.commod, r.1 ≠ sim

/-! ## Queries -/

theorem One.filter {x : List Char} {cs k : List Node} (h : One x cs k) :
    cs.filter (Step.named x).selects = [.element x k] := by
  obtain ⟨a, b, rfl, hn⟩ := h
  have hz : ∀ l : List Node, (∀ n ∈ l, ∀ k', n ≠ .element x k') →
      l.filter (Step.named x).selects = [] := by
    intro l hl
    rw [List.filter_eq_nil_iff]
    intro n hm hs
    obtain ⟨k', rfl⟩ := (selects_iff _ _).mp hs
    exact hl _ hm k' rfl
  rw [List.filter_append, List.filter_cons,
    hz a fun n hm => hn n (List.mem_append_left _ hm),
    hz b fun n hm => hn n (List.mem_append_right _ hm)]
  simp [Step.selects]

theorem Zero.filter {x : List Char} {cs : List Node} (h : Zero x cs) :
    cs.filter (Step.named x).selects = [] := by
  rw [List.filter_eq_nil_iff]
  intro n hm hs
  obtain ⟨k', rfl⟩ := (selects_iff _ _).mp hs
  exact h _ hm k' rfl

theorem descend_one {x y : List Char} {cs k : List Node} (ss : List Step) (h : One x cs k) :
    descend (.named x :: ss) (.element y cs) = descend ss (.element x k) := by
  simp only [descend, Node.children, h.filter, List.flatMap_cons, List.flatMap_nil,
    List.append_nil]

theorem descend_zero {x y : List Char} {cs : List Node} (ss : List Step) (h : Zero x cs) :
    descend (.named x :: ss) (.element y cs) = [] := by
  simp only [descend, Node.children, h.filter, List.flatMap_nil]

theorem descend_root {r : List Char} {cs : List Node} (ss : List Step) :
    descend (.any :: ss) (.element [] [.element r cs]) = descend ss (.element r cs) := by
  simp [descend, Node.children, List.filter_cons, Step.selects]

theorem find_solver {r : List Char} {cs ctl sv : List Node} {cur : Node} (ss : List Step)
    (hc : One ['c', 'o', 'n', 't', 'r', 'o', 'l'] cs ctl) (hs : One ['s', 'o', 'l', 'v', 'e', 'r'] ctl sv) :
    Tree.find ⟨.element r cs, cur⟩ ⟨true, solverPath ++ ss⟩ =
      descend ss (.element ['s', 'o', 'l', 'v', 'e', 'r'] sv) := by
  unfold Tree.find solverPath
  simp only [if_true, List.cons_append, List.nil_append]
  rw [descend_root, descend_one _ hc, descend_one _ hs]

theorem pick_one {α : Type} (n : Node) (f : Node → Except Fail α) : pick [n] 0 f = f n := by
  rfl

theorem First.filter {x : List Char} {cs k : List Node} (h : First x cs k) :
    ∃ l, cs.filter Node.isElement = .element x k :: l := by
  obtain ⟨a, b, rfl, hn⟩ := h
  have : a.filter Node.isElement = [] := by
    rw [List.filter_eq_nil_iff]
    intro n hm hs
    cases n with
    | element y k' => exact hn _ hm y k' rfl
    | _ => simp [Node.isElement] at hs
  exact ⟨b.filter Node.isElement, by rw [List.filter_append, this]; simp [List.filter_cons, Node.isElement]⟩

theorem name_first {x : List Char} {cs k : List Node} (h : First x cs k) (root : Node)
    (y : List Char) : Tree.getElementName ⟨root, .element y cs⟩ 0 = .ok x := by
  obtain ⟨l, hl⟩ := h.filter
  unfold Tree.getElementName
  simp only [Node.children, hl]
  unfold pick
  have : tooFew (Node.element x k :: l).length 0 = false := by
    simp [tooFew]
  rw [this]
  simp [at', elementName]

theorem flag_read {d b : Bool} {s : List Char} (h : Flag d (some s) b) :
    decide ((trim s).map lower = ['t', 'r', 'u', 'e'] ∨ (trim s).map lower = ['t'] ∨
      (trim s).map lower = ['1']) = b := by
  rcases h with ⟨h | h, rfl⟩ | ⟨h | h, rfl⟩ <;> rw [h] <;> decide

theorem bool_leaf {t : Tree} {q : Query} {x y : List Char} {cs : List Node}
    {e : Option (List Char)} {d b : Bool}
    (hf : t.find q = descend [.named x] (.element y cs)) (he : Leaf x cs e) (hb : Flag d e b) :
    optionalBool t q d = .ok b := by
  unfold optionalBool Tree.nMatches Tree.getString
  cases e with
  | none =>
    rw [descend_zero [] he] at hf
    cases hb
    simp [hf]
  | some s =>
    rw [descend_one [] he] at hf
    simp only [descend] at hf
    simp only [hf, List.length_singleton, one_ne_zero, if_false, List.isEmpty_cons,
      Bool.false_eq_true, pick_one, content]
    rw [flag_read hb]

theorem string_leaf {t : Tree} {q : Query} {x y : List Char} {cs : List Node}
    {e : Option (List Char)} {d : List Char}
    (hf : t.find q = descend [.named x] (.element y cs)) (he : Leaf x cs e) :
    optionalString t q d = .ok (e.getD d) := by
  unfold optionalString Tree.nMatches Tree.getString
  cases e with
  | none =>
    rw [descend_zero [] he] at hf
    simp [hf]
  | some s =>
    rw [descend_one [] he] at hf
    simp only [descend] at hf
    simp [hf, pick_one, content]

theorem seconds_leaf {dbl : List Char → Option ℚ} {t : Tree} {q : Query} {x y : List Char}
    {cs : List Node} {e : Option (List Char)} {v : ℚ}
    (hf : t.find q = descend [.named x] (.element y cs)) (he : Leaf x cs e)
    (hv : Seconds dbl e v) :
    ∃ w, optionalDouble dbl t q (-1) = .ok w ∧ (if w ≤ 0 then 300 else w) = v := by
  unfold optionalDouble Tree.nMatches Tree.getString
  cases e with
  | none =>
    rw [descend_zero [] he] at hf
    refine ⟨-1, by simp [hf], ?_⟩
    have : v = 5 * 60 := hv
    rw [this]
    norm_num
  | some s =>
    rw [descend_one [] he] at hf
    simp only [descend] at hf
    refine ⟨v, ?_, if_neg (not_le.mpr hv.2)⟩
    simp [hf, pick_one, content, hv.1, lexical]

theorem readInfo_one {r : List Char} {cs ctl sv : List Node} {e : Option (List Char)} {x : Bool}
    (hc : One ['c', 'o', 'n', 't', 'r', 'o', 'l'] cs ctl) (hs : One ['s', 'o', 'l', 'v', 'e', 'r'] ctl sv) (he : Leaf allow sv e)
    (hx : Flag true e x) {n : List Char}
    (hn : (Zero ['c', 'o', 'n', 'f', 'i', 'g'] sv ∧ n = ['g', 'r', 'e', 'e', 'd', 'y']) ∨ ∃ cf k, One ['c', 'o', 'n', 'f', 'i', 'g'] sv cf ∧ First n cf k) :
    readInfo (Tree.new (.element r cs)) = .ok ⟨n, x⟩ := by
  have h1 : Tree.find (Tree.new (.element r cs)) ⟨true, solverPath⟩ =
      [.element ['s', 'o', 'l', 'v', 'e', 'r'] sv] := by
    have := find_solver (r := r) (cur := .element r cs) [] hc hs
    rwa [List.append_nil] at this
  unfold readInfo
  simp only [Tree.nMatches, h1, List.length_singleton, if_true, Tree.subTree, pick_one, asTree]
  have hb : optionalBool ⟨(Tree.new (.element r cs)).root, .element ['s', 'o', 'l', 'v', 'e', 'r'] sv⟩
      (.child exclName) true = .ok x :=
    bool_leaf (x := allow) (y := ['s', 'o', 'l', 'v', 'e', 'r']) (cs := sv) rfl he hx
  rcases hn with ⟨hz, rfl⟩ | ⟨cf, k, ho, hk⟩
  · have h2 : Tree.find ⟨(Tree.new (.element r cs)).root, .element ['s', 'o', 'l', 'v', 'e', 'r'] sv⟩
        (.child ['c', 'o', 'n', 'f', 'i', 'g']) = [] := descend_zero [] hz
    simp [h2, hb, greedyName]
  · have h2 : Tree.find ⟨(Tree.new (.element r cs)).root, .element ['s', 'o', 'l', 'v', 'e', 'r'] sv⟩
        (.child ['c', 'o', 'n', 'f', 'i', 'g']) = [.element ['c', 'o', 'n', 'f', 'i', 'g'] cf] := by
      have := descend_one (y := ['s', 'o', 'l', 'v', 'e', 'r']) [] ho
      exact this
    simp only [h2, List.length_singleton, if_true, pick_one, asTree, name_first hk, hb]

theorem find_config {r : List Char} {cs ctl sv cf k : List Node} {cur : Node}
    {n : List Char} (leaf : List Char)
    (hc : One ['c', 'o', 'n', 't', 'r', 'o', 'l'] cs ctl) (hs : One ['s', 'o', 'l', 'v', 'e', 'r'] ctl sv) (hf : One ['c', 'o', 'n', 'f', 'i', 'g'] sv cf)
    (hk : One n cf k) :
    Tree.find ⟨.element r cs, cur⟩ (configPath n leaf) = descend [.named leaf] (.element n k) := by
  unfold configPath
  rw [find_solver _ hc hs, descend_one _ hf, descend_one _ hk]

theorem find_config_none {r : List Char} {cs ctl sv : List Node} {cur : Node}
    {n : List Char} (leaf : List Char)
    (hc : One ['c', 'o', 'n', 't', 'r', 'o', 'l'] cs ctl) (hs : One ['s', 'o', 'l', 'v', 'e', 'r'] ctl sv) (hf : Zero ['c', 'o', 'n', 'f', 'i', 'g'] sv) :
    Tree.find ⟨.element r cs, cur⟩ (configPath n leaf) = [] := by
  unfold configPath
  rw [find_solver _ hc hs, descend_zero _ hf]

theorem find_none {r : List Char} {cs ctl : List Node} {cur : Node} (ss : List Step)
    (hc : One ['c', 'o', 'n', 't', 'r', 'o', 'l'] cs ctl) (hs : Zero ['s', 'o', 'l', 'v', 'e', 'r'] ctl) :
    Tree.find ⟨.element r cs, cur⟩ ⟨true, solverPath ++ ss⟩ = [] := by
  unfold Tree.find solverPath
  simp only [if_true, List.cons_append, List.nil_append]
  rw [descend_root, descend_one _ hc, descend_zero _ hs]

/-! ## Rows -/

theorem rows_fresh {α : Type} {l : List (ℕ × α)} {sim : ℕ} (h : ∀ r ∈ l, r.1 ≠ sim) :
    rows l sim = [] := by
  unfold rows
  rw [List.filter_eq_nil_iff.mpr fun r hr => by simpa using h r hr]
  rfl

theorem rows_append {α : Type} (l m : List (ℕ × α)) (sim : ℕ) :
    rows (l ++ m) sim = rows l sim ++ rows m sim := by
  simp [rows, List.filter_append]

theorem rows_self {α : Type} (a : α) (sim : ℕ) : rows [(sim, a)] sim = [a] := by
  simp [rows]

theorem rows_other {α : Type} (a : α) {sim other : ℕ} (h : sim ≠ other) :
    rows [(sim, a)] other = [] := by
  simp [rows, h]

theorem rows_map {α : Type} (l : List α) (sim : ℕ) : rows (l.map (sim, ·)) sim = l := by
  induction l with
  | nil => rfl
  | cons a l ih => simpa [rows] using ih

/-- What `record` writes. -/
inductive Wrote (sim : ℕ) (commods : List (List Char × ℚ)) (db : Db) : Solver → Db → Prop
  | greedy (x : Bool) (p : List Char) : Wrote sim commods db (.greedy x)
      ⟨db.info ++ [(sim, ⟨greedyName, x⟩)], db.greedy ++ [(sim, p)], db.coin,
        db.commod ++ commods.map (sim, ·)⟩
  | coin (q w : ℚ) (x v m : Bool) (hw : (if w ≤ 0 then 300 else w) = q) :
      Wrote sim commods db (.prog q x v m)
      ⟨db.info ++ [(sim, ⟨coinName, x⟩)], db.greedy, db.coin ++ [(sim, ⟨w, v, m⟩)],
        db.commod ++ commods.map (sim, ·)⟩

theorem record_wrote {dbl : List Char → Option ℚ} {sim : ℕ} {commods : List (List Char × ℚ)}
    {r : List Char} {cs : List Node} {db : Db} {s : Solver} (h : Asks dbl cs s) :
    ∃ db', record dbl sim commods (Tree.new (.element r cs)) db = .ok db' ∧
      Wrote sim commods db s db' := by
  cases h with
  | @absent ctl hc hs =>
    have h1 := find_none (r := r) (cur := .element r cs) [] hc hs
    have h2 := find_none (r := r) (cur := .element r cs)
      [.named ['c', 'o', 'n', 'f', 'i', 'g'], .named greedyName, .named preconName] hc hs
    rw [List.append_nil] at h1
    refine ⟨_, ?_, .greedy true greedyName⟩
    simp [record, readInfo, Tree.nMatches, Tree.new, h1, h2, optionalString, configPath]
  | @unnamed ctl sv e x hc hs hf he hx =>
    have h1 := readInfo_one (r := r) hc hs he hx (.inl ⟨hf, rfl⟩)
    have h2 := find_config_none (r := r) (cur := .element r cs) (n := greedyName) preconName
      hc hs hf
    refine ⟨_, ?_, .greedy x greedyName⟩
    unfold record
    rw [h1]
    simp only [show (['g', 'r', 'e', 'e', 'd', 'y'] : List Char) = greedyName from rfl]
    simp [Tree.nMatches, Tree.new, h2, optionalString]
  | @greedy ctl sv cf k e p x hc hs hf hk hg he hx hp =>
    have h1 := readInfo_one (r := r) hc hs he hx (.inr ⟨cf, k, hf, hk⟩)
    have h2 := find_config (r := r) (cur := .element r cs) preconName hc hs hf hg
    have h3 := string_leaf (d := greedyName) h2 hp
    refine ⟨_, ?_, .greedy x (p.getD greedyName)⟩
    unfold record
    rw [h1]
    simp only [show (['g', 'r', 'e', 'e', 'd', 'y'] : List Char) = greedyName from rfl, if_true]
    unfold Tree.new
    simp only [show (['g', 'r', 'e', 'e', 'd', 'y'] : List Char) = greedyName from rfl] at h3
    rw [h3]
  | @coin ctl sv cf k e tm ve mp x v m q hc hs hf hk hg he hx ht hq hv hv' hm hm' =>
    have h1 := readInfo_one (r := r) hc hs he hx (.inr ⟨cf, k, hf, hk⟩)
    have hl := fun leaf => find_config (r := r) (cur := .element r cs) leaf hc hs hf hg
    obtain ⟨w, h2, hw⟩ := seconds_leaf (hl _) ht hq
    have h3 := bool_leaf (hl _) hv hv'
    have h4 := bool_leaf (hl _) hm hm'
    refine ⟨_, ?_, .coin q w x v m hw⟩
    unfold record
    rw [h1]
    simp only [show (['c', 'o', 'i', 'n', '-', 'o', 'r'] : List Char) = coinName from rfl] at h2 h3 h4 ⊢
    rw [if_neg (by decide)]
    unfold readCoin Tree.new
    simp only [if_true, h2, h3, h4]

theorem load_wrote {sim : ℕ} {commods : List (List Char × ℚ)} {db db' : Db} {s : Solver}
    (h : Wrote sim commods db s db') (hf : Fresh db sim) (hc : commods ≠ []) (hasCoin : Bool) :
    load hasCoin db' sim = match s with
      | .greedy x => some (.ok (.greedy x))
      | .prog q x v m => some (if hasCoin then .ok (.prog q x v m) else .error .generic) := by
  cases h with
  | greedy x p =>
    obtain ⟨c, cs, rfl⟩ := List.exists_cons_of_ne_nil hc
    simp [load, rows_append, rows_fresh hf.info, rows_self, loadGreedy, rows_fresh hf.greedy,
      loadPreconditioner, rows_fresh hf.commod]
    have : rows ((sim, c) :: cs.map (sim, ·)) sim = c :: cs := rows_map (c :: cs) sim
    simp [this]
  | coin q w x v m hw =>
    have hne : coinName ≠ greedyName := by decide
    cases hasCoin <;>
      simp [load, rows_append, rows_fresh hf.info, rows_self, loadCoin, rows_fresh hf.coin,
        hne, hw]

theorem load_other {sim other : ℕ} {commods : List (List Char × ℚ)} {db db' : Db} {s : Solver}
    (h : Wrote sim commods db s db') (ho : sim ≠ other) (hc : rows db.commod other ≠ [])
    (hasCoin : Bool) : load hasCoin db' other = load hasCoin db other := by
  have hm : rows (commods.map (sim, ·)) other = [] := by
    apply rows_fresh
    intro r hr
    obtain ⟨a, _, rfl⟩ := List.mem_map.mp hr
    exact ho
  have hi : ∀ (i : Info), (if (db.info ++ [(sim, i)]).isEmpty then none
      else (rows (db.info ++ [(sim, i)]) other).head?) =
      if db.info.isEmpty then none else (rows db.info other).head? := by
    intro i
    rw [rows_append, rows_other _ ho, List.append_nil, if_neg (by simp)]
    cases db.info <;> simp [rows]
  have hp : ∀ (g c i n), loadPreconditioner ⟨i, g, c, db.commod ++ commods.map (sim, ·)⟩ other n =
      loadPreconditioner db other n := by
    intro g c i n
    have : db.commod ≠ [] := fun h => hc (by rw [h]; rfl)
    unfold loadPreconditioner
    simp only [rows_append, hm, List.append_nil]
    cases hd : db.commod with
    | nil => exact absurd hd this
    | cons a l => simp
  cases h with
  | greedy x p =>
    have hg : ∀ (i c y), loadGreedy ⟨i, db.greedy ++ [(sim, p)], c,
        db.commod ++ commods.map (sim, ·)⟩ other y = loadGreedy db other y := by
      intro i c y
      unfold loadGreedy
      simp only [hp, rows_append, rows_other _ ho, List.append_nil]
      rw [if_neg (by simp)]
      cases db.greedy <;> simp [rows]
    unfold load
    simp only [hi, hg]
    rfl
  | coin q w x v m hw =>
    have hg : ∀ (i c y), loadGreedy ⟨i, db.greedy, c,
        db.commod ++ commods.map (sim, ·)⟩ other y = loadGreedy db other y := by
      intro i c y
      unfold loadGreedy
      simp only [hp]
    have hk : ∀ (i g k y), loadCoin hasCoin ⟨i, g, db.coin ++ [(sim, ⟨w, v, m⟩)], k⟩ other y =
        loadCoin hasCoin db other y := by
      intro i g k y
      unfold loadCoin
      simp only [rows_append, rows_other _ ho, List.append_nil]
      cases db.coin <;> simp [rows]
    unfold load
    simp only [hi, hg, hk]

/-! ## The property -/

/-- C105 (choice).  An input file that asks for a solver is accepted, and the simulation gets that
solver with the options of the file, or their defaults, whatever other simulations the database
holds.  If Cyclus was built without COIN and COIN is asked for, no solver is made.  The solvers of
other simulations with commodities are as before.

Partial: the full property also requires that the options have their meaning.
`C105_fails_exclusive`: `allow_exclusive_orders` changes nothing for the greedy solver;
`C105_fails_preconditioner`: preconditioners are accepted whatever their name;
`C105_fails_restart`: a restarted simulation cannot be restarted. -/
theorem C105_choice_partial (dbl : List Char → Option ℚ) (sim : ℕ)
    (commods : List (List Char × ℚ)) (hc : commods ≠ []) (r : List Char) (cs : List Node) (db : Db)
    (hf : Fresh db sim) (s : Solver) (h : Asks dbl cs s) :
    ∃ db', record dbl sim commods (Tree.new (.element r cs)) db = .ok db' ∧
      load true db' sim = some (.ok s) ∧
      (load false db' sim = match s with
        | .greedy x => some (.ok (.greedy x))
        | .prog .. => some (.error .generic)) ∧
      (∀ hasCoin other, sim ≠ other → (∃ c, (other, c) ∈ db.commod) →
        load hasCoin db' other = load hasCoin db other) := by
  obtain ⟨db', h1, h2⟩ := record_wrote (sim := sim) (commods := commods) (r := r) (db := db) h
  refine ⟨db', h1, ?_, ?_, ?_⟩
  · rw [load_wrote h2 hf hc]
    cases s <;> rfl
  · rw [load_wrote h2 hf hc]
    cases s <;> rfl
  · rintro hasCoin other ho ⟨c, hm⟩
    refine load_other h2 ho ?_ hasCoin
    intro hr
    have : c ∈ rows db.commod other := List.mem_map.mpr ⟨_, List.mem_filter.mpr ⟨hm, by simp⟩, rfl⟩
    rw [hr] at this
    exact List.not_mem_nil this

/-- `<timeout>60</timeout>` and `<mps>1</mps>` below `<coin-or>`, and exclusive orders not allowed. -/
def coinFile : List Node :=
  [.element ['c', 'o', 'n', 't', 'r', 'o', 'l'] [.text ['\n'], .element ['s', 'o', 'l', 'v', 'e', 'r'] [
    .element ['c', 'o', 'n', 'f', 'i', 'g'] [.text ['\n'], .element ['c', 'o', 'i', 'n', '-', 'o', 'r'] [
      .element ['t', 'i', 'm', 'e', 'o', 'u', 't'] [.text [' ', '6', '0']], .element ['m', 'p', 's'] [.text ['1']]]],
    .element allow [.text ['f', 'a', 'l', 's', 'e']]]]]

/-- A reader of numbers that knows `60`. -/
def sixty (s : List Char) : Option ℚ := if s = ['6', '0'] then some 60 else none

/-- A case of `C105_choice_partial`. -/
example : Asks sixty coinFile (.prog 60 false false true) :=
  .coin (e := some ['f', 'a', 'l', 's', 'e']) (tm := some [' ', '6', '0']) (ve := none) (mp := some ['1'])
    (ctl := _) (sv := _) (cf := _) (k := _)
    ⟨[], [], rfl, by simp⟩ ⟨[.text ['\n']], [], rfl, by simp⟩
    ⟨[], [_], rfl, by simp [allow]⟩ ⟨[.text ['\n']], [], rfl, by simp⟩
    ⟨[.text ['\n']], [], rfl, by simp⟩ ⟨[_], [], rfl, by simp [allow]⟩
    (.inr ⟨.inl (by decide), rfl⟩)
    ⟨[], [_], rfl, by simp⟩ ⟨by decide, by norm_num⟩ (by simp [Leaf, Zero]) rfl
    ⟨[_], [], rfl, by simp⟩ (.inl ⟨.inr (by decide), rfl⟩)

/-- C105 (unknown solvers).  An input file whose configuration names any other solver is rejected,
and so is an empty configuration. -/
theorem C105_unknown (dbl : List Char → Option ℚ) (sim : ℕ) (commods : List (List Char × ℚ))
    (r : List Char) (cs ctl sv cf : List Node) (db : Db)
    (hc : One ['c', 'o', 'n', 't', 'r', 'o', 'l'] cs ctl) (hs : One ['s', 'o', 'l', 'v', 'e', 'r'] ctl sv) (hf : One ['c', 'o', 'n', 'f', 'i', 'g'] sv cf)
    (e : Option (List Char)) (x : Bool) (he : Leaf allow sv e) (hx : Flag true e x)
    (hn : (∀ n ∈ cf, ∀ y k, n ≠ .element y k) ∨
      ∃ n k, First n cf k ∧ n ≠ ['g', 'r', 'e', 'e', 'd', 'y'] ∧ n ≠ ['c', 'o', 'i', 'n', '-', 'o', 'r']) :
    record dbl sim commods (Tree.new (.element r cs)) db = .error (.err .value) := by
  rcases hn with hn | ⟨n, k, hk, h1, h2⟩
  · have h1 : Tree.find (Tree.new (.element r cs)) ⟨true, solverPath⟩ =
        [.element ['s', 'o', 'l', 'v', 'e', 'r'] sv] := by
      have := find_solver (r := r) (cur := .element r cs) [] hc hs
      rwa [List.append_nil] at this
    have h2 : Tree.find ⟨(Tree.new (.element r cs)).root, .element ['s', 'o', 'l', 'v', 'e', 'r'] sv⟩
        (.child ['c', 'o', 'n', 'f', 'i', 'g']) = [.element ['c', 'o', 'n', 'f', 'i', 'g'] cf] := by
      have := descend_one (y := ['s', 'o', 'l', 'v', 'e', 'r']) [] hf
      exact this
    have h3 : cf.filter Node.isElement = [] := by
      rw [List.filter_eq_nil_iff]
      intro n hm hs
      cases n with
      | element y k' => exact hn _ hm y k' rfl
      | _ => simp [Node.isElement] at hs
    have h4 : ∀ root y, Tree.getElementName ⟨root, .element y cf⟩ 0 = .error (.err .value) := by
      intro root y
      unfold Tree.getElementName
      simp only [Node.children, h3]
      rfl
    unfold record readInfo
    simp only [Tree.nMatches, h1, List.length_singleton, if_true, Tree.subTree, pick_one, asTree,
      h2, h4]
  · have h3 := readInfo_one (r := r) hc hs he hx (.inr ⟨cf, k, hf, hk⟩)
    unfold record
    rw [h3]
    simp only
    rw [if_neg (show ¬n = greedyName from h1), if_neg (show ¬n = coinName from h2)]

/-- A case of `C105_unknown`: `<config><clp/></config>`. -/
example : ∃ k, First ['c', 'l', 'p'] [Node.text [' '], .element ['c', 'l', 'p'] []] k ∧
    ['c', 'l', 'p'] ≠ ['g', 'r', 'e', 'e', 'd', 'y'] ∧ ['c', 'l', 'p'] ≠ ['c', 'o', 'i', 'n', '-', 'o', 'r'] :=
  ⟨[], ⟨[.text [' ']], [], rfl, by simp⟩, by decide, by decide⟩

/-! ## Disagreements -/

/-- Whatever solver the file asks for: the simulation can be restarted, but the restarted simulation
cannot, since `LoadSolver` is not called for it and nothing else records the solver. -/
theorem C105_fails_restart (dbl : List Char → Option ℚ) (sim new : ℕ)
    (commods : List (List Char × ℚ)) (hc : commods ≠ []) (r : List Char) (cs : List Node) (db : Db)
    (hf : Fresh db sim) (hn : Fresh db new) (hd : sim ≠ new) (s : Solver) (h : Asks dbl cs s) :
    ∃ db' db'', record dbl sim commods (Tree.new (.element r cs)) db = .ok db' ∧
      restart true db' sim = some (.ok (s, db'')) ∧ restart true db'' new = some (.error .value) := by
  obtain ⟨db', h1, h2⟩ := record_wrote (sim := sim) (commods := commods) (r := r) (db := db) h
  refine ⟨db', db', h1, ?_, ?_⟩
  · unfold restart
    rw [load_wrote h2 hf hc]
    cases s <;> rfl
  · unfold restart load
    cases h2 <;> simp [rows_append, rows_fresh hn.info, rows_other _ hd] <;> rfl

/-- A case of `C105_fails_restart`. -/
example : Fresh ⟨[], [], [], []⟩ 0 ∧ Fresh ⟨[], [], [], []⟩ 1 ∧
    Asks sixty [.element ['c', 'o', 'n', 't', 'r', 'o', 'l'] []] (.greedy true) :=
  ⟨⟨by simp, by simp, by simp, by simp⟩, ⟨by simp, by simp, by simp, by simp⟩,
    .absent ⟨[], [], rfl, by simp⟩ (by simp [Zero])⟩

/-- The preconditioner may have any name: the file is accepted and the solver is the same, since the
commodities keep `LoadPreconditioner` from looking at the name. -/
theorem C105_fails_preconditioner (dbl : List Char → Option ℚ) (sim : ℕ) (c : List Char × ℚ)
    (name : List Char) : ∃ db',
    record dbl sim [c] (Tree.new (.element [] [.element ['c', 'o', 'n', 't', 'r', 'o', 'l'] [.element ['s', 'o', 'l', 'v', 'e', 'r'] [
      .element ['c', 'o', 'n', 'f', 'i', 'g'] [.element ['g', 'r', 'e', 'e', 'd', 'y'] [
        .element ['p', 'r', 'e', 'c', 'o', 'n', 'd', 'i', 't', 'i', 'o', 'n', 'e', 'r'] [.text name]]]]]]))
      ⟨[], [], [], []⟩ = .ok db' ∧ rows db'.greedy sim = [name] ∧
      load true db' sim = some (.ok (.greedy true)) := by
  refine ⟨⟨[(sim, ⟨greedyName, true⟩)], [(sim, name)], [], [(sim, c)]⟩, by rfl, rows_self _ _, ?_⟩
  simp [load, rows_self, loadGreedy, loadPreconditioner]

open Exchange in
/-- The nodes of `exclGraph`. -/
def exclNode (n : ℕ) : Exchange.Node :=
  if n = 0 then ⟨some 0, fun _ => [1], [((0, 1), 1)], true, "a", 0, 5⟩
  else ⟨some n, fun _ => [1], [], false, "a", n, 10⟩

/-- Stands for `float_distance`. -/
def dist (a b : ℚ) : ℚ := (b - a) * 10 ^ 15

/-- An exclusive request for five units and a bidder who has three. -/
def exclGraph : Exchange.Graph where
  node := exclNode
  group r := if r = 0 then ⟨[0], [5], [[0]], 5⟩ else ⟨[r], [3], [], 0⟩
  reqs := [0]
  sups := [1]
  arcs := [Exchange.mkArc dist exclNode 0 1 1]

/-- The program of `exclGraph` without exclusive orders. -/
def exclProg : Prog.Program where
  n := 2
  cols := [⟨1, 0, some 5⟩, ⟨11 / 10, 0, none⟩]
  rows := [⟨[(0, 1)], 0, some 3⟩, ⟨[(0, 1), (1, 1)], 5, none⟩]
  ints := []

/-- `allow_exclusive_orders` does not change what the greedy solver trades: it treats orders as
exclusive in any case.  COIN, with the same setting, trades the three units. -/
theorem C105_fails_exclusive :
    (∀ (p : Exchange.Params) (cond : Exchange.Graph → Exchange.Graph) (g : Exchange.Graph)
      (prev : ℕ → List ℚ) (old : List (Exchange.Arc × ℚ)),
      (Exchange.solveGraph p false cond g prev old).1.matches_ =
        (Exchange.solveGraph p true cond g prev old).1.matches_) ∧
    (Exchange.solveGraph ⟨1 / 10 ^ 6, 10 ^ 300, dist⟩ false (Exchange.condition []) exclGraph
      (fun _ => []) []).1.matches_ = [] ∧
    ∃ x, Prog.toProg ⟨false, Exchange.pseudoCost false exclGraph, 10 ^ 30, 10 ^ 15,
        fun _ _ => true⟩ exclGraph = some (.ok exclProg) ∧
      Prog.Spec.Optimal exclProg x ∧
      ∃ a, Prog.fromProg false (1 / 10 ^ 6) exclGraph x = [(a, 3)] := by
  refine ⟨?_, by decide +kernel, fun i => if i = 0 then 3 else 2, by decide +kernel,
    ⟨⟨?_, ?_, by simp [exclProg]⟩, ?_⟩, ⟨0, 1, true, 5, 1⟩, by decide +kernel⟩
  · intro p cond g prev old
    unfold Exchange.solveGraph
    simp only
    split <;> simp_all
  · intro i c hi hc
    have : i = 0 ∨ i = 1 := by simp [exclProg] at hi; omega
    rcases this with rfl | rfl <;> simp [exclProg] at hc <;> subst hc <;> norm_num [Prog.Spec.Below]
  · intro r hr
    simp only [exclProg, List.mem_cons, List.not_mem_nil, or_false] at hr
    rcases hr with rfl | rfl <;> norm_num [Prog.Spec.rowVal, Prog.Spec.Below]
  · intro y hy
    have h0 := hy.row ⟨[(0, 1)], 0, some 3⟩ (by simp [exclProg])
    have h1 := hy.row ⟨[(0, 1), (1, 1)], 5, none⟩ (by simp [exclProg])
    simp only [Prog.Spec.rowVal, List.map_cons, List.map_nil, List.sum_cons, List.sum_nil, one_mul,
      Prog.Spec.Below] at h0 h1
    simp only [Prog.Spec.objective, exclProg, List.take, List.zipIdx_cons, List.zipIdx_nil,
      List.map_cons, List.map_nil, List.sum_cons, List.sum_nil]
    norm_num
    linarith

end C105

end Cyclus.Conf
