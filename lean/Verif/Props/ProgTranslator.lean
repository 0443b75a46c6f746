import Verif.Model.ProgTranslator
import Verif.Spec.Greedy
import Mathlib.Tactic.Linarith
import Mathlib.Tactic.Ring
import Mathlib.Algebra.Order.BigOperators.Group.List
import Mathlib.Algebra.BigOperators.Ring.List

/-!
# C50: what the solutions of the translated program mean for the exchange
-/

namespace Cyclus.Prog

open Cyclus.Exchange Cyclus.Exchange.Spec

namespace Spec

/-- The value of a row at a point. -/
def rowVal (x : ℕ → ℚ) (r : Row) : ℚ := (r.coeffs.map fun c => c.2 * x c.1).sum

/-- `x` is below an upper bound. -/
def Below (x : ℚ) : Option ℚ → Prop
  | none => True
  | some u => x ≤ u

/-- Feasible points of a mixed integer program. -/
structure Feasible (P : Program) (x : ℕ → ℚ) : Prop where
  col : ∀ (i : ℕ) (c : Col), i < P.n → P.cols[i]? = some c → c.lb ≤ x i ∧ Below (x i) c.ub
  row : ∀ r ∈ P.rows, r.lb ≤ rowVal x r ∧ Below (rowVal x r) r.ub
  int : ∀ i ∈ P.ints, ∃ z : ℤ, x i = z

/-- The value of the objective function. -/
def objective (P : Program) (x : ℕ → ℚ) : ℚ :=
  (((P.cols.take P.n).zipIdx).map fun c => c.1.obj * x c.2).sum

/-- Optimal solutions. -/
def Optimal (P : Program) (x : ℕ → ℚ) : Prop :=
  Feasible P x ∧ ∀ y, Feasible P y → objective P x ≤ objective P y

/-- What is assumed of the graph beyond `WF`: the arcs have different ends, the nodes of the supply
groups are listed once and exactly in their group, the maps of unit capacities have entries for
all arcs with unit capacities. -/
structure Complete (p : Params) (g : Graph) : Prop where
  keys : (g.arcs.map fun a => (a.u, a.v)).Nodup
  nodup : ∀ r ∈ g.sups, (g.group r).nodes.Nodup
  listed : ∀ r ∈ g.sups, ∀ a ∈ g.arcs,
    ((g.node a.v).group = some r ↔ a.v ∈ (g.group r).nodes)
  bids : ∀ r ∈ g.sups, ∀ a ∈ g.arcs, a.u ∉ (g.group r).nodes
  present : ∀ a ∈ g.arcs, (g.node a.v).unitCaps (a.u, a.v) ≠ [] → p.present a.v a = true

end Spec

open Spec

/-! ## Shape of the program -/

theorem xlateGrps_rows {p : Params} {g : Graph} {q : Bool} {rs : List ℕ} {s s' : St}
    (h : xlateGrps p g q rs s = some (.ok s')) : ∀ r ∈ s.rows, r ∈ s'.rows := by
  induction rs generalizing s with
  | nil => simp only [xlateGrps] at h; cases h; exact fun r hr => hr
  | cons a rs ih =>
    simp only [xlateGrps] at h
    split at h <;> try cases h
    rename_i s1 h1
    refine fun r hr => ih h r ?_
    simp only [xlateGrp] at h1
    split at h1
    · cases h1; exact hr
    · split at h1
      · cases h1
      · split at h1
        · cases h1
        · cases h1; simp [hr]

/-- The rows that the translation of one group adds. -/
def grpRows (p : Params) (g : Graph) (request : Bool) (grp : Group) (off : ℕ) : List Row :=
  (grp.caps.zipIdx.map fun c =>
    if request then
      (⟨capCoeffs p g (entries p g grp) c.2 ++ [(off, 1)], min c.1 p.big, none⟩ : Row)
    else ⟨capCoeffs p g (entries p g grp) c.2, 0, bound p.inf c.1⟩) ++
  (if p.excl then exclRows g grp else [])

theorem xlateGrp_ok {p : Params} {g : Graph} {q : Bool} {grp : Group} {s s' : St}
    (h : xlateGrp p g q grp s = some (.ok s')) (ha : q = false ∨ hasArcs g grp = true) :
    s'.rows = s.rows ++ grpRows p g q grp s.off := by
  have hn : (q && !hasArcs g grp) = false := by rcases ha with ha | ha <;> simp [ha]
  simp only [xlateGrp, hn, Bool.false_eq_true, if_false] at h
  split at h
  · cases h
  · split at h
    · cases h
    · cases h; simp [grpRows]

theorem xlateGrps_mem {p : Params} {g : Graph} {q : Bool} {rs : List ℕ} {s s' : St}
    (h : xlateGrps p g q rs s = some (.ok s')) (r : ℕ) (hr : r ∈ rs)
    (ha : q = false ∨ hasArcs g (g.group r) = true) :
    ∃ off, ∀ row ∈ grpRows p g q (g.group r) off, row ∈ s'.rows := by
  induction rs generalizing s with
  | nil => simp at hr
  | cons a rs ih =>
    simp only [xlateGrps] at h
    split at h <;> try cases h
    rename_i s1 h1
    rcases List.mem_cons.1 hr with rfl | hr
    · refine ⟨s.off, fun row hrow => xlateGrps_rows h row ?_⟩
      rw [xlateGrp_ok h1 ha]
      exact List.mem_append_right _ hrow
    · exact ih h hr

/-- What holds of the columns of arcs: the lower bound is 0, the upper bound is 0 or the one of the
arc at this position. -/
def ColsOK (p : Params) (g : Graph) (cols : List Col) : Prop :=
  cols.length = g.arcs.length + g.reqs.length ∧
  ∀ (i : ℕ) (a : Arc) (c : Col), g.arcs[i]? = some a → cols[i]? = some c →
    c.lb = 0 ∧ (c.ub = some 0 ∨ c.ub = (arcCol p g (a.u, a)).ub)

theorem arcId_get {g : Graph} (hk : (g.arcs.map fun a => (a.u, a.v)).Nodup) {i : ℕ} {a : Arc}
    (h : g.arcs[i]? = some a) : arcId g a = i := by
  obtain ⟨hi, he⟩ := List.getElem?_eq_some_iff.1 h
  unfold arcId
  rw [List.findIdx_eq hi]
  refine ⟨by simp [he], fun j hj => ?_⟩
  simp only [decide_eq_false_iff_not]
  intro hc
  have hk' := List.pairwise_iff_getElem.1 hk j i (by simp; omega) (by simpa using hi) hj
  simp only [List.getElem_map, he] at hk'
  exact hk' hc

theorem mem_entries {p : Params} {g : Graph} {grp : Group} {e : ℕ × Arc} :
    e ∈ entries p g grp ↔ e.1 ∈ grp.nodes ∧ e.2 ∈ g.arcs ∧ (e.2.u = e.1 ∨ e.2.v = e.1) ∧
      p.present e.1 e.2 = true := by
  obtain ⟨n, a⟩ := e
  simp only [entries, List.mem_flatMap, List.mem_map, List.mem_filter, Bool.and_eq_true,
    Bool.or_eq_true, decide_eq_true_eq, Prod.mk.injEq]
  constructor
  · rintro ⟨m, hm, b, ⟨hb, hb2, hb3⟩, rfl, rfl⟩
    exact ⟨hm, hb, hb2, hb3⟩
  · rintro ⟨h1, h2, h3, h4⟩
    exact ⟨n, h1, a, ⟨h2, h3, h4⟩, rfl, rfl⟩

theorem foldl_cols {p : Params} {g : Graph} (hk : (g.arcs.map fun a => (a.u, a.v)).Nodup)
    (es : List (ℕ × Arc)) (hes : ∀ e ∈ es, e.2 ∈ g.arcs ∧ e.2.u = e.1) (cols : List Col)
    (hc : ColsOK p g cols) :
    ColsOK p g (es.foldl (fun c e => c.set (arcId g e.2) (arcCol p g e)) cols) := by
  induction es generalizing cols with
  | nil => exact hc
  | cons e es ih =>
    refine ih (fun e he => hes e (List.mem_cons_of_mem _ he)) _ ⟨by simp [hc.1], ?_⟩
    intro i a c ha hci
    obtain ⟨he1, he2⟩ := hes e (by simp)
    by_cases hi : arcId g e.2 = i
    · obtain ⟨j, hj⟩ := List.getElem?_of_mem he1
      have hji := arcId_get hk hj
      rw [hi] at hji
      subst hji
      rw [ha] at hj
      cases hj
      rw [List.getElem?_set] at hci
      simp only [hi] at hci
      split at hci
      · split at hci
        · cases hci
          obtain ⟨n, b⟩ := e
          simp only at he2
          subst he2
          exact ⟨rfl, .inr rfl⟩
        · cases hci
      · rename_i hx; exact absurd trivial hx
    · rw [List.getElem?_set_ne hi] at hci
      exact hc.2 i a c ha hci

theorem xlateGrps_cols {p : Params} {g : Graph} (hk : (g.arcs.map fun a => (a.u, a.v)).Nodup)
    {q : Bool} {rs : List ℕ}
    (hrs : q = true → ∀ r ∈ rs, ∀ n ∈ (g.group r).nodes, ∀ a ∈ g.arcs, a.v ≠ n)
    {s s' : St} (h : xlateGrps p g q rs s = some (.ok s')) (hc : ColsOK p g s.cols) :
    ColsOK p g s'.cols := by
  induction rs generalizing s with
  | nil => simp only [xlateGrps] at h; cases h; exact hc
  | cons r rs ih =>
    simp only [xlateGrps] at h
    split at h <;> try cases h
    rename_i s1 h1
    refine ih (fun hq r hr => hrs hq r (List.mem_cons_of_mem _ hr)) h ?_
    simp only [xlateGrp] at h1
    split at h1
    · cases h1; exact hc
    · split at h1
      · cases h1
      · split at h1
        · cases h1
        · cases h1
          simp only
          cases q with
          | false => exact hc
          | true =>
            refine foldl_cols hk _ (fun e he => ?_) _ hc
            obtain ⟨h1, h2, h3, -⟩ := mem_entries.1 he
            exact ⟨h2, h3.resolve_right (hrs rfl r (by simp) _ h1 _ h2)⟩

theorem toProg_cols {p : Params} {g : Graph} {P : Program} (hw : WF g)
    (hk : (g.arcs.map fun a => (a.u, a.v)).Nodup) (h : toProg p g = some (.ok P)) :
    g.arcs.length ≤ P.n ∧ ColsOK p g P.cols ∧
      (∀ sg ∈ g.sups, ∀ row ∈ grpRows p g false (g.group sg) 0, row ∈ P.rows) ∧
      (∀ r ∈ g.reqs, hasArcs g (g.group r) = true →
        ∃ off, ∀ row ∈ grpRows p g true (g.group r) off, row ∈ P.rows) ∧
      P.ints = (if p.excl then (g.arcs.filter fun a => a.exclusive).map (arcId g) else []) := by
  simp only [toProg] at h
  split at h <;> try cases h
  rename_i s1 h1
  split at h <;> try cases h
  rename_i s2 h2
  have hreq : true = true → ∀ r ∈ g.reqs, ∀ n ∈ (g.group r).nodes, ∀ a ∈ g.arcs, a.v ≠ n := by
    rintro - r hr n hn a ha rfl
    obtain ⟨sg, hsg, h3, -⟩ := hw.sup a ha
    rw [hw.member r hr _ hn] at h3
    cases h3
    exact hw.disj r hr hsg
  have hc2 : ColsOK p g s2.cols := by
    refine xlateGrps_cols hk hreq h2 (xlateGrps_cols hk (by simp) h1 ⟨by simp, ?_⟩)
    intro i a c _ hci
    simp only [List.getElem?_replicate] at hci
    split at hci
    · cases hci; exact ⟨rfl, .inl rfl⟩
    · cases hci
  refine ⟨by simp, ⟨by simp [hc2.1], ?_⟩, ?_, ?_, rfl⟩
  · intro i a c ha hci
    simp only [List.getElem?_map, List.getElem?_zipIdx, Option.map_eq_some_iff] at hci
    obtain ⟨⟨c', j⟩, ⟨c'', hc'', hcc⟩, rfl⟩ := hci
    simp only [Prod.mk.injEq, Nat.zero_add] at hcc
    obtain ⟨rfl, rfl⟩ := hcc
    have hlt : i < g.arcs.length := (List.getElem?_eq_some_iff.1 ha).1
    rw [if_neg (by simp only; omega)]
    exact hc2.2 i a _ ha hc''
  · intro sg hsg row hrow
    obtain ⟨off, hoff⟩ := xlateGrps_mem h1 sg hsg (.inl rfl)
    refine xlateGrps_rows h2 row (hoff row ?_)
    simpa [grpRows] using hrow
  · intro r hr ha
    exact xlateGrps_mem h2 r hr (.inr ha)

/-! ## The matches of a feasible point -/

theorem col_bounds {p : Params} {g : Graph} {P : Program} (hw : WF g)
    (hk : (g.arcs.map fun a => (a.u, a.v)).Nodup) (h : toProg p g = some (.ok P))
    {x : ℕ → ℚ} (hx : Feasible P x) {i : ℕ} {a : Arc} (ha : g.arcs[i]? = some a) :
    0 ≤ x i ∧ (x i = 0 ∨ Below (x i) (arcCol p g (a.u, a)).ub) := by
  obtain ⟨hn, hc, -⟩ := toProg_cols hw hk h
  have hlt : i < g.arcs.length := (List.getElem?_eq_some_iff.1 ha).1
  have hlt' : i < P.cols.length := by rw [hc.1]; omega
  have hget := List.getElem?_eq_getElem hlt'
  obtain ⟨h1, h2⟩ := hx.col i _ (by omega) hget
  obtain ⟨h3, h4⟩ := hc.2 i a _ ha hget
  rw [h3] at h1
  refine ⟨h1, ?_⟩
  rcases h4 with h4 | h4
  · rw [h4] at h2
    exact .inl (le_antisymm h2 h1)
  · rw [h4] at h2
    exact .inr h2

theorem mem_fromProg {e : Bool} {eps : ℚ} {g : Graph} {x : ℕ → ℚ} {m : Arc × ℚ} :
    m ∈ fromProg e eps g x ↔ ∃ i : ℕ, g.arcs[i]? = some m.1 ∧
      m.2 = (if e && m.1.exclusive then x i * m.1.exclVal else x i) ∧ eps < m.2 := by
  obtain ⟨a, q⟩ := m
  simp only [fromProg, List.mem_filterMap]
  constructor
  · rintro ⟨⟨b, i⟩, hb, h⟩
    rw [List.mem_zipIdx_iff_getElem?] at hb
    simp only [Option.ite_none_right_eq_some, Option.some.injEq, Prod.mk.injEq] at h
    obtain ⟨h1, rfl, rfl⟩ := h
    exact ⟨i, hb, rfl, h1⟩
  · rintro ⟨i, h1, rfl, h3⟩
    refine ⟨(a, i), List.mem_zipIdx_iff_getElem?.2 h1, ?_⟩
    simp only at h3 ⊢
    rw [if_pos h3]

/-- Each match is on an arc of the graph, above the threshold, and within the bound of the arc: an
exclusive arc carries nothing or exactly its quantity (if the program was built with exclusive
orders), any other arc no more than the quantity of the request node. -/
theorem C50_arcs {p : Params} {g : Graph} {P : Program} (hw : WF g) (hc : Complete p g)
    (h : toProg p g = some (.ok P)) {x : ℕ → ℚ} (hx : Feasible P x) {eps : ℚ} (heps : 0 ≤ eps) :
    (∀ m ∈ fromProg p.excl eps g x, m.1 ∈ g.arcs ∧ eps < m.2 ∧
      (p.excl = true → m.1.exclusive = true → m.2 = m.1.exclVal) ∧
      ((p.excl = false ∨ m.1.exclusive = false) → (g.node m.1.u).qty < p.inf →
        m.2 ≤ (g.node m.1.u).qty)) ∧
    ((fromProg p.excl eps g x).map fun m => (m.1.u, m.1.v)).Nodup := by
  constructor
  · intro m hm
    obtain ⟨i, h1, h2, h3⟩ := mem_fromProg.1 hm
    obtain ⟨hx0, hx1⟩ := col_bounds hw hc.keys h hx h1
    refine ⟨List.mem_of_getElem? h1, h3, fun he1 he2 => ?_, fun he hq => ?_⟩
    · simp only [he1, he2, Bool.and_self, if_true] at h2
      have hne : x i ≠ 0 := by
        intro h0
        rw [h0] at h2
        linarith
      have hub : x i ≤ 1 := by
        rcases hx1 with hx1 | hx1
        · rw [hx1]; norm_num
        · simpa [arcCol, he1, he2, Below] using hx1
      obtain ⟨z, hz⟩ := hx.int i (by
        rw [(toProg_cols hw hc.keys h).2.2.2.2, if_pos he1]
        exact List.mem_map.2 ⟨m.1, List.mem_filter.2 ⟨List.mem_of_getElem? h1, he2⟩,
          arcId_get hc.keys h1⟩)
      have hz1 : z = 1 := by
        rw [hz] at hx0 hub hne
        have h0 : (0 : ℤ) ≤ z := by exact_mod_cast hx0
        have h1' : z ≤ 1 := by exact_mod_cast hub
        have h2' : z ≠ 0 := by exact_mod_cast hne
        omega
      rw [h2, hz, hz1]
      simp
    · have hf : (p.excl && m.1.exclusive) = false := by rcases he with he | he <;> simp [he]
      simp only [hf, Bool.false_eq_true, if_false] at h2
      rcases hx1 with hx1 | hx1
      · rw [hx1] at h2; linarith
      · simp only [arcCol, hf, Bool.false_eq_true, if_false, bound, if_pos hq, Below] at hx1
        rw [h2]; exact hx1
  · have hk := hc.keys
    unfold fromProg
    generalize g.arcs = l at hk
    have : ∀ (k : ℕ), (((l.zipIdx k).filterMap fun a =>
        let flow := if p.excl && a.1.exclusive then x a.2 * a.1.exclVal else x a.2
        if eps < flow then some (a.1, flow) else none).map fun m => (m.1.u, m.1.v)).Sublist
        (l.map fun a => (a.u, a.v)) := by
      clear hk
      induction l with
      | nil => intro k; simp
      | cons a l ih =>
        intro k
        simp only [List.zipIdx_cons, List.filterMap_cons, List.map_cons]
        split
        · exact (ih _).cons _
        · rename_i b hb
          simp only [Option.ite_none_right_eq_some] at hb
          obtain ⟨-, hb⟩ := hb
          cases hb
          exact (ih _).cons_cons _
    exact (this 0).nodup hk

/-! ### Capacities of supply groups -/

theorem sum_flatMap {α β : Type} (l : List α) (f : α → List β) (w : β → ℚ) :
    ((l.flatMap f).map w).sum = (l.map fun a => ((f a).map w).sum).sum := by
  induction l with
  | nil => simp
  | cons a l ih => simp [List.flatMap_cons, ih]

theorem sum_add' {α : Type} (l : List α) (f k : α → ℚ) :
    (l.map fun a => f a + k a).sum = (l.map f).sum + (l.map k).sum := by
  induction l with
  | nil => simp
  | cons a l ih => simp only [List.map_cons, List.sum_cons, ih]; ring

theorem sum_swap {α β : Type} (l : List α) (k : List β) (w : α → β → ℚ) :
    (l.map fun a => (k.map fun b => w a b).sum).sum =
      (k.map fun b => (l.map fun a => w a b).sum).sum := by
  induction l with
  | nil => simp
  | cons a l ih => simp only [List.map_cons, List.sum_cons, ih, sum_add']

theorem sum_single {ns : List ℕ} (hn : ns.Nodup) (v : ℕ) (q : ℚ) :
    (ns.map fun n => if n = v then q else 0).sum = if v ∈ ns then q else 0 := by
  induction ns with
  | nil => simp
  | cons n ns ih =>
    simp only [List.nodup_cons] at hn
    simp only [List.map_cons, List.sum_cons, ih hn.2, List.mem_cons]
    by_cases h : n = v
    · subst h; simp [hn.1]
    · have : v ≠ n := fun e => h e.symm
      simp [h, this]

theorem sum_filter_ite {α : Type} (l : List α) (b : α → Bool) (w : α → ℚ) :
    ((l.filter b).map w).sum = (l.map fun a => if b a then w a else 0).sum := by
  induction l with
  | nil => simp
  | cons a l ih => by_cases h : b a <;> simp [h, ih]

theorem sum_filterMap {α β : Type} (l : List α) (f : α → Option β) (w : β → ℚ) :
    ((l.filterMap f).map w).sum = (l.map fun a => match f a with | none => 0 | some b => w b).sum := by
  induction l with
  | nil => simp
  | cons a l ih => cases h : f a <;> simp [h, ih]

/-- The contribution of an arc to constraint `j` of its supply group. -/
theorem row_supply {p : Params} {g : Graph} (hc : Complete p g) {sg : ℕ} (hsg : sg ∈ g.sups)
    (x : ℕ → ℚ) (j : ℕ) :
    rowVal x ⟨capCoeffs p g (entries p g (g.group sg)) j, 0, none⟩ =
      (g.arcs.map fun a => if (g.node a.v).group = some sg then
        ((g.node a.v).unitCaps (a.u, a.v)).getD j 0 *
          (if p.excl && a.exclusive then x (arcId g a) * a.exclVal else x (arcId g a))
        else 0).sum := by
  set W : ℕ × Arc → ℚ := fun e => ((g.node e.1).unitCaps (e.2.u, e.2.v)).getD j 0 *
    (if p.excl && e.2.exclusive then x (arcId g e.2) * e.2.exclVal else x (arcId g e.2)) with hW
  have h1 : rowVal x ⟨capCoeffs p g (entries p g (g.group sg)) j, 0, none⟩ =
      ((entries p g (g.group sg)).map W).sum := by
    simp only [rowVal, capCoeffs, sum_filterMap]
    congr 1
    apply List.map_congr_left
    intro e _
    simp only [hW, Arc.key, List.getD]
    cases ((g.node e.1).unitCaps (e.2.u, e.2.v))[j]? with
    | none => simp
    | some c => simp only [Option.map_some, Option.getD_some]; split <;> ring
  rw [h1]
  simp only [entries, sum_flatMap, List.map_map]
  have h2 : ∀ n ∈ (g.group sg).nodes,
      ((List.filter (fun a => (decide (a.u = n) || decide (a.v = n)) && p.present n a) g.arcs).map
        (W ∘ fun a => (n, a))).sum = (g.arcs.map fun a => if n = a.v then W (a.v, a) else 0).sum := by
    intro n hn
    rw [sum_filter_ite]
    congr 1
    apply List.map_congr_left
    intro a ha
    have hu : a.u ≠ n := fun e => hc.bids sg hsg a ha (e ▸ hn)
    by_cases hv : n = a.v
    · subst hv
      simp only [hu, decide_false, decide_true, Bool.or_true, Bool.true_and, Function.comp, if_true]
      by_cases hp : p.present a.v a = true
      · simp [hp]
      · have : (g.node a.v).unitCaps (a.u, a.v) = [] := by
          by_contra hne
          exact hp (hc.present a ha hne)
        simp [hp, hW, this]
    · have hv' : a.v ≠ n := fun e => hv e.symm
      simp [hu, hv', hv]
  rw [List.map_congr_left h2, sum_swap]
  congr 1
  apply List.map_congr_left
  intro a ha
  rw [sum_single (hc.nodup sg hsg)]
  simp only [hc.listed sg hsg a ha, hW]

/-- The load of the matches on a capacity of a supply group is within the capacity. -/
theorem C50_supply {p : Params} {g : Graph} {P : Program} (hw : WF g) (hc : Complete p g)
    (hu : ∀ a ∈ g.arcs, ∀ grp i u, UnitCap g a grp i u → 0 ≤ u)
    (hv : ∀ a ∈ g.arcs, 0 ≤ a.exclVal)
    (h : toProg p g = some (.ok P)) {x : ℕ → ℚ} (hx : Feasible P x) {eps : ℚ} (_heps : 0 ≤ eps)
    {sg : ℕ} (hsg : sg ∈ g.sups) {j : ℕ} {c : ℚ} (hj : (g.group sg).caps[j]? = some c)
    (hinf : c < p.inf) :
    load g (fromProg p.excl eps g x) sg j ≤ c := by
  have hrow := hx.row ⟨capCoeffs p g (entries p g (g.group sg)) j, 0, bound p.inf c⟩
    ((toProg_cols hw hc.keys h).2.2.1 sg hsg _ (by
      unfold grpRows
      refine List.mem_append_left _ (List.mem_map.2 ⟨(c, j), ?_, by simp⟩)
      exact List.mem_zipIdx_iff_getElem?.2 hj))
  simp only [bound, if_pos hinf, Below] at hrow
  refine le_trans ?_ hrow.2
  have := row_supply hc hsg x j
  simp only [rowVal] at this ⊢
  rw [this]
  simp only [load, fromProg, sum_filterMap]
  have hz : g.arcs = g.arcs.zipIdx.map Prod.fst := by simp
  conv_rhs => rw [hz, List.map_map]
  apply List.sum_le_sum
  rintro ⟨a, i⟩ hai
  have hai' := List.mem_zipIdx_iff_getElem?.1 hai
  simp only at hai'
  have ha : a ∈ g.arcs := List.mem_of_getElem? hai'
  have hid := arcId_get hc.keys hai'
  obtain ⟨hx0, -⟩ := col_bounds hw hc.keys h hx hai'
  have hfl : 0 ≤ (if p.excl && a.exclusive then x i * a.exclVal else x i) := by
    split
    · exact mul_nonneg hx0 (hv a ha)
    · exact hx0
  have hug : (g.node a.u).group ≠ some sg := by
    obtain ⟨r, hr, hr2, -⟩ := hw.req a ha
    rw [hr2]
    intro e
    injection e with e
    exact hw.disj r hr (e ▸ hsg)
  have hun : (g.node a.v).group = some sg →
      0 ≤ ((g.node a.v).unitCaps (a.u, a.v)).getD j 0 := by
    intro hg
    simp only [List.getD]
    cases hq : ((g.node a.v).unitCaps (a.u, a.v))[j]? with
    | none => simp
    | some q => simpa using hu a ha sg j q ⟨a.v, .inr rfl, hg, hq⟩
  simp only [Function.comp, hid]
  by_cases hth : eps < (if p.excl && a.exclusive then x i * a.exclVal else x i)
  · simp only [if_pos hth, hug, if_false, zero_add]
    split
    · rw [mul_comm]
    · exact le_refl _
  · simp only [if_neg hth]
    split
    · rename_i hg
      exact mul_nonneg (hun hg) hfl
    · exact le_refl _

/-! ### Exclusive node groups -/

theorem two_le_sum {l : List (ℕ × ℚ)} {x : ℕ → ℚ} (h0 : ∀ c ∈ l, 0 ≤ c.2 * x c.1) {i j : ℕ}
    (hij : i ≠ j) (hi : (i, 1) ∈ l) (hj : (j, 1) ∈ l) :
    x i + x j ≤ (l.map fun c => c.2 * x c.1).sum := by
  have hone : ∀ (l : List (ℕ × ℚ)), (∀ c ∈ l, 0 ≤ c.2 * x c.1) → ∀ i, (i, 1) ∈ l →
      x i ≤ (l.map fun c => c.2 * x c.1).sum := by
    intro l
    induction l with
    | nil => simp
    | cons a l ih =>
      intro h0 i hi
      simp only [List.map_cons, List.sum_cons]
      rcases List.mem_cons.1 hi with rfl | hi
      · have : 0 ≤ (l.map fun c => c.2 * x c.1).sum :=
          List.sum_nonneg (by
            intro q hq
            obtain ⟨c, hc, rfl⟩ := List.mem_map.1 hq
            exact h0 c (List.mem_cons_of_mem _ hc))
        simp only [one_mul]
        linarith
      · have := ih (fun c hc => h0 c (List.mem_cons_of_mem _ hc)) i hi
        have := h0 a (by simp)
        linarith
  induction l with
  | nil => simp at hi
  | cons a l ih =>
    simp only [List.map_cons, List.sum_cons]
    have h0' : ∀ c ∈ l, 0 ≤ c.2 * x c.1 := fun c hc => h0 c (List.mem_cons_of_mem _ hc)
    rcases List.mem_cons.1 hi with rfl | hi
    · rcases List.mem_cons.1 hj with hj | hj
      · cases hj; exact absurd rfl hij
      · have := hone l h0' j hj
        simp only [one_mul]; linarith
    · rcases List.mem_cons.1 hj with hj | hj
      · have := hone l h0' i hi
        rw [← hj]
        simp only [one_mul]; linarith
      · have := ih h0' hi hj
        have := h0 a (by simp)
        linarith

/-- With exclusive orders, at most one arc of an exclusive node group is matched. -/
theorem C50_exclusive {p : Params} {g : Graph} {P : Program} (hw : WF g) (hc : Complete p g)
    (hex : p.excl = true) (h : toProg p g = some (.ok P)) {x : ℕ → ℚ} (hx : Feasible P x)
    {eps : ℚ} (heps : 0 ≤ eps) {grp : ℕ}
    (hgrp : grp ∈ g.sups ∨ (grp ∈ g.reqs ∧ ∃ n ∈ (g.group grp).nodes, (g.node n).prefs ≠ []))
    {ns : List ℕ} (hns : ns ∈ (g.group grp).exclGroups)
    (hall : ∀ a ∈ g.arcs, (a.u ∈ ns ∨ a.v ∈ ns) → a.exclusive = true)
    {m m' : Arc × ℚ} (hm : m ∈ fromProg p.excl eps g x) (hm' : m' ∈ fromProg p.excl eps g x)
    (hn : m.1.u ∈ ns ∨ m.1.v ∈ ns) (hn' : m'.1.u ∈ ns ∨ m'.1.v ∈ ns) : m = m' := by
  obtain ⟨i, hi1, hi2, hi3⟩ := mem_fromProg.1 hm
  obtain ⟨j, hj1, hj2, hj3⟩ := mem_fromProg.1 hm'
  by_cases hij : i = j
  · subst hij
    rw [hi1] at hj1
    have he : m.1 = m'.1 := by injection hj1
    refine Prod.ext he ?_
    rw [hi2, hj2, he]
  exfalso
  have hma := List.mem_of_getElem? hi1
  have hma' := List.mem_of_getElem? hj1
  have hone : ∀ (k : ℕ) (a : Arc) (q : ℚ), g.arcs[k]? = some a → a.exclusive = true →
      q = (if p.excl && a.exclusive then x k * a.exclVal else x k) → eps < q → x k = 1 := by
    intro k a q hk hae hq hlt
    obtain ⟨hx0, hx1⟩ := col_bounds hw hc.keys h hx hk
    simp only [hex, hae, Bool.and_self, if_true] at hq
    have hne : x k ≠ 0 := by
      intro h0
      rw [h0] at hq
      linarith
    have hub : x k ≤ 1 := by
      rcases hx1 with hx1 | hx1
      · rw [hx1]; norm_num
      · simpa [arcCol, hex, hae, Below] using hx1
    obtain ⟨z, hz⟩ := hx.int k (by
      rw [(toProg_cols hw hc.keys h).2.2.2.2, if_pos hex]
      exact List.mem_map.2 ⟨a, List.mem_filter.2 ⟨List.mem_of_getElem? hk, hae⟩,
        arcId_get hc.keys hk⟩)
    rw [hz] at hx0 hub hne ⊢
    have h0 : (0 : ℤ) ≤ z := by exact_mod_cast hx0
    have h1' : z ≤ 1 := by exact_mod_cast hub
    have h2' : z ≠ 0 := by exact_mod_cast hne
    have : z = 1 := by omega
    simp [this]
  have hxi := hone i m.1 m.2 hi1 (hall _ hma hn) hi2 hi3
  have hxj := hone j m'.1 m'.2 hj1 (hall _ hma' hn') hj2 hj3
  set r : List (ℕ × ℚ) := ns.flatMap fun n => (g.nodeArcs n).map fun a => (arcId g a, (1 : ℚ))
    with hr
  have hmem : ∀ (k : ℕ) (a : Arc), g.arcs[k]? = some a → (a.u ∈ ns ∨ a.v ∈ ns) → (k, (1 : ℚ)) ∈ r := by
    intro k a hk ha
    have hid := arcId_get hc.keys hk
    have hga := List.mem_of_getElem? hk
    simp only [hr, List.mem_flatMap, List.mem_map, Prod.mk.injEq, and_true]
    rcases ha with ha | ha
    · exact ⟨a.u, ha, a, by simp only [Graph.nodeArcs, List.mem_flatMap]; exact ⟨a, hga, by simp⟩,
        hid⟩
    · exact ⟨a.v, ha, a, by simp only [Graph.nodeArcs, List.mem_flatMap]; exact ⟨a, hga, by simp⟩,
        hid⟩
  have hri := hmem i m.1 hi1 hn
  have hrj := hmem j m'.1 hj1 hn'
  have hrow : (⟨r, 0, some 1⟩ : Row) ∈ P.rows := by
    have hin : (⟨r, 0, some 1⟩ : Row) ∈ exclRows g (g.group grp) := by
      refine List.mem_filterMap.2 ⟨ns, hns, ?_⟩
      have : r.isEmpty = false := by
        cases hrr : r with
        | nil => rw [hrr] at hri; simp at hri
        | cons => rfl
      simp only [← hr, this, Bool.false_eq_true, if_false]
    obtain ⟨-, -, hs, hq, -⟩ := toProg_cols hw hc.keys h
    rcases hgrp with hg | ⟨hg, n, hn1, hn2⟩
    · exact hs grp hg _ (List.mem_append_right _ (by rw [if_pos hex]; exact hin))
    · have ha : hasArcs g (g.group grp) = true := by
        simp only [hasArcs, List.any_eq_true]
        exact ⟨n, hn1, by simpa using hn2⟩
      obtain ⟨off, hoff⟩ := hq grp hg ha
      exact hoff _ (List.mem_append_right _ (by rw [if_pos hex]; exact hin))
  have hle := (hx.row _ hrow).2
  simp only [Below, rowVal] at hle
  have h0 : ∀ c ∈ r, 0 ≤ c.2 * x c.1 := by
    intro c hcr
    simp only [hr, List.mem_flatMap, List.mem_map] at hcr
    obtain ⟨n, -, a, ha, rfl⟩ := hcr
    simp only [Graph.nodeArcs, List.mem_flatMap, List.mem_append] at ha
    obtain ⟨b, hb, hba⟩ := ha
    have hab : a = b := by
      rcases hba with hba | hba <;> split at hba <;> simp_all
    subst hab
    obtain ⟨k, hk⟩ := List.getElem?_of_mem hb
    simp only [one_mul, arcId_get hc.keys hk]
    exact (col_bounds hw hc.keys h hx hk).1
  have := two_le_sum h0 hij hri hrj
  rw [hxi, hxj] at this
  linarith

/-! ## Every admissible assignment is feasible -/

namespace Spec

/-- The flow `f` is an admissible use of the arcs: non-negative, within the request nodes, all or
nothing on exclusive arcs, within the capacities of the supply groups, and on at most one arc of
every exclusive node group. -/
structure Admissible (excl : Bool) (g : Graph) (f : Arc → ℚ) : Prop where
  nonneg : ∀ a ∈ g.arcs, 0 ≤ f a
  node : ∀ a ∈ g.arcs, f a ≤ (g.node a.u).qty
  all : excl = true → ∀ a ∈ g.arcs, a.exclusive = true → f a = 0 ∨ f a = a.exclVal
  cap : ∀ sg ∈ g.sups, ∀ (j : ℕ) (c : ℚ), (g.group sg).caps[j]? = some c →
    load g (g.arcs.map fun a => (a, f a)) sg j ≤ c
  one : excl = true → ∀ r, r ∈ g.sups ∨ r ∈ g.reqs → ∀ ns ∈ (g.group r).exclGroups,
    ∀ a ∈ g.arcs, ∀ b ∈ g.arcs, (a.u ∈ ns ∨ a.v ∈ ns) → (b.u ∈ ns ∨ b.v ∈ ns) →
      f a ≠ 0 → f b ≠ 0 → a = b

/-- The arcs of request nodes are known to their groups: the node is listed, has preferences and
an entry of unit capacities. -/
structure Requested (p : Params) (g : Graph) : Prop where
  listed : ∀ a ∈ g.arcs, ∀ r ∈ g.reqs, (g.node a.u).group = some r → a.u ∈ (g.group r).nodes
  prefs : ∀ a ∈ g.arcs, (g.node a.u).prefs ≠ []
  present : ∀ a ∈ g.arcs, p.present a.u a = true

/-- The exclusive node groups list every node once, only nodes whose arcs are exclusive, and not
both ends of an arc. -/
structure ExclGroups (g : Graph) : Prop where
  nodup : ∀ r, r ∈ g.sups ∨ r ∈ g.reqs → ∀ ns ∈ (g.group r).exclGroups, ns.Nodup
  excl : ∀ r, r ∈ g.sups ∨ r ∈ g.reqs → ∀ ns ∈ (g.group r).exclGroups, ∀ a ∈ g.arcs,
    (a.u ∈ ns ∨ a.v ∈ ns) → a.exclusive = true
  side : ∀ r, r ∈ g.sups ∨ r ∈ g.reqs → ∀ ns ∈ (g.group r).exclGroups, ∀ a ∈ g.arcs,
    ¬ (a.u ∈ ns ∧ a.v ∈ ns)

end Spec

theorem xlateGrp_skip {p : Params} {g : Graph} {grp : Group} {s s' : St}
    (h : xlateGrp p g true grp s = some (.ok s')) (ha : hasArcs g grp = false) : s' = s := by
  simp only [xlateGrp, ha, Bool.not_false, Bool.and_self, if_true] at h
  cases h; rfl

theorem xlateGrp_off {p : Params} {g : Graph} {q : Bool} {grp : Group} {s s' : St}
    (h : xlateGrp p g q grp s = some (.ok s')) :
    s'.off = s.off + (if q && hasArcs g grp then 1 else 0) := by
  cases q with
  | false =>
    simp only [xlateGrp, Bool.false_and, Bool.false_eq_true, if_false] at h
    split at h
    · cases h
    · cases h; simp
  | true =>
    cases ha : hasArcs g grp with
    | false => rw [xlateGrp_skip h ha]; simp
    | true =>
      simp only [xlateGrp, ha, Bool.not_true, Bool.and_false, Bool.false_eq_true, if_false] at h
      split at h
      · cases h
      · split at h
        · cases h
        · cases h; simp

theorem xlateGrps_off {p : Params} {g : Graph} {q : Bool} {rs : List ℕ} {s s' : St}
    (h : xlateGrps p g q rs s = some (.ok s')) :
    s'.off = s.off + (rs.filter fun r => q && hasArcs g (g.group r)).length := by
  induction rs generalizing s with
  | nil => simp only [xlateGrps] at h; cases h; simp
  | cons r rs ih =>
    simp only [xlateGrps] at h
    split at h <;> try cases h
    rename_i s1 h1
    rw [ih h, xlateGrp_off h1, List.filter_cons]
    split <;> simp <;> omega

/-- Where the rows come from. -/
theorem xlateGrps_rows_only {p : Params} {g : Graph} {q : Bool} {rs : List ℕ} {s s' : St}
    (h : xlateGrps p g q rs s = some (.ok s')) (row : Row) (hr : row ∈ s'.rows) :
    row ∈ s.rows ∨ ∃ r ∈ rs, (q = false ∨ hasArcs g (g.group r) = true) ∧
      ∃ off, s.off ≤ off ∧ (q = true → off < s'.off) ∧ row ∈ grpRows p g q (g.group r) off := by
  induction rs generalizing s with
  | nil => simp only [xlateGrps] at h; cases h; exact .inl hr
  | cons r rs ih =>
    have hh := h
    simp only [xlateGrps] at h
    split at h <;> try cases h
    rename_i s1 h1
    have ho1 := xlateGrp_off h1
    have ho := xlateGrps_off h
    rcases ih h with h2 | ⟨r', h2, h3, off, h4, h5, h6⟩
    · by_cases ha : q = false ∨ hasArcs g (g.group r) = true
      · rw [xlateGrp_ok h1 ha, List.mem_append] at h2
        rcases h2 with h2 | h2
        · exact .inl h2
        · refine .inr ⟨r, by simp, ha, s.off, le_refl _, fun hq => ?_, h2⟩
          have : hasArcs g (g.group r) = true := ha.resolve_left (by simp [hq])
          simp only [hq, this, Bool.and_self, if_true] at ho1
          omega
      · have hq : q = true := by
          cases q with
          | false => exact absurd (.inl rfl) ha
          | true => rfl
        subst hq
        have hn : hasArcs g (g.group r) = false := by
          cases hx : hasArcs g (g.group r) with
          | false => rfl
          | true => exact absurd (.inr hx) ha
        rw [xlateGrp_skip h1 hn] at h2
        exact .inl h2
    · exact .inr ⟨r', List.mem_cons_of_mem _ h2, h3, off, by omega, h5, h6⟩

theorem foldl_exact {p : Params} {g : Graph} (hk : (g.arcs.map fun a => (a.u, a.v)).Nodup)
    (es : List (ℕ × Arc)) (hes : ∀ e ∈ es, e.2 ∈ g.arcs ∧ e.2.u = e.1) (cols : List Col)
    {i : ℕ} {a : Arc} (ha : g.arcs[i]? = some a) (hi : i < cols.length)
    (hc : (a.u, a) ∈ es ∨ cols[i]? = some (arcCol p g (a.u, a))) :
    (es.foldl (fun c e => c.set (arcId g e.2) (arcCol p g e)) cols)[i]? =
      some (arcCol p g (a.u, a)) := by
  induction es generalizing cols with
  | nil => simpa using hc
  | cons e es ih =>
    refine ih (fun e he => hes e (List.mem_cons_of_mem _ he)) _ (by simpa using hi) ?_
    by_cases hin : (a.u, a) ∈ es
    · exact .inl hin
    · right
      obtain ⟨he1, he2⟩ := hes e (by simp)
      by_cases hid : arcId g e.2 = i
      · obtain ⟨j, hj⟩ := List.getElem?_of_mem he1
        have hji := arcId_get hk hj
        rw [hid] at hji
        subst hji
        rw [ha] at hj
        cases hj
        simp only [hid, List.getElem?_set_self hi]
        obtain ⟨n, b⟩ := e
        simp only at he2
        subst he2
        rfl
      · rw [List.getElem?_set_ne hid]
        rcases hc with hc | hc
        · rcases List.mem_cons.1 hc with hc | hc
          · rw [← hc] at hid
            exact absurd (arcId_get hk ha) hid
          · exact absurd hc hin
        · exact hc

theorem xlateGrps_exact {p : Params} {g : Graph} (hk : (g.arcs.map fun a => (a.u, a.v)).Nodup)
    {rs : List ℕ}
    (hrs : ∀ r ∈ rs, ∀ n ∈ (g.group r).nodes, ∀ a ∈ g.arcs, a.v ≠ n)
    {s s' : St} (h : xlateGrps p g true rs s = some (.ok s'))
    {i : ℕ} {a : Arc} (ha : g.arcs[i]? = some a) (hi : i < s.cols.length)
    (hc : (∃ r ∈ rs, hasArcs g (g.group r) = true ∧ (a.u, a) ∈ entries p g (g.group r)) ∨
      s.cols[i]? = some (arcCol p g (a.u, a))) :
    s'.cols[i]? = some (arcCol p g (a.u, a)) := by
  induction rs generalizing s with
  | nil => simp only [xlateGrps] at h; cases h; simpa using hc
  | cons r rs ih =>
    simp only [xlateGrps] at h
    split at h <;> try cases h
    rename_i s1 h1
    cases hn : hasArcs g (g.group r) with
    | false =>
      rw [xlateGrp_skip h1 hn] at h
      refine ih (fun r hr => hrs r (List.mem_cons_of_mem _ hr)) h hi ?_
      rcases hc with ⟨r', hr', h2, h3⟩ | hc
      · rcases List.mem_cons.1 hr' with rfl | hr'
        · rw [hn] at h2; cases h2
        · exact .inl ⟨r', hr', h2, h3⟩
      · exact .inr hc
    | true =>
      have hcols : s1.cols = (entries p g (g.group r)).foldl
          (fun c e => c.set (arcId g e.2) (arcCol p g e)) s.cols := by
        simp only [xlateGrp, hn, Bool.not_true, Bool.and_false, Bool.false_eq_true, if_false] at h1
        split at h1
        · cases h1
        · split at h1
          · cases h1
          · cases h1; simp
      have hes : ∀ e ∈ entries p g (g.group r), e.2 ∈ g.arcs ∧ e.2.u = e.1 := by
        intro e he
        obtain ⟨h1, h2, h3, -⟩ := mem_entries.1 he
        exact ⟨h2, h3.resolve_right (hrs r (by simp) _ h1 _ h2)⟩
      have hlen : ∀ (es : List (ℕ × Arc)) (c : List Col),
          (es.foldl (fun c e => c.set (arcId g e.2) (arcCol p g e)) c).length = c.length := by
        intro es
        induction es with
        | nil => intro c; rfl
        | cons e es ih => intro c; simp [ih]
      refine ih (fun r hr => hrs r (List.mem_cons_of_mem _ hr)) h
        (by rw [hcols, hlen]; exact hi) ?_
      by_cases hlater : ∃ r ∈ rs, hasArcs g (g.group r) = true ∧
          (a.u, a) ∈ entries p g (g.group r)
      · exact .inl hlater
      · right
        rw [hcols]
        refine foldl_exact hk _ hes _ ha hi ?_
        rcases hc with ⟨r', hr', h2, h3⟩ | hc
        · rcases List.mem_cons.1 hr' with rfl | hr'
          · exact .inl h3
          · exact absurd ⟨r', hr', h2, h3⟩ hlater
        · exact .inr hc

/-- The exact program. -/
theorem toProg_exact {p : Params} {g : Graph} {P : Program} (hw : WF g) (hc : Complete p g)
    (hq : Requested p g) (h : toProg p g = some (.ok P)) :
    P.n = g.arcs.length + (g.reqs.filter fun r => hasArcs g (g.group r)).length ∧
    (∀ (i : ℕ) (a : Arc), g.arcs[i]? = some a → P.cols[i]? = some (arcCol p g (a.u, a))) ∧
    (∀ i : ℕ, g.arcs.length ≤ i → i < P.n → P.cols[i]? = some ⟨p.pseudo, 0, none⟩) ∧
    (∀ row ∈ P.rows, (∃ sg ∈ g.sups, row ∈ grpRows p g false (g.group sg) 0) ∨
      ∃ r ∈ g.reqs, hasArcs g (g.group r) = true ∧ ∃ off, g.arcs.length ≤ off ∧ off < P.n ∧
        row ∈ grpRows p g true (g.group r) off) := by
  have hcols := (toProg_cols hw hc.keys h).2.1
  simp only [toProg] at h
  split at h <;> try cases h
  rename_i s1 h1
  split at h <;> try cases h
  rename_i s2 h2
  have hreq : ∀ r ∈ g.reqs, ∀ n ∈ (g.group r).nodes, ∀ a ∈ g.arcs, a.v ≠ n := by
    rintro r hr n hn a ha rfl
    obtain ⟨sg, hsg, h3, -⟩ := hw.sup a ha
    rw [hw.member r hr _ hn] at h3
    cases h3
    exact hw.disj r hr hsg
  have ho1 := xlateGrps_off h1
  have ho2 := xlateGrps_off h2
  simp only [Bool.false_and, Bool.true_and, List.filter_false, List.length_nil] at ho1 ho2
  have hlen : s2.cols.length = g.arcs.length + g.reqs.length := by
    have := hcols.1
    simpa using this
  have hini : ColsOK p g (List.replicate (g.arcs.length + g.reqs.length) ⟨0, 0, some 0⟩) := by
    refine ⟨by simp, ?_⟩
    intro i a c _ hci
    simp only [List.getElem?_replicate] at hci
    split at hci
    · cases hci; exact ⟨rfl, .inl rfl⟩
    · cases hci
  have hc1 : ColsOK p g s1.cols := xlateGrps_cols hc.keys (by simp) h1 hini
  refine ⟨rfl, ?_, ?_, ?_⟩
  · intro i a ha
    have hlt : i < g.arcs.length := (List.getElem?_eq_some_iff.1 ha).1
    have hmem := List.mem_of_getElem? ha
    obtain ⟨r, hr, hr2, -⟩ := hw.req a hmem
    have hl := hq.listed a hmem r hr hr2
    have := xlateGrps_exact hc.keys hreq h2 ha (by rw [hc1.1]; omega) (.inl ⟨r, hr, by
        simp only [hasArcs, List.any_eq_true]
        exact ⟨a.u, hl, by simpa using hq.prefs a hmem⟩,
      mem_entries.2 ⟨hl, hmem, .inl rfl, hq.present a hmem⟩⟩)
    simp only [List.getElem?_map, List.getElem?_zipIdx, this, Option.map_some, Nat.zero_add]
    rw [if_neg (by omega)]
  · intro i hi hi2
    have hle : (g.reqs.filter fun r => hasArcs g (g.group r)).length ≤ g.reqs.length :=
      List.length_filter_le _ _
    simp only at hi2
    have hlt : i < s2.cols.length := by omega
    simp only [List.getElem?_map, List.getElem?_zipIdx, List.getElem?_eq_getElem hlt,
      Option.map_some, Nat.zero_add]
    rw [if_pos ⟨hi, by omega⟩]
  · intro row hrow
    rcases xlateGrps_rows_only h2 row hrow with h3 | ⟨r, hr, hr2, off, h4, h5, h6⟩
    · rcases xlateGrps_rows_only h1 row h3 with h3 | ⟨r, hr, hr2, off, h4, h5, h6⟩
      · simp at h3
      · exact .inl ⟨r, hr, by simpa [grpRows] using h6⟩
    · refine .inr ⟨r, hr, hr2.resolve_left (by simp), off, by omega, ?_, h6⟩
      have := h5 rfl
      simp only
      omega

theorem sum_le_one {α : Type} {l : List α} (hl : l.Nodup) {w : α → ℚ}
    (h01 : ∀ a ∈ l, w a ≤ 1) (hone : ∀ a ∈ l, ∀ b ∈ l, w a ≠ 0 → w b ≠ 0 → a = b) :
    (l.map w).sum ≤ 1 := by
  induction l with
  | nil => simp
  | cons a l ih =>
    simp only [List.nodup_cons] at hl
    simp only [List.map_cons, List.sum_cons]
    by_cases ha : w a = 0
    · rw [ha, zero_add]
      exact ih hl.2 (fun b hb => h01 b (List.mem_cons_of_mem _ hb))
        (fun b hb c hc => hone b (List.mem_cons_of_mem _ hb) c (List.mem_cons_of_mem _ hc))
    · have hz : ∀ b ∈ l, w b = 0 := by
        intro b hb
        by_contra hne
        have := hone a (by simp) b (List.mem_cons_of_mem _ hb) ha hne
        exact hl.1 (this ▸ hb)
      have : (l.map w).sum = 0 := by
        rw [List.map_congr_left hz]; simp
      rw [this, add_zero]
      exact h01 a (by simp)

/-- The program admits every admissible use of the arcs; in particular it is never infeasible (use
the zero flow). -/
theorem C50_complete {p : Params} {g : Graph} {P : Program} (hw : WF g) (hc : Complete p g)
    (hq : Requested p g) (hx : ExclGroups g)
    (hu : ∀ a ∈ g.arcs, ∀ grp i u, UnitCap g a grp i u → 0 ≤ u)
    (hv : ∀ a ∈ g.arcs, 0 ≤ a.exclVal) (h : toProg p g = some (.ok P))
    {f : Arc → ℚ} (hf : Admissible p.excl g f) :
    ∃ x, Feasible P x ∧ ∀ (i : ℕ) (a : Arc), g.arcs[i]? = some a →
      (if p.excl && a.exclusive then x i * a.exclVal else x i) = f a := by
  obtain ⟨hn, hcol, hfaux, hrows⟩ := toProg_exact hw hc hq h
  have hints := (toProg_cols hw hc.keys h).2.2.2.2
  set M : ℚ := (g.reqs.flatMap fun r => (g.group r).caps.map fun c => |c|).sum with hM
  have hM0 : 0 ≤ M := List.sum_nonneg (by
    intro q hq
    simp only [List.mem_flatMap, List.mem_map] at hq
    obtain ⟨r, -, c, -, rfl⟩ := hq
    exact abs_nonneg c)
  have hMc : ∀ r ∈ g.reqs, ∀ c ∈ (g.group r).caps, c ≤ M := by
    intro r hr c hcc
    refine le_trans (le_abs_self c) (List.single_le_sum ?_ _ ?_)
    · intro q hq
      simp only [List.mem_flatMap, List.mem_map] at hq
      obtain ⟨r, -, c, -, rfl⟩ := hq
      exact abs_nonneg c
    · simp only [List.mem_flatMap, List.mem_map]
      exact ⟨r, hr, c, hcc, rfl⟩
  set y : Arc → ℚ := fun a => if p.excl && a.exclusive then (if f a = 0 then 0 else 1) else f a
    with hy
  set x : ℕ → ℚ := fun i => match g.arcs[i]? with
    | some a => y a
    | none => M with hxdef
  have hxa : ∀ (i : ℕ) (a : Arc), g.arcs[i]? = some a → x i = y a := by
    intro i a ha
    simp only [hxdef, ha]
  have hxf : ∀ i : ℕ, g.arcs.length ≤ i → x i = M := by
    intro i hi
    simp only [hxdef, List.getElem?_eq_none hi]
  have hxid : ∀ a ∈ g.arcs, x (arcId g a) = y a := by
    intro a ha
    obtain ⟨k, hk⟩ := List.getElem?_of_mem ha
    rw [arcId_get hc.keys hk]
    exact hxa k a hk
  have hy0 : ∀ a ∈ g.arcs, 0 ≤ y a := by
    intro a ha
    simp only [hy]
    split
    · split <;> norm_num
    · exact hf.nonneg a ha
  have hyf : ∀ a ∈ g.arcs, (if p.excl && a.exclusive then y a * a.exclVal else y a) = f a := by
    intro a ha
    by_cases he : (p.excl && a.exclusive) = true
    · simp only [hy, he, if_true]
      simp only [Bool.and_eq_true] at he
      rcases hf.all he.1 a ha he.2 with h0 | h0
      · simp [h0]
      · by_cases hz : f a = 0
        · simp [hz]
        · rw [if_neg hz, one_mul, h0]
    · simp only [hy, he, Bool.false_eq_true, if_false]
  have hnz : ∀ a, y a ≠ 0 → f a ≠ 0 := by
    intro a ha hz
    apply ha
    simp only [hy, hz, if_true]
    split <;> rfl
  -- rows of exclusive node groups
  have hexcl : p.excl = true → ∀ r, r ∈ g.sups ∨ r ∈ g.reqs → ∀ row ∈ exclRows g (g.group r),
      row.lb ≤ rowVal x row ∧ Below (rowVal x row) row.ub := by
    intro he r hr row hrow
    simp only [exclRows, List.mem_filterMap] at hrow
    obtain ⟨ns, hns, hrow⟩ := hrow
    split at hrow
    · cases hrow
    · cases hrow
      have hval : rowVal x ⟨ns.flatMap fun n => (g.nodeArcs n).map fun a => (arcId g a, (1 : ℚ)),
          0, some 1⟩ = (g.arcs.map fun a => if a.u ∈ ns ∨ a.v ∈ ns then y a else 0).sum := by
        have hsum : ∀ n, (List.map (fun c : ℕ × ℚ => c.2 * x c.1)
            (List.map (fun a => (arcId g a, (1 : ℚ))) (g.nodeArcs n))).sum =
            (g.arcs.map fun a => (List.map (fun c : ℕ × ℚ => c.2 * x c.1)
              (List.map (fun a => (arcId g a, (1 : ℚ)))
                ((if a.u = n then [a] else []) ++ (if a.v = n then [a] else [])))).sum).sum := by
          intro n
          rw [Graph.nodeArcs, List.map_map, sum_flatMap]
          simp only [List.map_map]
        simp only [rowVal, sum_flatMap, hsum]
        rw [sum_swap]
        congr 1
        apply List.map_congr_left
        intro a ha
        have hterm : ∀ n, (List.map (fun c : ℕ × ℚ => c.2 * x c.1)
            (List.map (fun a => (arcId g a, (1 : ℚ)))
              ((if a.u = n then [a] else []) ++ (if a.v = n then [a] else [])))).sum =
            (if n = a.u then y a else 0) + (if n = a.v then y a else 0) := by
          intro n
          have e1 : (a.u = n) = (n = a.u) := propext ⟨Eq.symm, Eq.symm⟩
          have e2 : (a.v = n) = (n = a.v) := propext ⟨Eq.symm, Eq.symm⟩
          simp only [e1, e2]
          split <;> split <;> simp [hxid a ha]
        simp only [hterm, sum_add', sum_single (hx.nodup r hr ns hns)]
        have hs := hx.side r hr ns hns a ha
        by_cases h1 : a.u ∈ ns <;> by_cases h2 : a.v ∈ ns
        · exact absurd ⟨h1, h2⟩ hs
        · simp [h1, h2]
        · simp [h1, h2]
        · simp [h1, h2]
      rw [hval]
      constructor
      · refine List.sum_nonneg ?_
        intro q hq
        obtain ⟨a, ha, rfl⟩ := List.mem_map.1 hq
        split
        · exact hy0 a ha
        · exact le_refl _
      · refine sum_le_one (List.Pairwise.of_map _ (fun a b hne e => hne (e ▸ rfl)) hc.keys) ?_ ?_
        · intro a ha
          split
          · rename_i hin
            have hae := hx.excl r hr ns hns a ha hin
            simp only [hy, he, hae, Bool.and_self, if_true]
            split <;> norm_num
          · norm_num
        · intro a ha b hb hna hnb
          by_cases h1 : a.u ∈ ns ∨ a.v ∈ ns
          · by_cases h2 : b.u ∈ ns ∨ b.v ∈ ns
            · simp only [h1, h2, if_true] at hna hnb
              exact hf.one he r hr ns hns a ha b hb h1 h2 (hnz a hna) (hnz b hnb)
            · simp [h2] at hnb
          · simp [h1] at hna
  refine ⟨x, ⟨?_, ?_, ?_⟩, fun i a ha => by
    rw [hxa i a ha]; exact hyf a (List.mem_of_getElem? ha)⟩
  · intro i c hi hci
    by_cases hlt : i < g.arcs.length
    · have hget := List.getElem?_eq_getElem hlt
      have ha := List.mem_of_getElem? hget
      rw [hcol i _ hget] at hci
      cases hci
      rw [hxa i _ hget]
      refine ⟨hy0 _ ha, ?_⟩
      simp only [arcCol, hy]
      by_cases he : (p.excl && g.arcs[i].exclusive) = true
      · simp only [he, if_true, Below]
        split <;> norm_num
      · simp only [he, Bool.false_eq_true, if_false, bound]
        split
        · exact hf.node _ ha
        · trivial
    · rw [hfaux i (by omega) hi] at hci
      cases hci
      rw [hxf i (by omega)]
      exact ⟨hM0, trivial⟩
  · intro row hrow
    rcases hrows row hrow with ⟨sg, hsg, hr⟩ | ⟨r, hr, -, off, ho1, ho2, hin⟩
    · simp only [grpRows, Bool.false_eq_true, if_false, List.mem_append, List.mem_map] at hr
      rcases hr with ⟨⟨c, j⟩, hcj, rfl⟩ | hr
      · have hj := List.mem_zipIdx_iff_getElem?.1 hcj
        simp only at hj
        have hval := row_supply hc hsg x j
        simp only [rowVal] at hval ⊢
        rw [hval]
        have hterm : ∀ a ∈ g.arcs, (if (g.node a.v).group = some sg then
            ((g.node a.v).unitCaps (a.u, a.v)).getD j 0 *
              (if p.excl && a.exclusive then x (arcId g a) * a.exclVal else x (arcId g a))
            else 0) = (if (g.node a.v).group = some sg then
              f a * ((g.node a.v).unitCaps (a.u, a.v)).getD j 0 else 0) := by
          intro a ha
          rw [hxid a ha, hyf a ha]
          split
          · ring
          · rfl
        rw [List.map_congr_left hterm]
        constructor
        · refine List.sum_nonneg ?_
          intro q hq
          obtain ⟨a, ha, rfl⟩ := List.mem_map.1 hq
          split
          · rename_i hg
            refine mul_nonneg (hf.nonneg a ha) ?_
            simp only [List.getD]
            cases hqq : ((g.node a.v).unitCaps (a.u, a.v))[j]? with
            | none => simp
            | some q => simpa using hu a ha sg j q ⟨a.v, .inr rfl, hg, hqq⟩
          · exact le_refl _
        · simp only [bound]
          split
          · have := hf.cap sg hsg j c hj
            simp only [load, List.map_map] at this
            refine le_trans (le_of_eq ?_) this
            congr 1
            apply List.map_congr_left
            intro a ha
            have hug : (g.node a.u).group ≠ some sg := by
              obtain ⟨r, hr, hr2, -⟩ := hw.req a ha
              rw [hr2]
              intro e
              injection e with e
              exact hw.disj r hr (e ▸ hsg)
            simp [hug]
          · trivial
      · split at hr
        · rename_i he
          exact hexcl he sg (.inl hsg) row hr
        · simp at hr
    · simp only [grpRows, if_true, List.mem_append, List.mem_map] at hin
      rcases hin with ⟨⟨c, j⟩, hcj, rfl⟩ | hin
      · have hj := List.mem_zipIdx_iff_getElem?.1 hcj
        simp only at hj
        simp only [rowVal, Below, and_true, List.map_append, List.sum_append, List.map_cons,
          List.map_nil, List.sum_cons, List.sum_nil, one_mul, add_zero]
        rw [hxf off ho1]
        have h1 : min c p.big ≤ M :=
          le_trans (min_le_left _ _) (hMc r hr c (List.mem_of_getElem? hj))
        have h2 : 0 ≤ ((capCoeffs p g (entries p g (g.group r)) j).map
            fun c => c.2 * x c.1).sum := by
          refine List.sum_nonneg ?_
          intro q hq
          simp only [capCoeffs, List.map_filterMap, List.mem_filterMap] at hq
          obtain ⟨e, he, hq⟩ := hq
          obtain ⟨h5, h6, h7, h8⟩ := mem_entries.1 he
          cases hqq : ((g.node e.1).unitCaps e.2.key)[j]? with
          | none => simp [hqq] at hq
          | some u =>
            simp only [hqq, Option.map_some, Option.some.injEq] at hq
            have hu0 : 0 ≤ u := hu e.2 h6 r j u ⟨e.1, by
              rcases h7 with h7 | h7
              · exact .inl h7.symm
              · exact .inr h7.symm, hw.member r hr _ h5, hqq⟩
            rw [← hq, hxid e.2 h6]
            refine mul_nonneg ?_ (hy0 e.2 h6)
            split
            · exact mul_nonneg hu0 (hv e.2 h6)
            · exact hu0
        linarith
      · split at hin
        · rename_i he
          exact hexcl he r (.inr hr) row hin
        · simp at hin
  · intro i hi
    rw [hints] at hi
    split at hi
    · rename_i he
      obtain ⟨a, ha, rfl⟩ := List.mem_map.1 hi
      obtain ⟨ha, hae⟩ := List.mem_filter.1 ha
      rw [hxid a ha]
      simp only [hy, he, hae, Bool.and_self, if_true]
      split
      · exact ⟨0, by simp⟩
      · exact ⟨1, by simp⟩
    · simp at hi

/-- The program has one column per arc and one per request group that has arcs, whose cost is the
pseudo cost; a group without arcs adds nothing. -/
theorem C50_size {p : Params} {g : Graph} {P : Program} (hw : WF g) (hc : Complete p g)
    (hq : Requested p g) (h : toProg p g = some (.ok P)) :
    P.n = g.arcs.length +
      (g.reqs.filter fun r => decide (∃ n ∈ (g.group r).nodes, (g.node n).prefs ≠ [])).length ∧
    (∀ (i : ℕ) (a : Arc), g.arcs[i]? = some a → ∃ c, P.cols[i]? = some c ∧
      c.obj = (if p.excl = true ∧ a.exclusive = true then a.exclVal / a.pref else 1 / a.pref)) ∧
    (∀ i : ℕ, g.arcs.length ≤ i → i < P.n → ∃ c, P.cols[i]? = some c ∧ c.obj = p.pseudo) := by
  obtain ⟨hn, hcol, hfaux, -⟩ := toProg_exact hw hc hq h
  refine ⟨?_, fun i a ha => ⟨_, hcol i a ha, by simp [arcCol, arcCost]⟩,
    fun i hi hi2 => ⟨_, hfaux i hi hi2, rfl⟩⟩
  rw [hn]
  congr 2
  apply List.filter_congr
  intro r _
  rw [Bool.eq_iff_iff]
  simp [hasArcs]

/-! ## Concrete programs -/

/-- A request node for 39/20 units and two bid nodes with exclusive bids of one unit each. -/
def exGraph : Graph where
  node n :=
    if n = 0 then ⟨some 0, fun _ => [1], [((0, 1), 1), ((0, 2), 1)], false, "a", 0, 39 / 20⟩
    else ⟨some n, fun _ => [1], [], true, "a", n, 1⟩
  group r :=
    if r = 0 then ⟨[0], [39 / 20], [], 39 / 20⟩ else ⟨[r], [1], [[r]], 0⟩
  reqs := [0]
  sups := [1, 2]
  arcs := [⟨0, 1, true, 1, 1⟩, ⟨0, 2, true, 1, 1⟩]

/-- Exclusive orders, the pseudo cost of the solver, all maps with all entries. -/
def exParams : Params := ⟨true, 11 / 10, 10 ^ 30, 10 ^ 15, fun _ _ => true⟩

/-- The program of `exGraph`. -/
def exProg : Program where
  n := 3
  cols := [⟨1, 0, some 1⟩, ⟨1, 0, some 1⟩, ⟨11 / 10, 0, none⟩]
  rows := [⟨[(0, 1)], 0, some 1⟩, ⟨[(0, 1)], 0, some 1⟩, ⟨[(1, 1)], 0, some 1⟩,
    ⟨[(1, 1)], 0, some 1⟩, ⟨[(0, 1), (1, 1), (2, 1)], 39 / 20, none⟩]
  ints := [0, 1]

theorem ex_toProg : toProg exParams exGraph = some (.ok exProg) := by decide +kernel

theorem ex_wf : WF exGraph where
  nodup := by simp [exGraph]
  disj := by simp [exGraph]
  member := by simp [exGraph]
  req := by simp [exGraph]
  sup := by simp [exGraph]

theorem ex_complete : Complete exParams exGraph where
  keys := by simp [exGraph]
  nodup := by simp [exGraph]
  listed := by simp [exGraph]
  bids := by simp [exGraph]
  present := by simp [exParams]

theorem ex_feasible : Feasible exProg (fun i => if i < 2 then 1 else 0) where
  col := by
    intro i c hi hc
    have : i = 0 ∨ i = 1 ∨ i = 2 := by simp [exProg] at hi; omega
    rcases this with rfl | rfl | rfl <;> simp [exProg] at hc <;> subst hc <;>
      norm_num [Below]
  row := by
    intro r hr
    simp only [exProg, List.mem_cons, List.not_mem_nil, or_false] at hr
    rcases hr with rfl | rfl | rfl | rfl | rfl <;> norm_num [rowVal, Below]
  int := by
    intro i hi
    simp only [exProg, List.mem_cons, List.not_mem_nil, or_false] at hi
    rcases hi with rfl | rfl <;> exact ⟨1, by norm_num⟩

/-- The hypotheses of `C50_arcs`, `C50_supply` and `C50_exclusive` hold in the concrete case, with
matches. -/
example : ∃ p g P x, WF g ∧ Complete p g ∧ toProg p g = some (.ok P) ∧ Feasible P x ∧
    (∀ a ∈ g.arcs, ∀ grp i u, UnitCap g a grp i u → 0 ≤ u) ∧ (∀ a ∈ g.arcs, 0 ≤ a.exclVal) ∧
    p.excl = true ∧ 1 ∈ g.sups ∧ [1] ∈ (g.group 1).exclGroups ∧
    (∀ a ∈ g.arcs, (a.u ∈ [1] ∨ a.v ∈ [1]) → a.exclusive = true) ∧
    fromProg p.excl (1 / 1000) g x = [(⟨0, 1, true, 1, 1⟩, 1), (⟨0, 2, true, 1, 1⟩, 1)] := by
  refine ⟨exParams, exGraph, exProg, _, ex_wf, ex_complete, ex_toProg, ex_feasible, ?_,
    by simp [exGraph], rfl, by simp [exGraph], by simp [exGraph], by simp [exGraph],
    by decide +kernel⟩
  rintro a - grp i u ⟨n, -, -, h⟩
  have : ((exGraph.node n).unitCaps (a.u, a.v)) = [1] := by
    simp only [exGraph]; split <;> rfl
  rw [this] at h
  cases i with
  | zero => simp at h; rw [← h]; norm_num
  | succ i => simp at h

theorem ex_requested : Requested exParams exGraph where
  listed := by simp [exGraph]
  prefs := by simp [exGraph]
  present := by simp [exParams]

/-- The hypotheses of `C50_complete` and `C50_size` hold in the concrete case, with a flow on one
arc. -/
example : WF exGraph ∧ Complete exParams exGraph ∧ Requested exParams exGraph ∧
    ExclGroups exGraph ∧ toProg exParams exGraph = some (.ok exProg) ∧
    Admissible exParams.excl exGraph (fun a => if a.v = 1 then 1 else 0) := by
  refine ⟨ex_wf, ex_complete, ex_requested, ⟨?_, ?_, ?_⟩, ex_toProg, ⟨?_, ?_, ?_, ?_, ?_⟩⟩
  · intro r hr ns hns
    have : ns = [r] := by
      by_cases h0 : r = 0 <;> simp [exGraph, h0] at hns; exact hns
    simp [this]
  · simp [exGraph]
  · intro r hr ns hns
    have h0 : r ≠ 0 := by rintro rfl; simp [exGraph] at hns
    have : ns = [r] := by simpa [exGraph, h0] using hns
    subst this
    simp [exGraph, Ne.symm h0]
  · intro a _; split <;> norm_num
  · simp [exGraph]; norm_num
  · simp [exGraph]
  · intro sg hsg j c hj
    have : sg = 1 ∨ sg = 2 := by simpa [exGraph] using hsg
    rcases this with rfl | rfl <;> cases j <;> simp [exGraph] at hj <;> subst hj <;>
      norm_num [load, exGraph]
  · simp [exGraph]

/-- The full property fails for request groups: the rows of a request group are lower bounds only,
and the optimal solution of the program with exclusive orders may deliver more than the
group requests and more than its capacity. -/
theorem C50_fails_request : ∃ p g P x, WF g ∧ Complete p g ∧ p.pseudo = pseudoCost p.excl g ∧
    toProg p g = some (.ok P) ∧ Optimal P x ∧
    ∃ r ∈ g.reqs, (g.group r).caps = [(g.group r).qty] ∧
      (g.group r).qty < groupFlow g (fromProg p.excl (1 / 10 ^ 6) g x) r ∧
      (g.group r).qty < load g (fromProg p.excl (1 / 10 ^ 6) g x) r 0 := by
  refine ⟨exParams, exGraph, exProg, _, ex_wf, ex_complete, by decide +kernel, ex_toProg,
    ⟨ex_feasible, ?_⟩, 0, by simp [exGraph], rfl, by decide +kernel, by decide +kernel⟩
  intro y hy
  have h0 := hy.col 0 ⟨1, 0, some 1⟩ (by simp [exProg]) rfl
  have h1 := hy.col 1 ⟨1, 0, some 1⟩ (by simp [exProg]) rfl
  have h2 := hy.col 2 ⟨11 / 10, 0, none⟩ (by simp [exProg]) rfl
  have hr := hy.row ⟨[(0, 1), (1, 1), (2, 1)], 39 / 20, none⟩ (by simp [exProg])
  obtain ⟨a, ha⟩ := hy.int 0 (by simp [exProg])
  obtain ⟨b, hb⟩ := hy.int 1 (by simp [exProg])
  simp only [rowVal, List.map_cons, List.map_nil, List.sum_cons, List.sum_nil, one_mul,
    Below] at h0 h1 h2 hr
  simp only [objective, exProg, List.take, List.zipIdx_cons, List.zipIdx_nil, List.map_cons,
    List.map_nil, List.sum_cons, List.sum_nil]
  norm_num
  rw [ha] at h0 hr ⊢
  rw [hb] at h1 hr ⊢
  have ha0 : a ≤ 1 := by exact_mod_cast h0.2
  have hb0 : b ≤ 1 := by exact_mod_cast h1.2
  by_cases hab : a + b = 2
  · have : (a : ℚ) + b = 2 := by exact_mod_cast hab
    linarith
  · have hab' : a + b ≤ 1 := by omega
    have : (a : ℚ) + b ≤ 1 := by exact_mod_cast hab'
    linarith

/-- A request node for ten units and a bid node with five units, whose group has no
constraint. -/
def bidGraph : Graph where
  node n :=
    if n = 0 then ⟨some 0, fun _ => [1], [((0, 1), 1)], false, "a", 0, 10⟩
    else ⟨some n, fun _ => [], [], false, "a", n, 5⟩
  group r :=
    if r = 0 then ⟨[0], [10], [], 10⟩ else ⟨[r], [], [], 0⟩
  reqs := [0]
  sups := [1]
  arcs := [⟨0, 1, false, 0, 1⟩]

/-- The program of `bidGraph`. -/
def bidProg : Program where
  n := 2
  cols := [⟨1, 0, some 10⟩, ⟨11 / 10, 0, none⟩]
  rows := [⟨[(0, 1), (1, 1)], 10, none⟩]
  ints := []

/-- The quantity of a bid does not occur in the program: if the bidder gave no constraint, the
optimal solution may take more from a bid than it offers. -/
theorem C50_fails_bid : ∃ p g P x, WF g ∧ Complete p g ∧ p.pseudo = pseudoCost p.excl g ∧
    toProg p g = some (.ok P) ∧ Optimal P x ∧
    ∃ n, (∃ a ∈ g.arcs, a.v = n) ∧
      (g.node n).qty < flow (fromProg p.excl (1 / 10 ^ 6) g x) n := by
  refine ⟨⟨false, 11 / 10, 10 ^ 30, 10 ^ 15, fun _ _ => true⟩, bidGraph, bidProg,
    fun i => if i = 0 then 10 else 0,
    ⟨by simp [bidGraph], by simp [bidGraph], by simp [bidGraph], by simp [bidGraph],
      by simp [bidGraph]⟩,
    ⟨by simp [bidGraph], by simp [bidGraph], by simp [bidGraph], by simp [bidGraph], by simp⟩,
    by decide +kernel, by decide +kernel, ⟨⟨?_, ?_, by simp [bidProg]⟩, ?_⟩, 1,
    ⟨⟨0, 1, false, 0, 1⟩, by simp [bidGraph], rfl⟩, by decide +kernel⟩
  · intro i c hi hc
    have : i = 0 ∨ i = 1 := by simp [bidProg] at hi; omega
    rcases this with rfl | rfl <;> simp [bidProg] at hc <;> subst hc <;> norm_num [Below]
  · intro r hr
    simp only [bidProg, List.mem_cons, List.not_mem_nil, or_false] at hr
    subst hr
    norm_num [rowVal, Below]
  · intro y hy
    have h0 := hy.col 0 ⟨1, 0, some 10⟩ (by simp [bidProg]) rfl
    have h1 := hy.col 1 ⟨11 / 10, 0, none⟩ (by simp [bidProg]) rfl
    have hr := hy.row ⟨[(0, 1), (1, 1)], 10, none⟩ (by simp [bidProg])
    simp only [rowVal, List.map_cons, List.map_nil, List.sum_cons, List.sum_nil, one_mul,
      Below] at h0 h1 hr
    simp only [objective, bidProg, List.take, List.zipIdx_cons, List.zipIdx_nil, List.map_cons,
      List.map_nil, List.sum_cons, List.sum_nil]
    norm_num
    linarith

/-! ## When there is no program -/

theorem xlateGrps_error {p : Params} {g : Graph} {q : Bool} {rs : List ℕ} {s : St} {e : Err}
    (h : xlateGrps p g q rs s = some (.error e)) :
    e = .value ∧ q = true ∧ ∃ r ∈ rs, ∃ a ∈ entries p g (g.group r), a.2.pref ≤ 0 := by
  induction rs generalizing s with
  | nil => simp [xlateGrps] at h
  | cons r rs ih =>
    simp only [xlateGrps] at h
    split at h
    · cases h
    · rename_i e' h1
      cases h
      simp only [xlateGrp] at h1
      split at h1
      · cases h1
      · split at h1
        · cases h1
        · split at h1
          · rename_i hp
            cases h1
            simp only [Bool.and_eq_true, List.any_eq_true, decide_eq_true_eq] at hp
            obtain ⟨hq, a, ha, hle⟩ := hp
            exact ⟨rfl, hq, r, by simp, a, ha, hle⟩
          · cases h1
    · obtain ⟨h1, h2, r', h3, h4⟩ := ih h
      exact ⟨h1, h2, r', List.mem_cons_of_mem _ h3, h4⟩

/-- The translation throws only `ValueError`, and only because of an arc whose preference is not
positive. -/
theorem C50_error {p : Params} {g : Graph} {e : Err} (h : toProg p g = some (.error e)) :
    e = .value ∧ ∃ a ∈ g.arcs, a.pref ≤ 0 := by
  simp only [toProg] at h
  split at h
  · cases h
  · rename_i e' h1
    cases h
    have := (xlateGrps_error h1).2.1
    cases this
  · split at h
    · cases h
    · rename_i e' h1
      cases h
      obtain ⟨h1, -, r, -, a, ha, hle⟩ := xlateGrps_error h1
      exact ⟨h1, a.2, (mem_entries.1 ha).2.1, hle⟩
    · cases h

/-- A graph with an arc of preference 0 meets the hypothesis of `C50_error`. -/
example : toProg exParams { exGraph with arcs := [⟨0, 1, true, 1, 0⟩] } = some (.error .value) := by
  decide +kernel

end Cyclus.Prog
