import Verif.Spec.ProgSolver
import Verif.Props.ProgTranslator
import Verif.Props.Greedy
import Verif.Model.ProgSolver

/-!
# The program of an exchange is about the cheapest use of its arcs
-/

namespace Cyclus.Prog

open Cyclus.Exchange Cyclus.Exchange.Spec Spec

/-- The flow that a point of the program means. -/
def flowOf (excl : Bool) (g : Graph) (x : ℕ → ℚ) (a : Arc) : ℚ :=
  if excl && a.exclusive then x (arcId g a) * a.exclVal else x (arcId g a)

theorem wanted_eq (g : Graph) : wanted g = g.reqs.filter fun r => hasArcs g (g.group r) := by
  unfold wanted
  apply List.filter_congr
  intro r _
  rw [Bool.eq_iff_iff]
  simp [hasArcs]

theorem foldr_max_le (l : List ℚ) (y : ℚ) : l.foldr max 0 ≤ y ↔ 0 ≤ y ∧ ∀ q ∈ l, q ≤ y := by
  induction l with
  | nil => simp
  | cons a l ih =>
    simp only [List.foldr_cons, max_le_iff, ih, List.mem_cons, forall_eq_or_imp]
    tauto

/-- Which rows the request groups have. -/
theorem xlateGrps_rows_at {p : Params} {g : Graph} {rs : List ℕ} {s s' : St}
    (h : xlateGrps p g true rs s = some (.ok s')) (row : Row) :
    row ∈ s'.rows ↔ row ∈ s.rows ∨
      ∃ k r, (rs.filter fun r => hasArcs g (g.group r))[k]? = some r ∧
        row ∈ grpRows p g true (g.group r) (s.off + k) := by
  induction rs generalizing s with
  | nil => simp only [xlateGrps] at h; cases h; simp
  | cons a rs ih =>
    simp only [xlateGrps] at h
    split at h <;> try cases h
    rename_i s1 h1
    rw [ih h]
    cases ha : hasArcs g (g.group a) with
    | false =>
      rw [xlateGrp_skip h1 ha]
      simp [ha]
    | true =>
      have ho := xlateGrp_off h1
      simp only [ha, Bool.and_self, if_true] at ho
      rw [xlateGrp_ok h1 (.inr ha), ho, List.mem_append, List.filter_cons_of_pos
        (p := fun r => hasArcs g (g.group r)) ha]
      constructor
      · rintro ((h2 | h2) | ⟨k, r, h2, h3⟩)
        · exact .inl h2
        · exact .inr ⟨0, a, by simp, by simpa using h2⟩
        · exact .inr ⟨k + 1, r, by simpa using h2, by
            rw [show s.off + (k + 1) = s.off + 1 + k by omega]; exact h3⟩
      · rintro (h2 | ⟨k, r, h2, h3⟩)
        · exact .inl (.inl h2)
        · cases k with
          | zero =>
            simp only [List.getElem?_cons_zero, Option.some.injEq] at h2
            subst h2
            exact .inl (.inr (by simpa using h3))
          | succ k =>
            refine .inr ⟨k, r, by simpa using h2, ?_⟩
            rw [show s.off + 1 + k = s.off + (k + 1) by omega]
            exact h3

/-- All rows of the program. -/
theorem toProg_rows {p : Params} {g : Graph} {P : Program} (h : toProg p g = some (.ok P)) (row : Row) :
    row ∈ P.rows ↔ (∃ sg ∈ g.sups, row ∈ grpRows p g false (g.group sg) 0) ∨
      ∃ k r, (wanted g)[k]? = some r ∧
        row ∈ grpRows p g true (g.group r) (g.arcs.length + k) := by
  rw [wanted_eq]
  simp only [toProg] at h
  split at h <;> try cases h
  rename_i s1 h1
  split at h <;> try cases h
  rename_i s2 h2
  have ho1 := xlateGrps_off h1
  simp only [Bool.false_and, List.filter_false, List.length_nil] at ho1
  simp only
  rw [xlateGrps_rows_at h2, ho1]
  refine or_congr ?_ Iff.rfl
  constructor
  · intro hr
    rcases xlateGrps_rows_only h1 row hr with h3 | ⟨r, hr, -, off, -, -, h6⟩
    · simp at h3
    · exact ⟨r, hr, by simpa [grpRows] using h6⟩
  · rintro ⟨sg, hsg, hrow⟩
    obtain ⟨off, hoff⟩ := xlateGrps_mem h1 sg hsg (.inl rfl)
    exact hoff row (by simpa [grpRows] using hrow)

/-- The bid nodes of arcs are in no request group. -/
theorem bid_not_request {g : Graph} (hw : WF g) :
    ∀ r ∈ g.reqs, ∀ n ∈ (g.group r).nodes, ∀ a ∈ g.arcs, a.v ≠ n := by
  rintro r hr n hn a ha rfl
  obtain ⟨sg, hsg, h3, -⟩ := hw.sup a ha
  rw [hw.member r hr _ hn] at h3
  cases h3
  exact hw.disj r hr hsg

/-- The contribution of the arcs to constraint `j` of a request group is the load. -/
theorem row_request {p : Params} {g : Graph} (hw : WF g) (hq : Requested p g)
    (hnd : ∀ r ∈ g.reqs, (g.group r).nodes.Nodup) {r : ℕ} (hr : r ∈ g.reqs) (x : ℕ → ℚ) (j : ℕ) :
    ((capCoeffs p g (entries p g (g.group r)) j).map fun c => c.2 * x c.1).sum =
      load g (g.arcs.map fun a => (a, flowOf p.excl g x a)) r j := by
  set W : ℕ × Arc → ℚ := fun e => ((g.node e.1).unitCaps (e.2.u, e.2.v)).getD j 0 *
    flowOf p.excl g x e.2 with hW
  have h1 : ((capCoeffs p g (entries p g (g.group r)) j).map fun c => c.2 * x c.1).sum =
      ((entries p g (g.group r)).map W).sum := by
    simp only [capCoeffs, sum_filterMap]
    congr 1
    apply List.map_congr_left
    intro e _
    simp only [hW, Arc.key, List.getD, flowOf]
    cases ((g.node e.1).unitCaps (e.2.u, e.2.v))[j]? with
    | none => simp
    | some c => simp only [Option.map_some, Option.getD_some]; split <;> ring
  rw [h1]
  simp only [entries, sum_flatMap, List.map_map]
  have h2 : ∀ n ∈ (g.group r).nodes,
      ((List.filter (fun a => (decide (a.u = n) || decide (a.v = n)) && p.present n a) g.arcs).map
        (W ∘ fun a => (n, a))).sum = (g.arcs.map fun a => if n = a.u then W (a.u, a) else 0).sum := by
    intro n hn
    rw [sum_filter_ite]
    congr 1
    apply List.map_congr_left
    intro a ha
    have hv := bid_not_request hw r hr n hn a ha
    by_cases hu : n = a.u
    · subst hu
      simp [hq.present a ha, Function.comp]
    · have hu' : a.u ≠ n := fun e => hu e.symm
      simp [hu, hu', hv]
  rw [List.map_congr_left h2, sum_swap]
  simp only [load, List.map_map]
  congr 1
  apply List.map_congr_left
  intro a ha
  rw [sum_single (hnd r hr)]
  obtain ⟨sg, hsg, h3, -⟩ := hw.sup a ha
  have hv : (g.node a.v).group ≠ some r := by
    rw [h3]
    intro e
    injection e with e
    exact hw.disj r hr (e ▸ hsg)
  have hu : a.u ∈ (g.group r).nodes ↔ (g.node a.u).group = some r :=
    ⟨fun h => hw.member r hr _ h, fun h => hq.listed a ha r hr h⟩
  simp only [Function.comp, hv, if_false, add_zero, hW, hu]
  split
  · ring
  · rfl

theorem sum_zipIdx {α : Type} (l : List α) (k : ℕ) (F : α × ℕ → ℚ) (G : α → ℚ)
    (h : ∀ (i : ℕ) (a : α), l[i]? = some a → F (a, k + i) = G a) :
    ((l.zipIdx k).map F).sum = (l.map G).sum := by
  induction l generalizing k with
  | nil => simp
  | cons a l ih =>
    simp only [List.zipIdx_cons, List.map_cons, List.sum_cons]
    rw [ih (k + 1), show F (a, k) = G a by simpa using h 0 a (by simp)]
    intro i b hb
    rw [show k + 1 + i = k + (i + 1) by omega]
    exact h (i + 1) b (by simpa using hb)

theorem sum_zipIdx_le {α : Type} (l : List α) (k : ℕ) (F : α × ℕ → ℚ) (G : α → ℚ)
    (h : ∀ (i : ℕ) (a : α), l[i]? = some a → G a ≤ F (a, k + i)) :
    (l.map G).sum ≤ ((l.zipIdx k).map F).sum := by
  induction l generalizing k with
  | nil => simp
  | cons a l ih =>
    simp only [List.zipIdx_cons, List.map_cons, List.sum_cons]
    refine add_le_add (by simpa using h 0 a (by simp)) (ih (k + 1) ?_)
    intro i b hb
    rw [show k + 1 + i = k + (i + 1) by omega]
    exact h (i + 1) b (by simpa using hb)

/-- The objective function. -/
theorem objective_eq {p : Params} {g : Graph} {P : Program} (hw : WF g) (hc : Complete p g)
    (hq : Requested p g) (h : toProg p g = some (.ok P)) (x : ℕ → ℚ) :
    objective P x = (g.arcs.map fun a => flowOf p.excl g x a / a.pref).sum +
      p.pseudo * (((wanted g).zipIdx g.arcs.length).map fun c => x c.2).sum := by
  obtain ⟨hn, hcol, hfaux, -⟩ := toProg_exact hw hc hq h
  rw [← wanted_eq] at hn
  have hlen : P.n ≤ P.cols.length := by
    rw [hn, (toProg_cols hw hc.keys h).2.1.1, wanted_eq]
    exact Nat.add_le_add_left (List.length_filter_le _ _) _
  have hcols : P.cols.take P.n = g.arcs.map (fun a => arcCol p g (a.u, a)) ++
      (wanted g).map fun _ => (⟨p.pseudo, 0, none⟩ : Col) := by
    apply List.ext_getElem?
    intro i
    by_cases hi : i < P.n
    · rw [List.getElem?_take_of_lt hi]
      by_cases ha : i < g.arcs.length
      · rw [hcol i _ (List.getElem?_eq_getElem ha), List.getElem?_append_left (by simpa using ha)]
        simp [ha]
      · rw [hfaux i (by omega) hi, List.getElem?_append_right (by simp; omega)]
        have : i - g.arcs.length < (wanted g).length := by omega
        simp [this]
    · rw [List.getElem?_eq_none (by simp; omega), List.getElem?_eq_none (by simp; omega)]
  unfold objective
  rw [hcols, List.zipIdx_append, List.map_append, List.sum_append]
  congr 1
  · rw [List.zipIdx_map, List.map_map]
    refine sum_zipIdx _ _ _ _ ?_
    intro i a ha
    have hid := arcId_get hc.keys ha
    simp only [Function.comp, Prod.map, id, zero_add, arcCol, arcCost, flowOf, hid]
    split <;> ring
  · simp only [List.length_map, zero_add]
    rw [List.zipIdx_map, List.map_map]
    generalize g.arcs.length = k
    induction wanted g generalizing k with
    | nil => simp
    | cons a l ih =>
      simp only [List.zipIdx_cons, List.map_cons, List.sum_cons, ih (k + 1), Function.comp, Prod.map]
      simp
      ring

/-- The flow of a feasible point costs no more than the point. -/
theorem cost_le {p : Params} {g : Graph} {P : Program} (hw : WF g) (hc : Complete p g)
    (hq : Requested p g) (hnd : ∀ r ∈ g.reqs, (g.group r).nodes.Nodup) (hps : 0 ≤ p.pseudo)
    (h : toProg p g = some (.ok P)) {x : ℕ → ℚ} (hx : Feasible P x) :
    cost p.big p.pseudo g (flowOf p.excl g x) ≤ objective P x := by
  obtain ⟨hn, hcol, hfaux, -⟩ := toProg_exact hw hc hq h
  rw [← wanted_eq] at hn
  rw [objective_eq hw hc hq h]
  unfold cost
  refine add_le_add (le_refl _) (mul_le_mul_of_nonneg_left ?_ hps)
  refine sum_zipIdx_le _ _ _ _ ?_
  intro k r hk
  have hklt : k < (wanted g).length := (List.getElem?_eq_some_iff.1 hk).1
  have hr : r ∈ g.reqs := by
    have := List.mem_of_getElem? hk
    unfold wanted at this
    exact (List.mem_filter.1 this).1
  unfold shortfall
  rw [foldr_max_le]
  constructor
  · exact (hx.col _ _ (by omega) (hfaux (g.arcs.length + k) (by omega) (by omega))).1
  · intro q hq'
    obtain ⟨⟨c, j⟩, hcj, rfl⟩ := List.mem_map.1 hq'
    have hrow := (hx.row ⟨capCoeffs p g (entries p g (g.group r)) j ++ [(g.arcs.length + k, 1)],
      min c p.big, none⟩ ((toProg_rows h _).2 (.inr ⟨k, r, hk, by
        unfold grpRows
        refine List.mem_append_left _ (List.mem_map.2 ⟨(c, j), hcj, by simp⟩)⟩))).1
    simp only [rowVal, List.map_append, List.sum_append, row_request hw hq hnd hr] at hrow
    simp only [List.map_cons, List.map_nil, List.sum_cons, List.sum_nil, one_mul, add_zero] at hrow
    simp only
    linarith

theorem rowVal_congr {x y : ℕ → ℚ} {l : List (ℕ × ℚ)} (h : ∀ c ∈ l, x c.1 = y c.1) :
    (l.map fun c => c.2 * x c.1).sum = (l.map fun c => c.2 * y c.1).sum := by
  congr 1
  apply List.map_congr_left
  intro c hc
  rw [h c hc]

theorem arcId_lt {p : Params} {g : Graph} (hc : Complete p g) {a : Arc} (ha : a ∈ g.arcs) :
    arcId g a < g.arcs.length := by
  obtain ⟨i, hi⟩ := List.getElem?_of_mem ha
  rw [arcId_get hc.keys hi]
  exact (List.getElem?_eq_some_iff.1 hi).1

theorem capCoeffs_lt {p : Params} {g : Graph} (hc : Complete p g) (grp : Group) (j : ℕ) :
    ∀ c ∈ capCoeffs p g (entries p g grp) j, c.1 < g.arcs.length := by
  intro c hcc
  simp only [capCoeffs, List.mem_filterMap] at hcc
  obtain ⟨e, he, hcc⟩ := hcc
  obtain ⟨u, -, rfl⟩ := Option.map_eq_some_iff.1 hcc
  exact arcId_lt hc (mem_entries.1 he).2.1

theorem exclRows_lt {p : Params} {g : Graph} (hc : Complete p g) (grp : Group) {row : Row}
    (hrow : row ∈ exclRows g grp) : ∀ c ∈ row.coeffs, c.1 < g.arcs.length := by
  simp only [exclRows, List.mem_filterMap] at hrow
  obtain ⟨ns, hns, hrow⟩ := hrow
  split at hrow
  · cases hrow
  · cases hrow
    intro c hcc
    simp only [List.mem_flatMap, List.mem_map] at hcc
    obtain ⟨n, -, a, ha, rfl⟩ := hcc
    simp only [Graph.nodeArcs, List.mem_flatMap, List.mem_append] at ha
    obtain ⟨b, hb, hba⟩ := ha
    have hab : a = b := by
      rcases hba with hba | hba <;> split at hba <;> simp_all
    subst hab
    exact arcId_lt hc hb

/-- Every admissible flow is a point of the program with its cost. -/
theorem cost_attained {p : Params} {g : Graph} {P : Program} (hw : WF g) (hc : Complete p g)
    (hq : Requested p g) (hx : ExclGroups g) (hnd : ∀ r ∈ g.reqs, (g.group r).nodes.Nodup)
    (hu : ∀ a ∈ g.arcs, ∀ grp i u, UnitCap g a grp i u → 0 ≤ u)
    (hv : ∀ a ∈ g.arcs, 0 ≤ a.exclVal) (h : toProg p g = some (.ok P))
    {f : Arc → ℚ} (hf : Admissible p.excl g f) :
    ∃ y, Feasible P y ∧ objective P y = cost p.big p.pseudo g f := by
  obtain ⟨hn, hcol, hfaux, -⟩ := toProg_exact hw hc hq h
  rw [← wanted_eq] at hn
  obtain ⟨x, hxf, hxa⟩ := C50_complete hw hc hq hx hu hv h hf
  set y : ℕ → ℚ := fun i => if i < g.arcs.length then x i else
    match (wanted g)[i - g.arcs.length]? with
    | some r => shortfall p.big g f r
    | none => 0 with hy
  have hya : ∀ i, i < g.arcs.length → y i = x i := by
    intro i hi; simp [hy, hi]
  have hyw : ∀ (k r : ℕ), (wanted g)[k]? = some r → y (g.arcs.length + k) = shortfall p.big g f r := by
    intro k r hk; simp [hy, hk]
  have hfy : ∀ a ∈ g.arcs, flowOf p.excl g y a = f a := by
    intro a ha
    obtain ⟨i, hi⟩ := List.getElem?_of_mem ha
    have hlt := (List.getElem?_eq_some_iff.1 hi).1
    rw [← hxa i a hi]
    simp only [flowOf, arcId_get hc.keys hi, hya i hlt]
  have hload : ∀ r j, load g (g.arcs.map fun a => (a, flowOf p.excl g y a)) r j =
      load g (g.arcs.map fun a => (a, f a)) r j := by
    intro r j
    congr 1
    apply List.map_congr_left
    intro a ha
    rw [hfy a ha]
  have hsf : ∀ r, 0 ≤ shortfall p.big g f r ∧ ∀ c ∈ (g.group r).caps.zipIdx,
      min c.1 p.big - load g (g.arcs.map fun a => (a, f a)) r c.2 ≤ shortfall p.big g f r := by
    intro r
    have := (foldr_max_le _ _).1 (le_refl (shortfall p.big g f r))
    exact ⟨this.1, fun c hc => this.2 _ (List.mem_map.2 ⟨c, hc, rfl⟩)⟩
  refine ⟨y, ⟨?_, ?_, ?_⟩, ?_⟩
  · intro i c hi hci
    by_cases hlt : i < g.arcs.length
    · rw [hya i hlt]
      exact hxf.col i c hi hci
    · rw [hfaux i (by omega) hi] at hci
      cases hci
      refine ⟨?_, trivial⟩
      simp only [hy, hlt, if_false]
      split
      · exact (hsf _).1
      · exact le_refl _
  · intro row hrow
    have hexcl : ∀ grp, row ∈ exclRows g grp →
        row.lb ≤ rowVal y row ∧ Below (rowVal y row) row.ub := by
      intro grp hr
      have : rowVal y row = rowVal x row :=
        rowVal_congr fun c hcc => hya _ (exclRows_lt hc grp hr c hcc)
      rw [this]
      exact hxf.row row hrow
    rcases (toProg_rows h row).1 hrow with ⟨sg, hsg, hr⟩ | ⟨k, r, hk, hr⟩
    · simp only [grpRows, Bool.false_eq_true, if_false, List.mem_append, List.mem_map] at hr
      rcases hr with ⟨⟨c, j⟩, hcj, rfl⟩ | hr
      · have : rowVal y ⟨capCoeffs p g (entries p g (g.group sg)) j, 0, bound p.inf c⟩ =
            rowVal x ⟨capCoeffs p g (entries p g (g.group sg)) j, 0, bound p.inf c⟩ :=
          rowVal_congr fun c hcc => hya _ (capCoeffs_lt hc _ _ c hcc)
        simp only at this ⊢
        rw [this]
        exact hxf.row _ hrow
      · split at hr
        · exact hexcl _ hr
        · simp at hr
    · simp only [grpRows, if_true, List.mem_append, List.mem_map] at hr
      rcases hr with ⟨⟨c, j⟩, hcj, rfl⟩ | hr
      · have hrr : r ∈ g.reqs := by
          have := List.mem_of_getElem? hk
          unfold wanted at this
          exact (List.mem_filter.1 this).1
        refine ⟨?_, trivial⟩
        simp only [rowVal, List.map_append, List.sum_append, row_request hw hq hnd hrr, hload]
        have := (hsf r).2 (c, j) hcj
        simp only [List.map_cons, List.map_nil, List.sum_cons, List.sum_nil, one_mul, add_zero,
          hyw k r hk]
        simp only at this
        linarith
      · split at hr
        · exact hexcl _ hr
        · simp at hr
  · intro i hi
    have hints := (toProg_cols hw hc.keys h).2.2.2.2
    have hi' := hi
    rw [hints] at hi'
    split at hi'
    · obtain ⟨a, ha, rfl⟩ := List.mem_map.1 hi'
      rw [hya _ (arcId_lt hc (List.mem_filter.1 ha).1)]
      exact hxf.int _ hi
    · simp at hi'
  · rw [objective_eq hw hc hq h]
    unfold cost
    congr 1
    · congr 1
      apply List.map_congr_left
      intro a ha
      rw [hfy a ha]
    · congr 1
      exact sum_zipIdx _ _ _ _ fun k r hk => hyw k r hk

namespace Spec

/-- What is assumed of the exchange graph and the limits: what C50 assumes; nodes listed once in their
request group; quantities and capacities that are not negative and less than `inf`; exclusive quantities
that are not negative and not more than what is requested; exclusive node groups of nodes of the group. -/
structure Regular (p : Params) (g : Graph) : Prop where
  wf : WF g
  complete : Complete p g
  requested : Requested p g
  groups : ExclGroups g
  nodup : ∀ r ∈ g.reqs, (g.group r).nodes.Nodup
  inside : ∀ r, r ∈ g.reqs → ∀ ns ∈ (g.group r).exclGroups, ∀ n ∈ ns, n ∈ (g.group r).nodes
  unit : ∀ a ∈ g.arcs, ∀ grp i u, UnitCap g a grp i u → 0 ≤ u
  qty : ∀ a ∈ g.arcs, 0 ≤ (g.node a.u).qty ∧ (g.node a.u).qty < p.inf
  cap : ∀ sg ∈ g.sups, ∀ c ∈ (g.group sg).caps, 0 ≤ c ∧ c < p.inf
  excl : ∀ a ∈ g.arcs, 0 ≤ a.exclVal ∧ (p.excl = true → a.exclusive = true →
    a.exclVal ≤ (g.node a.u).qty)

end Spec

theorem col_arc {p : Params} {g : Graph} {P : Program} (hg : Regular p g)
    (h : toProg p g = some (.ok P)) {x : ℕ → ℚ} (hx : Feasible P x) :
    ∀ a ∈ g.arcs, 0 ≤ x (arcId g a) ∧ Below (x (arcId g a)) (arcCol p g (a.u, a)).ub := by
  obtain ⟨hn, hcol, -⟩ := toProg_exact hg.wf hg.complete hg.requested h
  intro a ha
  obtain ⟨i, hi⟩ := List.getElem?_of_mem ha
  rw [arcId_get hg.complete.keys hi]
  have hlt := (List.getElem?_eq_some_iff.1 hi).1
  exact hx.col i _ (by omega) (hcol i a hi)

/-- The integer columns of a feasible point are 0 or 1. -/
theorem feasible_01 {p : Params} {g : Graph} {P : Program} (hg : Regular p g)
    (h : toProg p g = some (.ok P)) (x : ℕ → ℚ) (hx : Feasible P x) :
    ∀ i ∈ P.ints, x i = 0 ∨ x i = 1 := by
  have hints := (toProg_cols hg.wf hg.complete.keys h).2.2.2.2
  intro i hi
  obtain ⟨z, hz⟩ := hx.int i hi
  rw [hints] at hi
  split at hi
  · rename_i he
    obtain ⟨a, ha, rfl⟩ := List.mem_map.1 hi
    obtain ⟨ha, hae⟩ := List.mem_filter.1 ha
    obtain ⟨h1, h2⟩ := col_arc hg h hx a ha
    simp only [arcCol, he, hae, Bool.and_self, if_true, Below] at h2
    rw [hz] at h1 h2
    have h1' : (0 : ℤ) ≤ z := by exact_mod_cast h1
    have h2' : z ≤ (1 : ℤ) := by exact_mod_cast h2
    have : z = 0 ∨ z = 1 := by omega
    rcases this with rfl | rfl
    · left; rw [hz]; simp
    · right; rw [hz]; simp
  · simp at hi

/-- The flow of a feasible point is admissible. -/
theorem flowOf_admissible {p : Params} {g : Graph} {P : Program} (hg : Regular p g)
    (h : toProg p g = some (.ok P)) {x : ℕ → ℚ} (hx : Feasible P x) :
    Admissible p.excl g (flowOf p.excl g x) := by
  have hw := hg.wf
  have hc := hg.complete
  have hq := hg.requested
  have hints := (toProg_cols hw hc.keys h).2.2.2.2
  have hb := col_arc hg h hx
  have h01 : p.excl = true → ∀ a ∈ g.arcs, a.exclusive = true →
      x (arcId g a) = 0 ∨ x (arcId g a) = 1 := by
    intro he a ha hae
    refine feasible_01 hg h x hx _ ?_
    rw [hints, if_pos he]
    exact List.mem_map.2 ⟨a, List.mem_filter.2 ⟨ha, hae⟩, rfl⟩
  have hnn : ∀ a ∈ g.arcs, 0 ≤ flowOf p.excl g x a := by
    intro a ha
    unfold flowOf
    split
    · exact mul_nonneg (hb a ha).1 (hg.excl a ha).1
    · exact (hb a ha).1
  refine ⟨hnn, ?_, ?_, ?_, ?_⟩
  · intro a ha
    by_cases he : (p.excl && a.exclusive) = true
    · have he' := he
      simp only [Bool.and_eq_true] at he'
      simp only [flowOf, he, if_true]
      rcases h01 he'.1 a ha he'.2 with h0 | h0
      · rw [h0, zero_mul]; exact (hg.qty a ha).1
      · rw [h0, one_mul]; exact (hg.excl a ha).2 he'.1 he'.2
    · have h2 := (hb a ha).2
      simp only [arcCol, he, Bool.false_eq_true, if_false, bound, (hg.qty a ha).2, if_true,
        Below] at h2
      simp only [flowOf, he, Bool.false_eq_true, if_false]
      exact h2
  · intro he a ha hae
    simp only [flowOf, he, hae, Bool.and_self, if_true]
    rcases h01 he a ha hae with h0 | h0 <;> simp [h0]
  · intro sg hsg j c hj
    have hcap := hg.cap sg hsg c (List.mem_of_getElem? hj)
    have hrow := (hx.row ⟨capCoeffs p g (entries p g (g.group sg)) j, 0, bound p.inf c⟩
      ((toProg_rows h _).2 (.inl ⟨sg, hsg, by
        unfold grpRows
        refine List.mem_append_left _ (List.mem_map.2 ⟨(c, j), ?_, by simp⟩)
        exact List.mem_zipIdx_iff_getElem?.2 hj⟩))).2
    simp only [bound, hcap.2, if_true, Below] at hrow
    refine le_trans (le_of_eq ?_) hrow
    have hval := row_supply hc hsg x j
    simp only [rowVal] at hval ⊢
    rw [hval]
    simp only [load, List.map_map]
    congr 1
    apply List.map_congr_left
    intro a ha
    have hug : (g.node a.u).group ≠ some sg := by
      obtain ⟨r, hr, hr2, -⟩ := hw.req a ha
      rw [hr2]
      intro e
      injection e with e
      exact hw.disj r hr (e ▸ hsg)
    simp only [Function.comp, hug, if_false, zero_add, flowOf]
    split
    · ring
    · rfl
  · intro he r hr ns hns a ha b hb' hna hnb hfa hfb
    have hmem : ∀ a ∈ g.arcs, flowOf p.excl g x a ≠ 0 →
        (a, flowOf p.excl g x a) ∈ fromProg p.excl 0 g x := by
      intro a ha hne
      obtain ⟨i, hi⟩ := List.getElem?_of_mem ha
      refine mem_fromProg.2 ⟨i, hi, ?_, lt_of_le_of_ne (hnn a ha) (Ne.symm hne)⟩
      simp only [flowOf, arcId_get hc.keys hi]
    have hgrp : r ∈ g.sups ∨ (r ∈ g.reqs ∧ ∃ n ∈ (g.group r).nodes, (g.node n).prefs ≠ []) := by
      rcases hr with hr | hr
      · exact .inl hr
      · refine .inr ⟨hr, a.u, ?_, hq.prefs a ha⟩
        rcases hna with h1 | h1
        · exact hg.inside r hr ns hns _ h1
        · exact absurd rfl (bid_not_request hw r hr _ (hg.inside r hr ns hns _ h1) a ha)
    have := C50_exclusive hw hc he h hx (le_refl 0) hgrp hns (hg.groups.excl r hr ns hns)
      (hmem a ha hfa) (hmem b hb' hfb) hna hnb
    exact congrArg Prod.fst this

/-! ## The translation ends normally -/

theorem xlateGrps_total {p : Params} {g : Graph} {q : Bool} {rs : List ℕ} (s : St)
    (hlen : ∀ r ∈ rs, ∀ e ∈ entries p g (g.group r),
      ((g.node e.1).unitCaps e.2.key).length ≤ (g.group r).caps.length)
    (hp : q = true → ∀ a ∈ g.arcs, 0 < a.pref) :
    ∃ s', xlateGrps p g q rs s = some (.ok s') := by
  induction rs generalizing s with
  | nil => exact ⟨s, rfl⟩
  | cons r rs ih =>
    have h1 : ∃ s', xlateGrp p g q (g.group r) s = some (.ok s') := by
      unfold xlateGrp
      split
      · exact ⟨_, rfl⟩
      · simp only
        rw [if_neg, if_neg]
        · exact ⟨_, rfl⟩
        · simp only [Bool.and_eq_true, List.any_eq_true, decide_eq_true_eq, not_and, not_exists]
          intro hq e he
          exact not_le.2 (hp hq _ (mem_entries.1 he).2.1)
        · simp only [List.any_eq_true, decide_eq_true_eq, not_exists, not_and]
          intro e he
          exact not_lt.2 (hlen r (by simp) e he)
    obtain ⟨s1, h1⟩ := h1
    simp only [xlateGrps, h1]
    exact ih s1 (fun r hr => hlen r (by simp [hr]))

theorem entries_len {p : Params} {g : Graph} (hw : WF g) (hc : Complete p g) {r : ℕ}
    (hr : r ∈ g.sups ∨ r ∈ g.reqs) : ∀ e ∈ entries p g (g.group r),
    ((g.node e.1).unitCaps e.2.key).length ≤ (g.group r).caps.length := by
  rintro ⟨n, a⟩ he
  obtain ⟨h1, h2, h3, -⟩ := mem_entries.1 he
  simp only at h1 h2 h3 ⊢
  rcases hr with hr | hr
  · have hn : a.v = n := h3.resolve_left (fun h => hc.bids r hr a h2 (h ▸ h1))
    subst hn
    obtain ⟨sg, -, h4, h5⟩ := hw.sup a h2
    rw [(hc.listed r hr a h2).2 h1] at h4
    cases h4
    exact le_of_eq h5
  · have hn : a.u = n := h3.resolve_right (bid_not_request hw r hr n h1 a h2)
    subst hn
    obtain ⟨sg, -, h4, h5⟩ := hw.req a h2
    rw [hw.member r hr _ h1] at h4
    cases h4
    exact le_of_eq h5

theorem toProg_total {p : Params} {g : Graph} (hw : WF g) (hc : Complete p g)
    (hp : ∀ a ∈ g.arcs, 0 < a.pref) : ∃ P, toProg p g = some (.ok P) := by
  unfold toProg
  simp only
  obtain ⟨s1, h1⟩ := xlateGrps_total (q := false) (rs := g.sups) (p := p) (g := g)
    ⟨[], List.replicate (g.arcs.length + g.reqs.length) ⟨0, 0, some 0⟩, g.arcs.length⟩
    (fun r hr => entries_len hw hc (.inl hr)) (by simp)
  obtain ⟨s2, h2⟩ := xlateGrps_total (q := true) (rs := g.reqs) (p := p) (g := g) s1
    (fun r hr => entries_len hw hc (.inr hr)) (fun _ => hp)
  rw [h1]
  simp only
  rw [h2]
  exact ⟨_, rfl⟩

theorem fromProg_eq {p : Params} {g : Graph} (hc : Complete p g) (e : Bool) (eps : ℚ) (x : ℕ → ℚ) :
    fromProg e eps g x = g.arcs.filterMap fun a =>
      if eps < flowOf e g x a then some (a, flowOf e g x a) else none := by
  unfold fromProg
  have : ∀ (l : List Arc) (k : ℕ), (∀ (i : ℕ) (a : Arc), l[i]? = some a → arcId g a = k + i) →
      ((l.zipIdx k).filterMap fun a =>
        let flow := if e && a.1.exclusive then x a.2 * a.1.exclVal else x a.2
        if eps < flow then some (a.1, flow) else none) =
      l.filterMap fun a => if eps < flowOf e g x a then some (a, flowOf e g x a) else none := by
    intro l
    induction l with
    | nil => simp
    | cons a l ih =>
      intro k hk
      have h0 := hk 0 a (by simp)
      simp only [List.zipIdx_cons, List.filterMap_cons]
      rw [ih (k + 1) (fun i b hb => by
        rw [show k + 1 + i = k + (i + 1) by omega]
        exact hk (i + 1) b (by simpa using hb))]
      simp only [flowOf, h0, add_zero]
  exact this g.arcs 0 fun i a ha => by rw [arcId_get hc.keys ha, zero_add]

/-! ## The order of the groups and nodes does not matter -/

/-- `g'` is `g` with request groups and the nodes within them in another order. -/
structure Same (g g' : Graph) : Prop where
  base : Reorder g g'
  excl : ∀ r, (g'.group r).exclGroups = (g.group r).exclGroups
  sup : ∀ r, r ∉ g.reqs → g'.group r = g.group r

theorem same_afterGreedy (g : Graph) : Same g (afterGreedy g) := by
  have h := Reorder.condition [] g
  refine ⟨⟨h.node, h.arcs, h.sups, h.reqs, ?_, ?_, ?_⟩, ?_, ?_⟩
  · intro r
    simp only [afterGreedy]
    split
    · exact h.caps r
    · exact h.caps r
  · intro r
    simp only [afterGreedy]
    split
    · exact h.qty r
    · exact h.qty r
  · intro r
    simp only [afterGreedy]
    split
    · exact (stableSort_perm _ _).trans (h.nodes r)
    · exact h.nodes r
  · intro r
    have : ((condition [] g).group r).exclGroups = (g.group r).exclGroups := by
      simp only [condition]; split <;> rfl
    simp only [afterGreedy]
    split <;> exact this
  · intro r hr
    simp only [afterGreedy, hr, if_false, condition]

variable {g g' : Graph}

theorem Same.load_eq (h : Same g g') (ms : List (Arc × ℚ)) (r j : ℕ) :
    load g' ms r j = load g ms r j := by
  unfold load
  rw [h.base.node]

theorem Same.unitCap (h : Same g g') (a : Arc) (grp i : ℕ) (u : ℚ) :
    UnitCap g' a grp i u ↔ UnitCap g a grp i u := by
  unfold UnitCap
  rw [h.base.node]

theorem Same.mem_nodes (h : Same g g') (r n : ℕ) : n ∈ (g'.group r).nodes ↔ n ∈ (g.group r).nodes :=
  (h.base.nodes r).mem_iff

theorem Same.mem_reqs (h : Same g g') (r : ℕ) : r ∈ g'.reqs ↔ r ∈ g.reqs := h.base.reqs.mem_iff

theorem Same.regular (h : Same g g') {p : Params} (hg : Regular p g) : Regular p g' := by
  have hb := h.base
  refine ⟨⟨?_, ?_, ?_, ?_, ?_⟩, ⟨?_, ?_, ?_, ?_, ?_⟩, ⟨?_, ?_, ?_⟩, ⟨?_, ?_, ?_⟩, ?_, ?_, ?_, ?_, ?_, ?_⟩
  · exact hb.reqs.nodup_iff.2 hg.wf.nodup
  · intro r hr; rw [hb.sups]; exact hg.wf.disj r ((h.mem_reqs r).1 hr)
  · intro r hr n hn; rw [hb.node]
    exact hg.wf.member r ((h.mem_reqs r).1 hr) n ((h.mem_nodes r n).1 hn)
  · intro a ha; rw [hb.arcs] at ha; rw [hb.node]
    obtain ⟨r, h1, h2, h3⟩ := hg.wf.req a ha
    exact ⟨r, (h.mem_reqs r).2 h1, h2, by rw [hb.caps]; exact h3⟩
  · intro a ha; rw [hb.arcs] at ha; rw [hb.node, hb.sups]
    obtain ⟨r, h1, h2, h3⟩ := hg.wf.sup a ha
    exact ⟨r, h1, h2, by rw [hb.caps]; exact h3⟩
  · rw [hb.arcs]; exact hg.complete.keys
  · intro r hr; rw [hb.sups] at hr
    exact (hb.nodes r).nodup_iff.2 (hg.complete.nodup r hr)
  · intro r hr a ha; rw [hb.sups] at hr; rw [hb.arcs] at ha; rw [hb.node, h.mem_nodes]
    exact hg.complete.listed r hr a ha
  · intro r hr a ha; rw [hb.sups] at hr; rw [hb.arcs] at ha; rw [h.mem_nodes]
    exact hg.complete.bids r hr a ha
  · intro a ha; rw [hb.arcs] at ha; rw [hb.node]; exact hg.complete.present a ha
  · intro a ha r hr; rw [hb.arcs] at ha; rw [hb.node, h.mem_nodes]
    exact hg.requested.listed a ha r ((h.mem_reqs r).1 hr)
  · intro a ha; rw [hb.arcs] at ha; rw [hb.node]; exact hg.requested.prefs a ha
  · intro a ha; rw [hb.arcs] at ha; exact hg.requested.present a ha
  · intro r hr; rw [hb.sups, h.mem_reqs] at hr; rw [h.excl]; exact hg.groups.nodup r hr
  · intro r hr; rw [hb.sups, h.mem_reqs] at hr; rw [h.excl, hb.arcs]; exact hg.groups.excl r hr
  · intro r hr; rw [hb.sups, h.mem_reqs] at hr; rw [h.excl, hb.arcs]; exact hg.groups.side r hr
  · intro r hr; exact (hb.nodes r).nodup_iff.2 (hg.nodup r ((h.mem_reqs r).1 hr))
  · intro r hr; rw [h.excl]
    intro ns hns n hn
    exact (h.mem_nodes r n).2 (hg.inside r ((h.mem_reqs r).1 hr) ns hns n hn)
  · intro a ha grp i u; rw [hb.arcs] at ha; rw [h.unitCap]; exact hg.unit a ha grp i u
  · intro a ha; rw [hb.arcs] at ha; rw [hb.node]; exact hg.qty a ha
  · intro sg hsg; rw [hb.sups] at hsg; rw [hb.caps]; exact hg.cap sg hsg
  · intro a ha; rw [hb.arcs] at ha; rw [hb.node]; exact hg.excl a ha

theorem Same.admissible (h : Same g g') (e : Bool) (f : Arc → ℚ) :
    Admissible e g' f ↔ Admissible e g f := by
  have hb := h.base
  constructor
  · intro ha
    refine ⟨?_, ?_, ?_, ?_, ?_⟩
    · have := ha.nonneg; rwa [hb.arcs] at this
    · have := ha.node; rwa [hb.arcs, hb.node] at this
    · have := ha.all; rwa [hb.arcs] at this
    · intro sg hsg j c hj
      have := ha.cap sg (by rw [hb.sups]; exact hsg) j c (by rw [hb.caps]; exact hj)
      rwa [h.load_eq, hb.arcs] at this
    · intro he r hr ns hns
      have := ha.one he r (by rw [hb.sups, h.mem_reqs]; exact hr) ns (by rw [h.excl]; exact hns)
      rwa [hb.arcs] at this
  · intro ha
    refine ⟨?_, ?_, ?_, ?_, ?_⟩
    · rw [hb.arcs]; exact ha.nonneg
    · rw [hb.arcs, hb.node]; exact ha.node
    · rw [hb.arcs]; exact ha.all
    · intro sg hsg j c hj
      rw [h.load_eq, hb.arcs]
      exact ha.cap sg (by rw [← hb.sups]; exact hsg) j c (by rw [← hb.caps]; exact hj)
    · intro he r hr ns hns
      rw [hb.arcs]
      exact ha.one he r (by rw [← hb.sups, ← h.mem_reqs]; exact hr) ns (by rw [← h.excl]; exact hns)

theorem Same.cost_eq (h : Same g g') (big ps : ℚ) (f : Arc → ℚ) :
    cost big ps g' f = cost big ps g f := by
  have hb := h.base
  have h1 : shortfall big g' f = shortfall big g f := by
    funext r
    unfold shortfall
    rw [hb.caps, hb.arcs]
    simp only [h.load_eq]
  have h2 : (wanted g').Perm (wanted g) := by
    unfold wanted
    have : (fun r => decide (∃ n ∈ (g'.group r).nodes, (g'.node n).prefs ≠ [])) =
        fun r => decide (∃ n ∈ (g.group r).nodes, (g.node n).prefs ≠ []) := by
      funext r
      rw [hb.node]
      simp only [h.mem_nodes]
    rw [this]
    exact hb.reqs.filter _
  unfold cost
  rw [h1, hb.arcs, (h2.map _).sum_eq]

theorem pseudoCost_same (h : Same g g') (e : Bool) : pseudoCost e g' = pseudoCost e g := by
  unfold pseudoCost pseudoCostByPref
  rw [h.base.arcs]

/-! ## Preferences that are not positive -/

theorem xlateGrps_pos {p : Params} {g : Graph} {rs : List ℕ} {s s' : St}
    (h : xlateGrps p g true rs s = some (.ok s')) : ∀ r ∈ rs, hasArcs g (g.group r) = true →
    ∀ e ∈ entries p g (g.group r), 0 < e.2.pref := by
  induction rs generalizing s with
  | nil => simp
  | cons r rs ih =>
    simp only [xlateGrps] at h
    split at h
    · cases h
    · cases h
    · rename_i s1 h1
      intro r' hr'
      rcases List.mem_cons.1 hr' with rfl | hr'
      · intro ha e he
        by_contra hle
        unfold xlateGrp at h1
        simp only [ha, Bool.not_true, Bool.and_false, Bool.false_eq_true, if_false, Bool.true_and]
          at h1
        split at h1
        · cases h1
        · rw [if_pos] at h1
          · cases h1
          · simp only [List.any_eq_true, decide_eq_true_eq]
            exact ⟨e, he, not_lt.1 hle⟩
      · exact ih h r' hr'

theorem xlateGrps_ne_none {p : Params} {g : Graph} {q : Bool} {rs : List ℕ} (s : St)
    (hlen : ∀ r ∈ rs, ∀ e ∈ entries p g (g.group r),
      ((g.node e.1).unitCaps e.2.key).length ≤ (g.group r).caps.length) :
    xlateGrps p g q rs s ≠ none := by
  induction rs generalizing s with
  | nil => simp [xlateGrps]
  | cons r rs ih =>
    have h1 : xlateGrp p g q (g.group r) s ≠ none := by
      unfold xlateGrp
      split
      · simp
      · simp only
        rw [if_neg]
        · split <;> simp
        · simp only [List.any_eq_true, decide_eq_true_eq, not_exists, not_and]
          intro e he
          exact not_lt.2 (hlen r (by simp) e he)
    simp only [xlateGrps]
    split
    · exact absurd ‹_› h1
    · simp
    · exact ih _ (fun r hr => hlen r (by simp [hr]))

/-- A preference that is not positive is refused. -/
theorem toProg_refused {p : Params} {g : Graph} (hw : WF g) (hc : Complete p g)
    (hq : Requested p g) {a : Arc} (ha : a ∈ g.arcs) (hle : a.pref ≤ 0) :
    toProg p g = some (.error .value) := by
  obtain ⟨r, hr, hr2, -⟩ := hw.req a ha
  have hmem := hq.listed a ha r hr hr2
  have hent : (a.u, a) ∈ entries p g (g.group r) :=
    mem_entries.2 ⟨hmem, ha, .inl rfl, hq.present a ha⟩
  have hha : hasArcs g (g.group r) = true := by
    simp only [hasArcs, List.any_eq_true]
    exact ⟨a.u, hmem, by simpa using hq.prefs a ha⟩
  have hnone : toProg p g ≠ none := by
    unfold toProg
    simp only
    obtain ⟨s1, h1⟩ := xlateGrps_total (q := false) (rs := g.sups) (p := p) (g := g)
      ⟨[], List.replicate (g.arcs.length + g.reqs.length) ⟨0, 0, some 0⟩, g.arcs.length⟩
      (fun r hr => entries_len hw hc (.inl hr)) (by simp)
    rw [h1]
    simp only
    split
    · exact absurd ‹_› (xlateGrps_ne_none _ (fun r hr => entries_len hw hc (.inr hr)))
    · simp
    · simp
  have hok : ∀ P, toProg p g ≠ some (.ok P) := by
    intro P h
    unfold toProg at h
    simp only at h
    split at h
    · cases h
    · cases h
    · split at h
      · cases h
      · cases h
      · rename_i h2
        exact absurd (xlateGrps_pos h2 r hr hha _ hent) (not_lt.2 hle)
  cases hP : toProg p g with
  | none => exact absurd hP hnone
  | some P =>
    cases P with
    | error e => rw [(C50_error hP).1]
    | ok P => exact absurd hP (hok P)

/-! ## Matches as a flow -/

namespace Spec

/-- What the matches put on an arc. -/
def amount (ms : List (Arc × ℚ)) (a : Arc) : ℚ := (ms.map fun m => if m.1 = a then m.2 else 0).sum

end Spec

theorem sum_pick {l : List Arc} (hn : l.Nodup) {b : Arc} (hb : b ∈ l) (w : Arc → ℚ) :
    (l.map fun a => if b = a then w a else 0).sum = w b := by
  induction l with
  | nil => simp at hb
  | cons a l ih =>
    rw [List.nodup_cons] at hn
    rw [List.map_cons, List.sum_cons]
    rcases List.mem_cons.1 hb with rfl | hb
    · rw [if_pos rfl]
      have : (l.map fun a => if b = a then w a else 0).sum = 0 := by
        apply List.sum_eq_zero
        intro y hy
        obtain ⟨c, hc, rfl⟩ := List.mem_map.1 hy
        rw [if_neg]
        rintro rfl
        exact hn.1 hc
      rw [this, add_zero]
    · have hne : b ≠ a := fun e => hn.1 (e ▸ hb)
      rw [if_neg hne, ih hn.2 hb, zero_add]

theorem sum_amount {l : List Arc} (hn : l.Nodup) (w : Arc → ℚ) {ms : List (Arc × ℚ)}
    (hm : ∀ m ∈ ms, m.1 ∈ l) :
    (l.map fun a => amount ms a * w a).sum = (ms.map fun m => m.2 * w m.1).sum := by
  induction ms with
  | nil => simp [amount]
  | cons m ms ih =>
    have h1 : ∀ a, amount (m :: ms) a * w a =
        (if m.1 = a then m.2 * w a else 0) + amount ms a * w a := by
      intro a
      simp only [amount, List.map_cons, List.sum_cons]
      split <;> ring
    rw [List.map_cons, List.sum_cons, ← ih (fun m h => hm m (by simp [h])),
      ← sum_pick hn (hm m (by simp)) (fun a => m.2 * w a), ← List.sum_map_add]
    congr 1
    exact List.map_congr_left fun a _ => h1 a

theorem sum_pick_nat {l : List ℕ} (hn : l.Nodup) {b : ℕ} (hb : b ∈ l) (v : ℚ) :
    (l.map fun a => if b = a then v else 0).sum = v := by
  induction l with
  | nil => simp at hb
  | cons a l ih =>
    rw [List.nodup_cons] at hn
    rw [List.map_cons, List.sum_cons]
    rcases List.mem_cons.1 hb with rfl | hb
    · rw [if_pos rfl]
      have : (l.map fun a => if b = a then v else 0).sum = 0 := by
        apply List.sum_eq_zero
        intro y hy
        obtain ⟨c, hc, rfl⟩ := List.mem_map.1 hy
        rw [if_neg]
        rintro rfl
        exact hn.1 hc
      rw [this, add_zero]
    · have hne : b ≠ a := fun e => hn.1 (e ▸ hb)
      rw [if_neg hne, ih hn.2 hb, zero_add]

theorem sum_groupFlow {g : Graph} (hw : WF g) {ms : List (Arc × ℚ)} (hm : ∀ m ∈ ms, m.1 ∈ g.arcs) :
    (g.reqs.map (groupFlow g ms)).sum = totalFlow ms := by
  induction ms with
  | nil =>
    have : groupFlow g [] = fun _ => 0 := by funext r; simp [groupFlow]
    simp [this, totalFlow]
  | cons m ms ih =>
    obtain ⟨r, hr, hr2, -⟩ := hw.req m.1 (hm m (by simp))
    have h1 : ∀ a, groupFlow g (m :: ms) a = (if r = a then m.2 else 0) + groupFlow g ms a := by
      intro a
      simp only [groupFlow, List.map_cons, List.sum_cons, hr2, Option.some.injEq]
    have h2 : totalFlow (m :: ms) = m.2 + totalFlow ms := by simp [totalFlow]
    rw [h2, ← ih (fun m h => hm m (by simp [h])), ← sum_pick_nat hw.nodup hr m.2, ← List.sum_map_add]
    congr 1
    exact List.map_congr_left fun a _ => h1 a

end Cyclus.Prog
