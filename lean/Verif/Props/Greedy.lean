import Verif.Lemmas.GreedyMax

/-!
# C12-C15, C57-C60: the greedy solver

The vocabulary (`load`, `flow`, `WF`, …) is in `Verif.Spec.Greedy`.
-/

namespace Cyclus.Exchange

open Spec

/-- The solver has no conditioner, or a `GreedyPreconditioner` with some weights. -/
def Conditioner (cond : Graph → Graph) : Prop := cond = id ∨ ∃ w, cond = condition w

theorem Conditioner.reorder {cond : Graph → Graph} (h : Conditioner cond) (g : Graph) :
    Reorder g (cond g) := by
  rcases h with rfl | ⟨w, rfl⟩
  · exact Reorder.refl g
  · exact Reorder.condition w g

theorem solveGraph_run {p : Params} {eo : Bool} {cond : Graph → Graph} {g : Graph}
    {prev : ℕ → List ℚ} {old : List (Arc × ℚ)} {s : St} {res : Except Stop ℚ}
    (h : solveGraph p eo cond g prev old = (s, res)) :
    ∃ s1 r1, groupLoop p (cond g) (initSt (cond g) prev old) (cond g).reqs = (s1, r1) ∧
      s.matches_ = s1.matches_ ∧
      (∀ v, res = .ok v → r1 = .ok () ∧ v = s1.obj + s1.unmatched * pseudoCost eo g) := by
  unfold solveGraph at h
  simp only at h
  split at h
  · rename_i s1 e hl
    obtain ⟨rfl, rfl⟩ := Prod.mk.inj h
    exact ⟨_, _, hl, rfl, fun v hv => by cases hv⟩
  · rename_i s1 hl
    obtain ⟨rfl, rfl⟩ := Prod.mk.inj h
    exact ⟨_, _, hl, rfl, fun v hv => by cases hv; exact ⟨rfl, rfl⟩⟩

theorem solve_bounds {p : Params} {eo : Bool} {cond : Graph → Graph} {g : Graph}
    {prev : ℕ → List ℚ} {tol : ℚ → ℚ} {s : St} {res : Except Stop ℚ}
    (hcond : Conditioner cond) (hwf : WF g) (hn : Nonneg p.dmax g) (hun : Uniform p.dmax g)
    (hulp : Ulp p tol) (heps : 0 ≤ p.eps)
    (h : solveGraph p eo cond g prev [] = (s, res)) :
    Bounds p (cond g) tol s.matches_ := by
  have hre := hcond.reorder g
  have hwf' := hre.wf hwf
  have hn' := hre.nonneg hn
  have hun' := hre.uniform hun
  obtain ⟨s1, r1, hl, hms, _⟩ := solveGraph_run h
  rw [hms]
  have := groupLoop_ind (p := p) (g := cond g)
    (I := fun s => Led p (cond g) s ∧ Bounds p (cond g) tol s.matches_)
    (J := fun s => Bounds p (cond g) tol s.matches_)
    (fun s s' a rem q ha hI hst => by
      refine ⟨hI.1.arcStep hwf' hn' heps ha hst, ?_⟩
      obtain ⟨r, hr, hu, hlu⟩ := hwf'.req a ha
      obtain ⟨sg, hsg, hv, hlv⟩ := hwf'.sup a ha
      have hne : r ≠ sg := fun e => hwf'.disj r hr (e ▸ hsg)
      rcases arcStep_cases hu hv hne hst with ⟨_, rfl⟩ | ⟨⟨e, he⟩, _⟩ |
        ⟨q', cap, t, hc, ht, hq, _, rfl⟩
      · exact hI.2
      · cases he
      · have hqty := arcStep_qty hn' hun' hulp heps hI.1 ha hr hu hsg hv hlu hlv hc ht hq
        exact hI.2.snoc hun' hI.1 ha hne (hwf'.disj r hr) hu hv hlu hlv hqty)
    (fun s s' a rem e ha hI hst => by
      rw [arcStep_err_matches hwf' ha hst]; exact hI.2)
    (fun s x hI => ⟨⟨hI.1.caps, hI.1.nq, hI.1.mem, hI.1.obj⟩, hI.2⟩)
    (cond g).reqs _ s1 r1 ⟨Led.init p (cond g) prev, Bounds.init hun'⟩ hl
  cases r1 with
  | error e => exact this.2 e rfl
  | ok u => exact (this.1 rfl).2

theorem solve_mem {p : Params} {eo : Bool} {cond : Graph → Graph} {g : Graph}
    {prev : ℕ → List ℚ} {s : St} {res : Except Stop ℚ}
    (hcond : Conditioner cond) (hwf : WF g) (hn : Nonneg p.dmax g) (heps : 0 ≤ p.eps)
    (h : solveGraph p eo cond g prev [] = (s, res)) :
    ∀ m ∈ s.matches_, m.1 ∈ g.arcs ∧ p.eps < m.2 ∧ (m.1.exclusive = true → m.2 = m.1.exclVal) := by
  have hre := hcond.reorder g
  have hwf' := hre.wf hwf
  have hn' := hre.nonneg hn
  obtain ⟨s1, r1, hl, hms, _⟩ := solveGraph_run h
  rw [hms, ← hre.arcs]
  have := groupLoop_ind (p := p) (g := cond g) (I := Led p (cond g))
    (J := fun s => ∀ m ∈ s.matches_, m.1 ∈ (cond g).arcs ∧ p.eps < m.2 ∧
      (m.1.exclusive = true → m.2 = m.1.exclVal))
    (fun s s' a rem q ha hI hst => hI.arcStep hwf' hn' heps ha hst)
    (fun s s' a rem e ha hI hst => by
      rw [arcStep_err_matches hwf' ha hst]; exact hI.mem)
    (fun s x hI => ⟨hI.caps, hI.nq, hI.mem, hI.obj⟩)
    (cond g).reqs _ s1 r1 (Led.init p (cond g) prev) hl
  cases r1 with
  | error e => exact this.2 e rfl
  | ok u => exact (this.1 rfl).mem

/-! ## C12 -/

/-- **C12** (partial).  Whatever the result of the solver, the matches on the graph respect every
limited capacity of every supply group and of every request group with a single capacity: the sum
of quantity times unit capacity is at most the capacity, or exceeds it by at most the floating
point tolerance of one exclusive match of the group.

Full statement: the same for every request group, and for all non-negative unit capacities.
Missing, because false: request groups with several capacities (`C12_fails_request`), and
constraints that mix zero and positive unit capacities (`C12_fails_zero`); the latter are excluded
by `Uniform`. -/
theorem C12_capacities_partial {p : Params} {eo : Bool} {cond : Graph → Graph} {g : Graph}
    {prev : ℕ → List ℚ} {tol : ℚ → ℚ} {s : St} {res : Except Stop ℚ}
    (hcond : Conditioner cond) (hwf : WF g) (hn : Nonneg p.dmax g) (hun : Uniform p.dmax g)
    (hulp : Ulp p tol) (heps : 0 ≤ p.eps)
    (h : solveGraph p eo cond g prev [] = (s, res)) :
    ∀ (grp i : ℕ) (c : ℚ), Limited g grp → (g.group grp).caps[i]? = some c → c ≠ p.dmax →
      CapOK g tol s.matches_ grp i c := by
  intro grp i c hlim hc hcd
  have hre := hcond.reorder g
  have hb := solve_bounds hcond hwf hn hun hulp heps h
  exact hre.capOK (hb.cap grp i c (hre.limited hlim) (by rw [hre.caps]; exact hc) hcd)

/-! ## C13 -/

/-- **C13**, request groups: the flow into every request group is at most the requested quantity,
or exceeds it by at most the tolerance of one exclusive match of the group. -/
theorem C13_group {p : Params} {eo : Bool} {cond : Graph → Graph} {g : Graph}
    {prev : ℕ → List ℚ} {tol : ℚ → ℚ} {s : St} {res : Except Stop ℚ}
    (hcond : Conditioner cond) (hwf : WF g) (hn : Nonneg p.dmax g)
    (hulp : Ulp p tol) (heps : 0 ≤ p.eps) (hqty : ∀ r ∈ g.reqs, 0 ≤ (g.group r).qty)
    (h : solveGraph p eo cond g prev [] = (s, res)) :
    ∀ r ∈ g.reqs, GroupOK g tol s.matches_ r := by
  have hre := hcond.reorder g
  have hwf' := hre.wf hwf
  have hn' := hre.nonneg hn
  obtain ⟨s1, r1, hl, hms, _⟩ := solveGraph_run h
  rw [hms]
  have := groupLoop_flow hwf' hn' hulp heps
    (fun r hr => by rw [hre.qty]; exact hqty r (hre.reqs.mem_iff.1 hr)) (cond g).reqs
    (fun _ h => h) hwf'.nodup (Led.init p (cond g) prev) (fun r _ => rfl)
    (fun r h h' => absurd h h') hl
  intro r hr
  exact hre.groupOK (this.1 r (hre.reqs.mem_iff.2 hr))

/-- **C13**, nodes (partial): the flow through every node is at most its quantity, or exceeds it
by at most the tolerance of one exclusive match of the node.

Full statement: without `Uniform`.  That is false, see `C13_fails_zero`. -/
theorem C13_node_partial {p : Params} {eo : Bool} {cond : Graph → Graph} {g : Graph}
    {prev : ℕ → List ℚ} {tol : ℚ → ℚ} {s : St} {res : Except Stop ℚ}
    (hcond : Conditioner cond) (hwf : WF g) (hn : Nonneg p.dmax g) (hun : Uniform p.dmax g)
    (hulp : Ulp p tol) (heps : 0 ≤ p.eps)
    (h : solveGraph p eo cond g prev [] = (s, res)) :
    ∀ n, 0 ≤ (g.node n).qty → NodeOK g tol s.matches_ n := by
  intro n hn0
  have hre := hcond.reorder g
  have hb := solve_bounds hcond hwf hn hun hulp heps h
  exact hre.nodeOK (hb.node n (by rw [hre.node]; exact hn0))

/-- **C13**, positivity: every match is on an arc of the graph and carries more than `eps()`. -/
theorem C13_positive {p : Params} {eo : Bool} {cond : Graph → Graph} {g : Graph}
    {prev : ℕ → List ℚ} {s : St} {res : Except Stop ℚ}
    (hcond : Conditioner cond) (hwf : WF g) (hn : Nonneg p.dmax g) (heps : 0 ≤ p.eps)
    (h : solveGraph p eo cond g prev [] = (s, res)) :
    ∀ m ∈ s.matches_, m.1 ∈ g.arcs ∧ p.eps < m.2 :=
  fun m hm => ⟨(solve_mem hcond hwf hn heps h m hm).1, (solve_mem hcond hwf hn heps h m hm).2.1⟩

/-! ## C14 -/

/-- **C14.** Every match on an exclusive arc carries exactly the exclusive value of the arc. -/
theorem C14_exclusive {p : Params} {eo : Bool} {cond : Graph → Graph} {g : Graph}
    {prev : ℕ → List ℚ} {s : St} {res : Except Stop ℚ}
    (hcond : Conditioner cond) (hwf : WF g) (hn : Nonneg p.dmax g) (heps : 0 ≤ p.eps)
    (h : solveGraph p eo cond g prev [] = (s, res)) :
    ∀ m ∈ s.matches_, m.1.exclusive = true → m.2 = m.1.exclVal :=
  fun m hm => (solve_mem hcond hwf hn heps h m hm).2.2

/-- **C14**, the exclusive value (`Arc::Arc`): an arc is exclusive if and only if one of its ends
is; its exclusive value is 0 (so it is never matched) or the whole quantity of an exclusive end. -/
theorem C14_arc_value (dist : ℚ → ℚ → ℚ) (node : ℕ → Node) (u v : ℕ) (pref : ℚ) :
    ((mkArc dist node u v pref).exclusive = true ↔
      ((node u).exclusive = true ∨ (node v).exclusive = true)) ∧
    ((mkArc dist node u v pref).exclVal = 0 ∨
      ((node u).exclusive = true ∧ (mkArc dist node u v pref).exclVal = (node u).qty) ∨
      ((node v).exclusive = true ∧ (mkArc dist node u v pref).exclVal = (node v).qty)) := by
  constructor
  · simp [mkArc]
  · cases hu : (node u).exclusive <;> cases hv : (node v).exclusive <;>
      simp only [mkArc, hu, hv] <;> split_ifs <;> simp_all

/-! ## C15 -/

namespace Spec

/-- The cost of one arc in the pseudo cost. -/
def pseudoArcCost (exclOrders : Bool) (a : Arc) : ℚ :=
  (if exclOrders = true ∧ a.exclusive = true then a.exclVal / a.pref else 1 / a.pref) *
  (if a.exclusive = true ∧ a.exclVal < 1 then 1 / a.exclVal else 1)

/-- `pc` is 1.1 times the largest cost of an arc (or 0 if no arc has a positive cost). -/
structure IsPseudoCost (exclOrders : Bool) (g : Graph) (pc : ℚ) : Prop where
  nonneg : 0 ≤ pc
  upper : ∀ a ∈ g.arcs, pseudoArcCost exclOrders a * (11 / 10) ≤ pc
  attained : pc = 0 ∨ ∃ a ∈ g.arcs, pc = pseudoArcCost exclOrders a * (11 / 10)

end Spec

theorem foldl_max (f : Arc → ℚ) (l : List Arc) (x : ℚ) :
    x ≤ l.foldl (fun mx a => max mx (f a)) x ∧
    (∀ a ∈ l, f a ≤ l.foldl (fun mx a => max mx (f a)) x) ∧
    (l.foldl (fun mx a => max mx (f a)) x = x ∨
      ∃ a ∈ l, l.foldl (fun mx a => max mx (f a)) x = f a) := by
  induction l generalizing x with
  | nil => simp
  | cons a as ih =>
    simp only [List.foldl_cons]
    obtain ⟨h1, h2, h3⟩ := ih (max x (f a))
    refine ⟨(le_max_left _ _).trans h1, ?_, ?_⟩
    · intro b hb
      rcases List.mem_cons.1 hb with rfl | hb
      · exact (le_max_right _ _).trans h1
      · exact h2 b hb
    · rcases h3 with h3 | ⟨b, hb, h3⟩
      · rw [h3]
        rcases max_choice x (f a) with h | h
        · left; exact h
        · right; exact ⟨a, by simp, h⟩
      · right; exact ⟨b, by simp [hb], h3⟩

theorem pseudoCost_spec (eo : Bool) (g : Graph) : IsPseudoCost eo g (pseudoCost eo g) := by
  have hf : ∀ a, arcCost eo a *
      (if a.exclusive && decide (a.exclVal < 1) then 1 / a.exclVal else 1) = pseudoArcCost eo a := by
    intro a; simp [arcCost, pseudoArcCost]
  obtain ⟨h1, h2, h3⟩ := foldl_max (pseudoArcCost eo) g.arcs 0
  have he : pseudoCost eo g =
      (g.arcs.foldl (fun mx a => max mx (pseudoArcCost eo a)) 0) * (11 / 10) := by
    unfold pseudoCost pseudoCostByPref
    simp only [hf]
    norm_num
  set M := g.arcs.foldl (fun mx a => max mx (pseudoArcCost eo a)) 0
  refine ⟨?_, ?_, ?_⟩
  · rw [he]; linarith
  · intro a ha; rw [he]; have := h2 a ha; linarith
  · rcases h3 with h3 | ⟨a, ha, h3⟩
    · left; rw [he, h3]; norm_num
    · right; exact ⟨a, ha, by rw [he, h3]⟩

/-- **C15.** The objective is the cost of the matches plus the pseudo cost of all demand that was
not matched, where matched and unmatched demand together are the requested quantities of all
request groups. -/
theorem C15_objective {p : Params} {eo : Bool} {cond : Graph → Graph} {g : Graph}
    {prev : ℕ → List ℚ} {tol : ℚ → ℚ} {s : St} {v : ℚ}
    (hcond : Conditioner cond) (hwf : WF g) (hn : Nonneg p.dmax g)
    (hulp : Ulp p tol) (heps : 0 ≤ p.eps) (hqty : ∀ r ∈ g.reqs, 0 ≤ (g.group r).qty)
    (h : solveGraph p eo cond g prev [] = (s, .ok v)) :
    ∃ pc, IsPseudoCost eo g pc ∧
      v = totalCost g s.matches_ +
        ((g.reqs.map fun r => (g.group r).qty).sum - totalFlow s.matches_) * pc ∧
      s.unmatched + totalFlow s.matches_ = (g.reqs.map fun r => (g.group r).qty).sum ∧
      s.obj = v := by
  have hre := hcond.reorder g
  have hwf' := hre.wf hwf
  have hn' := hre.nonneg hn
  refine ⟨pseudoCost eo g, pseudoCost_spec eo g, ?_⟩
  have h' := h
  unfold solveGraph at h'
  simp only at h'
  split at h'
  · cases h'
  · rename_i s1 hl
    obtain ⟨rfl, h2⟩ := Prod.mk.inj h'
    cases h2
    have := groupLoop_flow hwf' hn' hulp heps
      (fun r hr => by rw [hre.qty]; exact hqty r (hre.reqs.mem_iff.1 hr)) (cond g).reqs
      (fun _ h => h) hwf'.nodup (Led.init p (cond g) prev) (fun r _ => rfl)
      (fun r h h' => absurd h h') hl
    obtain ⟨hled, hun⟩ := this.2 rfl
    have hsum : ((cond g).reqs.map fun r => ((cond g).group r).qty).sum =
        (g.reqs.map fun r => (g.group r).qty).sum := by
      simp only [hre.qty]
      exact (hre.reqs.map _).sum_eq
    rw [hsum] at hun
    have hun' : s1.unmatched + totalFlow s1.matches_ =
        (g.reqs.map fun r => (g.group r).qty).sum := by
      rw [hun]; simp [initSt, totalFlow]
    refine ⟨?_, hun', rfl⟩
    simp only
    rw [hled.obj, hre.totalCost, ← hun']; ring

/-! ## C57, C58 -/

/-- **C57.** If no limited constraint mixes zero and positive unit capacities and one floating
point step is at most `eps()`, the solver ends without an exception or a failed assertion. -/
theorem C57_no_exception {p : Params} {eo : Bool} {cond : Graph → Graph} {g : Graph}
    {prev : ℕ → List ℚ} {tol : ℚ → ℚ}
    (hcond : Conditioner cond) (hwf : WF g) (hn : Nonneg p.dmax g) (hun : Uniform p.dmax g)
    (hulp : Ulp p tol) (htol : ∀ x, tol x ≤ p.eps) (heps : 0 ≤ p.eps) :
    ∃ s v, solveGraph p eo cond g prev [] = (s, .ok v) := by
  have hre := hcond.reorder g
  obtain ⟨s', h⟩ := groupLoop_ok (hre.wf hwf) (hre.nonneg hn) (hre.uniform hun) hulp htol heps
    (Led.init p (cond g) prev) (cond g).reqs
  unfold solveGraph
  simp only
  rw [h]
  exact ⟨_, _, rfl⟩

/-- **C58.** With exclusive orders taken into account (the default) the cost of an unmatched unit
is larger than the cost of a unit on any arc with positive preference that can be matched at
all, so every match lowers the objective. -/
theorem C58_pseudo_cost {p : Params} {cond : Graph → Graph} {g : Graph}
    {prev : ℕ → List ℚ} {s : St} {res : Except Stop ℚ} {pc : ℚ}
    (hcond : Conditioner cond) (hwf : WF g) (hn : Nonneg p.dmax g) (heps : 0 ≤ p.eps)
    (hpc : IsPseudoCost true g pc) (hpref : ∀ a ∈ g.arcs, 0 < a.pref)
    (h : solveGraph p true cond g prev [] = (s, res)) :
    (∀ a ∈ g.arcs, (a.exclusive = true → 0 < a.exclVal) → 1 / a.pref < pc) ∧
    ∀ m ∈ s.matches_, m.2 / m.1.pref < m.2 * pc := by
  have key : ∀ a ∈ g.arcs, (a.exclusive = true → 0 < a.exclVal) → 1 / a.pref < pc := by
    intro a ha hx
    have hp := hpref a ha
    have h1 := hpc.upper a ha
    have h2 : 1 / a.pref ≤ pseudoArcCost true a := by
      unfold pseudoArcCost
      by_cases he : a.exclusive = true
      · have hx := hx he
        simp only [he, true_and, and_self, if_true]
        split
        · have : a.exclVal / a.pref * (1 / a.exclVal) = 1 / a.pref := by field_simp
          rw [this]
        · rename_i h3
          rw [mul_one]
          exact div_le_div_of_nonneg_right (not_lt.1 h3) hp.le
      · simp [he]
    have h3 : 0 < 1 / a.pref := by positivity
    linarith
  refine ⟨key, fun m hm => ?_⟩
  obtain ⟨h1, h2, h3⟩ := solve_mem hcond hwf hn heps h m hm
  have hm0 : 0 < m.2 := lt_of_le_of_lt heps h2
  have := key m.1 h1 (fun he => by rw [← h3 he]; exact hm0)
  rw [div_eq_mul_one_div]
  exact mul_lt_mul_of_pos_left this hm0

/-! ## C59, C60 -/

theorem Reorder.fits {g g' : Graph} (h : Reorder g g') {dmax : ℚ} {ms : List (Arc × ℚ)} {a : Arc}
    {x : ℚ} (hf : Fits dmax g ms a x) : Fits dmax g' ms a x := by
  refine ⟨by rw [h.node]; exact hf.u, by rw [h.node]; exact hf.v, ?_, ?_⟩
  · intro sg i c y h1 h2 h3 h4
    rw [h.node] at h1 h4; rw [h.caps] at h2; rw [h.load]
    exact hf.sup sg i c y h1 h2 h3 h4
  · intro r h1
    rw [h.node] at h1
    simp only [h.caps, h.node, h.load]
    exact hf.req r h1

theorem solve_max {p : Params} {eo : Bool} {cond : Graph → Graph} {g : Graph}
    {prev : ℕ → List ℚ} {tol : ℚ → ℚ} {s : St} {v : ℚ}
    (hcond : Conditioner cond) (hwf : WF g) (hn : Nonneg p.dmax g) (hun : Uniform p.dmax g)
    (hulp : Ulp p tol) (heps : 0 ≤ p.eps) (hqty : ∀ r ∈ g.reqs, 0 ≤ (g.group r).qty)
    (hmax : ∀ n, (g.node n).qty ≤ p.dmax) (hlist : Listed g)
    (h : solveGraph p eo cond g prev [] = (s, .ok v)) :
    ∀ a ∈ g.arcs, ∀ r ∈ g.reqs, (g.node a.u).group = some r → a.exclusive = false →
      NoRoom p (cond g) s.matches_ ((g.group r).qty - groupFlow g s.matches_ r) a ∧
      Prio p (cond g) s.matches_ a := by
  have hre := hcond.reorder g
  obtain ⟨s1, r1, hl, hms, hv⟩ := solveGraph_run h
  obtain ⟨rfl, _⟩ := hv v rfl
  have H : Hyp p (cond g) tol := ⟨hre.wf hwf, hre.nonneg hn, hre.uniform hun, hulp, heps,
    fun n => by rw [hre.node]; exact hmax n⟩
  have := groupLoop_max H
    (fun r hr => by rw [hre.qty]; exact hqty r (hre.reqs.mem_iff.1 hr))
    (fun r hr => (hre.nodes r).nodup_iff.2 (hlist.nodup r (hre.reqs.mem_iff.1 hr)))
    (cond g).reqs (fun _ h => h) H.wf.nodup _ s1 (Led.init p (cond g) prev)
    (fun r _ m hm => by simp [initSt] at hm) hl
  intro a ha r hr hg hae
  have := this.2 a (by rw [hre.arcs]; exact ha) r (hre.reqs.mem_iff.2 hr)
    ((hre.nodes r).mem_iff.2 (hlist.mem a ha r hg)) hae
  rw [hre.qty, hre.groupFlow, ← hms] at this
  exact this

/-- **C59.** The greedy solution is maximal: on no non-exclusive arc could more than `eps()` be
added within the unmet demand of its request group, the quantities of its nodes, and the
capacities (all of those of the supply group, one of those of the request group). -/
theorem C59_maximal {p : Params} {eo : Bool} {cond : Graph → Graph} {g : Graph}
    {prev : ℕ → List ℚ} {tol : ℚ → ℚ} {s : St} {v : ℚ}
    (hcond : Conditioner cond) (hwf : WF g) (hn : Nonneg p.dmax g) (hun : Uniform p.dmax g)
    (hulp : Ulp p tol) (heps : 0 ≤ p.eps) (hqty : ∀ r ∈ g.reqs, 0 ≤ (g.group r).qty)
    (hmax : ∀ n, (g.node n).qty ≤ p.dmax) (hlist : Listed g)
    (h : solveGraph p eo cond g prev [] = (s, .ok v)) :
    ∀ a ∈ g.arcs, a.exclusive = false → ∀ r, (g.node a.u).group = some r →
      ∀ x, p.eps < x → groupFlow g s.matches_ r + x ≤ (g.group r).qty →
        ¬ Fits p.dmax g s.matches_ a x := by
  intro a ha hae r hg x hx hxr hf
  obtain ⟨r', hr', hg', _⟩ := hwf.req a ha
  rw [hg] at hg'; cases hg'
  exact (solve_max hcond hwf hn hun hulp heps hqty hmax hlist h a ha r hr' hg hae).1 x hx
    (by linarith) ((hcond.reorder g).fits hf)

/-- **C60.** Preferences are honoured: if a request node gets anything on a (non-exclusive) arc,
then on every non-exclusive arc of the node with a higher preference nodes or capacities leave no
room for more than `eps()`. -/
theorem C60_preference {p : Params} {eo : Bool} {cond : Graph → Graph} {g : Graph}
    {prev : ℕ → List ℚ} {tol : ℚ → ℚ} {s : St} {v : ℚ}
    (hcond : Conditioner cond) (hwf : WF g) (hn : Nonneg p.dmax g) (hun : Uniform p.dmax g)
    (hulp : Ulp p tol) (heps : 0 ≤ p.eps) (hqty : ∀ r ∈ g.reqs, 0 ≤ (g.group r).qty)
    (hmax : ∀ n, (g.node n).qty ≤ p.dmax) (hlist : Listed g)
    (h : solveGraph p eo cond g prev [] = (s, .ok v)) :
    ∀ m ∈ s.matches_, m.1.exclusive = false → ∀ a ∈ g.arcs, a.exclusive = false → a.u = m.1.u →
      ∀ pm pa, (g.node a.u).prefs.lookup (m.1.u, m.1.v) = some pm →
        (g.node a.u).prefs.lookup (a.u, a.v) = some pa → pm < pa →
        ∀ x, p.eps < x → ¬ Fits p.dmax g s.matches_ a x := by
  intro m hm hme a ha hae hu pm pa h1 h2 hlt x hx hf
  have hre := hcond.reorder g
  obtain ⟨r, hr, hg, _⟩ := hwf.req a ha
  refine (solve_max hcond hwf hn hun hulp heps hqty hmax hlist h a ha r hr hg hae).2 m hm hme hu.symm
    ?_ x hx (hre.fits hf)
  rw [hre.node, ← hu]
  unfold Node.pref Arc.key
  rw [h1, h2]
  exact hlt

/-! ## Concrete cases -/

/-- Constants used in the concrete cases: exact comparison, `eps() = 1e-6`. -/
def exParams : Params := ⟨1 / 1000000, 10 ^ 30, fun a b => if b ≤ a then 0 else 3⟩

theorem exParams_ulp : Ulp exParams (fun _ => 0) := by
  refine ⟨fun a b h => ?_⟩
  by_contra hc
  have : ¬ b ≤ a := by simpa using hc
  simp only [exParams, this, if_false] at h
  norm_num at h

/-- A node without exclusivity; `u` is the vector of unit capacities on all its arcs. -/
def exNode (grp : ℕ) (u : List ℚ) (prefs : List (ArcKey × ℚ)) (qty : ℚ) (excl : Bool) : Node :=
  ⟨some grp, fun _ => u, prefs, excl, "c", 0, qty⟩

/-- Two request groups (the second one exclusive) and one supply group with one capacity. -/
def exGraph : Graph where
  node
    | 0 => exNode 0 [] [((0, 2), 1), ((0, 3), 2)] 6 false
    | 1 => exNode 1 [] [((1, 2), 5)] 4 true
    | 2 => exNode 2 [2] [] 20 false
    | _ => exNode 2 [1] [] 3 false
  group
    | 0 => ⟨[0], [], [], 6⟩
    | 1 => ⟨[1], [], [[1]], 4⟩
    | 2 => ⟨[2, 3], [15], [], 0⟩
    | _ => ⟨[], [], [], 0⟩
  reqs := [0, 1]
  sups := [2]
  arcs := [⟨0, 2, false, 0, 1⟩, ⟨0, 3, false, 0, 2⟩, ⟨1, 2, true, 4, 5⟩]

theorem exGraph_arc {a : Arc} (h : a ∈ exGraph.arcs) :
    a = ⟨0, 2, false, 0, 1⟩ ∨ a = ⟨0, 3, false, 0, 2⟩ ∨ a = ⟨1, 2, true, 4, 5⟩ := by
  simpa [exGraph] using h

theorem exGraph_wf : WF exGraph := by
  refine ⟨by decide, by decide, by decide +kernel, by decide +kernel, by decide +kernel⟩

theorem exGraph_cap {grp i : ℕ} {c : ℚ} (h : (exGraph.group grp).caps[i]? = some c) :
    grp = 2 ∧ i = 0 ∧ c = 15 := by
  match grp with
  | 0 => simp [exGraph] at h
  | 1 => simp [exGraph] at h
  | 2 => cases i <;> simp [exGraph] at h; exact ⟨rfl, rfl, h.symm⟩
  | n + 3 => simp [exGraph] at h

theorem exGraph_unit {a : Arc} (ha : a ∈ exGraph.arcs) {grp i : ℕ} {u : ℚ}
    (h : UnitCap exGraph a grp i u) : 0 < u := by
  obtain ⟨n, hn, hg, hu⟩ := h
  rcases exGraph_arc ha with rfl | rfl | rfl <;> rcases hn with rfl | rfl <;> cases i <;>
    simp [exGraph, exNode] at hu <;> subst hu <;> norm_num

theorem exGraph_nonneg : Nonneg exParams.dmax exGraph := by
  refine ⟨?_, fun a ha grp i u hu => (exGraph_unit ha hu).le⟩
  intro grp i c hc
  obtain ⟨_, _, rfl⟩ := exGraph_cap hc
  norm_num [exParams]

theorem exGraph_uniform : Uniform exParams.dmax exGraph := by
  refine ⟨?_, fun grp i c _ _ => Or.inl fun a ha u hu => exGraph_unit ha hu⟩
  intro grp i c hc
  obtain ⟨_, _, rfl⟩ := exGraph_cap hc
  norm_num

/-- The hypotheses of C12-C15, C57 and C58 hold for this graph.  The solver serves the exclusive
request with its 4 units (which use 8 of the capacity 15) and then the first request: first 3
units on its preferred arc (the whole node), then 2 units, which exhaust the capacity. -/
example : Conditioner (condition []) ∧ WF exGraph ∧ Nonneg exParams.dmax exGraph ∧
    Uniform exParams.dmax exGraph ∧ Ulp exParams (fun _ => 0) ∧ 0 ≤ exParams.eps ∧
    (∀ x : ℚ, (fun _ => (0 : ℚ)) x ≤ exParams.eps) ∧
    (∀ r ∈ exGraph.reqs, 0 ≤ (exGraph.group r).qty) ∧ (∀ a ∈ exGraph.arcs, 0 < a.pref) ∧
    (solveGraph exParams true (condition []) exGraph (fun _ => []) []).1.matches_ =
      [(⟨1, 2, true, 4, 5⟩, 4), (⟨0, 3, false, 0, 2⟩, 3), (⟨0, 2, false, 0, 1⟩, 2)] ∧
    (solveGraph exParams true (condition []) exGraph (fun _ => []) []).1.unmatched = 1 := by
  refine ⟨Or.inr ⟨_, rfl⟩, exGraph_wf, exGraph_nonneg, exGraph_uniform, exParams_ulp,
    by norm_num [exParams], fun _ => by norm_num [exParams], by decide +kernel, by decide +kernel,
    by decide +kernel, by decide +kernel⟩

/-- The additional hypotheses of C59 and C60 hold for this graph as well; request node 0 gets 2
units on an arc of preference 1 and its preferred arc has been used up. -/
example : (∀ n, (exGraph.node n).qty ≤ exParams.dmax) ∧ Listed exGraph ∧
    (∃ m ∈ (solveGraph exParams true (condition []) exGraph (fun _ => []) []).1.matches_,
      m.1.exclusive = false ∧ m.1.u = 0 ∧
      (exGraph.node 0).prefs.lookup (m.1.u, m.1.v) = some 1) ∧
    (exGraph.node 0).prefs.lookup (0, 3) = some 2 := by
  refine ⟨?_, ⟨?_, by decide⟩, ?_, by decide +kernel⟩
  · intro n
    match n with
    | 0 => norm_num [exGraph, exNode, exParams]
    | 1 => norm_num [exGraph, exNode, exParams]
    | 2 => norm_num [exGraph, exNode, exParams]
    | n + 3 => show (3 : ℚ) ≤ exParams.dmax; norm_num [exParams]
  · intro a ha r hr
    rcases exGraph_arc ha with rfl | rfl | rfl <;> simp [exGraph, exNode] at hr ⊢ <;> subst hr <;>
      simp
  · decide +kernel

/-! ### Request groups with several capacities -/

/-- One request group with the two capacities 10 and 2, and an unconstrained bid. -/
def exReq : Graph where
  node
    | 0 => exNode 0 [1, 1] [((0, 1), 1)] 10 false
    | _ => exNode 1 [] [] 10 false
  group
    | 0 => ⟨[0], [10, 2], [], 10⟩
    | 1 => ⟨[1], [], [], 0⟩
    | _ => ⟨[], [], [], 0⟩
  reqs := [0]
  sups := [1]
  arcs := [⟨0, 1, false, 0, 1⟩]

/-- **C12 fails** for request groups with several capacities: `Capacity` takes the largest of the
quotients for a request node, so only the loosest constraint is respected.  Here 10 units are
matched against a capacity of 2. -/
theorem C12_fails_request :
    ∃ (p : Params) (g : Graph) (ms : List (Arc × ℚ)) (i : ℕ) (c : ℚ),
      WF g ∧ Nonneg p.dmax g ∧ Uniform p.dmax g ∧ Ulp p (fun _ => 0) ∧ 0 ≤ p.eps ∧
      (solveGraph p true (condition []) g (fun _ => []) []).1.matches_ = ms ∧
      0 ∈ g.reqs ∧ (g.group 0).caps[i]? = some c ∧ c ≠ p.dmax ∧
      (∀ m ∈ ms, m.1.exclusive = false) ∧ c < load g ms 0 i := by
  have hcap : ∀ {grp i : ℕ} {c : ℚ}, (exReq.group grp).caps[i]? = some c → c = 10 ∨ c = 2 := by
    intro grp i c h
    match grp with
    | 0 =>
      match i with
      | 0 => simp [exReq] at h; exact Or.inl h.symm
      | 1 => simp [exReq] at h; exact Or.inr h.symm
      | n + 2 => simp [exReq] at h
    | 1 => simp [exReq] at h
    | n + 2 => simp [exReq] at h
  have hunit : ∀ {a : Arc}, a ∈ exReq.arcs → ∀ {grp i : ℕ} {u : ℚ}, UnitCap exReq a grp i u →
      u = 1 := by
    intro a ha grp i u ⟨n, hn, hg, hu⟩
    have : a = ⟨0, 1, false, 0, 1⟩ := by simpa [exReq] using ha
    subst this
    rcases hn with rfl | rfl
    · match i with
      | 0 => simp [exReq, exNode] at hu; exact hu.symm
      | 1 => simp [exReq, exNode] at hu; exact hu.symm
      | n + 2 => simp [exReq, exNode] at hu
    · simp [exReq, exNode] at hu
  refine ⟨exParams, exReq, [(⟨0, 1, false, 0, 1⟩, 10)], 1, 2, ?_, ?_, ?_, exParams_ulp,
    by norm_num [exParams], by decide +kernel, by decide, by decide +kernel,
    by norm_num [exParams], by decide, by decide +kernel⟩
  · refine ⟨by decide, by decide, by decide +kernel, by decide +kernel, by decide +kernel⟩
  · refine ⟨?_, fun a ha grp i u hu => by rw [hunit ha hu]; norm_num⟩
    intro grp i c hc
    rcases hcap hc with rfl | rfl <;> norm_num [exParams]
  · refine ⟨?_, fun grp i c _ _ => Or.inl fun a ha u hu => by rw [hunit ha hu]; norm_num⟩
    intro grp i c hc
    rcases hcap hc with rfl | rfl <;> norm_num

/-! ### Zero unit capacities -/

/-- A supply group with capacities 5 and 3.  Bid 10 uses only the first constraint, bid 11 (of
quantity 4) only the second one.  Request 0 exhausts the first constraint, then requests 2 and 3
take 3 units each from bid 11. -/
def exZero : Graph where
  node
    | 0 => exNode 0 [] [((0, 10), 1)] 5 false
    | 2 => exNode 2 [] [((2, 11), 1)] 3 false
    | 3 => exNode 3 [] [((3, 11), 1)] 3 false
    | 10 => exNode 1 [1, 0] [] 5 false
    | _ => exNode 1 [0, 1] [] 4 false
  group
    | 0 => ⟨[0], [], [], 5⟩
    | 1 => ⟨[10, 11], [5, 3], [], 0⟩
    | 2 => ⟨[2], [], [], 3⟩
    | 3 => ⟨[3], [], [], 3⟩
    | _ => ⟨[], [], [], 0⟩
  reqs := [0, 2, 3]
  sups := [1]
  arcs := [⟨0, 10, false, 0, 1⟩, ⟨2, 11, false, 0, 1⟩, ⟨3, 11, false, 0, 1⟩]

/-- The matches of the solver on that graph. -/
def exZeroMatches : List (Arc × ℚ) :=
  [(⟨0, 10, false, 0, 1⟩, 5), (⟨2, 11, false, 0, 1⟩, 3), (⟨3, 11, false, 0, 1⟩, 3)]

theorem exZero_ok : WF exZero ∧ Nonneg exParams.dmax exZero ∧
    (∀ (grp i : ℕ) (c : ℚ), (exZero.group grp).caps[i]? = some c → 0 < c) ∧
    (solveGraph exParams true (condition []) exZero (fun _ => []) []).1.matches_ = exZeroMatches ∧
    ∀ m ∈ exZeroMatches, m.1.exclusive = false := by
  have hcap : ∀ {grp i : ℕ} {c : ℚ}, (exZero.group grp).caps[i]? = some c → c = 5 ∨ c = 3 := by
    intro grp i c h
    match grp with
    | 0 => simp [exZero] at h
    | 1 =>
      match i with
      | 0 => simp [exZero] at h; exact Or.inl h.symm
      | 1 => simp [exZero] at h; exact Or.inr h.symm
      | n + 2 => simp [exZero] at h
    | 2 => simp [exZero] at h
    | 3 => simp [exZero] at h
    | n + 4 => simp [exZero] at h
  refine ⟨⟨by decide, by decide, by decide +kernel, by decide +kernel, by decide +kernel⟩, ⟨?_, ?_⟩,
    ?_, by decide +kernel, by decide⟩
  · intro grp i c hc
    rcases hcap hc with rfl | rfl <;> norm_num [exParams]
  · intro a ha grp i u ⟨n, hn, hg, hu⟩
    have : a = ⟨0, 10, false, 0, 1⟩ ∨ a = ⟨2, 11, false, 0, 1⟩ ∨ a = ⟨3, 11, false, 0, 1⟩ := by
      simpa [exZero] using ha
    have key : ∀ l : List ℚ, (l = [] ∨ l = [1, 0] ∨ l = [0, 1]) → l[i]? = some u → 0 ≤ u := by
      intro l hl h
      have := List.mem_of_getElem? h
      rcases hl with rfl | rfl | rfl <;> simp at this
      · rcases this with rfl | rfl <;> norm_num
      · rcases this with rfl | rfl <;> norm_num
    rcases this with rfl | rfl | rfl <;> rcases hn with rfl | rfl <;>
      exact key _ (by simp [exZero, exNode]) hu
  · intro grp i c hc
    rcases hcap hc with rfl | rfl <;> norm_num

/-- **C12 fails** for zero unit capacities: when a constraint of a supply group is exhausted, the
quotient `0 / 0` for a bid that does not use that constraint is NaN, `std::min_element` and
`std::min` then ignore all other limits.  Here a load of 6 is put on a constraint of 3. -/
theorem C12_fails_zero :
    ∃ (p : Params) (g : Graph) (ms : List (Arc × ℚ)) (i : ℕ) (c : ℚ),
      WF g ∧ Nonneg p.dmax g ∧
      (∀ (grp i : ℕ) (c : ℚ), (g.group grp).caps[i]? = some c → 0 < c) ∧
      Ulp p (fun _ => 0) ∧ 0 ≤ p.eps ∧
      (solveGraph p true (condition []) g (fun _ => []) []).1.matches_ = ms ∧
      1 ∈ g.sups ∧ (g.group 1).caps[i]? = some c ∧ c ≠ p.dmax ∧
      (∀ m ∈ ms, m.1.exclusive = false) ∧ c < load g ms 1 i := by
  obtain ⟨h1, h2, h3, h4, h5⟩ := exZero_ok
  exact ⟨exParams, exZero, exZeroMatches, 1, 3, h1, h2, h3, exParams_ulp, by norm_num [exParams],
    h4, by decide, by decide +kernel, by norm_num [exParams], h5, by decide +kernel⟩

/-- **C13 fails** for zero unit capacities: in the same run 6 units flow through a bid of
quantity 4. -/
theorem C13_fails_zero :
    ∃ (p : Params) (g : Graph) (ms : List (Arc × ℚ)) (n : ℕ),
      WF g ∧ Nonneg p.dmax g ∧
      (∀ (grp i : ℕ) (c : ℚ), (g.group grp).caps[i]? = some c → 0 < c) ∧
      Ulp p (fun _ => 0) ∧ 0 ≤ p.eps ∧
      (solveGraph p true (condition []) g (fun _ => []) []).1.matches_ = ms ∧
      (∀ m ∈ ms, m.1.exclusive = false) ∧ (g.node n).qty < flow ms n := by
  obtain ⟨h1, h2, h3, h4, h5⟩ := exZero_ok
  exact ⟨exParams, exZero, exZeroMatches, 11, h1, h2, h3, exParams_ulp, by norm_num [exParams],
    h4, h5, by decide +kernel⟩

end Cyclus.Exchange
