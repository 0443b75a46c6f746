import Verif.Lemmas.GreedyBound
import Verif.Model.Precond

/-! # The solver behind the preconditioner, and absence of exceptions -/

namespace Cyclus.Exchange

open Spec

/-- `g'` is `g` with request groups and the nodes within them reordered. -/
structure Reorder (g g' : Graph) : Prop where
  node : g'.node = g.node
  arcs : g'.arcs = g.arcs
  sups : g'.sups = g.sups
  reqs : g'.reqs.Perm g.reqs
  caps : ∀ r, (g'.group r).caps = (g.group r).caps
  qty : ∀ r, (g'.group r).qty = (g.group r).qty
  nodes : ∀ r, (g'.group r).nodes.Perm (g.group r).nodes

theorem Reorder.refl (g : Graph) : Reorder g g :=
  ⟨rfl, rfl, rfl, List.Perm.refl _, fun _ => rfl, fun _ => rfl, fun _ => List.Perm.refl _⟩

theorem Reorder.condition (w : Weights) (g : Graph) : Reorder g (condition w g) := by
  refine ⟨rfl, rfl, rfl, stableSort_perm _ _, ?_, ?_, ?_⟩ <;> intro r <;>
    simp only [Exchange.condition] <;> split
  · rfl
  · rfl
  · rfl
  · rfl
  · exact stableSort_perm _ _
  · exact List.Perm.refl _

theorem Reorder.wf {g g' : Graph} (h : Reorder g g') (hw : WF g) : WF g' := by
  refine ⟨h.reqs.nodup_iff.2 hw.nodup, ?_, ?_, ?_, ?_⟩
  · intro r hr; rw [h.sups]; exact hw.disj r (h.reqs.mem_iff.1 hr)
  · intro r hr n hn; rw [h.node]
    exact hw.member r (h.reqs.mem_iff.1 hr) n ((h.nodes r).mem_iff.1 hn)
  · intro a ha
    obtain ⟨r, hr, h1, h2⟩ := hw.req a (h.arcs ▸ ha)
    exact ⟨r, h.reqs.mem_iff.2 hr, by rw [h.node]; exact h1, by rw [h.node, h.caps]; exact h2⟩
  · intro a ha
    obtain ⟨r, hr, h1, h2⟩ := hw.sup a (h.arcs ▸ ha)
    exact ⟨r, by rw [h.sups]; exact hr, by rw [h.node]; exact h1,
      by rw [h.node, h.caps]; exact h2⟩

theorem Reorder.unitCap {g g' : Graph} (h : Reorder g g') (a : Arc) (grp i : ℕ) (u : ℚ) :
    UnitCap g' a grp i u ↔ UnitCap g a grp i u := by
  unfold UnitCap; rw [h.node]

theorem Reorder.nonneg {dmax : ℚ} {g g' : Graph} (h : Reorder g g') (hw : Nonneg dmax g) :
    Nonneg dmax g' := by
  refine ⟨?_, ?_⟩
  · intro grp i c hc; rw [h.caps] at hc; exact hw.cap grp i c hc
  · intro a ha grp i u hu
    exact hw.unit a (h.arcs ▸ ha) grp i u ((h.unitCap a grp i u).1 hu)

theorem Reorder.uniform {dmax : ℚ} {g g' : Graph} (h : Reorder g g') (hw : Uniform dmax g) :
    Uniform dmax g' := by
  refine ⟨?_, ?_⟩
  · intro grp i c hc; rw [h.caps] at hc; exact hw.pos grp i c hc
  · intro grp i c hc hcd
    rw [h.caps] at hc
    rw [h.arcs]
    simp only [h.unitCap]
    exact hw.unif grp i c hc hcd

theorem Reorder.load {g g' : Graph} (h : Reorder g g') (ms : List (Arc × ℚ)) (grp i : ℕ) :
    load g' ms grp i = load g ms grp i := by
  unfold Spec.load; rw [h.node]

theorem Reorder.groupFlow {g g' : Graph} (h : Reorder g g') (ms : List (Arc × ℚ)) (r : ℕ) :
    groupFlow g' ms r = groupFlow g ms r := by
  unfold Spec.groupFlow; rw [h.node]

theorem Reorder.totalCost {g g' : Graph} (h : Reorder g g') (ms : List (Arc × ℚ)) :
    totalCost g' ms = totalCost g ms := by
  unfold Spec.totalCost; rw [h.node]

theorem Reorder.capOK {g g' : Graph} (h : Reorder g g') {tol : ℚ → ℚ} {ms : List (Arc × ℚ)}
    {grp i : ℕ} {c : ℚ} (hc : CapOK g' tol ms grp i c) : CapOK g tol ms grp i c := by
  unfold CapOK at *
  rw [h.load] at hc
  simpa only [h.unitCap] using hc

theorem Reorder.nodeOK {g g' : Graph} (h : Reorder g g') {tol : ℚ → ℚ} {ms : List (Arc × ℚ)}
    {n : ℕ} (hc : NodeOK g' tol ms n) : NodeOK g tol ms n := by
  unfold NodeOK at *; rw [h.node] at hc; exact hc

theorem Reorder.groupOK {g g' : Graph} (h : Reorder g g') {tol : ℚ → ℚ} {ms : List (Arc × ℚ)}
    {r : ℕ} (hc : GroupOK g' tol ms r) : GroupOK g tol ms r := by
  unfold GroupOK at *; rw [h.groupFlow, h.qty, h.node] at hc; exact hc

theorem Reorder.limited {g g' : Graph} (h : Reorder g g') {grp : ℕ} (hc : Limited g grp) :
    Limited g' grp := by
  unfold Limited at *; rw [h.sups, h.caps, h.reqs.mem_iff]; exact hc

/-! ## No exception -/

theorem flow_nonneg {ms : List (Arc × ℚ)} (h : ∀ m ∈ ms, 0 ≤ m.2) (n : ℕ) : 0 ≤ flow ms n := by
  unfold flow
  refine List.sum_nonneg ?_
  intro x hx
  obtain ⟨m, hm, rfl⟩ := List.mem_map.1 hx
  have := h m hm
  refine add_nonneg ?_ ?_ <;> split <;> first | exact this | exact le_rfl

theorem arcStep_ok {p : Params} {g : Graph} {tol : ℚ → ℚ} (hwf : WF g) (hn : Nonneg p.dmax g)
    (hun : Uniform p.dmax g) (hulp : Ulp p tol) (htol : ∀ x, tol x ≤ p.eps) (heps : 0 ≤ p.eps)
    {s : St} (h : Led p g s) {a : Arc} (ha : a ∈ g.arcs) (rem : ℚ) :
    ∃ s' q, arcStep p g s a rem = (s', .ok q) := by
  obtain ⟨r, hr, hu, hlu⟩ := hwf.req a ha
  obtain ⟨sg, hsg, hv, hlv⟩ := hwf.sup a ha
  have hne : r ≠ sg := fun e => hwf.disj r hr (e ▸ hsg)
  obtain ⟨du, e1, n1, m1, b1, c1⟩ := nodeCap_spec hn hun heps h ha (Or.inl rfl) hu (Or.inl hr) hlu
    false (s.nq a.u)
  obtain ⟨dv, e2, n2, m2, b2, c2⟩ := nodeCap_spec hn hun heps h ha (Or.inr rfl) hv (Or.inr hsg) hlv
    true (s.nq a.v)
  have hcap : arcCap p g s a = .ok (Dbl.min du dv) := by unfold arcCap; rw [e1, e2]
  have hfin : ∃ q, Dbl.min (.fin rem) (Dbl.min du dv) = .fin q := by
    have h1 := Dbl.min_ne_ninf m1 m2
    unfold Dbl.min at h1 ⊢
    generalize (if dv.lt du = true then dv else du) = d at *
    cases d <;> simp_all [Dbl.lt]
    split <;> simp
  have ht : ∃ t, toMatch p a rem (Dbl.min du dv) = .ok t := by
    obtain ⟨q, hq⟩ := hfin
    unfold toMatch
    simp only [hq]
    split <;> exact ⟨_, rfl⟩
  obtain ⟨t, ht⟩ := ht
  unfold arcStep
  rw [hcap]
  simp only [ht]
  cases hq : above p t with
  | none => exact ⟨_, _, rfl⟩
  | some q =>
    simp only
    have hqty := arcStep_qty hn hun hulp heps h ha hr hu hsg hv hlu hlv hcap ht hq
    have hsl : (if a.exclusive then tol q else 0) ≤ p.eps := by
      split
      · exact htol q
      · exact heps
    have hfl : ∀ n, 0 ≤ s.nq n := fun n => by
      rw [h.nq]; exact flow_nonneg (fun m hm => heps.trans (h.mem m hm).2.1.le) n
    have hu1 := hqty.u
    have hv1 := hqty.v
    have hfu := hfl a.u
    have hfv := hfl a.v
    have hll := h.length (Or.inl hr)
    have hll' := h.length (Or.inr hsg)
    have hkey : a.key = (a.u, a.v) := rfl
    unfold addMatch
    have hcu : updateCapacity p g s a.u a q =
        (⟨Function.update s.caps r (List.zipWith (capUpdate p q) (s.caps r)
          ((g.node a.u).unitCaps a.key)), s.nq, s.matches_, s.obj, s.unmatched⟩, .ok ()) := by
      unfold updateCapacity
      rw [hu]
      simp only [hkey]
      rw [if_neg (by omega), if_neg (by linarith)]
    rw [hcu]
    simp only
    unfold updateCapacity
    rw [hv]
    simp only [hkey, Function.update_of_ne (Ne.symm hne)]
    rw [if_neg (by omega), if_neg (by linarith)]
    exact ⟨_, _, rfl⟩

theorem groupLoop_ok {p : Params} {g : Graph} {tol : ℚ → ℚ} (hwf : WF g) (hn : Nonneg p.dmax g)
    (hun : Uniform p.dmax g) (hulp : Ulp p tol) (htol : ∀ x, tol x ≤ p.eps) (heps : 0 ≤ p.eps)
    {s : St} (h : Led p g s) (rs : List ℕ) : ∃ s', groupLoop p g s rs = (s', .ok ()) := by
  rcases hres : groupLoop p g s rs with ⟨s', res⟩
  have := groupLoop_ind (p := p) (g := g) (I := Led p g) (J := fun _ => False)
    (fun s s' a rem q ha hI hst => hI.arcStep hwf hn heps ha hst)
    (fun s s' a rem e ha hI hst => by
      obtain ⟨s1, q, h1⟩ := arcStep_ok hwf hn hun hulp htol heps hI ha rem
      rw [h1] at hst; cases hst)
    (fun s x hI => ⟨hI.caps, hI.nq, hI.mem, hI.obj⟩) rs s s' res h hres
  cases res with
  | error e => exact (this.2 e rfl).elim
  | ok u => exact ⟨s', rfl⟩

end Cyclus.Exchange
