import Verif.Lemmas.Translator
import Verif.Props.Greedy

/-!
# C17, C61, C62: exchange translation, and translation together with the greedy solver
-/

namespace Cyclus.Dre

open Cyclus.Exchange Spec

variable {dist : ℚ → ℚ → ℚ} {c : Ctx} {t : Xlat}

/-! ## C17 -/

/-- **C17**, when `Translate` succeeds: every request portfolio asks for a positive quantity and no
bid has preference 0. -/
theorem C17_success (dist : ℚ → ℚ → ℚ) (hv : Valid c) :
    (∃ t, translate dist c = .ok t) ↔
      (∀ p ∈ c.requests, 0 < (c.rp p).qty) ∧ ∀ b ∈ allBids c, prefOf c b ≠ 0 := by
  constructor
  · rintro ⟨t, ht⟩
    by_contra hn
    have : translate dist c = .error .value := by
      apply translate_bad dist hv
      by_contra h
      apply hn
      refine ⟨fun p hp => not_le.1 fun h' => h (Or.inl ⟨p, hp, h'⟩), fun b hb h' =>
        h (Or.inr ⟨b, hb, h'⟩)⟩
    rw [this] at ht; cases ht
  · rintro ⟨h1, h2⟩
    obtain ⟨t, _, _, _, _, ht, _⟩ := translate_ok dist hv h1 h2
    exact ⟨t, ht⟩

/-- **C17**, otherwise it throws `ValueError`. -/
theorem C17_error (dist : ℚ → ℚ → ℚ) (hv : Valid c)
    (h : (∃ p ∈ c.requests, (c.rp p).qty ≤ 0) ∨ ∃ b ∈ allBids c, prefOf c b = 0) :
    translate dist c = .error .value :=
  translate_bad dist hv h

theorem translate_inv (hv : Valid c) (ht : translate dist c = .ok t) :
    ∃ gr gb ds es, Inv c gr gb ds es (allBids c) t ∧
      Done dist c gr gb t ∧ gr.map Prod.snd = c.requests ∧ gb.map Prod.snd = c.bids ∧
      ds.map Prod.snd = (c.requests.flatMap fun p => (c.rp p).reqs) ∧
      es.map Prod.snd = allBids c := by
  obtain ⟨h1, h2⟩ := (C17_success dist hv).1 ⟨t, ht⟩
  obtain ⟨t', gr, gb, ds, es, ht', h⟩ := translate_ok dist hv h1 h2
  rw [ht] at ht'; cases ht'
  exact ⟨gr, gb, ds, es, h⟩

/-- **C17**, the arcs: one for every bid whose preference is positive, in the order of the bids,
from the node of its request to its own node, with that preference. -/
theorem C17_arcs (hv : Valid c) (ht : translate dist c = .ok t) :
    t.g.arcs.map (fun a => (t.nodeReq a.u, t.nodeBid a.v, a.pref)) =
      ((allBids c).filter fun b => 0 < prefOf c b).map fun b =>
        (some (c.bid b).request, some b, prefOf c b) := by
  obtain ⟨gr, gb, ds, es, hi, _⟩ := translate_inv hv ht
  exact hi.arcs

/-- **C17**, no arc is there twice. -/
theorem C17_arcs_nodup (hv : Valid c) (ht : translate dist c = .ok t) : t.g.arcs.Nodup := by
  obtain ⟨gr, gb, ds, es, hi, _⟩ := translate_inv hv ht
  refine List.Nodup.of_map (fun a : Arc => (t.nodeReq a.u, t.nodeBid a.v, a.pref)) ?_
  rw [hi.arcs]
  refine List.Nodup.map ?_ (List.Nodup.filter _ ?_)
  · intro a b h
    simp only [Prod.mk.injEq, Option.some.injEq] at h
    exact h.2.1
  · rw [allBids, List.nodup_flatMap]
    refine ⟨fun p hp => hv.bidsNodup p hp, ?_⟩
    refine List.Nodup.pairwise_of_forall_ne hv.bids ?_
    intro p hp q hq hne b hb hb'
    exact hne ((hv.bidsOwn p hp b hb).symm.trans (hv.bidsOwn q hq b hb'))

/-- What a trade has to do with the match it comes from. -/
structure Spec.TradeOf (c : Ctx) (t : Xlat) (m : Arc × ℚ) (x : Trade) : Prop where
  amt : x.amt = m.2
  request : t.nodeReq m.1.u = some x.request
  bid : t.nodeBid m.1.v = some x.bid
  answers : x.request = (c.bid x.bid).request
  mem : x.bid ∈ allBids c
  pref : m.1.pref = prefOf c x.bid ∧ 0 < prefOf c x.bid

/-- **C17**, back: every list of matches on arcs of the graph is translated to one trade per match,
with the matched amount, a bid of the exchange that the match's arc was made for, and the request
which that bid answers. -/
theorem C17_back (hv : Valid c) (ht : translate dist c = .ok t) (ms : List (Arc × ℚ))
    (hms : ∀ m ∈ ms, m.1 ∈ t.g.arcs) :
    ∃ ts, backTranslate t ms = .ok ts ∧ List.Forall₂ (TradeOf c t) ms ts := by
  obtain ⟨gr, gb, ds, es, hi, _⟩ := translate_inv hv ht
  induction ms with
  | nil => exact ⟨[], rfl, List.Forall₂.nil⟩
  | cons m ms ih =>
    obtain ⟨ts, h1, h2⟩ := ih fun m hm => hms m (List.mem_cons_of_mem _ hm)
    obtain ⟨b, hb, hp, hr, hbn, hpr⟩ := hi.arc_mem (hms m List.mem_cons_self)
    refine ⟨⟨(c.bid b).request, b, m.2⟩ :: ts, ?_, List.Forall₂.cons ?_ h2⟩
    · rw [backTranslate]
      have : backMatch t m = .ok ⟨(c.bid b).request, b, m.2⟩ := by
        unfold backMatch; simp only [hr, hbn]
      simp only [this, h1]
    · exact ⟨rfl, hr, hbn, rfl, hb, hpr, hp⟩

/-- **C17**, different arcs lead to different bids. -/
theorem C17_distinct (hv : Valid c) (ht : translate dist c = .ok t) {a a' : Arc}
    (ha : a ∈ t.g.arcs) (ha' : a' ∈ t.g.arcs) (h : t.nodeBid a.v = t.nodeBid a'.v) : a = a' := by
  obtain ⟨gr, gb, ds, es, hi, hf, _⟩ := translate_inv hv ht
  obtain ⟨b, _, _, h1, h2, h3⟩ := hi.arc_mem ha
  obtain ⟨b', _, _, h1', h2', h3'⟩ := hi.arc_mem ha'
  rw [h2, h2'] at h
  simp only [Option.some.injEq] at h
  subst h
  have hu : a.u = a'.u := by
    rw [← hi.rn] at h1 h1'; rw [h1] at h1'; exact Option.some.inj h1'
  have hv : a.v = a'.v := by
    rw [← hi.bn] at h2 h2'; rw [h2] at h2'; exact Option.some.inj h2'
  rw [(hf.arc a ha).2.2, (hf.arc a' ha').2.2, hu, hv, h3, h3']

/-! ## C61 -/

theorem arc_caps {gr gb ds es : List (ℕ × ℕ)} (hi : Inv c gr gb ds es (allBids c) t) {a : Arc} (ha : a ∈ t.g.arcs) :
    ∃ b gu gv, b ∈ allBids c ∧ 0 < prefOf c b ∧ t.nodeReq a.u = some (c.bid b).request ∧
      t.nodeBid a.v = some b ∧ a.pref = prefOf c b ∧
      (gu, (c.req (c.bid b).request).portfolio) ∈ gr ∧ (gv, (c.bid b).portfolio) ∈ gb ∧
      (t.g.node a.u).group = some gu ∧ (t.g.node a.v).group = some gv ∧
      unitCapsOf c (c.bp (c.bid b).portfolio).cons (c.bid b).request b =
        some ((t.g.node a.v).unitCaps (a.u, a.v)) ∧
      unitCapsOf c (finalRP c (c.req (c.bid b).request).portfolio).cons (c.bid b).request b =
        some ((t.g.node a.u).unitCaps (a.u, a.v)) ∧
      (t.g.node a.u).prefs.lookup (a.u, a.v) = some (prefOf c b) := by
  obtain ⟨b, hb, hp, h1, h2, h3⟩ := hi.arc_mem ha
  have h1' := (hi.rn _ _).2 h1
  have h2' := (hi.bn _ _).2 h2
  obtain ⟨gu, hgu, hnu⟩ := hi.rnode _ _ h1'
  obtain ⟨gv, hgv, hnv⟩ := hi.bnode _ _ h2'
  obtain ⟨c1, c2, c3⟩ := hi.ucap b hb hp a.u a.v h1' h2'
  have hg1 := hi.rown _ hgu
  have hg2 := hi.bown _ hgv
  rw [hi.rp, if_pos (List.mem_map.2 ⟨_, hg1, rfl⟩)] at c2
  exact ⟨b, gu, gv, hb, hp, h1, h2, h3, hg1, hg2, hnu.group, hnv.group, c1, c2, c3⟩

/-- **C61.** The graph that `Translate` builds is consistent: what the solver properties C12 to C16
and C57 to C60 assume of a graph holds for every translated exchange. -/
theorem C61_consistent (hv : Valid c) (ht : translate dist c = .ok t) : WF t.g ∧ Listed t.g := by
  obtain ⟨gr, gb, ds, es, hi, hf, hgr, hgb, hds, hes⟩ := translate_inv hv ht
  have hgn := hi.gnodup
  rw [List.map_append, List.nodup_append'] at hgn
  refine ⟨⟨?_, ?_, ?_, ?_, ?_⟩, ⟨?_, ?_⟩⟩
  · rw [hf.reqs]; exact hgn.1
  · intro r hr hr'
    rw [hf.reqs] at hr; rw [hf.sups] at hr'
    exact hgn.2.2 hr hr'
  · intro r hr n hn
    rw [hf.reqs] at hr
    obtain ⟨x, hx, rfl⟩ := List.mem_map.1 hr
    obtain ⟨r', h1, h2⟩ := ((hi.rnodes x hx).2 n).1 hn
    obtain ⟨g', h3, h4⟩ := hi.rnode _ _ h2
    rw [h4.group]
    have e1 := hi.gid_unique (hi.rown _ h1) (hi.rown _ h3) rfl
    have := congrArg Prod.fst e1
    simp only at this
    rw [this]
  · intro a ha
    obtain ⟨b, gu, gv, _, _, _, _, _, hg1, hg2, h1, h2, h3, h4, _⟩ := arc_caps hi ha
    refine ⟨gu, by rw [hf.reqs]; exact List.mem_map.2 ⟨_, hg1, rfl⟩, h1, ?_⟩
    rw [mapM_length h4, (hf.rcaps _ hg1).1, List.length_map]
  · intro a ha
    obtain ⟨b, gu, gv, _, _, _, _, _, hg1, hg2, h1, h2, h3, h4, _⟩ := arc_caps hi ha
    refine ⟨gv, by rw [hf.sups]; exact List.mem_map.2 ⟨_, hg2, rfl⟩, h2, ?_⟩
    rw [mapM_length h3, hf.bcaps _ hg2, List.length_map]
  · intro a ha r hr
    obtain ⟨b, gu, gv, _, _, hnr, _, _, hg1, hg2, h1, _⟩ := arc_caps hi ha
    rw [hr] at h1; cases h1
    refine ((hi.rnodes _ hg1).2 _).2 ⟨(c.bid b).request, ?_, (hi.rn _ _).2 hnr⟩
    obtain ⟨g', h3, h4⟩ := hi.rnode _ _ ((hi.rn _ _).2 hnr)
    have e1 := hi.gid_unique (hi.rown _ h3) hg1 rfl
    have := congrArg Prod.fst e1
    simp only at this
    rw [this] at h3; exact h3
  · intro r hr
    rw [hf.reqs] at hr
    obtain ⟨x, hx, rfl⟩ := List.mem_map.1 hr
    exact (hi.rnodes x hx).1

/-- **C61**, request groups: one per request portfolio, in order, with its quantity, its constraints
and the constraint that `Translate` adds, and one node per request. -/
theorem C61_request_groups (hv : Valid c) (ht : translate dist c = .ok t) :
    t.g.reqs.length = c.requests.length ∧
    ∀ (i p : ℕ), c.requests[i]? = some p → ∃ gid, t.g.reqs[i]? = some gid ∧
      (t.g.group gid).qty = (c.rp p).qty ∧
      (t.g.group gid).caps = (c.rp p).cons.map Con.cap ++ [(c.rp p).qty] ∧
      ∀ r, r ∈ (c.rp p).reqs ↔ ∃ n ∈ (t.g.group gid).nodes, t.nodeReq n = some r ∧
        (t.g.node n).qty = (c.req r).target ∧ (t.g.node n).exclusive = (c.req r).exclusive ∧
        (t.g.node n).commod = (c.req r).commod := by
  obtain ⟨gr, gb, ds, es, hi, hf, hgr, hgb, hds, hes⟩ := translate_inv hv ht
  constructor
  · rw [hf.reqs, ← hgr, List.length_map, List.length_map]
  · intro i p hp
    rw [← hgr, List.getElem?_map] at hp
    obtain ⟨x, hx, rfl⟩ := Option.map_eq_some_iff.1 hp
    have hxm : x ∈ gr := List.mem_of_getElem? hx
    have hreq : x.2 ∈ c.requests := by rw [← hgr]; exact List.mem_map.2 ⟨x, hxm, rfl⟩
    refine ⟨x.1, by rw [hf.reqs, List.getElem?_map, hx]; rfl, (hf.rcaps x hxm).2, ?_, ?_⟩
    · rw [(hf.rcaps x hxm).1]; simp [finalRP, RP.addCon]
    · intro r
      constructor
      · intro hr
        have : r ∈ ds.map Prod.snd := by
          rw [hds]; exact List.mem_flatMap.2 ⟨_, hreq, hr⟩
        obtain ⟨n, hn⟩ := (hi.rdom r).2 this
        obtain ⟨g, hg, hN⟩ := hi.rnode r n hn
        have e := hi.gid_unique (hi.rown _ hg) hxm (hv.reqsOwn _ hreq r hr)
        have e1 := congrArg Prod.fst e
        simp only at e1
        subst e1
        exact ⟨n, ((hi.rnodes x hxm).2 n).2 ⟨r, hg, hn⟩, (hi.rn _ _).1 hn, hN.qty, hN.exclusive,
          hN.commod⟩
      · rintro ⟨n, hn, hr, _⟩
        obtain ⟨r', h1, h2⟩ := ((hi.rnodes x hxm).2 n).1 hn
        rw [hi.rn, hr] at h2; cases h2
        have hd : r ∈ ds.map Prod.snd := List.mem_map.2 ⟨_, h1, rfl⟩
        rw [hds] at hd
        obtain ⟨p', hp', hr'⟩ := List.mem_flatMap.1 hd
        have h3 := hi.rown _ h1
        simp only [hv.reqsOwn _ hp' r hr'] at h3
        have e := List.inj_on_of_nodup_map (f := Prod.fst)
          (by have := hi.gnodup; rw [List.map_append] at this; exact this.of_append_left) h3 hxm rfl
        rw [← e]; exact hr'

/-- **C61**, supply groups: one per bid portfolio, in order, with its constraints and one node per
bid. -/
theorem C61_supply_groups (hv : Valid c) (ht : translate dist c = .ok t) :
    t.g.sups.length = c.bids.length ∧
    ∀ (i p : ℕ), c.bids[i]? = some p → ∃ gid, t.g.sups[i]? = some gid ∧
      (t.g.group gid).caps = (c.bp p).cons.map Con.cap ∧
      ∀ b, b ∈ (c.bp p).bids ↔ ∃ n ∈ (t.g.group gid).nodes, t.nodeBid n = some b ∧
        (t.g.node n).qty = (c.bid b).qty ∧ (t.g.node n).exclusive = (c.bid b).exclusive := by
  obtain ⟨gr, gb, ds, es, hi, hf, hgr, hgb, hds, hes⟩ := translate_inv hv ht
  constructor
  · rw [hf.sups, ← hgb, List.length_map, List.length_map]
  · intro i p hp
    rw [← hgb, List.getElem?_map] at hp
    obtain ⟨x, hx, rfl⟩ := Option.map_eq_some_iff.1 hp
    have hxm : x ∈ gb := List.mem_of_getElem? hx
    have hreq : x.2 ∈ c.bids := by rw [← hgb]; exact List.mem_map.2 ⟨x, hxm, rfl⟩
    refine ⟨x.1, by rw [hf.sups, List.getElem?_map, hx]; rfl, hf.bcaps x hxm, ?_⟩
    · intro r
      constructor
      · intro hr
        have : r ∈ es.map Prod.snd := by
          rw [hes]; exact List.mem_flatMap.2 ⟨_, hreq, hr⟩
        obtain ⟨n, hn⟩ := (hi.bdom r).2 this
        obtain ⟨g, hg, hN⟩ := hi.bnode r n hn
        have e := hi.gidb_unique (hi.bown _ hg) hxm (hv.bidsOwn _ hreq r hr)
        have e1 := congrArg Prod.fst e
        simp only at e1
        subst e1
        exact ⟨n, ((hi.bnodes x hxm).2 n).2 ⟨r, hg, hn⟩, (hi.bn _ _).1 hn, hN.qty, hN.exclusive⟩
      · rintro ⟨n, hn, hr, _⟩
        obtain ⟨r', h1, h2⟩ := ((hi.bnodes x hxm).2 n).1 hn
        rw [hi.bn, hr] at h2; cases h2
        have hd : r ∈ es.map Prod.snd := List.mem_map.2 ⟨_, h1, rfl⟩
        rw [hes] at hd
        obtain ⟨p', hp', hr'⟩ := List.mem_flatMap.1 hd
        have h3 := hi.bown _ h1
        simp only [hv.bidsOwn _ hp' r hr'] at h3
        have e := List.inj_on_of_nodup_map (f := Prod.fst)
          (by have := hi.gnodup; rw [List.map_append] at this; exact this.of_append_right) h3 hxm rfl
        rw [← e]; exact hr'

/-- **C61**, unit capacities: at the bid's end of an arc the converted offer per unit for every
constraint of the bid portfolio; at the request's end the same for the constraints of the request
portfolio, and last the coefficient of the request. -/
theorem C61_unit_capacities (hv : Valid c) (ht : translate dist c = .ok t) :
    ∀ a ∈ t.g.arcs, ∃ b ∈ allBids c, t.nodeBid a.v = some b ∧
      (∀ (i : ℕ) (k : Con), (c.bp (c.bid b).portfolio).cons[i]? = some k → ∃ x, k.conv (c.bid b).request b = some x ∧
        ((t.g.node a.v).unitCaps (a.u, a.v))[i]? = some (x / (c.bid b).qty)) ∧
      (∀ (i : ℕ) (k : Con), (c.rp (c.req (c.bid b).request).portfolio).cons[i]? = some k →
        ∃ x, k.conv (c.bid b).request b = some x ∧
        ((t.g.node a.u).unitCaps (a.u, a.v))[i]? = some (x / (c.bid b).qty)) ∧
      (0 < (c.bid b).qty →
        ((t.g.node a.u).unitCaps (a.u, a.v))[(c.rp (c.req (c.bid b).request).portfolio).cons.length]? =
          (c.rp (c.req (c.bid b).request).portfolio).coeffs (c.bid b).request) := by
  obtain ⟨gr, gb, ds, es, hi, hf, hgr, hgb, hds, hes⟩ := translate_inv hv ht
  intro a ha
  obtain ⟨b, gu, gv, hb, _, _, hbn, _, hg1, hg2, h1, h2, h3, h4, _⟩ := arc_caps hi ha
  refine ⟨b, hb, hbn, ?_, ?_, ?_⟩
  · intro i k hk
    have := mapM_get h3 i k hk
    obtain ⟨x, hx⟩ := Option.ne_none_iff_exists'.1
      (hv.convB b hb k (List.mem_of_getElem? hk))
    refine ⟨x, hx, ?_⟩
    rw [this, hx]; rfl
  · intro i k hk
    have hk' : (finalRP c (c.req (c.bid b).request).portfolio).cons[i]? = some k := by
      simp only [finalRP, RP.addCon]
      rw [List.getElem?_append_left (List.getElem?_eq_some_iff.1 hk).1]; exact hk
    have := mapM_get h4 i k hk'
    obtain ⟨x, hx⟩ := Option.ne_none_iff_exists'.1
      (hv.convR b hb k (List.mem_of_getElem? hk))
    refine ⟨x, hx, ?_⟩
    rw [this, hx]; rfl
  · intro hq
    have := mapM_get h4 (c.rp (c.req (c.bid b).request).portfolio).cons.length
      ⟨(c.rp (c.req (c.bid b).request).portfolio).qty,
        (c.rp (c.req (c.bid b).request).portfolio).qtyConv fun b => (c.bid b).qty⟩
      (by simp [finalRP, RP.addCon])
    rw [this]
    obtain ⟨t1, t2⟩ := hv.target b hb
    obtain ⟨x, hx⟩ := Option.ne_none_iff_exists'.1 (hv.coeff _ t1 _ t2)
    simp only [RP.qtyConv, hx, Option.map_some, Option.some.injEq]
    field_simp

/-! ## C62 -/

namespace Spec

/-- What the trades put on a constraint of bid portfolio `p`: for every trade with a bid of the
portfolio, the amount times the converted offer per unit. -/
def supplied (c : Ctx) (ts : List Trade) (p : ℕ) (k : Con) : ℚ :=
  (ts.map fun x => if (c.bid x.bid).portfolio = p
    then x.amt * ((k.conv x.request x.bid).getD 0 / (c.bid x.bid).qty) else 0).sum

/-- What the trades deliver to request portfolio `p`. -/
def delivered (c : Ctx) (ts : List Trade) (p : ℕ) : ℚ :=
  (ts.map fun x => if (c.req x.request).portfolio = p then x.amt else 0).sum

/-- What the trades take from bid `b`. -/
def taken (ts : List Trade) (b : ℕ) : ℚ := (ts.map fun x => if x.bid = b then x.amt else 0).sum

/-- A trade of an exclusive request or an exclusive bid. -/
def Exclusive (c : Ctx) (x : Trade) : Prop :=
  (c.req x.request).exclusive = true ∨ (c.bid x.bid).exclusive = true

/-- Capacities are positive and at most `dmax`, offers are positive, and converters and
coefficients give positive values. -/
structure Sane (dmax : ℚ) (c : Ctx) : Prop where
  qty : ∀ p ∈ c.requests, (c.rp p).qty ≤ dmax
  capR : ∀ p ∈ c.requests, ∀ k ∈ (c.rp p).cons, 0 < k.cap ∧ k.cap ≤ dmax
  capB : ∀ p ∈ c.bids, ∀ k ∈ (c.bp p).cons, 0 < k.cap ∧ k.cap ≤ dmax
  offer : ∀ b ∈ allBids c, 0 < (c.bid b).qty
  coeff : ∀ p ∈ c.requests, ∀ r ∈ (c.rp p).reqs, ∀ x, (c.rp p).coeffs r = some x → 0 < x
  convR : ∀ b ∈ allBids c, ∀ k ∈ (c.rp (c.req (c.bid b).request).portfolio).cons,
    ∀ x, k.conv (c.bid b).request b = some x → 0 < x
  convB : ∀ b ∈ allBids c, ∀ k ∈ (c.bp (c.bid b).portfolio).cons,
    ∀ x, k.conv (c.bid b).request b = some x → 0 < x

end Spec

theorem unit_pos (hv : Valid c) {dmax : ℚ} (hs : Sane dmax c) {gr gb ds es : List (ℕ × ℕ)}
    (hi : Inv c gr gb ds es (allBids c) t) :
    ∀ a ∈ t.g.arcs, ∀ grp i u, UnitCap t.g a grp i u → 0 < u := by
  intro a ha grp i u hu
  obtain ⟨b, gu, gv, hb, _, _, hbn, _, hg1, hg2, h1, h2, h3, h4, _⟩ := arc_caps hi ha
  obtain ⟨n, hn, hg, hc⟩ := hu
  have hq := hs.offer b hb
  obtain ⟨t1, t2⟩ := hv.target b hb
  rcases hn with rfl | rfl
  · have hlen : i < (finalRP c (c.req (c.bid b).request).portfolio).cons.length := by
      rw [← mapM_length h4]; exact (List.getElem?_eq_some_iff.1 hc).1
    have hk := List.getElem?_eq_getElem hlen
    have hm := mapM_get h4 i _ hk
    rw [hc] at hm
    obtain ⟨x, hx, hxe⟩ := Option.map_eq_some_iff.1 hm.symm
    rw [← hxe]
    refine div_pos ?_ hq
    have hmem := List.mem_of_getElem? hk
    simp only [finalRP, RP.addCon, List.mem_append, List.mem_singleton] at hmem
    rcases hmem with hmem | hmem
    · exact hs.convR b hb _ hmem x hx
    · simp only [finalRP, RP.addCon] at hx
      rw [hmem] at hx
      simp only [RP.qtyConv] at hx
      obtain ⟨y, hy, hye⟩ := Option.map_eq_some_iff.1 hx
      rw [← hye]
      exact mul_pos hq (hs.coeff _ t1 _ t2 y hy)
  · have hlen : i < (c.bp (c.bid b).portfolio).cons.length := by
      rw [← mapM_length h3]; exact (List.getElem?_eq_some_iff.1 hc).1
    have hk := List.getElem?_eq_getElem hlen
    have hm := mapM_get h3 i _ hk
    rw [hc] at hm
    obtain ⟨x, hx, hxe⟩ := Option.map_eq_some_iff.1 hm.symm
    rw [← hxe]
    exact div_pos (hs.convB b hb _ (List.mem_of_getElem? hk) x hx) hq

theorem caps_ok (hv : Valid c) {dmax : ℚ} (hs : Sane dmax c) (ht : translate dist c = .ok t)
    {gr gb : List (ℕ × ℕ)} (hf : Done dist c gr gb t)
    (hgr : gr.map Prod.snd = c.requests) (hgb : gb.map Prod.snd = c.bids) :
    ∀ (grp i : ℕ) (x : ℚ), (t.g.group grp).caps[i]? = some x → 0 < x ∧ x ≤ dmax := by
  intro grp i x hx
  by_cases hg : grp ∈ (gr ++ gb).map Prod.fst
  · obtain ⟨y, hy, rfl⟩ := List.mem_map.1 hg
    rcases List.mem_append.1 hy with hy | hy
    · have hreq : y.2 ∈ c.requests := by rw [← hgr]; exact List.mem_map.2 ⟨y, hy, rfl⟩
      rw [(hf.rcaps y hy).1] at hx
      have hm := List.mem_of_getElem? hx
      simp only [finalRP, RP.addCon, List.map_append, List.mem_append, List.map_cons, List.map_nil,
        List.mem_singleton, List.mem_map] at hm
      rcases hm with ⟨k, hk, rfl⟩ | rfl
      · exact hs.capR _ hreq k hk
      · exact ⟨((C17_success dist hv).1 ⟨t, ht⟩).1 _ hreq, hs.qty _ hreq⟩
    · have hreq : y.2 ∈ c.bids := by rw [← hgb]; exact List.mem_map.2 ⟨y, hy, rfl⟩
      rw [hf.bcaps y hy] at hx
      have hm := List.mem_of_getElem? hx
      obtain ⟨k, hk, rfl⟩ := List.mem_map.1 hm
      exact hs.capB _ hreq k hk
  · rw [hf.other grp hg] at hx; simp at hx

/-- Matches and trades agree on what they put on a supply constraint. -/
theorem supplied_eq {gr gb ds es : List (ℕ × ℕ)} (hi : Inv c gr gb ds es (allBids c) t)
    {ms : List (Arc × ℚ)} {ts : List Trade}
    (h2 : List.Forall₂ (TradeOf c t) ms ts) (hms : ∀ m ∈ ms, m.1 ∈ t.g.arcs) {gid p i : ℕ} {k : Con}
    (hg : (gid, p) ∈ gb) (hk : (c.bp p).cons[i]? = some k) :
    load t.g ms gid i = supplied c ts p k := by
  induction h2 with
  | nil => rfl
  | @cons m x ms ts h h2 ih =>
    have ih := ih fun m hm => hms m (List.mem_cons_of_mem _ hm)
    unfold load supplied at ih ⊢
    rw [List.map_cons, List.sum_cons, List.map_cons, List.sum_cons, ih]
    congr 1
    obtain ⟨b, gu, gv, hb, _, hr, hbn, _, hg1, hg2, h1, h2, h3, h4, _⟩ :=
      arc_caps hi (hms m List.mem_cons_self)
    have hbx : b = x.bid := by
      have := h.bid; rw [hbn] at this; exact Option.some.inj this
    subst hbx
    have hne : gu ≠ gid := hi.gr_gb hg1 hg
    rw [h1, if_neg (by simpa using hne), zero_add, h2]
    by_cases hp : (c.bid x.bid).portfolio = p
    · have e := congrArg Prod.fst (hi.gidb_unique hg2 hg hp)
      simp only at e
      rw [if_pos hp, if_pos (by rw [e]), h.amt, h.answers]
      rw [hp] at h3
      have := mapM_get h3 i k hk
      rw [List.getD_eq_getElem?_getD, this]
      cases k.conv (c.bid x.bid).request x.bid <;> simp
    · rw [if_neg hp, if_neg]
      intro he
      simp only [Option.some.injEq] at he
      subst he
      have e := List.inj_on_of_nodup_map (f := Prod.fst)
        (by have := hi.gnodup; rw [List.map_append] at this; exact this.of_append_right) hg2 hg rfl
      exact hp (congrArg Prod.snd e)

theorem delivered_eq {gr gb ds es : List (ℕ × ℕ)} (hi : Inv c gr gb ds es (allBids c) t)
    {ms : List (Arc × ℚ)} {ts : List Trade}
    (h2 : List.Forall₂ (TradeOf c t) ms ts) (hms : ∀ m ∈ ms, m.1 ∈ t.g.arcs) {gid p : ℕ}
    (hg : (gid, p) ∈ gr) : groupFlow t.g ms gid = delivered c ts p := by
  induction h2 with
  | nil => rfl
  | @cons m x ms ts h h2 ih =>
    have ih := ih fun m hm => hms m (List.mem_cons_of_mem _ hm)
    unfold groupFlow delivered at ih ⊢
    rw [List.map_cons, List.sum_cons, List.map_cons, List.sum_cons, ih]
    congr 1
    obtain ⟨b, gu, gv, hb, _, hr, hbn, _, hg1, hg2, h1, h2, h3, h4, _⟩ :=
      arc_caps hi (hms m List.mem_cons_self)
    have hbx : b = x.bid := by
      have := h.bid; rw [hbn] at this; exact Option.some.inj this
    subst hbx
    rw [h1, h.answers, h.amt]
    by_cases hp : (c.req (c.bid x.bid).request).portfolio = p
    · have e := congrArg Prod.fst (hi.gid_unique hg1 hg hp)
      simp only at e
      rw [if_pos hp, if_pos (by rw [e])]
    · rw [if_neg hp, if_neg]
      intro he
      simp only [Option.some.injEq] at he
      subst he
      have e := List.inj_on_of_nodup_map (f := Prod.fst)
        (by have := hi.gnodup; rw [List.map_append] at this; exact this.of_append_left) hg1 hg rfl
      exact hp (congrArg Prod.snd e)

theorem taken_eq {gr gb ds es : List (ℕ × ℕ)} (hi : Inv c gr gb ds es (allBids c) t)
    {ms : List (Arc × ℚ)} {ts : List Trade}
    (h2 : List.Forall₂ (TradeOf c t) ms ts) {b n : ℕ}
    (hb : t.bidNode b = some n) : flow ms n = taken ts b := by
  induction h2 with
  | nil => rfl
  | @cons m x ms ts h h2 ih =>
    unfold flow taken at ih ⊢
    rw [List.map_cons, List.sum_cons, List.map_cons, List.sum_cons, ih]
    congr 1
    have hbn := (hi.bn _ _).1 hb
    have hu : m.1.u ≠ n := by
      rintro rfl; exact hi.sep _ _ _ h.request hbn
    rw [if_neg hu, zero_add, h.amt]
    by_cases hv : m.1.v = n
    · have := h.bid
      rw [hv, hbn] at this
      rw [if_pos hv, if_pos (Option.some.inj this).symm]
    · rw [if_neg hv, if_neg]
      rintro rfl
      have := (hi.bn _ _).2 h.bid
      rw [hb] at this; exact hv (Option.some.inj this).symm

theorem forall2_mem {α β : Type} {R : α → β → Prop} {xs : List α} {ys : List β}
    (h : List.Forall₂ R xs ys) {x : α} (hx : x ∈ xs) : ∃ y ∈ ys, R x y := by
  induction h with
  | nil => cases hx
  | @cons a b as bs hab h ih =>
    rcases List.mem_cons.1 hx with rfl | hx
    · exact ⟨b, List.mem_cons_self, hab⟩
    · obtain ⟨y, hy, hr⟩ := ih hx
      exact ⟨y, List.mem_cons_of_mem _ hy, hr⟩

/-- **C62.** From request and bid portfolios to trades (`ExchangeTranslator` and `GreedySolver`
together): the trades keep every constraint of every bid portfolio, give no request portfolio more
than its quantity and take from no bid more than it offers, up to the tolerance of an exclusive
trade; every trade has a positive preference and more than `eps()`. -/
theorem C62_trades {p : Params} {eo : Bool} {cond : Graph → Graph} {prev : ℕ → List ℚ}
    {tol : ℚ → ℚ} {s : St} {res : Except Stop ℚ}
    (hv : Valid c) (hs : Sane p.dmax c) (ht : translate dist c = .ok t)
    (hcond : Conditioner cond) (hulp : Ulp p tol) (heps : 0 ≤ p.eps)
    (h : solveGraph p eo cond t.g prev [] = (s, res)) :
    ∃ ts, backTranslate t s.matches_ = .ok ts ∧
      (∀ x ∈ ts, x.bid ∈ allBids c ∧ x.request = (c.bid x.bid).request ∧ 0 < prefOf c x.bid ∧
        p.eps < x.amt) ∧
      (∀ q ∈ c.bids, ∀ k ∈ (c.bp q).cons, k.cap ≠ p.dmax → supplied c ts q k ≤ k.cap ∨
        ∃ x ∈ ts, Exclusive c x ∧ (c.bid x.bid).portfolio = q ∧ supplied c ts q k ≤
          k.cap + tol x.amt * ((k.conv x.request x.bid).getD 0 / (c.bid x.bid).qty)) ∧
      (∀ q ∈ c.requests, delivered c ts q ≤ (c.rp q).qty ∨
        ∃ x ∈ ts, Exclusive c x ∧ delivered c ts q ≤ (c.rp q).qty + tol x.amt) ∧
      (∀ b ∈ allBids c, taken ts b ≤ (c.bid b).qty ∨
        ∃ x ∈ ts, Exclusive c x ∧ x.bid = b ∧ taken ts b ≤ (c.bid b).qty + tol x.amt) := by
  obtain ⟨gr, gb, ds, es, hi, hf, hgr, hgb, hds, hes⟩ := translate_inv hv ht
  have hpos := unit_pos hv hs hi
  have hcaps := caps_ok hv hs ht hf hgr hgb
  have hwf := (C61_consistent hv ht).1
  have hn : Nonneg p.dmax t.g :=
    ⟨fun grp i x hx => (hcaps grp i x hx).2, fun a ha grp i u hu => (hpos a ha grp i u hu).le⟩
  have hun : Uniform p.dmax t.g :=
    ⟨fun grp i x hx => (hcaps grp i x hx).1,
      fun grp i x hx _ => Or.inl fun a ha u hu => hpos a ha grp i u hu⟩
  have hms := C13_positive hcond hwf hn heps h
  obtain ⟨ts, hts, hfa⟩ := C17_back hv ht s.matches_ fun m hm => (hms m hm).1
  have hexcl : ∀ m x, m.1 ∈ t.g.arcs → TradeOf c t m x → m.1.exclusive = true → Exclusive c x := by
    intro m x hm hx he
    rw [(hf.arc m.1 hm).2.2] at he
    have he : ((t.g.node m.1.u).exclusive || (t.g.node m.1.v).exclusive) = true := he
    obtain ⟨g1, _, hN1⟩ := hi.rnode _ _ ((hi.rn _ _).2 hx.request)
    obtain ⟨g2, _, hN2⟩ := hi.bnode _ _ ((hi.bn _ _).2 hx.bid)
    rw [hN1.exclusive, hN2.exclusive] at he
    simpa [Exclusive] using he
  refine ⟨ts, hts, ?_, ?_, ?_, ?_⟩
  · intro x hx
    obtain ⟨m, hm, hR⟩ := forall2_mem hfa.flip hx
    exact ⟨hR.mem, hR.answers, hR.pref.2, by rw [hR.amt]; exact (hms m hm).2⟩
  · intro q hq k hk hkd
    rw [← hgb] at hq
    obtain ⟨y, hy, rfl⟩ := List.mem_map.1 hq
    obtain ⟨i, hik⟩ := List.getElem?_of_mem hk
    have hlim : Limited t.g y.1 := Or.inl (by rw [hf.sups]; exact List.mem_map.2 ⟨y, hy, rfl⟩)
    have hcap : (t.g.group y.1).caps[i]? = some k.cap := by
      rw [hf.bcaps y hy, List.getElem?_map, hik]; rfl
    have := C12_capacities_partial hcond hwf hn hun hulp heps h y.1 i k.cap hlim hcap hkd
    unfold CapOK at this
    rw [supplied_eq hi hfa (fun m hm => (hms m hm).1) hy hik] at this
    rcases this with h1 | ⟨m, hm, he, u, hu, h1⟩
    · exact Or.inl h1
    · right
      obtain ⟨x, hx, hR⟩ := forall2_mem hfa hm
      obtain ⟨b, gu, gv, hb, _, hr, hbn, _, hg1, hg2, e1, e2, h3, h4, _⟩ :=
        arc_caps hi (hms m hm).1
      have hbx : b = x.bid := by
        have := hR.bid; rw [hbn] at this; exact Option.some.inj this
      subst hbx
      obtain ⟨n, hn', hgn, hcu⟩ := hu
      have hnv : n = m.1.v := by
        rcases hn' with rfl | rfl
        · rw [e1] at hgn
          exact absurd (Option.some.inj hgn) (hi.gr_gb hg1 hy)
        · rfl
      subst hnv
      rw [e2] at hgn
      have hgn := Option.some.inj hgn
      subst hgn
      have e := List.inj_on_of_nodup_map (f := Prod.fst)
        (by have := hi.gnodup; rw [List.map_append] at this; exact this.of_append_right) hg2 hy rfl
      have hport : (c.bid x.bid).portfolio = y.2 := congrArg Prod.snd e
      refine ⟨x, hx, hexcl m x (hms m hm).1 hR he, hport, ?_⟩
      rw [hport] at h3
      have hm3 := mapM_get h3 i k hik
      rw [hcu] at hm3
      obtain ⟨z, hz, hze⟩ := Option.map_eq_some_iff.1 hm3.symm
      rw [hR.answers, hz, hR.amt, Option.getD_some, hze]
      exact h1
  · intro q hq
    have hq0 := hq
    rw [← hgr] at hq
    obtain ⟨y, hy, rfl⟩ := List.mem_map.1 hq
    have hmem : y.1 ∈ t.g.reqs := by rw [hf.reqs]; exact List.mem_map.2 ⟨y, hy, rfl⟩
    have := C13_group hcond hwf hn hulp heps (by
      intro r hr
      rw [hf.reqs] at hr
      obtain ⟨z, hz, rfl⟩ := List.mem_map.1 hr
      rw [(hf.rcaps z hz).2]
      exact (((C17_success dist hv).1 ⟨t, ht⟩).1 _
        (by rw [← hgr]; exact List.mem_map.2 ⟨z, hz, rfl⟩)).le) h y.1 hmem
    unfold GroupOK at this
    rw [delivered_eq hi hfa (fun m hm => (hms m hm).1) hy, (hf.rcaps y hy).2] at this
    rcases this with h1 | ⟨m, hm, he, _, h1⟩
    · exact Or.inl h1
    · obtain ⟨x, hx, hR⟩ := forall2_mem hfa hm
      exact Or.inr ⟨x, hx, hexcl m x (hms m hm).1 hR he, by rw [hR.amt]; exact h1⟩
  · intro b hb
    obtain ⟨n, hbn⟩ := (hi.bdom b).2 (by rw [hes]; exact hb)
    obtain ⟨g2, _, hN⟩ := hi.bnode _ _ hbn
    have := C13_node_partial hcond hwf hn hun hulp heps h n
      (by rw [hN.qty]; exact (hs.offer b hb).le)
    unfold NodeOK at this
    rw [taken_eq hi hfa hbn, hN.qty] at this
    rcases this with h1 | ⟨m, hm, he, hend, h1⟩
    · exact Or.inl h1
    · obtain ⟨x, hx, hR⟩ := forall2_mem hfa hm
      refine Or.inr ⟨x, hx, hexcl m x (hms m hm).1 hR he, ?_, by rw [hR.amt]; exact h1⟩
      rcases hend with hu | hv'
      · exact absurd ((hi.bn _ _).1 hbn) (fun hh => hi.sep _ _ _ hR.request (by rw [hu]; exact hh))
      · have := hR.bid
        rw [hv', (hi.bn _ _).1 hbn] at this
        exact (Option.some.inj this).symm

/-! ## Concrete cases -/

/-- Three requests in two portfolios, three bids in two portfolios; the last bid is unwanted
(negative preference), bid 1 is exclusive. -/
def exCtx : Ctx where
  req
    | 0 => ⟨5, 1, "u", 1, false, 0⟩
    | 1 => ⟨5, 1, "v", 1, false, 0⟩
    | _ => ⟨3, 2, "u", 2, false, 1⟩
  bid
    | 0 => ⟨0, 10, 4, 3, none, false, 0⟩
    | 1 => ⟨2, 11, 2, 3, none, true, 0⟩
    | _ => ⟨1, 12, 5, 4, some (-1), false, 1⟩
  rp
    | 0 => ⟨[0, 1], fun _ => some 1, [], 5, some 1⟩
    | _ => ⟨[2], fun _ => some 1, [], 3, some 2⟩
  bp
    | 0 => ⟨[0, 1], [⟨7, fun _ b => if b = 0 then some 8 else some 2⟩], some 3⟩
    | _ => ⟨[2], [], some 4⟩
  requests := [0, 1]
  bids := [0, 1]
  requesters := [1, 2]
  bidders := [3, 4]
  commodRequests := fun k => if k = "u" then [0, 2] else [1]
  bidsByRequest := fun r => if r = 0 then [0] else if r = 2 then [1] else [2]
  prefs := fun _ => some fun _ b => if b = 0 then some 1 else if b = 1 then some 2 else some (-1)
  manager := fun t => t

theorem exCtx_valid : Valid exCtx := by
  refine ⟨by decide, by decide, by decide, by decide, by decide +kernel, by decide, by decide,
    by decide +kernel, ?_, by decide +kernel, by decide +kernel⟩
  intro b _; simp [exCtx]

theorem exCtx_sane : Sane exParams.dmax exCtx := by
  refine ⟨by decide +kernel, by decide +kernel, by decide +kernel, by decide +kernel, ?_, ?_, ?_⟩
  · intro p hp r hr x hx
    have hp : p = 0 ∨ p = 1 := by simpa [exCtx] using hp
    rcases hp with rfl | rfl <;> simp [exCtx] at hx <;> rw [← hx] <;> norm_num
  · intro b hb k hk
    have hb : b = 0 ∨ b = 1 ∨ b = 2 := by simpa [exCtx, allBids] using hb
    rcases hb with rfl | rfl | rfl <;> simp [exCtx] at hk
  · intro b hb k hk x hx
    have hb : b = 0 ∨ b = 1 ∨ b = 2 := by simpa [exCtx, allBids] using hb
    rcases hb with rfl | rfl | rfl <;> simp [exCtx] at hk <;> subst hk <;> simp at hx <;>
      rw [← hx] <;> norm_num

/-- Translation, solution and back-translation of a context. -/
def exTrades (c : Ctx) : Option (List Trade) :=
  match translate exParams.dist c with
  | .error _ => none
  | .ok t =>
    match backTranslate t (solveGraph exParams true (condition []) t.g (fun _ => []) []).1.matches_ with
    | .error _ => none
    | .ok ts => some ts

/-- The hypotheses of C17, C61 and C62 hold for the context above; its trades are two (of the bids
with positive preference), and the capacity 7 of the first bid portfolio is used up to 6 = 2·2+2. -/
example : Valid exCtx ∧ Sane exParams.dmax exCtx ∧ Conditioner (condition []) ∧
    Ulp exParams (fun _ => 0) ∧ (∃ t, translate exParams.dist exCtx = .ok t) ∧
    exTrades exCtx = some [⟨2, 1, 2⟩, ⟨0, 0, 5 / 2⟩] := by
  refine ⟨exCtx_valid, exCtx_sane, Or.inr ⟨_, rfl⟩, exParams_ulp, ?_, by decide +kernel⟩
  exact (C17_success _ exCtx_valid).2 ⟨by decide +kernel, by decide +kernel⟩

/-- A preference of 0 is rejected. -/
example : Valid { exCtx with prefs := fun _ => some fun _ _ => some 0 } ∧
    ∃ b ∈ allBids exCtx, prefOf { exCtx with prefs := fun _ => some fun _ _ => some 0 } b = 0 := by
  refine ⟨⟨by decide, by decide, by decide, by decide, by decide +kernel, by decide, by decide,
    by decide +kernel, ?_, by decide +kernel, by decide +kernel⟩, 0, by decide, by decide +kernel⟩
  intro b _; simp

/-- A request portfolio for 10 with a constraint of capacity 2, and a bid of 10. -/
def exReqCon : Ctx where
  req := fun _ => ⟨10, 1, "u", 1, false, 0⟩
  bid := fun _ => ⟨0, 10, 10, 3, none, false, 0⟩
  rp := fun _ => ⟨[0], fun _ => some 1, [⟨2, fun _ _ => some 10⟩], 10, some 1⟩
  bp := fun _ => ⟨[0], [], some 3⟩
  requests := [0]
  bids := [0]
  requesters := [1]
  bidders := [3]
  commodRequests := fun _ => [0]
  bidsByRequest := fun _ => [0]
  prefs := fun _ => some fun _ _ => some 1
  manager := fun t => t

/-- **C62 fails for constraints of request portfolios.** `Translate` adds a constraint for the
requested quantity to every request portfolio, and the solver takes the most permissive
constraint of a request node (C12_fails_request), so a constraint that a requester puts on its
portfolio has no effect: here it allows 2, and 10 are delivered. -/
theorem C62_fails_request :
    ∃ (c : Ctx) (ts : List Trade) (k : Con), Valid c ∧ Sane exParams.dmax c ∧
      exTrades c = some ts ∧ k ∈ (c.rp 0).cons ∧
      k.cap < (ts.map fun x => x.amt * ((k.conv x.request x.bid).getD 0 / (c.bid x.bid).qty)).sum := by
  refine ⟨exReqCon, [⟨0, 0, 10⟩], ⟨2, fun _ _ => some 10⟩, ?_, ?_, by decide +kernel,
    List.mem_singleton.2 rfl, by norm_num [exReqCon]⟩
  · exact ⟨by decide, by decide, by decide, by decide, by decide +kernel, by decide, by decide,
      by decide +kernel, fun b _ => by simp [exReqCon], by decide +kernel, by decide +kernel⟩
  · refine ⟨by decide +kernel, by decide +kernel, by decide +kernel, by decide +kernel, ?_, ?_, ?_⟩
    · intro p _ r _ x hx
      simp [exReqCon] at hx; rw [← hx]; norm_num
    · intro b _ k hk x hx
      simp [exReqCon] at hk; subst hk; simp at hx; rw [← hx]; norm_num
    · intro b _ k hk; simp [exReqCon] at hk

end Cyclus.Dre
