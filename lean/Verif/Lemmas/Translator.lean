import Verif.Spec.Translator
import Mathlib.Data.List.Nodup
import Mathlib.Tactic.Linarith

/-!
# Invariant of the exchange translator
-/

namespace Cyclus.Dre

open Cyclus.Exchange Spec

/-- The node of a request of group `gid`, apart from unit capacities and preferences. -/
structure RNode (c : Ctx) (gid r : ℕ) (n : Node) : Prop where
  group : n.group = some gid
  exclusive : n.exclusive = (c.req r).exclusive
  commod : n.commod = (c.req r).commod
  agent : n.agent = c.manager (c.req r).requester
  qty : n.qty = (c.req r).target

/-- The node of a bid of group `gid`, apart from unit capacities and preferences. -/
structure BNode (c : Ctx) (gid b : ℕ) (n : Node) : Prop where
  group : n.group = some gid
  exclusive : n.exclusive = (c.bid b).exclusive
  commod : n.commod = (c.req (c.bid b).request).commod
  agent : n.agent = c.manager (c.bid b).bidder
  qty : n.qty = (c.bid b).qty

/-- The request portfolio after `Translate` has added its constraint. -/
def finalRP (c : Ctx) (p : ℕ) : RP :=
  (c.rp p).addCon ⟨(c.rp p).qty, (c.rp p).qtyConv fun b => (c.bid b).qty⟩

/-- The translation state.  `gr`, `gb`: request and supply groups with their portfolios; `ds`, `es`:
groups with their requests and bids; `done`: the bids whose arcs have been treated. -/
structure Inv (c : Ctx) (gr gb ds es : List (ℕ × ℕ)) (done : List ℕ) (t : Xlat) : Prop where
  rn : ∀ r n, t.reqNode r = some n ↔ t.nodeReq n = some r
  bn : ∀ b n, t.bidNode b = some n ↔ t.nodeBid n = some b
  rdom : ∀ r, (∃ n, t.reqNode r = some n) ↔ r ∈ ds.map Prod.snd
  bdom : ∀ b, (∃ n, t.bidNode b = some n) ↔ b ∈ es.map Prod.snd
  rlt : ∀ n r, t.nodeReq n = some r → n < t.nn
  blt : ∀ n b, t.nodeBid n = some b → n < t.nn
  sep : ∀ n r b, t.nodeReq n = some r → t.nodeBid n = some b → False
  rnode : ∀ r n, t.reqNode r = some n → ∃ gid, (gid, r) ∈ ds ∧ RNode c gid r (t.g.node n)
  bnode : ∀ b n, t.bidNode b = some n → ∃ gid, (gid, b) ∈ es ∧ BNode c gid b (t.g.node n)
  rown : ∀ x ∈ ds, (x.1, (c.req x.2).portfolio) ∈ gr
  bown : ∀ x ∈ es, (x.1, (c.bid x.2).portfolio) ∈ gb
  glt : ∀ x ∈ gr ++ gb, x.1 < t.ng
  gnodup : ((gr ++ gb).map Prod.fst).Nodup
  grsnd : (gr.map Prod.snd).Nodup
  gbsnd : (gb.map Prod.snd).Nodup
  rnodes : ∀ x ∈ gr, (t.g.group x.1).nodes.Nodup ∧ ∀ n, n ∈ (t.g.group x.1).nodes ↔
    ∃ r, (x.1, r) ∈ ds ∧ t.reqNode r = some n
  bnodes : ∀ x ∈ gb, (t.g.group x.1).nodes.Nodup ∧ ∀ n, n ∈ (t.g.group x.1).nodes ↔
    ∃ b, (x.1, b) ∈ es ∧ t.bidNode b = some n
  rp : ∀ p, t.rp p = if p ∈ gr.map Prod.snd then finalRP c p else c.rp p
  arcs : t.g.arcs.map (fun a => (t.nodeReq a.u, t.nodeBid a.v, a.pref)) =
    (done.filter fun b => 0 < prefOf c b).map fun b =>
      (some (c.bid b).request, some b, prefOf c b)
  doneSub : ∀ b ∈ done, b ∈ es.map Prod.snd
  ucap : ∀ b ∈ done, 0 < prefOf c b → ∀ u v, t.reqNode (c.bid b).request = some u →
    t.bidNode b = some v →
    unitCapsOf c (c.bp (c.bid b).portfolio).cons (c.bid b).request b =
      some ((t.g.node v).unitCaps (u, v)) ∧
    unitCapsOf c (t.rp (c.req (c.bid b).request).portfolio).cons (c.bid b).request b =
      some ((t.g.node u).unitCaps (u, v)) ∧
    (t.g.node u).prefs.lookup (u, v) = some (prefOf c b)
  uempty : ∀ n u v, (∀ b, t.nodeBid v = some b → b ∉ done) →
    (t.g.node n).unitCaps (u, v) = [] ∧ (t.g.node n).prefs.lookup (u, v) = none

section
variable {c : Ctx} {gr gb ds es : List (ℕ × ℕ)} {done : List ℕ} {t : Xlat}

theorem Inv.arc_mem (h : Inv c gr gb ds es done t) {a : Arc} (ha : a ∈ t.g.arcs) :
    ∃ b ∈ done, 0 < prefOf c b ∧ t.nodeReq a.u = some (c.bid b).request ∧
      t.nodeBid a.v = some b ∧ a.pref = prefOf c b := by
  have : (t.nodeReq a.u, t.nodeBid a.v, a.pref) ∈
      t.g.arcs.map (fun a => (t.nodeReq a.u, t.nodeBid a.v, a.pref)) :=
    List.mem_map.2 ⟨a, ha, rfl⟩
  rw [h.arcs, List.mem_map] at this
  obtain ⟨b, hb, he⟩ := this
  rw [List.mem_filter, decide_eq_true_eq] at hb
  simp only [Prod.mk.injEq] at he
  exact ⟨b, hb.1, hb.2, he.1.symm, he.2.1.symm, he.2.2.symm⟩

theorem Inv.init (c : Ctx) : Inv c [] [] [] [] [] (Xlat.init c) := by
  constructor <;> simp [Xlat.init]

/-- A new request group. -/
theorem Inv.newReqGroup (h : Inv c gr gb ds es done t) {p : ℕ} {q : ℚ} (hp : p ∉ gr.map Prod.snd)
    (hdone : done = []) :
    Inv c (gr ++ [(t.ng, p)]) gb ds es done
      { t with
        g := { t.g with group := Function.update t.g.group t.ng ⟨[], [], [], q⟩ }
        ng := t.ng + 1
        rp := Function.update t.rp p (finalRP c p) } := by
  subst hdone
  have hne : ∀ x ∈ gr ++ gb, x.1 ≠ t.ng := fun x hx => (h.glt x hx).ne
  refine ⟨h.rn, h.bn, h.rdom, h.bdom, h.rlt, h.blt, h.sep, h.rnode, h.bnode, ?_, h.bown, ?_, ?_, ?_,
    h.gbsnd, ?_, ?_, ?_, h.arcs, h.doneSub, by simp, h.uempty⟩
  · exact fun x hx => List.mem_append_left _ (h.rown x hx)
  · intro x hx
    simp only [List.mem_append, List.mem_singleton] at hx
    rcases hx with (hx | rfl) | hx
    · exact Nat.lt_succ_of_lt (h.glt x (by simp [hx]))
    · exact Nat.lt_succ_self _
    · exact Nat.lt_succ_of_lt (h.glt x (by simp [hx]))
  · have hperm : ((gr ++ [(t.ng, p)] ++ gb).map Prod.fst).Perm
        (t.ng :: (gr ++ gb).map Prod.fst) := by
      simp only [List.map_append, List.map_cons, List.append_assoc,
        List.cons_append, List.nil_append]
      exact List.perm_middle
    rw [hperm.nodup_iff, List.nodup_cons]
    refine ⟨?_, h.gnodup⟩
    intro hm
    obtain ⟨x, hx, he⟩ := List.mem_map.1 hm
    exact hne x hx he
  · rw [List.map_append, List.nodup_append']
    refine ⟨h.grsnd, by simp, ?_⟩
    intro x hx hx'
    simp only [List.map_cons, List.map_nil, List.mem_singleton] at hx'
    subst hx'; exact hp hx
  · intro x hx
    rw [List.mem_append, List.mem_singleton] at hx
    rcases hx with hx | rfl
    · simp only [Function.update_apply, if_neg (hne x (List.mem_append_left _ hx))]
      exact h.rnodes x hx
    · simp only [Function.update_apply, if_true]
      refine ⟨List.nodup_nil, fun n => ⟨by simp, ?_⟩⟩
      rintro ⟨r, hr, _⟩
      exact absurd rfl (hne _ (List.mem_append_left _ (h.rown _ hr)))
  · intro x hx
    simp only [Function.update_apply, if_neg (hne x (List.mem_append_right _ hx))]
    exact h.bnodes x hx
  · intro p'
    simp only [Function.update_apply, List.map_append, List.mem_append, List.map_cons, List.map_nil,
      List.mem_singleton]
    by_cases hpp : p' = p
    · simp [hpp]
    · simp only [hpp, if_false, or_false]; exact h.rp p'

/-- A new supply group. -/
theorem Inv.newBidGroup (h : Inv c gr gb ds es done t) {p : ℕ} {q : ℚ} (hp : p ∉ gb.map Prod.snd) :
    Inv c gr (gb ++ [(t.ng, p)]) ds es done
      { t with
        g := { t.g with group := Function.update t.g.group t.ng ⟨[], [], [], q⟩ }
        ng := t.ng + 1 } := by
  have hne : ∀ x ∈ gr ++ gb, x.1 ≠ t.ng := fun x hx => (h.glt x hx).ne
  refine ⟨h.rn, h.bn, h.rdom, h.bdom, h.rlt, h.blt, h.sep, h.rnode, h.bnode, h.rown, ?_, ?_, ?_,
    h.grsnd, ?_, ?_, ?_, h.rp, h.arcs, h.doneSub, h.ucap, h.uempty⟩
  · exact fun x hx => List.mem_append_left _ (h.bown x hx)
  · intro x hx
    simp only [List.mem_append, List.mem_singleton] at hx
    rcases hx with hx | hx | rfl
    · exact Nat.lt_succ_of_lt (h.glt x (by simp [hx]))
    · exact Nat.lt_succ_of_lt (h.glt x (by simp [hx]))
    · exact Nat.lt_succ_self _
  · rw [← List.append_assoc, List.map_append, List.nodup_append']
    refine ⟨h.gnodup, by simp, ?_⟩
    intro x hx hx'
    simp only [List.map_cons, List.map_nil, List.mem_singleton] at hx'
    subst hx'
    obtain ⟨x, hx, he⟩ := List.mem_map.1 hx
    exact hne x hx he
  · rw [List.map_append, List.nodup_append']
    refine ⟨h.gbsnd, by simp, ?_⟩
    intro x hx hx'
    simp only [List.map_cons, List.map_nil, List.mem_singleton] at hx'
    subst hx'; exact hp hx
  · intro x hx
    simp only [Function.update_apply, if_neg (hne x (List.mem_append_left _ hx))]
    exact h.rnodes x hx
  · intro x hx
    rw [List.mem_append, List.mem_singleton] at hx
    rcases hx with hx | rfl
    · simp only [Function.update_apply, if_neg (hne x (List.mem_append_right _ hx))]
      exact h.bnodes x hx
    · simp only [Function.update_apply, if_true]
      refine ⟨List.nodup_nil, fun n => ⟨by simp, ?_⟩⟩
      rintro ⟨r, hr, _⟩
      exact absurd rfl (hne _ (List.mem_append_right _ (h.bown _ hr)))

/-- Changing capacities, quantity and exclusive groups of a group, and the lists of groups. -/
theorem Inv.setGroup (h : Inv c gr gb ds es done t) (gid : ℕ) (grp : Group) (rs ss : List ℕ)
    (hg : grp.nodes = (t.g.group gid).nodes) :
    Inv c gr gb ds es done
      { t with
        g := { t.g with
          group := Function.update t.g.group gid grp
          reqs := rs
          sups := ss } } := by
  have key : ∀ x, (Function.update t.g.group gid grp x).nodes = (t.g.group x).nodes := by
    intro x
    rw [Function.update_apply]
    split_ifs with hx
    · rw [hg, hx]
    · rfl
  refine ⟨h.rn, h.bn, h.rdom, h.bdom, h.rlt, h.blt, h.sep, h.rnode, h.bnode, h.rown, h.bown, h.glt,
    h.gnodup, h.grsnd, h.gbsnd, ?_, ?_, h.rp, h.arcs, h.doneSub, h.ucap, h.uempty⟩
  · intro x hx; simp only [key]; exact h.rnodes x hx
  · intro x hx; simp only [key]; exact h.bnodes x hx

theorem Inv.gid_unique (h : Inv c gr gb ds es done t) {x y : ℕ × ℕ} (hx : x ∈ gr) (hy : y ∈ gr)
    (he : x.2 = y.2) : x = y :=
  List.inj_on_of_nodup_map h.grsnd hx hy he

theorem Inv.gidb_unique (h : Inv c gr gb ds es done t) {x y : ℕ × ℕ} (hx : x ∈ gb) (hy : y ∈ gb)
    (he : x.2 = y.2) : x = y :=
  List.inj_on_of_nodup_map h.gbsnd hx hy he

theorem Inv.gr_gb (h : Inv c gr gb ds es done t) {x y : ℕ × ℕ} (hx : x ∈ gr) (hy : y ∈ gb) :
    x.1 ≠ y.1 := by
  have := h.gnodup
  rw [List.map_append, List.nodup_append'] at this
  intro he
  exact this.2.2 (List.mem_map.2 ⟨x, hx, rfl⟩) (List.mem_map.2 ⟨y, hy, he.symm⟩)

/-- A new request node. -/
theorem Inv.addReqNode (h : Inv c gr gb ds es done t) {gid r : ℕ}
    (hg : (gid, (c.req r).portfolio) ∈ gr) (hr : r ∉ ds.map Prod.snd)
    (hnew : ∀ b ∈ done, (c.bid b).request ≠ r) :
    Inv c gr gb (ds ++ [(gid, r)]) es done (addReqNode c gid t r) := by
  have hrn : t.reqNode r = none := by
    cases hh : t.reqNode r with
    | none => rfl
    | some n => exact absurd ((h.rdom r).1 ⟨n, hh⟩) hr
  have hnr : t.nodeReq t.nn = none := by
    cases hh : t.nodeReq t.nn with
    | none => rfl
    | some x => exact absurd (h.rlt _ _ hh) (lt_irrefl _)
  have hnb : t.nodeBid t.nn = none := by
    cases hh : t.nodeBid t.nn with
    | none => rfl
    | some x => exact absurd (h.blt _ _ hh) (lt_irrefl _)
  have hne : ∀ b n, t.bidNode b = some n → n ≠ t.nn := by
    intro b n hb he; subst he
    rw [h.bn, hnb] at hb; cases hb
  have hner : ∀ b n, t.reqNode b = some n → n ≠ t.nn := by
    intro b n hb he; subst he
    rw [h.rn, hnr] at hb; cases hb
  unfold Dre.addReqNode
  constructor
  · -- rn
    intro r' n
    simp only [Function.update_apply]
    by_cases h1 : r' = r <;> by_cases h2 : n = t.nn
    · simp [h1, h2]
    · simp only [h1, h2, if_true, if_false, Option.some.injEq]
      constructor
      · intro h3; exact absurd h3.symm h2
      · intro h3; rw [← h.rn, hrn] at h3; cases h3
    · simp only [h1, h2, if_true, if_false, Option.some.injEq]
      constructor
      · intro h3; exact absurd rfl (hner _ _ h3)
      · intro h3; exact absurd h3.symm h1
    · simp only [h1, h2, if_false]; exact h.rn r' n
  · exact h.bn
  · -- rdom
    intro r'
    simp only [Function.update_apply, List.map_append, List.mem_append, List.map_cons, List.map_nil,
      List.mem_singleton]
    by_cases h1 : r' = r
    · simp [h1]
    · simp only [h1, if_false, or_false]; exact h.rdom r'
  · exact h.bdom
  · -- rlt
    intro n r'
    simp only [Function.update_apply]
    by_cases h2 : n = t.nn
    · intro _; omega
    · simp only [h2, if_false]; intro h3; have := h.rlt _ _ h3; omega
  · intro n b hb; have := h.blt n b hb; show n < t.nn + 1; omega
  · -- sep
    intro n r' b
    simp only [Function.update_apply]
    by_cases h2 : n = t.nn
    · intro _ hb; rw [h2, hnb] at hb; cases hb
    · simp only [h2, if_false]; exact h.sep n r' b
  · -- rnode
    intro r' n
    simp only [Function.update_apply]
    by_cases h1 : r' = r
    · subst h1
      simp only [if_true, Option.some.injEq]
      rintro rfl
      refine ⟨gid, by simp, ?_⟩
      simp only [if_true]
      exact ⟨rfl, rfl, rfl, rfl, rfl⟩
    · simp only [h1, if_false]
      intro h3
      rw [if_neg (hner _ _ h3)]
      obtain ⟨g', hg', hn⟩ := h.rnode r' n h3
      exact ⟨g', by simp [hg'], hn⟩
  · -- bnode
    intro b n hb
    simp only [Function.update_apply, if_neg (hne _ _ hb)]
    exact h.bnode b n hb
  · -- rown
    intro x hx
    rw [List.mem_append, List.mem_singleton] at hx
    rcases hx with hx | rfl
    · exact h.rown x hx
    · exact hg
  · exact h.bown
  · exact h.glt
  · exact h.gnodup
  · exact h.grsnd
  · exact h.gbsnd
  · -- rnodes
    intro x hx
    obtain ⟨hn, hm⟩ := h.rnodes x hx
    by_cases h1 : x.1 = gid
    · have hxg : x = (gid, (c.req r).portfolio) :=
        List.inj_on_of_nodup_map (f := Prod.fst)
          (by have := h.gnodup; rw [List.map_append] at this; exact this.of_append_left)
          hx hg h1
      simp only [Function.update_apply, h1, if_true]
      rw [h1] at hn hm
      constructor
      · rw [List.nodup_append']
        refine ⟨hn, by simp, ?_⟩
        intro n hn' hn''
        rw [List.mem_singleton] at hn''; subst hn''
        obtain ⟨r', _, h4⟩ := (hm _).1 hn'
        exact hner _ _ h4 rfl
      · intro n
        rw [List.mem_append, List.mem_singleton, hm n]
        constructor
        · rintro (⟨r', h3, h4⟩ | rfl)
          · refine ⟨r', by simp [h3], ?_⟩
            rw [if_neg]; · exact h4
            rintro rfl; rw [hrn] at h4; cases h4
          · exact ⟨r, by simp, by simp⟩
        · rintro ⟨r', h3, h4⟩
          rw [List.mem_append, List.mem_singleton] at h3
          by_cases h5 : r' = r
          · subst h5
            simp only [if_true, Option.some.injEq] at h4
            exact Or.inr h4.symm
          · rw [if_neg h5] at h4
            rcases h3 with h3 | h3
            · exact Or.inl ⟨r', h3, h4⟩
            · exact absurd (congrArg Prod.snd h3) h5
    · simp only [Function.update_apply, h1, if_false]
      refine ⟨hn, fun n => ?_⟩
      rw [hm n]
      constructor
      · rintro ⟨r', h3, h4⟩
        refine ⟨r', by simp [h3], ?_⟩
        rw [if_neg]; · exact h4
        rintro rfl; rw [hrn] at h4; cases h4
      · rintro ⟨r', h3, h4⟩
        rw [List.mem_append, List.mem_singleton] at h3
        rcases h3 with h3 | h3
        · refine ⟨r', h3, ?_⟩
          rw [if_neg] at h4; · exact h4
          rintro rfl
          exact hr (List.mem_map.2 ⟨_, h3, rfl⟩)
        · exact absurd (congrArg Prod.fst h3) h1
  · -- bnodes
    intro x hx
    have h1 : x.1 ≠ gid := fun he => h.gr_gb hg hx he.symm
    simp only [Function.update_apply, h1, if_false]
    exact h.bnodes x hx
  · exact h.rp
  · -- arcs
    rw [← h.arcs]
    refine List.map_congr_left fun a ha => ?_
    obtain ⟨b, _, _, hu, _, _⟩ := h.arc_mem ha
    simp only [Function.update_apply]
    rw [if_neg]
    intro he; rw [he, hnr] at hu; cases hu
  · exact h.doneSub
  · -- ucap
    intro b hb hp u v hu hv
    simp only [Function.update_apply] at hu ⊢
    rw [if_neg (hnew b hb)] at hu
    rw [if_neg (hne _ _ hv), if_neg (hner _ _ hu)]
    exact h.ucap b hb hp u v hu hv
  · -- uempty
    intro n u v hv
    simp only [Function.update_apply]
    split_ifs
    · exact ⟨rfl, rfl⟩
    · exact h.uempty n u v hv

/-- A new bid node. -/
theorem Inv.addBidNode (h : Inv c gr gb ds es done t) {gid b : ℕ} {ex : List (ℕ × List ℕ)}
    (hg : (gid, (c.bid b).portfolio) ∈ gb) (hb : b ∉ es.map Prod.snd) :
    Inv c gr gb ds (es ++ [(gid, b)]) done (addBidNode c gid (t, ex) b).1 := by
  have hrn : t.bidNode b = none := by
    cases hh : t.bidNode b with
    | none => rfl
    | some n => exact absurd ((h.bdom b).1 ⟨n, hh⟩) hb
  have hnr : t.nodeReq t.nn = none := by
    cases hh : t.nodeReq t.nn with
    | none => rfl
    | some x => exact absurd (h.rlt _ _ hh) (lt_irrefl _)
  have hnb : t.nodeBid t.nn = none := by
    cases hh : t.nodeBid t.nn with
    | none => rfl
    | some x => exact absurd (h.blt _ _ hh) (lt_irrefl _)
  have hne : ∀ b n, t.bidNode b = some n → n ≠ t.nn := by
    intro b n hb he; subst he
    rw [h.bn, hnb] at hb; cases hb
  have hner : ∀ b n, t.reqNode b = some n → n ≠ t.nn := by
    intro b n hb he; subst he
    rw [h.rn, hnr] at hb; cases hb
  unfold Dre.addBidNode
  constructor
  · exact h.rn
  · -- bn
    intro r' n
    simp only [Function.update_apply]
    by_cases h1 : r' = b <;> by_cases h2 : n = t.nn
    · simp [h1, h2]
    · simp only [h1, h2, if_true, if_false, Option.some.injEq]
      constructor
      · intro h3; exact absurd h3.symm h2
      · intro h3; rw [← h.bn, hrn] at h3; cases h3
    · simp only [h1, h2, if_true, if_false, Option.some.injEq]
      constructor
      · intro h3; exact absurd rfl (hne _ _ h3)
      · intro h3; exact absurd h3.symm h1
    · simp only [h1, h2, if_false]; exact h.bn r' n
  · exact h.rdom
  · -- bdom
    intro r'
    simp only [Function.update_apply, List.map_append, List.mem_append, List.map_cons, List.map_nil,
      List.mem_singleton]
    by_cases h1 : r' = b
    · simp [h1]
    · simp only [h1, if_false, or_false]; exact h.bdom r'
  · intro n b hb; have := h.rlt n b hb; show n < t.nn + 1; omega
  · -- blt
    intro n r'
    simp only [Function.update_apply]
    by_cases h2 : n = t.nn
    · intro _; omega
    · simp only [h2, if_false]; intro h3; have := h.blt _ _ h3; omega
  · -- sep
    intro n r' b'
    simp only [Function.update_apply]
    by_cases h2 : n = t.nn
    · intro hr; rw [h2, hnr] at hr; cases hr
    · simp only [h2, if_false]; exact h.sep n r' b'
  · -- rnode
    intro r' n hr'
    simp only [Function.update_apply, if_neg (hner _ _ hr')]
    exact h.rnode r' n hr'
  · -- bnode
    intro r' n
    simp only [Function.update_apply]
    by_cases h1 : r' = b
    · subst h1
      simp only [if_true, Option.some.injEq]
      rintro rfl
      refine ⟨gid, by simp, ?_⟩
      simp only [if_true]
      exact ⟨rfl, rfl, rfl, rfl, rfl⟩
    · simp only [h1, if_false]
      intro h3
      rw [if_neg (hne _ _ h3)]
      obtain ⟨g', hg', hn⟩ := h.bnode r' n h3
      exact ⟨g', by simp [hg'], hn⟩
  · exact h.rown
  · -- bown
    intro x hx
    rw [List.mem_append, List.mem_singleton] at hx
    rcases hx with hx | rfl
    · exact h.bown x hx
    · exact hg
  · exact h.glt
  · exact h.gnodup
  · exact h.grsnd
  · exact h.gbsnd
  · -- rnodes
    intro x hx
    have h1 : x.1 ≠ gid := fun he => h.gr_gb hx hg he
    simp only [Function.update_apply, h1, if_false]
    exact h.rnodes x hx
  · -- bnodes
    intro x hx
    obtain ⟨hn, hm⟩ := h.bnodes x hx
    by_cases h1 : x.1 = gid
    · simp only [Function.update_apply, h1, if_true]
      rw [h1] at hn hm
      constructor
      · rw [List.nodup_append']
        refine ⟨hn, by simp, ?_⟩
        intro n hn' hn''
        rw [List.mem_singleton] at hn''; subst hn''
        obtain ⟨r', _, h4⟩ := (hm _).1 hn'
        exact hne _ _ h4 rfl
      · intro n
        rw [List.mem_append, List.mem_singleton, hm n]
        constructor
        · rintro (⟨r', h3, h4⟩ | rfl)
          · refine ⟨r', by simp [h3], ?_⟩
            rw [if_neg]; · exact h4
            rintro rfl; rw [hrn] at h4; cases h4
          · exact ⟨b, by simp, by simp⟩
        · rintro ⟨r', h3, h4⟩
          rw [List.mem_append, List.mem_singleton] at h3
          by_cases h5 : r' = b
          · subst h5
            simp only [if_true, Option.some.injEq] at h4
            exact Or.inr h4.symm
          · rw [if_neg h5] at h4
            rcases h3 with h3 | h3
            · exact Or.inl ⟨r', h3, h4⟩
            · exact absurd (congrArg Prod.snd h3) h5
    · simp only [Function.update_apply, h1, if_false]
      refine ⟨hn, fun n => ?_⟩
      rw [hm n]
      constructor
      · rintro ⟨r', h3, h4⟩
        refine ⟨r', by simp [h3], ?_⟩
        rw [if_neg]; · exact h4
        rintro rfl; rw [hrn] at h4; cases h4
      · rintro ⟨r', h3, h4⟩
        rw [List.mem_append, List.mem_singleton] at h3
        rcases h3 with h3 | h3
        · refine ⟨r', h3, ?_⟩
          rw [if_neg] at h4; · exact h4
          rintro rfl
          exact hb (List.mem_map.2 ⟨_, h3, rfl⟩)
        · exact absurd (congrArg Prod.fst h3) h1
  · exact h.rp
  · -- arcs
    rw [← h.arcs]
    refine List.map_congr_left fun a ha => ?_
    obtain ⟨b', _, _, _, hv, _⟩ := h.arc_mem ha
    simp only [Function.update_apply]
    rw [if_neg]
    intro he; rw [he, hnb] at hv; cases hv
  · -- doneSub
    intro b' hb'; rw [List.map_append]; exact List.mem_append_left _ (h.doneSub b' hb')
  · -- ucap
    intro b' hb' hp u v hu hv
    simp only [Function.update_apply] at hv ⊢
    have hbb : b' ≠ b := by rintro rfl; exact hb (h.doneSub _ hb')
    rw [if_neg hbb] at hv
    rw [if_neg (hne _ _ hv), if_neg (hner _ _ hu)]
    exact h.ucap b' hb' hp u v hu hv
  · -- uempty
    intro n u v hv
    simp only [Function.update_apply] at hv ⊢
    have hv' : ∀ b', t.nodeBid v = some b' → b' ∉ done := by
      intro b' hb'
      apply hv b'
      rw [if_neg]; · exact hb'
      intro he; rw [he, hnb] at hb'; cases hb'
    split_ifs
    · exact ⟨rfl, rfl⟩
    · exact h.uempty n u v hv'

end

theorem lookup_setPref (l : List (ArcKey × ℚ)) (k k' : ArcKey) (x : ℚ) :
    (setPref l k x).lookup k' = if k' = k then some x else l.lookup k' := by
  induction l with
  | nil =>
    by_cases h : k' = k
    · subst h; simp [setPref]
    · have : (k' == k) = false := by simpa using h
      simp [setPref, List.lookup, h, this]
  | cons e l ih =>
    obtain ⟨ke, y⟩ := e
    unfold setPref
    by_cases he : ke = k
    · subst he
      simp only [if_true]
      by_cases h : k' = ke
      · subst h; simp [List.lookup]
      · have : (k' == ke) = false := by simpa using h
        simp [List.lookup, h, this]
    · simp only [he, if_false]
      by_cases h : k' = ke
      · subst h; simp [List.lookup, he]
      · have : (k' == ke) = false := by simpa using h
        simp only [List.lookup, this, ih]

theorem mapM_some {α β : Type} {f : α → Option β} {l : List α} (h : ∀ x ∈ l, f x ≠ none) :
    ∃ ys, l.mapM f = some ys := by
  induction l with
  | nil => exact ⟨[], rfl⟩
  | cons x l ih =>
    obtain ⟨ys, hy⟩ := ih fun y hy => h y (List.mem_cons_of_mem _ hy)
    obtain ⟨y, hx⟩ := Option.ne_none_iff_exists'.1 (h x List.mem_cons_self)
    exact ⟨y :: ys, by simp [List.mapM_cons, hx, hy]⟩

theorem mapM_length {α β : Type} {f : α → Option β} {l : List α} {ys : List β}
    (h : l.mapM f = some ys) : ys.length = l.length := by
  induction l generalizing ys with
  | nil => cases h; rfl
  | cons x l ih =>
    rw [List.mapM_cons] at h
    simp only [Option.bind_eq_bind, Option.bind_eq_some_iff, Option.pure_def,
      Option.some.injEq] at h
    obtain ⟨y, _, ys', h2, rfl⟩ := h
    simp [ih h2]

theorem mapM_get {α β : Type} {f : α → Option β} {l : List α} {ys : List β}
    (h : l.mapM f = some ys) (i : ℕ) (x : α) (hx : l[i]? = some x) : ys[i]? = f x := by
  induction l generalizing ys i with
  | nil => simp at hx
  | cons z l ih =>
    rw [List.mapM_cons] at h
    simp only [Option.bind_eq_bind, Option.bind_eq_some_iff, Option.pure_def,
      Option.some.injEq] at h
    obtain ⟨y, h1, ys', h2, rfl⟩ := h
    cases i with
    | zero => simp only [List.getElem?_cons_zero, Option.some.injEq] at hx ⊢; rw [← hx, h1]
    | succ i => simp only [List.getElem?_cons_succ] at hx ⊢; exact ih h2 i hx

/-- What adding nodes leaves alone. -/
structure Same (t t' : Xlat) : Prop where
  reqs : t'.g.reqs = t.g.reqs
  sups : t'.g.sups = t.g.sups
  arcs : t'.g.arcs = t.g.arcs
  rp : t'.rp = t.rp
  caps : ∀ x, (t'.g.group x).caps = (t.g.group x).caps
  qty : ∀ x, (t'.g.group x).qty = (t.g.group x).qty
  le : t.nn ≤ t'.nn
  node : ∀ n, n < t.nn → t'.g.node n = t.g.node n

theorem Same.refl (t : Xlat) : Same t t :=
  ⟨rfl, rfl, rfl, rfl, fun _ => rfl, fun _ => rfl, le_rfl, fun _ _ => rfl⟩

theorem Same.trans {a b c : Xlat} (h : Same a b) (h' : Same b c) : Same a c :=
  ⟨h'.reqs.trans h.reqs, h'.sups.trans h.sups, h'.arcs.trans h.arcs, h'.rp.trans h.rp,
    fun x => (h'.caps x).trans (h.caps x), fun x => (h'.qty x).trans (h.qty x), h.le.trans h'.le,
    fun n hn => (h'.node n (lt_of_lt_of_le hn h.le)).trans (h.node n hn)⟩

theorem Same.addReqNode (c : Ctx) (gid : ℕ) (t : Xlat) (r : ℕ) :
    Same t (addReqNode c gid t r) := by
  refine ⟨rfl, rfl, rfl, rfl, fun x => ?_, fun x => ?_, Nat.le_succ _, fun n hn => ?_⟩
  · simp only [Dre.addReqNode, Function.update_apply]; split_ifs with h <;> simp [h]
  · simp only [Dre.addReqNode, Function.update_apply]; split_ifs with h <;> simp [h]
  · simp only [Dre.addReqNode, Function.update_apply]; rw [if_neg hn.ne]

theorem Same.addBidNode (c : Ctx) (gid : ℕ) (t : Xlat) (ex : List (ℕ × List ℕ)) (r : ℕ) :
    Same t (addBidNode c gid (t, ex) r).1 := by
  refine ⟨rfl, rfl, rfl, rfl, fun x => ?_, fun x => ?_, Nat.le_succ _, fun n hn => ?_⟩
  · simp only [Dre.addBidNode, Function.update_apply]; split_ifs with h <;> simp [h]
  · simp only [Dre.addBidNode, Function.update_apply]; split_ifs with h <;> simp [h]
  · simp only [Dre.addBidNode, Function.update_apply]; rw [if_neg hn.ne]

section
variable {c : Ctx} {gr gb ds es : List (ℕ × ℕ)} {done : List ℕ} {t : Xlat}

theorem Inv.addReqNodes {gid p : ℕ} (rs : List ℕ) : ∀ {t : Xlat} {ds : List (ℕ × ℕ)},
    Inv c gr gb ds es [] t → (gid, p) ∈ gr → (∀ r ∈ rs, (c.req r).portfolio = p) →
    (∀ r ∈ rs, r ∉ ds.map Prod.snd) → rs.Nodup →
    Inv c gr gb (ds ++ rs.map fun r => (gid, r)) es [] (rs.foldl (Dre.addReqNode c gid) t) ∧
      Same t (rs.foldl (Dre.addReqNode c gid) t) := by
  induction rs with
  | nil => intro t ds h _ _ _ _; simpa using ⟨h, Same.refl t⟩
  | cons r rs ih =>
    intro t ds h hg hp hf hn
    rw [List.nodup_cons] at hn
    have h1 := h.addReqNode (gid := gid) (r := r) (by rw [hp r List.mem_cons_self]; exact hg)
      (hf r List.mem_cons_self) (by simp)
    have h2 := ih h1 hg (fun r hr => hp r (List.mem_cons_of_mem _ hr)) (by
      intro r' hr'
      rw [List.map_append, List.mem_append]
      rintro (h3 | h3)
      · exact hf r' (List.mem_cons_of_mem _ hr') h3
      · simp only [List.map_cons, List.map_nil, List.mem_singleton] at h3
        subst h3; exact hn.1 hr') hn.2
    rw [List.append_assoc] at h2
    exact ⟨h2.1, (Same.addReqNode c gid t r).trans h2.2⟩

theorem Inv.addBidNodes {gid p : ℕ} (bs : List ℕ) :
    ∀ {t : Xlat} {ex : List (ℕ × List ℕ)} {es : List (ℕ × ℕ)},
    Inv c gr gb ds es done t → (gid, p) ∈ gb → (∀ b ∈ bs, (c.bid b).portfolio = p) →
    (∀ b ∈ bs, b ∉ es.map Prod.snd) → bs.Nodup →
    Inv c gr gb ds (es ++ bs.map fun b => (gid, b)) done
        (bs.foldl (Dre.addBidNode c gid) (t, ex)).1 ∧
      Same t (bs.foldl (Dre.addBidNode c gid) (t, ex)).1 := by
  induction bs with
  | nil => intro t ex es h _ _ _ _; simpa using ⟨h, Same.refl t⟩
  | cons r rs ih =>
    intro t ex es h hg hp hf hn
    rw [List.nodup_cons] at hn
    have h1 := h.addBidNode (gid := gid) (b := r) (ex := ex)
      (by rw [hp r List.mem_cons_self]; exact hg) (hf r List.mem_cons_self)
    have h2 := ih (ex := (Dre.addBidNode c gid (t, ex) r).2) h1 hg
      (fun r hr => hp r (List.mem_cons_of_mem _ hr)) (by
      intro r' hr'
      rw [List.map_append, List.mem_append]
      rintro (h3 | h3)
      · exact hf r' (List.mem_cons_of_mem _ hr') h3
      · simp only [List.map_cons, List.map_nil, List.mem_singleton] at h3
        subst h3; exact hn.1 hr') hn.2
    rw [List.append_assoc] at h2
    exact ⟨h2.1, (Same.addBidNode c gid t ex r).trans h2.2⟩

/-- Finished groups and arcs. -/
structure Done (dist : ℚ → ℚ → ℚ) (c : Ctx) (gr gb : List (ℕ × ℕ)) (t : Xlat) : Prop where
  reqs : t.g.reqs = gr.map Prod.fst
  sups : t.g.sups = gb.map Prod.fst
  rcaps : ∀ x ∈ gr, (t.g.group x.1).caps = (finalRP c x.2).cons.map Con.cap ∧
    (t.g.group x.1).qty = (c.rp x.2).qty
  bcaps : ∀ x ∈ gb, (t.g.group x.1).caps = (c.bp x.2).cons.map Con.cap
  other : ∀ x, x ∉ (gr ++ gb).map Prod.fst → (t.g.group x).caps = []
  arc : ∀ a ∈ t.g.arcs, a.u < t.nn ∧ a.v < t.nn ∧ a = mkArc dist t.g.node a.u a.v a.pref

theorem Done.init (dist : ℚ → ℚ → ℚ) (c : Ctx) : Done dist c [] [] (Xlat.init c) := by
  constructor <;> simp [Xlat.init]

theorem mkArc_congr {dist : ℚ → ℚ → ℚ} {f g : ℕ → Node} {u v : ℕ} {x : ℚ}
    (hu : (f u).exclusive = (g u).exclusive ∧ (f u).qty = (g u).qty)
    (hv : (f v).exclusive = (g v).exclusive ∧ (f v).qty = (g v).qty) :
    mkArc dist f u v x = mkArc dist g u v x := by
  simp only [mkArc, hu.1, hu.2, hv.1, hv.2]

variable {dist : ℚ → ℚ → ℚ}

theorem Done.arc_same {t t' : Xlat} (hf : Done dist c gr gb t) (hs : Same t t') :
    ∀ a ∈ t'.g.arcs, a.u < t'.nn ∧ a.v < t'.nn ∧ a = mkArc dist t'.g.node a.u a.v a.pref := by
  intro a ha
  rw [hs.arcs] at ha
  obtain ⟨h1, h2, h3⟩ := hf.arc a ha
  refine ⟨lt_of_lt_of_le h1 hs.le, lt_of_lt_of_le h2 hs.le, ?_⟩
  rw [mkArc_congr (g := t.g.node)]
  · exact h3
  · rw [hs.node _ h1]; exact ⟨rfl, rfl⟩
  · rw [hs.node _ h2]; exact ⟨rfl, rfl⟩

theorem xlateReqPort_ok (h : Inv c gr [] ds es [] t) (hf : Done dist c gr [] t) {p : ℕ}
    (hp : p ∉ gr.map Prod.snd) (hq : 0 < (c.rp p).qty)
    (hown : ∀ r ∈ (c.rp p).reqs, (c.req r).portfolio = p)
    (hfresh : ∀ r ∈ (c.rp p).reqs, r ∉ ds.map Prod.snd) (hnd : (c.rp p).reqs.Nodup) :
    ∃ t', xlateReqPort c t p = .ok t' ∧
      Inv c (gr ++ [(t.ng, p)]) [] (ds ++ (c.rp p).reqs.map fun r => (t.ng, r)) es [] t' ∧
      Done dist c (gr ++ [(t.ng, p)]) [] t' := by
  have hrp : t.rp p = c.rp p := by rw [h.rp, if_neg hp]
  unfold xlateReqPort
  rw [hrp, mkCon, if_neg (not_le.2 hq)]
  simp only
  refine ⟨_, rfl, ?_⟩
  have h1 := h.newReqGroup (p := p) (q := (c.rp p).qty) hp rfl
  obtain ⟨h2, hs⟩ := h1.addReqNodes (gid := t.ng) (p := p) (c.rp p).reqs
    (List.mem_append_right _ (List.mem_singleton.2 rfl)) hown hfresh hnd
  refine ⟨?_, ?_⟩
  · exact h2.setGroup t.ng _ _ _ rfl
  · refine ⟨?_, ?_, ?_, by simp, ?_, ?_⟩
    · show _ ++ [t.ng] = _
      have := hs.reqs
      rw [List.map_append]
      exact congrArg (· ++ [t.ng]) (this.trans hf.reqs)
    · exact hs.sups.trans hf.sups
    · intro x hx
      rw [List.mem_append, List.mem_singleton] at hx
      simp only [Function.update_apply]
      rcases hx with hx | rfl
      · have hne : x.1 ≠ t.ng := (h.glt x (List.mem_append_left _ hx)).ne
        rw [if_neg hne]
        refine ⟨(hs.caps x.1).trans ?_, (hs.qty x.1).trans ?_⟩
        · simp only [Function.update_apply, if_neg hne]; exact (hf.rcaps x hx).1
        · simp only [Function.update_apply, if_neg hne]; exact (hf.rcaps x hx).2
      · rw [if_pos rfl]
        refine ⟨rfl, (hs.qty t.ng).trans ?_⟩
        simp only [Function.update_apply, if_true]
    · intro x hx
      have hne : x ≠ t.ng := by
        rintro rfl; exact hx (by simp)
      simp only [Function.update_apply, if_neg hne]
      refine (hs.caps x).trans ?_
      simp only [Function.update_apply, if_neg hne]
      refine hf.other x fun hx' => hx ?_
      simp only [List.map_append, List.mem_append, List.append_nil] at hx' ⊢
      tauto
    · intro a ha
      have harcs : t.g.arcs = [] := by
        have := h.arcs; simpa using this
      have : a ∈ t.g.arcs := by
        have h3 := hs.arcs
        simp only at h3
        rw [← h3]; exact ha
      rw [harcs] at this; cases this

theorem xlateBids_ok (h : Inv c gr gb ds es done t) (hf : Done dist c gr gb t) {p : ℕ}
    (hp : p ∉ gb.map Prod.snd)
    (hown : ∀ r ∈ (c.bp p).bids, (c.bid r).portfolio = p)
    (hfresh : ∀ r ∈ (c.bp p).bids, r ∉ es.map Prod.snd) (hnd : (c.bp p).bids.Nodup) :
      Inv c gr (gb ++ [(t.ng, p)]) ds (es ++ (c.bp p).bids.map fun r => (t.ng, r)) done
        (xlateBids c t p) ∧
      Done dist c gr (gb ++ [(t.ng, p)]) (xlateBids c t p) := by
  unfold xlateBids
  simp only
  have h1 := h.newBidGroup (p := p) (q := 0) hp
  obtain ⟨h2, hs⟩ := h1.addBidNodes (gid := t.ng) (p := p) (c.bp p).bids (ex := [])
    (List.mem_append_right _ (List.mem_singleton.2 rfl)) hown hfresh hnd
  refine ⟨?_, ?_⟩
  · exact h2.setGroup t.ng _ _ _ rfl
  · refine ⟨?_, ?_, ?_, ?_, ?_, ?_⟩
    · exact hs.reqs.trans hf.reqs
    · show _ ++ [t.ng] = _
      have := hs.sups
      rw [List.map_append]
      exact congrArg (· ++ [t.ng]) (this.trans hf.sups)
    · intro x hx
      simp only [Function.update_apply]
      have hne : x.1 ≠ t.ng := (h.glt x (List.mem_append_left _ hx)).ne
      rw [if_neg hne]
      refine ⟨(hs.caps x.1).trans ?_, (hs.qty x.1).trans ?_⟩
      · simp only [Function.update_apply, if_neg hne]; exact (hf.rcaps x hx).1
      · simp only [Function.update_apply, if_neg hne]; exact (hf.rcaps x hx).2
    · intro x hx
      rw [List.mem_append, List.mem_singleton] at hx
      simp only [Function.update_apply]
      rcases hx with hx | rfl
      · have hne : x.1 ≠ t.ng := (h.glt x (List.mem_append_right _ hx)).ne
        rw [if_neg hne]
        refine (hs.caps x.1).trans ?_
        simp only [Function.update_apply, if_neg hne]; exact hf.bcaps x hx
      · rw [if_pos rfl]
    · intro x hx
      have hne : x ≠ t.ng := by
        rintro rfl; exact hx (by simp)
      simp only [Function.update_apply, if_neg hne]
      refine (hs.caps x).trans ?_
      simp only [Function.update_apply, if_neg hne]
      refine hf.other x fun hx' => hx ?_
      simp only [List.map_append, List.mem_append] at hx' ⊢
      tauto
    · intro a ha
      have h3 := hs.arcs
      simp only at h3
      have ha' : a ∈ t.g.arcs := by rw [← h3]; exact ha
      obtain ⟨h4, h5, h6⟩ := hf.arc a ha'
      have hle := hs.le
      simp only at hle
      refine ⟨lt_of_lt_of_le h4 hle, lt_of_lt_of_le h5 hle, h6.trans ?_⟩
      refine mkArc_congr ?_ ?_
      · rw [← hs.node _ h4]; exact ⟨rfl, rfl⟩
      · rw [← hs.node _ h5]; exact ⟨rfl, rfl⟩

theorem Ctx.pref_eq {b : ℕ} (h : c.prefs (c.req (c.bid b).request).requester ≠ none) :
    c.pref b = .ok (prefOf c b) := by
  obtain ⟨m, hm⟩ := Option.ne_none_iff_exists'.1 h
  simp [Ctx.pref, prefOf, hm]

theorem addArc_zero {b : ℕ} (hk : c.prefs (c.req (c.bid b).request).requester ≠ none)
    (h0 : prefOf c b = 0) : addArc dist c t b = .error .value := by
  unfold addArc
  simp only [Ctx.pref_eq hk, h0, lt_irrefl, if_false, if_true]

theorem addArc_ok (h : Inv c gr gb ds es done t) (hf : Done dist c gr gb t) {b : ℕ}
    (hk : c.prefs (c.req (c.bid b).request).requester ≠ none) (h0 : prefOf c b ≠ 0)
    (hb : b ∈ es.map Prod.snd) (hd : b ∉ done) (hr : (c.bid b).request ∈ ds.map Prod.snd)
    (hcr : ∀ k ∈ (finalRP c (c.req (c.bid b).request).portfolio).cons,
      k.conv (c.bid b).request b ≠ none)
    (hcb : ∀ k ∈ (c.bp (c.bid b).portfolio).cons, k.conv (c.bid b).request b ≠ none) :
    ∃ t', addArc dist c t b = .ok t' ∧ Inv c gr gb ds es (done ++ [b]) t' ∧
      Done dist c gr gb t' ∧ t'.ng = t.ng := by
  unfold addArc
  simp only [Ctx.pref_eq hk]
  by_cases hneg : prefOf c b < 0
  · rw [if_pos hneg]
    refine ⟨t, rfl, ?_, hf, rfl⟩
    refine ⟨h.rn, h.bn, h.rdom, h.bdom, h.rlt, h.blt, h.sep, h.rnode, h.bnode, h.rown, h.bown, h.glt,
      h.gnodup, h.grsnd, h.gbsnd, h.rnodes, h.bnodes, h.rp, ?_, ?_, ?_, ?_⟩
    · rw [h.arcs, List.filter_append]
      have : ([b].filter fun b => 0 < prefOf c b) = [] := by
        simp [hneg.le]
      rw [this, List.append_nil]
    · intro b' hb'
      rw [List.mem_append, List.mem_singleton] at hb'
      rcases hb' with hb' | rfl
      · exact h.doneSub b' hb'
      · exact hb
    · intro b' hb' hp'
      rw [List.mem_append, List.mem_singleton] at hb'
      rcases hb' with hb' | rfl
      · exact h.ucap b' hb' hp'
      · linarith
    · intro n u v hv
      exact h.uempty n u v fun b' hb' hb'' => hv b' hb' (List.mem_append_left _ hb'')
  rw [if_neg hneg, if_neg h0]
  have hpos : 0 < prefOf c b := lt_of_le_of_ne (not_lt.1 hneg) (Ne.symm h0)
  obtain ⟨u, hu⟩ := (h.rdom _).2 hr
  obtain ⟨v, hv⟩ := (h.bdom _).2 hb
  have hun := (h.rn _ _).1 hu
  have hvn := (h.bn _ _).1 hv
  have huv : u ≠ v := by
    rintro rfl; exact h.sep _ _ _ hun hvn
  obtain ⟨cv, hcv⟩ : ∃ cv, unitCapsOf c (c.bp (c.bid b).portfolio).cons (c.bid b).request b =
      some cv := mapM_some fun k hk' => by
    obtain ⟨x, hx⟩ := Option.ne_none_iff_exists'.1 (hcb k hk')
    simp [hx]
  have hport : (c.req (c.bid b).request).portfolio ∈ gr.map Prod.snd := by
    obtain ⟨gid, hg, _⟩ := h.rnode _ _ hu
    exact List.mem_map.2 ⟨_, h.rown _ hg, rfl⟩
  have hrp : t.rp (c.req (c.bid b).request).portfolio =
      finalRP c (c.req (c.bid b).request).portfolio := by rw [h.rp, if_pos hport]
  obtain ⟨cu, hcu⟩ : ∃ cu, unitCapsOf c (t.rp (c.req (c.bid b).request).portfolio).cons
      (c.bid b).request b = some cu := mapM_some fun k hk' => by
    rw [hrp] at hk'
    obtain ⟨x, hx⟩ := Option.ne_none_iff_exists'.1 (hcr k hk')
    simp [hx]
  simp only [hu, hv, hun, hcv, hcu]
  refine ⟨_, rfl, ?_⟩
  have hkey : (mkArc dist t.g.node u v (prefOf c b)).key = (u, v) := rfl
  simp only [hkey]
  have hvu : v ≠ u := huv.symm
  have hemp := fun n => h.uempty n u v fun b' hb' => by
    rw [hvn] at hb'; cases hb'; exact hd
  -- the new node map
  generalize hN : (Function.update
      (Function.update (Function.update t.g.node v (pushCaps (t.g.node v) (u, v) cv)) u
        (pushCaps (Function.update t.g.node v (pushCaps (t.g.node v) (u, v) cv) u) (u, v) cu)) u
      _ : ℕ → Node) = N
  have hNu : N u = { pushCaps (t.g.node u) (u, v) cu with
      prefs := setPref (t.g.node u).prefs (u, v) (prefOf c b) } := by
    rw [← hN]; simp [huv, pushCaps]
  have hNv : N v = pushCaps (t.g.node v) (u, v) cv := by
    rw [← hN]; simp [Function.update_apply, hvu]
  have hNo : ∀ n, n ≠ u → n ≠ v → N n = t.g.node n := by
    intro n h1 h2
    rw [← hN]; simp [Function.update_apply, h1, h2]
  have hNk : ∀ n k, k ≠ (u, v) → (N n).unitCaps k = (t.g.node n).unitCaps k ∧
      (N n).prefs.lookup k = (t.g.node n).prefs.lookup k := by
    intro n k hk
    by_cases h1 : n = u
    · subst h1
      rw [hNu]
      simp [pushCaps, hk, lookup_setPref]
    · by_cases h2 : n = v
      · subst h2
        rw [hNv]
        simp [pushCaps, hk]
      · rw [hNo n h1 h2]; exact ⟨rfl, rfl⟩
  have hNf : ∀ n, (N n).group = (t.g.node n).group ∧
      (N n).exclusive = (t.g.node n).exclusive ∧ (N n).commod = (t.g.node n).commod ∧
      (N n).agent = (t.g.node n).agent ∧ (N n).qty = (t.g.node n).qty := by
    intro n
    by_cases h1 : n = u
    · subst h1; rw [hNu]; exact ⟨rfl, rfl, rfl, rfl, rfl⟩
    · by_cases h2 : n = v
      · subst h2; rw [hNv]; exact ⟨rfl, rfl, rfl, rfl, rfl⟩
      · rw [hNo n h1 h2]; exact ⟨rfl, rfl, rfl, rfl, rfl⟩
  refine ⟨?_, ?_, trivial⟩
  · refine ⟨h.rn, h.bn, h.rdom, h.bdom, h.rlt, h.blt, h.sep, ?_, ?_, h.rown, h.bown, h.glt,
      h.gnodup, h.grsnd, h.gbsnd, h.rnodes, h.bnodes, h.rp, ?_, ?_, ?_, ?_⟩
    · intro r n hn
      obtain ⟨g, hg, hh⟩ := h.rnode r n hn
      obtain ⟨e1, e2, e3, e4, e5⟩ := hNf n
      exact ⟨g, hg, e1.trans hh.group, e2.trans hh.exclusive, e3.trans hh.commod,
        e4.trans hh.agent, e5.trans hh.qty⟩
    · intro r n hn
      obtain ⟨g, hg, hh⟩ := h.bnode r n hn
      obtain ⟨e1, e2, e3, e4, e5⟩ := hNf n
      exact ⟨g, hg, e1.trans hh.group, e2.trans hh.exclusive, e3.trans hh.commod,
        e4.trans hh.agent, e5.trans hh.qty⟩
    · simp only [List.map_append, List.filter_append]
      rw [h.arcs]
      have : ([b].filter fun b => 0 < prefOf c b) = [b] := by
        simp [hpos]
      rw [this]
      simp [mkArc, hun, hvn]
    · intro b' hb'
      rw [List.mem_append, List.mem_singleton] at hb'
      rcases hb' with hb' | rfl
      · exact h.doneSub b' hb'
      · exact hb
    · intro b' hb' hp' u' v' hu' hv'
      rw [List.mem_append, List.mem_singleton] at hb'
      simp only at hu' hv' ⊢
      rcases hb' with hb' | rfl
      · obtain ⟨g1, g2, g3⟩ := h.ucap b' hb' hp' u' v' hu' hv'
        have hne : (u', v') ≠ (u, v) := by
          intro he
          have hv2 := congrArg Prod.snd he
          simp only at hv2
          rw [h.bn, hv2, hvn] at hv'
          cases hv'; exact hd hb'
        rw [(hNk v' _ hne).1, (hNk u' _ hne).1, (hNk u' _ hne).2]
        exact ⟨g1, g2, g3⟩
      · rw [hu] at hu'; rw [hv] at hv'; cases hu'; cases hv'
        rw [hNu, hNv, hcv, hcu]
        simp [pushCaps, (hemp u).1, (hemp v).1, lookup_setPref]
    · intro n u' v' hv'
      have hne : (u', v') ≠ (u, v) := by
        intro he
        have hv2 := congrArg Prod.snd he
        simp only at hv2
        exact hv' b (by rw [hv2]; exact hvn) (by simp)
      rw [(hNk n _ hne).1, (hNk n _ hne).2]
      exact h.uempty n u' v' fun b' hb' hb'' => hv' b' hb' (List.mem_append_left _ hb'')
  · refine ⟨hf.reqs, hf.sups, hf.rcaps, hf.bcaps, hf.other, ?_⟩
    intro a ha
    simp only [List.mem_append, List.mem_singleton] at ha
    have hc : ∀ a : Arc, mkArc dist t.g.node a.u a.v a.pref = mkArc dist N a.u a.v a.pref := fun a =>
      mkArc_congr ⟨(hNf _).2.1.symm, (hNf _).2.2.2.2.symm⟩
        ⟨(hNf _).2.1.symm, (hNf _).2.2.2.2.symm⟩
    rcases ha with ha | rfl
    · obtain ⟨h1, h2, h3⟩ := hf.arc a ha
      exact ⟨h1, h2, h3.trans (hc a)⟩
    · exact ⟨h.rlt _ _ hun, h.blt _ _ hvn,
        hc (mkArc dist t.g.node u v (prefOf c b))⟩

theorem addArcs_ok (bs : List ℕ) : ∀ {t : Xlat} {done : List ℕ},
    Inv c gr gb ds es done t → Done dist c gr gb t →
    (∀ b ∈ bs, c.prefs (c.req (c.bid b).request).requester ≠ none) →
    (∀ b ∈ bs, prefOf c b ≠ 0) →
    (∀ b ∈ bs, b ∈ es.map Prod.snd) → (∀ b ∈ bs, b ∉ done) → bs.Nodup →
    (∀ b ∈ bs, (c.bid b).request ∈ ds.map Prod.snd) →
    (∀ b ∈ bs, ∀ k ∈ (finalRP c (c.req (c.bid b).request).portfolio).cons,
      k.conv (c.bid b).request b ≠ none) →
    (∀ b ∈ bs, ∀ k ∈ (c.bp (c.bid b).portfolio).cons, k.conv (c.bid b).request b ≠ none) →
    ∃ t', foldE (addArc dist c) t bs = .ok t' ∧ Inv c gr gb ds es (done ++ bs) t' ∧
      Done dist c gr gb t' := by
  induction bs with
  | nil => intro t done h hf _ _ _ _ _ _ _ _; exact ⟨t, rfl, by simpa using h, hf⟩
  | cons b bs ih =>
    intro t done h hf h1 h2 h3 h4 h5 h6 h7 h8
    rw [List.nodup_cons] at h5
    obtain ⟨t1, e1, i1, f1, _⟩ := addArc_ok h hf (h1 b List.mem_cons_self) (h2 b List.mem_cons_self)
      (h3 b List.mem_cons_self) (h4 b List.mem_cons_self) (h6 b List.mem_cons_self)
      (h7 b List.mem_cons_self) (h8 b List.mem_cons_self)
    obtain ⟨t2, e2, i2, f2⟩ := ih i1 f1 (fun b hb => h1 b (List.mem_cons_of_mem _ hb))
      (fun b hb => h2 b (List.mem_cons_of_mem _ hb)) (fun b hb => h3 b (List.mem_cons_of_mem _ hb))
      (by
        intro b' hb'
        rw [List.mem_append, List.mem_singleton]
        rintro (h9 | rfl)
        · exact h4 b' (List.mem_cons_of_mem _ hb') h9
        · exact h5.1 hb') h5.2
      (fun b hb => h6 b (List.mem_cons_of_mem _ hb)) (fun b hb => h7 b (List.mem_cons_of_mem _ hb))
      (fun b hb => h8 b (List.mem_cons_of_mem _ hb))
    refine ⟨t2, ?_, by simpa [List.append_assoc] using i2, f2⟩
    rw [foldE]
    simp only [e1]; exact e2

/-- The arcs of a portfolio, whatever the preferences: a preference of 0 throws. -/
theorem addArcs_zero (bs : List ℕ) : ∀ {t : Xlat} {done : List ℕ},
    Inv c gr gb ds es done t → Done dist c gr gb t →
    (∀ b ∈ bs, c.prefs (c.req (c.bid b).request).requester ≠ none) →
    (∃ b ∈ bs, prefOf c b = 0) →
    (∀ b ∈ bs, b ∈ es.map Prod.snd) → (∀ b ∈ bs, b ∉ done) → bs.Nodup →
    (∀ b ∈ bs, (c.bid b).request ∈ ds.map Prod.snd) →
    (∀ b ∈ bs, ∀ k ∈ (finalRP c (c.req (c.bid b).request).portfolio).cons,
      k.conv (c.bid b).request b ≠ none) →
    (∀ b ∈ bs, ∀ k ∈ (c.bp (c.bid b).portfolio).cons, k.conv (c.bid b).request b ≠ none) →
    foldE (addArc dist c) t bs = .error .value := by
  induction bs with
  | nil => intro t done h hf _ h2; obtain ⟨_, hb, _⟩ := h2; cases hb
  | cons b bs ih =>
    intro t done h hf h1 h2 h3 h4 h5 h6 h7 h8
    rw [List.nodup_cons] at h5
    rw [foldE]
    by_cases h0 : prefOf c b = 0
    · simp only [addArc_zero (h1 b List.mem_cons_self) h0]
    · obtain ⟨t1, e1, i1, f1, _⟩ := addArc_ok h hf (h1 b List.mem_cons_self) h0
        (h3 b List.mem_cons_self) (h4 b List.mem_cons_self) (h6 b List.mem_cons_self)
        (h7 b List.mem_cons_self) (h8 b List.mem_cons_self)
      simp only [e1]
      refine ih i1 f1 (fun b hb => h1 b (List.mem_cons_of_mem _ hb)) ?_
        (fun b hb => h3 b (List.mem_cons_of_mem _ hb))
        (by
          intro b' hb'
          rw [List.mem_append, List.mem_singleton]
          rintro (h9 | rfl)
          · exact h4 b' (List.mem_cons_of_mem _ hb') h9
          · exact h5.1 hb') h5.2
        (fun b hb => h6 b (List.mem_cons_of_mem _ hb)) (fun b hb => h7 b (List.mem_cons_of_mem _ hb))
        (fun b hb => h8 b (List.mem_cons_of_mem _ hb))
      obtain ⟨b', hb', h0'⟩ := h2
      rcases List.mem_cons.1 hb' with rfl | hb'
      · exact absurd h0' h0
      · exact ⟨b', hb', h0'⟩

theorem xlateReqs_ok (hv : Valid c) (ps : List ℕ) : ∀ {t : Xlat} {gr ds : List (ℕ × ℕ)},
    Inv c gr [] ds [] [] t → Done dist c gr [] t → (∀ p ∈ ps, p ∈ c.requests) →
    (∀ p ∈ ps, p ∉ gr.map Prod.snd) → ps.Nodup → (∀ p ∈ ps, 0 < (c.rp p).qty) →
    ∃ t' gr' ds', foldE (xlateReqPort c) t ps = .ok t' ∧ Inv c gr' [] ds' [] [] t' ∧
      Done dist c gr' [] t' ∧ gr'.map Prod.snd = gr.map Prod.snd ++ ps ∧
      ds'.map Prod.snd = ds.map Prod.snd ++ ps.flatMap fun p => (c.rp p).reqs := by
  induction ps with
  | nil => intro t gr ds h hf _ _ _ _; exact ⟨t, gr, ds, rfl, h, hf, by simp, by simp⟩
  | cons p ps ih =>
    intro t gr ds h hf h1 h2 h3 h4
    rw [List.nodup_cons] at h3
    have hp := h1 p List.mem_cons_self
    obtain ⟨t1, e1, i1, f1⟩ := xlateReqPort_ok h hf (h2 p List.mem_cons_self)
      (h4 p List.mem_cons_self) (hv.reqsOwn p hp) (by
        intro r hr hr'
        obtain ⟨x, hx, he⟩ := List.mem_map.1 hr'
        have := h.rown x hx
        rw [he, hv.reqsOwn p hp r hr] at this
        exact h2 p List.mem_cons_self (List.mem_map.2 ⟨_, this, rfl⟩)) (hv.reqsNodup p hp)
    obtain ⟨t2, gr2, ds2, e2, i2, f2, g2, d2⟩ := ih i1 f1
      (fun q hq => h1 q (List.mem_cons_of_mem _ hq)) (by
        intro q hq
        rw [List.map_append, List.mem_append]
        rintro (h5 | h5)
        · exact h2 q (List.mem_cons_of_mem _ hq) h5
        · simp only [List.map_cons, List.map_nil, List.mem_singleton] at h5
          subst h5; exact h3.1 hq) h3.2 (fun q hq => h4 q (List.mem_cons_of_mem _ hq))
    refine ⟨t2, gr2, ds2, ?_, i2, f2, ?_, ?_⟩
    · rw [foldE]; simp only [e1]; exact e2
    · rw [g2]; simp
    · rw [d2]; simp [Function.comp_def]

theorem xlateReqs_bad (hv : Valid c) (ps : List ℕ) : ∀ {t : Xlat} {gr ds : List (ℕ × ℕ)},
    Inv c gr [] ds [] [] t → Done dist c gr [] t → (∀ p ∈ ps, p ∈ c.requests) →
    (∀ p ∈ ps, p ∉ gr.map Prod.snd) → ps.Nodup → (∃ p ∈ ps, (c.rp p).qty ≤ 0) →
    foldE (xlateReqPort c) t ps = .error .value := by
  induction ps with
  | nil => intro t gr ds h hf _ _ _ h4; obtain ⟨_, hb, _⟩ := h4; cases hb
  | cons p ps ih =>
    intro t gr ds h hf h1 h2 h3 h4
    rw [List.nodup_cons] at h3
    have hp := h1 p List.mem_cons_self
    rw [foldE]
    by_cases hq : (c.rp p).qty ≤ 0
    · have hrp : t.rp p = c.rp p := by rw [h.rp, if_neg (h2 p List.mem_cons_self)]
      have : xlateReqPort c t p = .error .value := by
        unfold xlateReqPort; rw [hrp, mkCon, if_pos hq]
      simp only [this]
    · obtain ⟨t1, e1, i1, f1⟩ := xlateReqPort_ok h hf (h2 p List.mem_cons_self)
        (not_le.1 hq) (hv.reqsOwn p hp) (by
          intro r hr hr'
          obtain ⟨x, hx, he⟩ := List.mem_map.1 hr'
          have := h.rown x hx
          rw [he, hv.reqsOwn p hp r hr] at this
          exact h2 p List.mem_cons_self (List.mem_map.2 ⟨_, this, rfl⟩)) (hv.reqsNodup p hp)
      simp only [e1]
      refine ih i1 f1 (fun q hq => h1 q (List.mem_cons_of_mem _ hq)) (by
        intro q hqm
        rw [List.map_append, List.mem_append]
        rintro (h5 | h5)
        · exact h2 q (List.mem_cons_of_mem _ hqm) h5
        · simp only [List.map_cons, List.map_nil, List.mem_singleton] at h5
          subst h5; exact h3.1 hqm) h3.2 ?_
      obtain ⟨q, hq', h0⟩ := h4
      rcases List.mem_cons.1 hq' with rfl | hq'
      · exact absurd h0 hq
      · exact ⟨q, hq', h0⟩

/-- What has to hold for the arcs of a bid portfolio. -/
theorem bid_conds (hv : Valid c) {p b : ℕ} (hp : p ∈ c.bids) (hb : b ∈ (c.bp p).bids)
    (hds : ds.map Prod.snd = c.requests.flatMap fun p => (c.rp p).reqs) :
    c.prefs (c.req (c.bid b).request).requester ≠ none ∧
    (c.bid b).request ∈ ds.map Prod.snd ∧
    (∀ k ∈ (finalRP c (c.req (c.bid b).request).portfolio).cons,
      k.conv (c.bid b).request b ≠ none) ∧
    (∀ k ∈ (c.bp (c.bid b).portfolio).cons, k.conv (c.bid b).request b ≠ none) := by
  have hall : b ∈ allBids c := List.mem_flatMap.2 ⟨p, hp, hb⟩
  obtain ⟨ht1, ht2⟩ := hv.target b hall
  refine ⟨hv.known b hall, ?_, ?_, hv.convB b hall⟩
  · rw [hds]; exact List.mem_flatMap.2 ⟨_, ht1, ht2⟩
  · intro k hk
    simp only [finalRP, RP.addCon, List.mem_append, List.mem_singleton] at hk
    rcases hk with hk | rfl
    · exact hv.convR b hall k hk
    · obtain ⟨x, hx⟩ := Option.ne_none_iff_exists'.1 (hv.coeff _ ht1 _ ht2)
      simp [RP.qtyConv, hx]

theorem xlateBidPorts_ok (hv : Valid c)
    (hds : ds.map Prod.snd = c.requests.flatMap fun p => (c.rp p).reqs) (ps : List ℕ) :
    ∀ {t : Xlat} {gb es : List (ℕ × ℕ)},
    Inv c gr gb ds es (es.map Prod.snd) t → Done dist c gr gb t → (∀ p ∈ ps, p ∈ c.bids) →
    (∀ p ∈ ps, p ∉ gb.map Prod.snd) → ps.Nodup →
    (∀ p ∈ ps, ∀ b ∈ (c.bp p).bids, prefOf c b ≠ 0) →
    ∃ t' gb' es', foldE (xlateBidPort dist c) t ps = .ok t' ∧
      Inv c gr gb' ds es' (es'.map Prod.snd) t' ∧
      Done dist c gr gb' t' ∧ gb'.map Prod.snd = gb.map Prod.snd ++ ps ∧
      es'.map Prod.snd = es.map Prod.snd ++ ps.flatMap fun p => (c.bp p).bids := by
  induction ps with
  | nil => intro t gb es h hf _ _ _ _; exact ⟨t, gb, es, rfl, h, hf, by simp, by simp⟩
  | cons p ps ih =>
    intro t gb es h hf h1 h2 h3 h4
    rw [List.nodup_cons] at h3
    have hp := h1 p List.mem_cons_self
    have hfresh : ∀ b ∈ (c.bp p).bids, b ∉ es.map Prod.snd := by
      intro r hr hr'
      obtain ⟨x, hx, he⟩ := List.mem_map.1 hr'
      have := h.bown x hx
      rw [he, hv.bidsOwn p hp r hr] at this
      exact h2 p List.mem_cons_self (List.mem_map.2 ⟨_, this, rfl⟩)
    obtain ⟨i1, f1⟩ := xlateBids_ok h hf (h2 p List.mem_cons_self) (hv.bidsOwn p hp) hfresh
      (hv.bidsNodup p hp)
    obtain ⟨t1, e1, i1, f1⟩ := addArcs_ok (c.bp p).bids i1 f1
      (fun b hb => (bid_conds hv hp hb hds).1) (h4 p List.mem_cons_self)
      (fun b hb => by
        rw [List.map_append]
        exact List.mem_append_right _ (by simpa [Function.comp_def] using hb)) hfresh
      (hv.bidsNodup p hp) (fun b hb => (bid_conds hv hp hb hds).2.1)
      (fun b hb => (bid_conds hv hp hb hds).2.2.1) (fun b hb => (bid_conds hv hp hb hds).2.2.2)
    have hes : es.map Prod.snd ++ (c.bp p).bids =
        (es ++ (c.bp p).bids.map fun r => (t.ng, r)).map Prod.snd := by
      simp [Function.comp_def]
    rw [hes] at i1
    obtain ⟨t2, gb2, es2, e2, i2, f2, g2, d2⟩ := ih i1 f1
      (fun q hq => h1 q (List.mem_cons_of_mem _ hq)) (by
        intro q hqm
        rw [List.map_append, List.mem_append]
        rintro (h5 | h5)
        · exact h2 q (List.mem_cons_of_mem _ hqm) h5
        · simp only [List.map_cons, List.map_nil, List.mem_singleton] at h5
          subst h5; exact h3.1 hqm) h3.2 (fun q hq => h4 q (List.mem_cons_of_mem _ hq))
    refine ⟨t2, gb2, es2, ?_, i2, f2, ?_, ?_⟩
    · rw [foldE]
      have : xlateBidPort dist c t p = .ok t1 := e1
      simp only [this]; exact e2
    · rw [g2]; simp
    · rw [d2]; simp [Function.comp_def]

theorem xlateBidPorts_bad (hv : Valid c)
    (hds : ds.map Prod.snd = c.requests.flatMap fun p => (c.rp p).reqs) (ps : List ℕ) :
    ∀ {t : Xlat} {gb es : List (ℕ × ℕ)},
    Inv c gr gb ds es (es.map Prod.snd) t → Done dist c gr gb t → (∀ p ∈ ps, p ∈ c.bids) →
    (∀ p ∈ ps, p ∉ gb.map Prod.snd) → ps.Nodup →
    (∃ p ∈ ps, ∃ b ∈ (c.bp p).bids, prefOf c b = 0) →
    foldE (xlateBidPort dist c) t ps = .error .value := by
  induction ps with
  | nil => intro t gb es h hf _ _ _ h4; obtain ⟨_, hb, _⟩ := h4; cases hb
  | cons p ps ih =>
    intro t gb es h hf h1 h2 h3 h4
    rw [List.nodup_cons] at h3
    have hp := h1 p List.mem_cons_self
    have hfresh : ∀ b ∈ (c.bp p).bids, b ∉ es.map Prod.snd := by
      intro r hr hr'
      obtain ⟨x, hx, he⟩ := List.mem_map.1 hr'
      have := h.bown x hx
      rw [he, hv.bidsOwn p hp r hr] at this
      exact h2 p List.mem_cons_self (List.mem_map.2 ⟨_, this, rfl⟩)
    obtain ⟨i1, f1⟩ := xlateBids_ok h hf (h2 p List.mem_cons_self) (hv.bidsOwn p hp) hfresh
      (hv.bidsNodup p hp)
    have hmem : ∀ b ∈ (c.bp p).bids,
        b ∈ (es ++ (c.bp p).bids.map fun r => (t.ng, r)).map Prod.snd := fun b hb => by
      rw [List.map_append]
      exact List.mem_append_right _ (by simpa [Function.comp_def] using hb)
    rw [foldE]
    by_cases h0 : ∃ b ∈ (c.bp p).bids, prefOf c b = 0
    · have : xlateBidPort dist c t p = .error .value :=
        addArcs_zero (c.bp p).bids i1 f1
          (fun b hb => (bid_conds hv hp hb hds).1) h0 hmem hfresh
          (hv.bidsNodup p hp) (fun b hb => (bid_conds hv hp hb hds).2.1)
          (fun b hb => (bid_conds hv hp hb hds).2.2.1) (fun b hb => (bid_conds hv hp hb hds).2.2.2)
      simp only [this]
    · obtain ⟨t1, e1, i1, f1⟩ := addArcs_ok (c.bp p).bids i1 f1
        (fun b hb => (bid_conds hv hp hb hds).1) (fun b hb hz => h0 ⟨b, hb, hz⟩) hmem hfresh
        (hv.bidsNodup p hp) (fun b hb => (bid_conds hv hp hb hds).2.1)
        (fun b hb => (bid_conds hv hp hb hds).2.2.1) (fun b hb => (bid_conds hv hp hb hds).2.2.2)
      have hes : es.map Prod.snd ++ (c.bp p).bids =
          (es ++ (c.bp p).bids.map fun r => (t.ng, r)).map Prod.snd := by
        simp [Function.comp_def]
      rw [hes] at i1
      have : xlateBidPort dist c t p = .ok t1 := e1
      simp only [this]
      refine ih i1 f1 (fun q hq => h1 q (List.mem_cons_of_mem _ hq)) (by
        intro q hqm
        rw [List.map_append, List.mem_append]
        rintro (h5 | h5)
        · exact h2 q (List.mem_cons_of_mem _ hqm) h5
        · simp only [List.map_cons, List.map_nil, List.mem_singleton] at h5
          subst h5; exact h3.1 hqm) h3.2 ?_
      obtain ⟨q, hq', h5⟩ := h4
      rcases List.mem_cons.1 hq' with rfl | hq'
      · exact absurd h5 h0
      · exact ⟨q, hq', h5⟩

/-- `Translate` on a valid context with positive quantities and no zero preference. -/
theorem translate_ok (dist : ℚ → ℚ → ℚ) (hv : Valid c) (hq : ∀ p ∈ c.requests, 0 < (c.rp p).qty)
    (hp : ∀ b ∈ allBids c, prefOf c b ≠ 0) :
    ∃ t gr gb ds es, translate dist c = .ok t ∧ Inv c gr gb ds es (allBids c) t ∧
      Done dist c gr gb t ∧ gr.map Prod.snd = c.requests ∧ gb.map Prod.snd = c.bids ∧
      ds.map Prod.snd = (c.requests.flatMap fun p => (c.rp p).reqs) ∧
      es.map Prod.snd = allBids c := by
  obtain ⟨t1, gr, ds, e1, i1, f1, g1, d1⟩ := xlateReqs_ok (dist := dist) hv c.requests (Inv.init c)
    (Done.init dist c) (fun _ h => h) (by simp) hv.requests hq
  simp only [List.map_nil, List.nil_append] at g1 d1
  obtain ⟨t2, gb, es, e2, i2, f2, g2, d2⟩ := xlateBidPorts_ok hv d1 c.bids i1 f1 (fun _ h => h)
    (by simp) hv.bids (fun p hp' b hb => hp b (List.mem_flatMap.2 ⟨p, hp', hb⟩))
  simp only [List.map_nil, List.nil_append] at g2 d2
  refine ⟨t2, gr, gb, ds, es, ?_, ?_, f2, g1, g2, d1, d2⟩
  · unfold translate; simp only [e1]; exact e2
  · rw [d2] at i2; exact i2

/-- `Translate` throws otherwise. -/
theorem translate_bad (dist : ℚ → ℚ → ℚ) (hv : Valid c)
    (h : (∃ p ∈ c.requests, (c.rp p).qty ≤ 0) ∨ ∃ b ∈ allBids c, prefOf c b = 0) :
    translate dist c = .error .value := by
  unfold translate
  by_cases hq : ∃ p ∈ c.requests, (c.rp p).qty ≤ 0
  · rw [xlateReqs_bad (dist := dist) hv c.requests (Inv.init c)
      (Done.init dist c) (fun _ h => h) (by simp) hv.requests hq]
  · obtain ⟨t1, gr, ds, e1, i1, f1, g1, d1⟩ := xlateReqs_ok (dist := dist) hv c.requests
      (Inv.init c) (Done.init dist c) (fun _ h => h) (by simp) hv.requests
      (fun p hp => not_le.1 fun h => hq ⟨p, hp, h⟩)
    simp only [List.map_nil, List.nil_append] at g1 d1
    simp only [e1]
    refine xlateBidPorts_bad hv d1 c.bids i1 f1 (fun _ h => h) (by simp) hv.bids ?_
    obtain ⟨b, hb, h0⟩ := h.resolve_left hq
    obtain ⟨p, hp, hb⟩ := List.mem_flatMap.1 hb
    exact ⟨p, hp, b, hb, h0⟩

end

end Cyclus.Dre
