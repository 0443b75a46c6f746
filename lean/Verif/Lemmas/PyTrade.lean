import Verif.Spec.PyTrade
import Verif.Props.Portfolio

/-! # Lemmas about the portfolios of agents written in Python -/

namespace Cyclus.PyTrade

open Cyclus.Dre Cyclus.PyTrade.Spec

theorem lookup_of_mem {d : Dict} (hk : Keys d) {key : String} {v : Val} (h : (key, v) ∈ d) :
    d.lookup key = some v := by
  induction d with
  | nil => simp at h
  | cons e d ih =>
    obtain ⟨k', v'⟩ := e
    have hk' : k' ∉ d.map Prod.fst ∧ (d.map Prod.fst).Nodup := by
      simpa [Keys] using hk
    rcases List.mem_cons.1 h with h' | h'
    · cases h'; simp [List.lookup]
    · have hne : key ≠ k' := by
        rintro rfl
        exact hk'.1 (List.mem_map.2 ⟨(key, v), h', rfl⟩)
      rw [List.lookup_cons, beq_eq_false_iff_ne.2 hne]
      exact ih hk'.2 h'

theorem lookup_of_lacks {d : Dict} {key : String} (h : Lacks d key) : d.lookup key = none := by
  induction d with
  | nil => rfl
  | cons e d ih =>
    obtain ⟨k', v'⟩ := e
    have hne : key ≠ k' := by
      rintro rfl
      exact h v' (by simp)
    rw [List.lookup_cons, beq_eq_false_iff_ne.2 hne]
    exact ih fun v hv => h v (List.mem_cons_of_mem _ hv)

theorem toDouble_of_numAt {d : Dict} (hk : Keys d) {key : String} {x : ℚ} (h : NumAt d key 1 x) :
    toDouble ((d.lookup key).getD (.num 1)) = .ok (some x) := by
  rcases h with ⟨h, rfl⟩ | h
  · rw [lookup_of_lacks h]; rfl
  · obtain ⟨v, hv, hx⟩ := h
    rw [lookup_of_mem hk hv]
    cases hx <;> rfl

theorem truthy_falsy (v : Val) : truthy v = false ↔ Falsy v := by
  constructor
  · intro h
    cases v with
    | none => exact .none
    | num x =>
      have : x = 0 := by simpa [truthy] using h
      exact this ▸ .zero
    | nan => simp [truthy] at h
    | bool b =>
      have : b = false := by simpa [truthy] using h
      exact this ▸ .false
    | str s =>
      have : s = "" := by simpa [truthy] using h
      exact this ▸ .text
    | res r => simp [truthy] at h
    | req r => simp [truthy] at h
    | map l =>
      have : l = [] := by simpa [truthy] using h
      exact this ▸ .dict
    | seq l =>
      have : l = [] := by simpa [truthy] using h
      exact this ▸ .list
    | other => simp [truthy] at h
  · intro h
    cases h <;> simp [truthy]

theorem truthy_of_boolAt {d : Dict} (hk : Keys d) {key : String} {b : Bool} (h : BoolAt d key b) :
    truthy ((d.lookup key).getD (.bool false)) = b := by
  rcases h with ⟨h, rfl⟩ | ⟨v, hv, hb⟩
  · rw [lookup_of_lacks h]; rfl
  · rw [lookup_of_mem hk hv, Option.getD_some]
    have := truthy_falsy v
    cases b
    · exact this.2 (hb.1 rfl)
    · cases ht : truthy v
      · have := hb.2 (this.1 ht)
        simp at this
      · rfl

theorem constrs_of_caps {d : Dict} (hk : Keys d) {caps : List ℚ} (h : Caps d caps) :
    constrs d = caps.map .num := by
  unfold constrs
  rcases h with ⟨h, rfl⟩ | ⟨c, h, rfl⟩ | ⟨l, h, hl⟩
  · rw [lookup_of_lacks h]; rfl
  · rw [lookup_of_mem hk h]; rfl
  · rw [lookup_of_mem hk h]; exact hl

theorem filter_key {d : Dict} (hk : Keys d) {n : String} {v : Val} (h : (n, v) ∈ d) :
    d.filter (fun e => e.1 = n) = [(n, v)] := by
  induction d with
  | nil => simp at h
  | cons e d ih =>
    obtain ⟨k', v'⟩ := e
    have hk' : k' ∉ d.map Prod.fst ∧ (d.map Prod.fst).Nodup := by
      simpa [Keys] using hk
    rcases List.mem_cons.1 h with h | h
    · cases h
      have : d.filter (fun e => e.1 = n) = [] := by
        rw [List.filter_eq_nil_iff]
        intro e he hen
        simp only [decide_eq_true_eq] at hen
        exact hk'.1 (List.mem_map.2 ⟨e, he, hen⟩)
      simp [this]
    · have hne : k' ≠ n := by
        rintro rfl
        exact hk'.1 (List.mem_map.2 ⟨_, h, rfl⟩)
      simp only [List.filter_cons, hne, decide_false, Bool.false_eq_true, if_false]
      exact ih hk'.2 h

theorem names_of_commodity {k : Kind} {d : Dict} {w : Wish} (h : Commodity k (.map d) w) :
    names d = [(w.name, .res w.res)] := by
  obtain ⟨d', hd, hk, hm, ha, h1, h2, _⟩ := h
  cases hd
  rw [← filter_key hk hm]
  unfold names
  apply List.filter_congr
  intro e he
  rcases ha e he with h | h | h
  · simp [h, h1, h2]
  · simp [h, Ne.symm h1]
  · simp [h, Ne.symm h2]

theorem flatten_of_commodities {k : Kind} {cs : List Val} {ws : List Wish}
    (h : List.Forall₂ (Commodity k) cs ws) :
    flatten cs = .ok (ws.map fun w => (w.name, Val.res w.res)) := by
  induction h with
  | nil => rfl
  | @cons c w cs ws hc _ ih =>
    obtain ⟨d, rfl, _⟩ := id hc
    simp only [flatten, ih, names_of_commodity hc]
    rfl

/-- A request in the standard form says what the agent wants. -/
def Std (w : Wish) (x : String × PReq) : Prop :=
  x.1 = w.name ∧ x.2.target = w.res ∧ toDouble x.2.pref = .ok (some w.pref) ∧
    truthy x.2.excl = w.excl

theorem normLoop_of_commodities {k : Kind} {cs : List Val} {ws : List Wish}
    (h : List.Forall₂ (Commodity k) cs ws) : ∀ pre : List Val,
    ∃ xs, normLoop (some (.seq (pre ++ cs))) pre.length
      (ws.map fun w => (w.name, Val.res w.res)) = .ok xs ∧ List.Forall₂ Std ws xs := by
  induction h with
  | nil => intro pre; exact ⟨[], rfl, .nil⟩
  | @cons c w cs ws hc _ ih =>
    intro pre
    obtain ⟨d, rfl, hk, hm, ha, h1, h2, hkind, hp, he⟩ := id hc
    obtain ⟨xs, hx, hs⟩ := ih (pre ++ [.map d])
    rw [List.append_assoc, List.length_append, List.length_singleton] at hx
    refine ⟨(w.name, ⟨w.res, (d.lookup "preference").getD (.num 1),
      (d.lookup "exclusive").getD (.bool false)⟩) :: xs, ?_,
      .cons ⟨rfl, rfl, toDouble_of_numAt hk hp, truthy_of_boolAt hk he⟩ hs⟩
    have hg : getItem (.seq (pre ++ .map d :: cs)) pre.length = .ok d := by
      simp [getItem]
    simp only [List.map_cons, normLoop, normOne, hg]
    change (match normLoop (some (.seq (pre ++ ([.map d] ++ cs)))) (pre.length + 1) _ with
      | .error e => _
      | .ok xs => _) = _
    rw [hx]

theorem normLoop_plain : ∀ (ws : List Wish) (i : ℕ), (∀ w ∈ ws, w.pref = 1 ∧ w.excl = false) →
    ∃ xs, normLoop none i (ws.map fun w => (w.name, Val.res w.res)) = .ok xs ∧
      List.Forall₂ Std ws xs
  | [], _, _ => ⟨[], rfl, .nil⟩
  | w :: ws, i, h => by
    obtain ⟨xs, hx, hs⟩ := normLoop_plain ws (i + 1) fun w hw => h w (List.mem_cons_of_mem _ hw)
    obtain ⟨hp, he⟩ := h w (by simp)
    refine ⟨(w.name, ⟨w.res, .num 1, .bool false⟩) :: xs, ?_, .cons ⟨rfl, rfl, ?_, ?_⟩ hs⟩
    · simp only [List.map_cons, normLoop, normOne, hx]
    · rw [hp]; rfl
    · rw [he]; rfl

theorem addReqs_spec {k : Kind} {t : ℕ} {ws : List Wish} {xs : List (String × PReq)}
    (h : List.Forall₂ Std ws xs) : (∀ w ∈ ws, w.res.kind = k) →
    ∀ s : RSt, (s.rp.requester = none ∨ s.rp.requester = some t) →
    ∃ s', addReqs k t s xs = .ok s' ∧ s'.n = s.n + ws.length ∧
      (∀ i, i < s.n → s'.obj i = s.obj i) ∧
      (∀ i w, ws[i]? = some w → s'.obj (s.n + i) = ⟨w.res.qty, t, w.name, w.pref, w.excl, 0⟩) ∧
      s'.rp.reqs = s.rp.reqs ++ List.range' s.n ws.length ∧
      s'.rp.qty = s.rp.qty + (ws.map fun w => w.res.qty).sum ∧
      s'.rp.cons = s.rp.cons ∧ (ws ≠ [] → s'.rp.requester = some t) := by
  induction h with
  | nil =>
    intro _ s _
    exact ⟨s, rfl, rfl, fun _ _ => rfl, by simp, by simp, by simp, rfl, by simp⟩
  | @cons w x ws xs hx _ ih =>
    intro hkind s hr
    obtain ⟨n, q⟩ := x
    obtain ⟨rfl, ht, hp, he⟩ := hx
    simp only at ht hp he
    have hk : q.target.kind = k := by rw [ht]; exact hkind w (by simp)
    let s1 : RSt := ⟨fun j => if j = s.n then ⟨w.res.qty, t, w.name, w.pref, w.excl, 0⟩
      else s.obj j, s.n + 1,
      { s.rp with
        reqs := s.rp.reqs ++ [s.n]
        coeffs := fun j => if j = s.n then some 1 else s.rp.coeffs j
        qty := s.rp.qty + w.res.qty
        requester := some t }⟩
    have hstep : s.step (.addRequest q.target.qty t w.name w.pref (truthy q.excl)) =
        some (s1, .ok ()) := by
      rcases hr with hr | hr
      · simp only [RSt.step, RP.addRequest, RP.verify, hr, ht, he]
        rfl
      · simp only [RSt.step, RP.addRequest, RP.verify, hr, ht, he, ne_eq, not_true_eq_false,
          if_false]
        rw [← hr]
        simp only [s1, hr]
    obtain ⟨s', e1, e2, e3, e4, e5, e6, e7, e8⟩ :=
      ih (fun w hw => hkind w (List.mem_cons_of_mem _ hw)) s1 (Or.inr rfl)
    refine ⟨s', ?_, ?_, ?_, ?_, ?_, ?_, ?_, ?_⟩
    · simp only [addReqs, hk, ne_eq, not_true_eq_false, if_false, hp, hstep, e1]
    · rw [e2]; simp only [s1, List.length_cons]; omega
    · intro i hi
      rw [e3 i (by show i < s.n + 1; omega)]
      show (if i = s.n then _ else s.obj i) = s.obj i
      rw [if_neg (by omega)]
    · intro i v hv
      rcases i with _ | i
      · rw [e3 _ (by show s.n + 0 < s.n + 1; omega)]
        show (if s.n + 0 = s.n then _ else s.obj (s.n + 0)) = _
        simp only [Nat.add_zero, if_pos]
        simp only [List.getElem?_cons_zero, Option.some.injEq] at hv
        rw [hv]
      · rw [← e4 i v (by simpa using hv)]
        show s'.obj (s.n + (i + 1)) = s'.obj (s.n + 1 + i)
        rw [show s.n + (i + 1) = s.n + 1 + i by omega]
    · rw [e5]
      show s.rp.reqs ++ [s.n] ++ List.range' (s.n + 1) ws.length = _
      rw [List.append_assoc, List.length_cons, List.range'_succ]
      rfl
    · rw [e6]
      show s.rp.qty + w.res.qty + _ = _
      rw [List.map_cons, List.sum_cons, add_assoc]
    · rw [e7]
    · intro _
      by_cases hw : ws = []
      · subst hw
        cases ‹List.Forall₂ Std [] xs›
        simp only [addReqs] at e1
        cases e1; rfl
      · exact e8 hw

theorem addCons_spec (oq : ℕ → ℚ) : ∀ (caps : List ℚ) (s : RSt), (∀ c ∈ caps, 0 < c) →
    addCons oq s (caps.map .num) = .ok ⟨s.obj, s.n,
      { s.rp with cons := s.rp.cons ++ caps.map fun c => ⟨c, fun _ b => some (oq b)⟩ }⟩
  | [], s, _ => by simp [addCons]
  | c :: caps, s, h => by
    have hc : ¬ c ≤ 0 := not_le.2 (h c (by simp))
    have ih := addCons_spec oq caps { s with rp := s.rp.addCon ⟨c, fun _ b => some (oq b)⟩ }
      fun c hc => h c (List.mem_cons_of_mem _ hc)
    simp only [List.map_cons, addCons, toDouble, RSt.step, mkCon, if_neg hc, ih]
    simp [RP.addCon]

/-- From the standard form on. -/
theorem reqPort_of_std {oq : ℕ → ℚ} {k : Kind} {t : ℕ} {inp : Val} {ws : List Wish}
    {xs : List (String × PReq)} {caps : List ℚ} (hn : normReq inp = .ok (xs, caps.map .num))
    (hs : List.Forall₂ Std ws xs) (hk : ∀ w ∈ ws, w.res.kind = k) (hne : ws ≠ [])
    (hm : mean ws ≠ 0) (hc : ∀ c ∈ caps, 0 < c) :
    ∃ s, reqPort oq k t inp = .ok s ∧ Requests oq t ws caps s := by
  obtain ⟨s, e1, e2, _, e4, e5, e6, e7, e8⟩ := addReqs_spec (t := t) hs hk RSt.init (Or.inl rfl)
  have hn0 : s.n = ws.length := by rw [e2]; simp [RSt.init]
  have hobj : ∀ i w, ws[i]? = some w → s.obj i = ⟨w.res.qty, t, w.name, w.pref, w.excl, 0⟩ := by
    intro i w hw
    have := e4 i w hw
    simpa [RSt.init] using this
  have htargets : (List.range s.n).map (fun r => (s.obj r).target) =
      ws.map fun w => w.res.qty := by
    apply List.ext_getElem
    · simp [hn0]
    · intro i h1 h2
      have hi : i < ws.length := by simpa using h2
      rw [List.getElem_map, List.getElem_map, List.getElem_range,
        hobj i ws[i] (List.getElem?_eq_getElem hi)]
  have havg : ((List.range s.n).map (fun r => (s.obj r).target)).sum /
      ((List.range s.n).length : ℚ) = mean ws := by
    rw [htargets, List.length_range, hn0]; rfl
  have hmut : s.rp.addMutual (fun r => (s.obj r).target) (List.range s.n) =
      some { RP.mutualLoop (fun r => (s.obj r).target) (mean ws) s.rp (List.range s.n) with
        qty := (RP.mutualLoop (fun r => (s.obj r).target) (mean ws) s.rp (List.range s.n)).qty +
          mean ws } := by
    simp only [RP.addMutual, havg]
    rw [if_neg]
    simp only [List.length_range, not_or]
    refine ⟨?_, hm⟩
    rw [hn0]
    exact fun h => hne (List.length_eq_zero_iff.1 h)
  obtain ⟨a1, a2, a3, a4, a5, _⟩ :=
    mutualLoop_spec (fun r => (s.obj r).target) (mean ws) (List.range s.n) s.rp
  let rp : RP := { RP.mutualLoop (fun r => (s.obj r).target) (mean ws) s.rp (List.range s.n) with
    qty := (RP.mutualLoop (fun r => (s.obj r).target) (mean ws) s.rp (List.range s.n)).qty +
      mean ws
    cons := (RP.mutualLoop (fun r => (s.obj r).target) (mean ws) s.rp (List.range s.n)).cons ++
      caps.map fun c => ⟨c, fun _ b => some (oq b)⟩ }
  refine ⟨⟨s.obj, s.n, rp⟩, ?_, ⟨?_, hobj, ?_, ?_, ?_, ?_⟩⟩
  · simp only [reqPort, hn, e1, RSt.step, hmut]
    rw [addCons_spec oq caps _ hc]
  · show (RP.mutualLoop _ _ _ _).reqs = _
    rw [a1, e5]
    simp [RSt.init, RP.empty, List.range_eq_range']
  · show (RP.mutualLoop _ _ _ _).requester = _
    rw [a2, e8 hne]
  · show (RP.mutualLoop _ _ _ _).qty + mean ws = _
    rw [a4, e6]
    simp only [Dre.Spec.demand, htargets, RSt.init, RP.empty]
    ring
  · intro i w hw
    have hi : i < ws.length := (List.getElem?_eq_some_iff.1 hw).1
    show (RP.mutualLoop _ _ _ _).coeffs i = _
    rw [a5 i (List.mem_range.2 (by rw [hn0]; exact hi)), hobj i w hw]
  · show (RP.mutualLoop _ _ _ _).cons ++ _ = _
    rw [a3, e7]
    rfl

/-! ## Bids -/

/-- A bid in the standard form says what the agent wants. -/
def StdB (k : Kind) (o : Offer) (x : PBid) : Prop :=
  x.request = .req o.req ∧ x.offer = .res o.res ∧ toDouble x.pref = .ok o.pref ∧
    truthy x.excl = o.excl ∧ o.req.kind = k ∧ o.res.kind = k

theorem normBid_of {k : Kind} {v : Val} {o : Offer} (h : Bids k v o) :
    ∃ x, normBid v = .ok x ∧ StdB k o x := by
  cases h with
  | dict hk hr ho hx hb h1 h2 =>
    refine ⟨_, rfl, ?_, ?_, toDouble_of_numAt hk hx, truthy_of_boolAt hk hb, h1, h2⟩
    · simp [lookup_of_mem hk hr]
    · simp [lookup_of_mem hk ho]
  | dictNan hk hr ho hx hb h1 h2 =>
    refine ⟨_, rfl, ?_, ?_, ?_, truthy_of_boolAt hk hb, h1, h2⟩
    · simp [lookup_of_mem hk hr]
    · simp [lookup_of_mem hk ho]
    · simp [lookup_of_mem hk hx, toDouble]
  | pair h1 h2 => exact ⟨_, rfl, rfl, rfl, rfl, rfl, h1, h2⟩
  | request h1 h2 => exact ⟨_, rfl, rfl, rfl, rfl, rfl, h1, h2⟩

theorem normBids_of {k : Kind} {l : List Val} {os : List Offer} (h : List.Forall₂ (Bids k) l os) :
    ∃ xs, normBids l = .ok xs ∧ List.Forall₂ (StdB k) os xs := by
  induction h with
  | nil => exact ⟨[], rfl, .nil⟩
  | cons hv _ ih =>
    obtain ⟨x, hx, hs⟩ := normBid_of hv
    obtain ⟨xs, hxs, hss⟩ := ih
    exact ⟨x :: xs, by simp [normBids, hx, hxs], .cons hs hss⟩

theorem addBids_spec {k : Kind} {t : ℕ} {os : List Offer} {xs : List PBid}
    (h : List.Forall₂ (StdB k) os xs) : (∀ o ∈ os, 0 < o.res.qty) →
    ∀ s : BSt, (s.bp.bidder = none ∨ s.bp.bidder = some t) →
    ∃ s', addBids k t s xs = .ok s' ∧ s'.n = s.n + os.length ∧
      (∀ i, i < s.n → s'.obj i = s.obj i) ∧
      (∀ i o, os[i]? = some o →
        s'.obj (s.n + i) = ⟨o.req.id, o.res.id, o.res.qty, t, o.pref, o.excl, 0⟩) ∧
      s'.bp.bids = s.bp.bids ++ List.range' s.n os.length ∧
      s'.bp.cons = s.bp.cons ∧ (os ≠ [] → s'.bp.bidder = some t) := by
  induction h with
  | nil =>
    intro _ s _
    exact ⟨s, rfl, rfl, fun _ _ => rfl, by simp, by simp, rfl, by simp⟩
  | @cons o x os xs hx _ ih =>
    intro hq s hr
    obtain ⟨h1, h2, h3, h4, h5, h6⟩ := hx
    have hpos := hq o (by simp)
    let s1 : BSt := ⟨fun j => if j = s.n then
        ⟨o.req.id, o.res.id, o.res.qty, t, o.pref, o.excl, 0⟩ else s.obj j, s.n + 1,
      { s.bp with
        bids := s.bp.bids ++ [s.n]
        bidder := some t }⟩
    have hstep : s.step (.addBid o.req.id o.res.id o.res.qty t (truthy x.excl) o.pref) =
        (s1, .ok ()) := by
      rcases hr with hr | hr
      · simp only [BSt.step, BP.addBid, BP.verify, hr, h4, gt_iff_lt, hpos, if_true]
        rfl
      · simp only [BSt.step, BP.addBid, BP.verify, hr, h4, gt_iff_lt, hpos, if_true, ne_eq,
          not_true_eq_false, if_false]
        rw [← hr]
        simp only [s1, hr]
    obtain ⟨s', e1, e2, e3, e4, e5, e7, e8⟩ :=
      ih (fun o ho => hq o (List.mem_cons_of_mem _ ho)) s1 (Or.inr rfl)
    refine ⟨s', ?_, ?_, ?_, ?_, ?_, ?_, ?_⟩
    · simp only [addBids, h1, h2, h5, h6, ne_eq, not_true_eq_false, or_self, if_false, h3, hstep,
        e1]
    · rw [e2]; simp only [s1, List.length_cons]; omega
    · intro i hi
      rw [e3 i (by show i < s.n + 1; omega)]
      show (if i = s.n then _ else s.obj i) = s.obj i
      rw [if_neg (by omega)]
    · intro i v hv
      rcases i with _ | i
      · rw [e3 _ (by show s.n + 0 < s.n + 1; omega)]
        show (if s.n + 0 = s.n then _ else s.obj (s.n + 0)) = _
        simp only [Nat.add_zero, if_pos]
        simp only [List.getElem?_cons_zero, Option.some.injEq] at hv
        rw [hv]
      · rw [← e4 i v (by simpa using hv)]
        show s'.obj (s.n + (i + 1)) = s'.obj (s.n + 1 + i)
        rw [show s.n + (i + 1) = s.n + 1 + i by omega]
    · rw [e5]
      show s.bp.bids ++ [s.n] ++ List.range' (s.n + 1) os.length = _
      rw [List.append_assoc, List.length_cons, List.range'_succ]
      rfl
    · rw [e7]
    · intro _
      by_cases hw : os = []
      · subst hw
        cases ‹List.Forall₂ (StdB k) [] xs›
        simp only [addBids] at e1
        cases e1; rfl
      · exact e8 hw

theorem addBidCons_spec (oq : ℕ → ℚ) : ∀ (caps : List ℚ) (s : BSt), (∀ c ∈ caps, 0 < c) →
    addBidCons oq s (caps.map .num) = .ok ⟨s.obj, s.n,
      { s.bp with cons := s.bp.cons ++ caps.map fun c => ⟨c, fun _ b => some (oq b)⟩ }⟩
  | [], s, _ => by simp [addBidCons]
  | c :: caps, s, h => by
    have hc : ¬ c ≤ 0 := not_le.2 (h c (by simp))
    have ih := addBidCons_spec oq caps { s with bp := s.bp.addCon ⟨c, fun _ b => some (oq b)⟩ }
      fun c hc => h c (List.mem_cons_of_mem _ hc)
    simp only [List.map_cons, addBidCons, toDouble, BSt.step, mkCon, if_neg hc, ih]
    simp [BP.addCon]

theorem bidPort_of_std {oq : ℕ → ℚ} {k : Kind} {t : ℕ} {inp : Val} {os : List Offer}
    {caps : List ℚ} (hl : List.Forall₂ (Bids k) (bidParts inp).1 os)
    (hcs : (bidParts inp).2 = caps.map .num) (hq : ∀ o ∈ os, 0 < o.res.qty)
    (hc : ∀ c ∈ caps, 0 < c) :
    ∃ s, bidPort oq k t inp = .ok s ∧ Offers oq t os caps s := by
  obtain ⟨xs, hx, hs⟩ := normBids_of hl
  obtain ⟨s, e1, _, _, e4, e5, e7, e8⟩ := addBids_spec (t := t) hs hq BSt.init (Or.inl rfl)
  refine ⟨⟨s.obj, s.n,
    { s.bp with cons := s.bp.cons ++ caps.map fun c => ⟨c, fun _ b => some (oq b)⟩ }⟩, ?_, ?_⟩
  · simp only [bidPort, hx, e1, hcs]
    exact addBidCons_spec oq caps s hc
  · refine ⟨?_, ?_, e8, ?_⟩
    · show s.bp.bids = _
      rw [e5]
      simp [BSt.init, BP.empty, List.range_eq_range']
    · intro i o ho
      have := e4 i o ho
      simpa [BSt.init] using this
    · show s.bp.cons ++ _ = _
      rw [e7]; rfl

end Cyclus.PyTrade
