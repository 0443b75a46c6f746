import Verif.Model.ResourceExchange
import Verif.Props.Executor

/-!
# C63, C64: collection of requests and bids, preferences
-/

namespace Cyclus.Dre

namespace Spec

/-- The requests of the exchange, portfolio by portfolio. -/
def allReqs (c : Ctx) : List ℕ := c.requests.flatMap fun p => (c.rp p).reqs

/-- The preference a bid starts with: its own, or that of the request if the bid has none. -/
def defaultPref (c : Ctx) (b : ℕ) : ℚ := (c.bid b).pref.getD (c.req (c.bid b).request).pref

/-- `as` are the ancestors of an agent: parent, parent of the parent, …, up to the root. -/
inductive Ancestors (parent : ℕ → Option ℕ) : Option ℕ → List ℕ → Prop
  | root : Ancestors parent none []
  | up {m : ℕ} {as : List ℕ} (h : Ancestors parent (parent m) as) :
      Ancestors parent (some m) (m :: as)

end Spec

open Spec

/-! ## The order of traders -/

theorem Traders.lt_trans {w : Traders} {a b c : ℕ} (h1 : w.lt a b = true) (h2 : w.lt b c = true) :
    w.lt a c = true := by
  unfold Traders.lt at *
  split_ifs at * <;> simp only [decide_eq_true_eq] at * <;> omega

theorem Traders.lt_asymm {w : Traders} {a b : ℕ} (h1 : w.lt a b = true) : w.lt b a = false := by
  unfold Traders.lt at *
  split_ifs at * <;> simp only [decide_eq_true_eq, decide_eq_false_iff_not] at * <;> omega

theorem Traders.lt_total {w : Traders} (hinj : Function.Injective w.addr) {a b : ℕ}
    (h1 : w.lt a b = false) (h2 : w.lt b a = false) : a = b := by
  unfold Traders.lt at *
  split_ifs at * <;> simp only [decide_eq_false_iff_not] at *
  all_goals (apply hinj; omega)

theorem Traders.insert_spec {w : Traders} (hinj : Function.Injective w.addr) (t : ℕ) :
    ∀ {l : List ℕ}, l.Pairwise (fun a b => w.lt a b = true) →
    (w.insert l t).Pairwise (fun a b => w.lt a b = true) ∧
      ∀ x, x ∈ w.insert l t ↔ x = t ∨ x ∈ l := by
  intro l
  induction l with
  | nil => intro _; simp [Traders.insert]
  | cons y l ih =>
    intro h
    rw [List.pairwise_cons] at h
    unfold Traders.insert
    by_cases h1 : w.lt t y = true
    · rw [if_pos h1]
      refine ⟨?_, by simp⟩
      rw [List.pairwise_cons]
      refine ⟨?_, by rw [List.pairwise_cons]; exact h⟩
      intro x hx
      rcases List.mem_cons.1 hx with rfl | hx
      · exact h1
      · exact Traders.lt_trans h1 (h.1 x hx)
    · rw [if_neg h1]
      by_cases h2 : w.lt y t = true
      · rw [if_pos h2]
        obtain ⟨i1, i2⟩ := ih h.2
        refine ⟨?_, ?_⟩
        · rw [List.pairwise_cons]
          refine ⟨?_, i1⟩
          intro x hx
          rcases (i2 x).1 hx with rfl | hx
          · exact h2
          · exact h.1 x hx
        · intro x; rw [List.mem_cons, i2, List.mem_cons]; tauto
      · rw [if_neg h2]
        refine ⟨by rw [List.pairwise_cons]; exact h, ?_⟩
        intro x
        have : t = y := Traders.lt_total hinj (by simpa using h1) (by simpa using h2)
        subst this
        simp

/-- **C63**, the order of traders: all traders of the simulation, each once, ordered by the id of
their manager (addresses decide only between traders of the same manager). -/
theorem C63_order (w : Traders) (hinj : Function.Injective w.addr) :
    (∀ t, t ∈ w.init ↔ t ∈ w.traders) ∧ w.init.Nodup ∧
      w.init.Pairwise fun a b => w.managerId a ≤ w.managerId b := by
  have key : ∀ (ts l : List ℕ), l.Pairwise (fun a b => w.lt a b = true) →
      (ts.foldl w.insert l).Pairwise (fun a b => w.lt a b = true) ∧
      ∀ x, x ∈ ts.foldl w.insert l ↔ x ∈ l ∨ x ∈ ts := by
    intro ts
    induction ts with
    | nil => intro l h; simpa using h
    | cons t ts ih =>
      intro l h
      obtain ⟨h1, h2⟩ := Traders.insert_spec hinj t h
      obtain ⟨h3, h4⟩ := ih _ h1
      refine ⟨h3, fun x => ?_⟩
      rw [List.foldl_cons, h4, h2, List.mem_cons]; tauto
  obtain ⟨h1, h2⟩ := key w.traders [] List.Pairwise.nil
  refine ⟨fun t => by rw [Traders.init, h2]; simp, ?_, ?_⟩
  · refine h1.imp ?_
    rintro a b h rfl
    have := Traders.lt_asymm h
    rw [h] at this; cases this
  · refine h1.imp ?_
    intro a b h
    unfold Traders.lt at h
    split_ifs at h <;> simp only [decide_eq_true_eq] at h <;> omega

/-- **C63**, determinism: if managers have different ids, the order does not depend on addresses
nor on the order in which the context holds the traders. -/
theorem C63_deterministic (w w' : Traders) (hinj : Function.Injective w.addr)
    (hinj' : Function.Injective w'.addr) (hid : w.managerId = w'.managerId)
    (hne : ∀ a ∈ w.traders, ∀ b ∈ w.traders, w.managerId a = w.managerId b → a = b)
    (ht : ∀ t, t ∈ w.traders ↔ t ∈ w'.traders) : w.init = w'.init := by
  obtain ⟨a1, a2, a3⟩ := C63_order w hinj
  obtain ⟨b1, b2, b3⟩ := C63_order w' hinj'
  have hp : w.init.Perm w'.init := by
    rw [List.perm_ext_iff_of_nodup a2 b2]
    intro t; rw [a1, b1, ht]
  refine List.Perm.eq_of_pairwise (le := fun a b => w.managerId a ≤ w.managerId b) ?_ a3 ?_ hp
  · intro a b ha hb h1 h2
    exact hne a ((a1 a).1 ha) b ((ht b).2 ((b1 b).1 hb)) (le_antisymm h1 h2)
  · rw [hid]; exact b3

/-! ## The context -/

/-- What the containers of the context hold. -/
structure Indexed (c : Ctx) : Prop where
  reqs : ∀ q, q ∈ c.requesters ↔ ∃ r ∈ allReqs c, (c.req r).requester = q
  nodup : c.requesters.Nodup
  commod : ∀ k, c.commodRequests k = (allReqs c).filter fun r => (c.req r).commod = k
  bidders : ∀ q, q ∈ c.bidders ↔ ∃ b ∈ allBids c, (c.bid b).bidder = q
  byReq : ∀ r, c.bidsByRequest r = (allBids c).filter fun b => (c.bid b).request = r
  prefs : ∀ t r b, ((c.prefs t).bind fun m => m r b) =
    if b ∈ allBids c ∧ r = (c.bid b).request ∧ t = (c.req r).requester
      then some (defaultPref c b) else none

/-- The same objects. -/
structure SameObj (c c' : Ctx) : Prop where
  req : c'.req = c.req
  bid : c'.bid = c.bid
  rp : c'.rp = c.rp
  bp : c'.bp = c.bp

theorem SameObj.refl (c : Ctx) : SameObj c c := ⟨rfl, rfl, rfl, rfl⟩

theorem SameObj.trans {a b c : Ctx} (h : SameObj a b) (h' : SameObj b c) : SameObj a c :=
  ⟨h'.req.trans h.req, h'.bid.trans h.bid, h'.rp.trans h.rp, h'.bp.trans h.bp⟩

theorem Indexed.empty (c : Ctx) : Indexed c.empty := by
  constructor <;> simp [Ctx.empty, allReqs, allBids]

theorem addRequests_fold (rs : List ℕ) : ∀ (c : Ctx),
    SameObj c (rs.foldl Ctx.addRequest c) ∧
    (rs.foldl Ctx.addRequest c).requests = c.requests ∧
    (rs.foldl Ctx.addRequest c).bids = c.bids ∧
    (rs.foldl Ctx.addRequest c).bidders = c.bidders ∧
    (rs.foldl Ctx.addRequest c).bidsByRequest = c.bidsByRequest ∧
    (rs.foldl Ctx.addRequest c).prefs = c.prefs ∧
    (∀ k, (rs.foldl Ctx.addRequest c).commodRequests k =
      c.commodRequests k ++ rs.filter fun r => (c.req r).commod = k) ∧
    (∀ q, q ∈ (rs.foldl Ctx.addRequest c).requesters ↔
      q ∈ c.requesters ∨ ∃ r ∈ rs, (c.req r).requester = q) ∧
    (c.requesters.Nodup → (rs.foldl Ctx.addRequest c).requesters.Nodup) := by
  induction rs with
  | nil => intro c; exact ⟨SameObj.refl c, rfl, rfl, rfl, rfl, rfl, by simp, by simp, fun h => h⟩
  | cons r rs ih =>
    intro c
    obtain ⟨h1, h2, h3, h4, h5, h6, h7, h8, h9⟩ := ih (c.addRequest r)
    rw [List.foldl_cons]
    refine ⟨(SameObj.mk rfl rfl rfl rfl : SameObj c (c.addRequest r)).trans h1, h2, h3, h4, h5, h6,
      ?_, ?_, ?_⟩
    · intro k
      rw [h7 k]
      simp only [Ctx.addRequest, Function.update_apply, List.filter_cons]
      by_cases hk : k = (c.req r).commod
      · rw [if_pos hk, if_pos (by simp [hk]), hk, List.append_assoc]
        rfl
      · rw [if_neg hk, if_neg (by simp only [decide_eq_true_eq]; exact fun h' => hk h'.symm)]
        rfl
    · intro q
      rw [h8 q]
      simp only [Ctx.addRequest, insertSet_mem, List.mem_cons, exists_eq_or_imp]
      rw [or_assoc, eq_comm]
    · exact fun hn => h9 (insertSet_nodup hn)

theorem Indexed.addRP {c : Ctx} (h : Indexed c) (p : ℕ) :
    Indexed (c.addRequestPortfolio p) ∧ SameObj c (c.addRequestPortfolio p) ∧
      (c.addRequestPortfolio p).requests = c.requests ++ [p] ∧
      (c.addRequestPortfolio p).bids = c.bids := by
  obtain ⟨h1, h2, h3, h4, h5, h6, h7, h8, h9⟩ :=
    addRequests_fold (c.rp p).reqs { c with requests := c.requests ++ [p] }
  have hobj : SameObj c (c.addRequestPortfolio p) := ⟨h1.req, h1.bid, h1.rp, h1.bp⟩
  have hall : allReqs (c.addRequestPortfolio p) = allReqs c ++ (c.rp p).reqs := by
    unfold allReqs; rw [hobj.rp]
    show (c.addRequestPortfolio p).requests.flatMap _ = _
    have : (c.addRequestPortfolio p).requests = c.requests ++ [p] := h2
    rw [this]; simp
  have hbids : allBids (c.addRequestPortfolio p) = allBids c := by
    unfold allBids; rw [hobj.bp]
    have : (c.addRequestPortfolio p).bids = c.bids := h3
    rw [this]
  refine ⟨⟨?_, ?_, ?_, ?_, ?_, ?_⟩, hobj, h2, h3⟩
  · intro q
    rw [hall, hobj.req]
    have := h8 q
    simp only [List.mem_append, or_and_right, exists_or]
    exact this.trans (or_congr (h.reqs q) Iff.rfl)
  · exact h9 h.nodup
  · intro k
    rw [hall, hobj.req, List.filter_append, ← h.commod k]
    exact h7 k
  · intro q
    rw [hbids, hobj.bid]
    have : (c.addRequestPortfolio p).bidders = c.bidders := h4
    rw [this]; exact h.bidders q
  · intro r
    rw [hbids, hobj.bid]
    have : (c.addRequestPortfolio p).bidsByRequest = c.bidsByRequest := h5
    rw [this]; exact h.byReq r
  · intro t r b
    have hd : defaultPref (c.addRequestPortfolio p) b = defaultPref c b := by
      unfold defaultPref; rw [hobj.bid, hobj.req]
    have : (c.addRequestPortfolio p).prefs = c.prefs := h6
    rw [hbids, hobj.bid, hobj.req, hd, this]
    exact h.prefs t r b

/-- The containers after some of the bids of a portfolio. -/
theorem addBids_fold (bs : List ℕ) : ∀ (c : Ctx) (L : List ℕ),
    (∀ t r b, ((c.prefs t).bind fun m => m r b) =
      if b ∈ L ∧ r = (c.bid b).request ∧ t = (c.req r).requester
        then some (defaultPref c b) else none) →
    SameObj c (bs.foldl Ctx.addBid c) ∧
    (bs.foldl Ctx.addBid c).requests = c.requests ∧
    (bs.foldl Ctx.addBid c).bids = c.bids ∧
    (bs.foldl Ctx.addBid c).requesters = c.requesters ∧
    (bs.foldl Ctx.addBid c).commodRequests = c.commodRequests ∧
    (∀ r, (bs.foldl Ctx.addBid c).bidsByRequest r =
      c.bidsByRequest r ++ bs.filter fun b => (c.bid b).request = r) ∧
    (∀ q, q ∈ (bs.foldl Ctx.addBid c).bidders ↔
      q ∈ c.bidders ∨ ∃ b ∈ bs, (c.bid b).bidder = q) ∧
    (∀ t r b, (((bs.foldl Ctx.addBid c).prefs t).bind fun m => m r b) =
      if b ∈ L ++ bs ∧ r = (c.bid b).request ∧ t = (c.req r).requester
        then some (defaultPref c b) else none) := by
  induction bs with
  | nil =>
    intro c L h
    exact ⟨SameObj.refl c, rfl, rfl, rfl, rfl, by simp, by simp, by simpa using h⟩
  | cons b bs ih =>
    intro c L h
    have hstep : ∀ t r b', (((c.addBid b).prefs t).bind fun m => m r b') =
        if b' ∈ L ++ [b] ∧ r = (c.bid b').request ∧ t = (c.req r).requester
          then some (defaultPref c b') else none := by
      intro t r b'
      have hdef : (match (c.bid b).pref with
          | none => (c.req (c.bid b).request).pref
          | some y => y) = defaultPref c b := by
        unfold defaultPref; cases (c.bid b).pref <;> rfl
      simp only [Ctx.addBid, Function.update_apply]
      by_cases ht : t = (c.req (c.bid b).request).requester
      · rw [if_pos ht]
        simp only [Option.bind_some, insertPref]
        have hold : ∀ r b', ((c.prefs (c.req (c.bid b).request).requester).getD fun _ _ => none) r b' =
            ((c.prefs t).bind fun m => m r b') := by
          intro r b'
          rw [ht]; cases c.prefs (c.req (c.bid b).request).requester <;> rfl
        by_cases hb : r = (c.bid b).request ∧ b' = b
        · obtain ⟨rfl, rfl⟩ := hb
          rw [if_pos ⟨rfl, rfl⟩, if_pos ⟨by simp, rfl, ht⟩, hold, h]
          split_ifs
          · rfl
          · exact congrArg some hdef
        · rw [if_neg hb, hold, h]
          by_cases hL : b' ∈ L
          · simp [hL]
          · by_cases hbb : b' = b
            · subst hbb
              have hr : ¬ r = (c.bid b').request := fun h' => hb ⟨h', rfl⟩
              simp [hL, hr]
            · simp [hL, hbb]
      · rw [if_neg ht, h]
        by_cases hL : b' ∈ L
        · simp [hL]
        · by_cases hbb : b' = b
          · subst hbb
            have hr : ¬ (r = (c.bid b').request ∧ t = (c.req r).requester) := by
              rintro ⟨rfl, h'⟩; exact ht h'
            simp only [hL, false_and, if_false, List.mem_append, List.mem_singleton, or_true,
              true_and]
            rw [if_neg hr]
          · simp [hL, hbb]
    obtain ⟨h1, h2, h3, h4, h5, h6, h7, h8⟩ := ih (c.addBid b) (L ++ [b]) hstep
    rw [List.foldl_cons]
    refine ⟨(SameObj.mk rfl rfl rfl rfl : SameObj c (c.addBid b)).trans h1, h2, h3, h4, h5, ?_, ?_,
      ?_⟩
    · intro r
      rw [h6 r]
      simp only [Ctx.addBid, Function.update_apply, List.filter_cons]
      by_cases hk : r = (c.bid b).request
      · rw [if_pos hk, if_pos (by simp [hk]), hk, List.append_assoc]
        rfl
      · rw [if_neg hk, if_neg (by simp only [decide_eq_true_eq]; exact fun h' => hk h'.symm)]
        rfl
    · intro q
      rw [h7 q]
      simp only [Ctx.addBid, insertSet_mem, List.mem_cons, exists_eq_or_imp]
      rw [or_assoc, eq_comm]
    · intro t r b'
      have := h8 t r b'
      rw [List.append_assoc] at this
      exact this

theorem Indexed.addBP {c : Ctx} (h : Indexed c) (p : ℕ) :
    Indexed (c.addBidPortfolio p) ∧ SameObj c (c.addBidPortfolio p) ∧
      (c.addBidPortfolio p).requests = c.requests ∧
      (c.addBidPortfolio p).bids = c.bids ++ [p] := by
  obtain ⟨h1, h2, h3, h4, h5, h6, h7, h8⟩ :=
    addBids_fold (c.bp p).bids { c with bids := c.bids ++ [p] } (allBids c) h.prefs
  have hobj : SameObj c (c.addBidPortfolio p) := ⟨h1.req, h1.bid, h1.rp, h1.bp⟩
  have hall : allBids (c.addBidPortfolio p) = allBids c ++ (c.bp p).bids := by
    unfold allBids; rw [hobj.bp]
    have : (c.addBidPortfolio p).bids = c.bids ++ [p] := h3
    rw [this]; simp
  have hreqs : allReqs (c.addBidPortfolio p) = allReqs c := by
    unfold allReqs; rw [hobj.rp]
    have : (c.addBidPortfolio p).requests = c.requests := h2
    rw [this]
  have hrq : (c.addBidPortfolio p).requesters = c.requesters := h4
  refine ⟨⟨?_, ?_, ?_, ?_, ?_, ?_⟩, hobj, h2, h3⟩
  · intro q
    rw [hreqs, hobj.req, hrq]; exact h.reqs q
  · rw [hrq]; exact h.nodup
  · intro k
    have : (c.addBidPortfolio p).commodRequests = c.commodRequests := h5
    rw [hreqs, hobj.req, this]; exact h.commod k
  · intro q
    rw [hall, hobj.bid]
    have := h7 q
    simp only [List.mem_append, or_and_right, exists_or]
    exact this.trans (or_congr (h.bidders q) Iff.rfl)
  · intro r
    rw [hall, hobj.bid, List.filter_append, ← h.byReq r]
    exact h6 r
  · intro t r b
    have hd : defaultPref (c.addBidPortfolio p) b = defaultPref c b := by
      unfold defaultPref; rw [hobj.bid, hobj.req]
    rw [hall, hobj.bid, hobj.req, hd]
    exact h8 t r b

theorem addRPs {ps : List ℕ} : ∀ {c : Ctx}, Indexed c →
    Indexed (ps.foldl Ctx.addRequestPortfolio c) ∧ SameObj c (ps.foldl Ctx.addRequestPortfolio c) ∧
      (ps.foldl Ctx.addRequestPortfolio c).requests = c.requests ++ ps ∧
      (ps.foldl Ctx.addRequestPortfolio c).bids = c.bids := by
  induction ps with
  | nil => intro c h; exact ⟨h, SameObj.refl c, by simp, rfl⟩
  | cons p ps ih =>
    intro c h
    obtain ⟨h1, h2, h3, h4⟩ := h.addRP p
    obtain ⟨i1, i2, i3, i4⟩ := ih h1
    exact ⟨i1, h2.trans i2, by rw [List.foldl_cons, i3, h3]; simp, i4.trans h4⟩

theorem addBPs {ps : List ℕ} : ∀ {c : Ctx}, Indexed c →
    Indexed (ps.foldl Ctx.addBidPortfolio c) ∧ SameObj c (ps.foldl Ctx.addBidPortfolio c) ∧
      (ps.foldl Ctx.addBidPortfolio c).requests = c.requests ∧
      (ps.foldl Ctx.addBidPortfolio c).bids = c.bids ++ ps := by
  induction ps with
  | nil => intro c h; exact ⟨h, SameObj.refl c, rfl, by simp⟩
  | cons p ps ih =>
    intro c h
    obtain ⟨h1, h2, h3, h4⟩ := h.addBP p
    obtain ⟨i1, i2, i3, i4⟩ := ih h1
    exact ⟨i1, h2.trans i2, i3.trans h3, by rw [List.foldl_cons, i4, h4]; simp⟩

theorem commod_addBPs (ps : List ℕ) : ∀ (c : Ctx),
    (ps.foldl Ctx.addBidPortfolio c).commodRequests = c.commodRequests := by
  induction ps with
  | nil => intro c; rfl
  | cons p ps ih =>
    intro c
    rw [List.foldl_cons, ih]
    unfold Ctx.addBidPortfolio
    have key : ∀ (bs : List ℕ) (c : Ctx), (bs.foldl Ctx.addBid c).commodRequests = c.commodRequests := by
      intro bs
      induction bs with
      | nil => intro c; rfl
      | cons b bs ih => intro c; rw [List.foldl_cons, ih]; rfl
    rw [key]

theorem addAllRequests_spec (w : Traders) (c : Ctx) :
    Indexed (addAllRequests w c.empty) ∧ SameObj c (addAllRequests w c.empty) ∧
      (addAllRequests w c.empty).requests = w.init.flatMap w.requests ∧
      (addAllRequests w c.empty).bids = [] := by
  have key : ∀ (ts : List ℕ) (c : Ctx), Indexed c →
      Indexed (ts.foldl (fun c t => (w.requests t).foldl Ctx.addRequestPortfolio c) c) ∧
      SameObj c (ts.foldl (fun c t => (w.requests t).foldl Ctx.addRequestPortfolio c) c) ∧
      (ts.foldl (fun c t => (w.requests t).foldl Ctx.addRequestPortfolio c) c).requests =
        c.requests ++ ts.flatMap w.requests ∧
      (ts.foldl (fun c t => (w.requests t).foldl Ctx.addRequestPortfolio c) c).bids = c.bids := by
    intro ts
    induction ts with
    | nil => intro c h; exact ⟨h, SameObj.refl c, by simp, rfl⟩
    | cons t ts ih =>
      intro c h
      obtain ⟨h1, h2, h3, h4⟩ := addRPs (ps := w.requests t) h
      obtain ⟨i1, i2, i3, i4⟩ := ih _ h1
      exact ⟨i1, h2.trans i2, by rw [List.foldl_cons, i3, h3]; simp, i4.trans h4⟩
  obtain ⟨h1, h2, h3, h4⟩ := key w.init c.empty (Indexed.empty c)
  exact ⟨h1, ⟨h2.req, h2.bid, h2.rp, h2.bp⟩, by rw [addAllRequests, h3]; simp [Ctx.empty], h4⟩

theorem addAllBids_spec (w : Traders) {c : Ctx} (h : Indexed c) (hb : c.bids = []) :
    Indexed (addAllBids w c) ∧ SameObj c (addAllBids w c) ∧
      (addAllBids w c).requests = c.requests ∧
      (addAllBids w c).bids = w.init.flatMap fun t => w.bids t c.commodRequests := by
  have key : ∀ (ts : List ℕ) (c : Ctx), Indexed c →
      Indexed (ts.foldl (fun c t => (w.bids t c.commodRequests).foldl Ctx.addBidPortfolio c) c) ∧
      SameObj c (ts.foldl (fun c t => (w.bids t c.commodRequests).foldl Ctx.addBidPortfolio c) c) ∧
      (ts.foldl (fun c t => (w.bids t c.commodRequests).foldl Ctx.addBidPortfolio c) c).requests =
        c.requests ∧
      (ts.foldl (fun c t => (w.bids t c.commodRequests).foldl Ctx.addBidPortfolio c) c).bids =
        c.bids ++ ts.flatMap fun t => w.bids t c.commodRequests := by
    intro ts
    induction ts with
    | nil => intro c h; exact ⟨h, SameObj.refl c, rfl, by simp⟩
    | cons t ts ih =>
      intro c h
      obtain ⟨h1, h2, h3, h4⟩ := addBPs (ps := w.bids t c.commodRequests) h
      obtain ⟨i1, i2, i3, i4⟩ := ih _ h1
      refine ⟨i1, h2.trans i2, i3.trans h3, ?_⟩
      rw [List.foldl_cons, i4, h4, commod_addBPs]; simp
  obtain ⟨h1, h2, h3, h4⟩ := key w.init c h
  exact ⟨h1, h2, h3, by rw [addAllBids, h4, hb]; rfl⟩

/-- **C63.** The exchange consists of the request portfolios of all traders in the order of the
traders, and of the bid portfolios with which they answer those requests; bidders see, per
commodity, exactly the requests for that commodity; bids are found under their request. -/
theorem C63_collect (w : Traders) (fuel : ℕ) (ord : List ℕ → List ℕ) (c : Ctx) :
    let e := collect w fuel ord c
    e.requests = w.init.flatMap w.requests ∧
    (∀ k, e.commodRequests k = (allReqs e).filter fun r => (c.req r).commod = k) ∧
    e.bids = (w.init.flatMap fun t => w.bids t e.commodRequests) ∧
    (∀ r, e.bidsByRequest r = (allBids e).filter fun b => (c.bid b).request = r) ∧
    (∀ q, q ∈ e.requesters ↔ ∃ r ∈ allReqs e, (c.req r).requester = q) ∧
    e.requesters.Nodup ∧
    (∀ q, q ∈ e.bidders ↔ ∃ b ∈ allBids e, (c.bid b).bidder = q) := by
  obtain ⟨h1, h2, h3, h4⟩ := addAllRequests_spec w c
  obtain ⟨i1, i2, i3, i4⟩ := addAllBids_spec w h1 h4
  have key : ∀ (ts : List ℕ) (c : Ctx),
      (ts.foldl (adjustPrefs w fuel) c).requests = c.requests ∧
      (ts.foldl (adjustPrefs w fuel) c).bids = c.bids ∧
      (ts.foldl (adjustPrefs w fuel) c).requesters = c.requesters ∧
      (ts.foldl (adjustPrefs w fuel) c).bidders = c.bidders ∧
      (ts.foldl (adjustPrefs w fuel) c).commodRequests = c.commodRequests ∧
      (ts.foldl (adjustPrefs w fuel) c).bidsByRequest = c.bidsByRequest ∧
      (ts.foldl (adjustPrefs w fuel) c).rp = c.rp ∧ (ts.foldl (adjustPrefs w fuel) c).bp = c.bp := by
    intro ts
    induction ts with
    | nil => intro c; exact ⟨rfl, rfl, rfl, rfl, rfl, rfl, rfl, rfl⟩
    | cons t ts ih => intro c; exact ih (adjustPrefs w fuel c t)
  obtain ⟨k1, k2, k3, k4, k5, k6, k7, k8⟩ :=
    key (ord (addAllBids w (addAllRequests w c.empty)).requesters)
      (addAllBids w (addAllRequests w c.empty))
  have hcom : (addAllBids w (addAllRequests w c.empty)).commodRequests =
      (addAllRequests w c.empty).commodRequests := by
    have key : ∀ (ts : List ℕ) (c : Ctx),
        (ts.foldl (fun c t => (w.bids t c.commodRequests).foldl Ctx.addBidPortfolio c)
          c).commodRequests = c.commodRequests := by
      intro ts
      induction ts with
      | nil => intro c; rfl
      | cons t ts ih => intro c; rw [List.foldl_cons, ih, commod_addBPs]
    exact key _ _
  have hreq : (addAllBids w (addAllRequests w c.empty)).req = c.req := i2.req.trans h2.req
  have hbid : (addAllBids w (addAllRequests w c.empty)).bid = c.bid := i2.bid.trans h2.bid
  have ha : allReqs (collect w fuel ord c) =
      allReqs (addAllBids w (addAllRequests w c.empty)) := by
    unfold allReqs collect adjustAll; rw [k1, k7]
  have hb : allBids (collect w fuel ord c) =
      allBids (addAllBids w (addAllRequests w c.empty)) := by
    unfold allBids collect adjustAll; rw [k2, k8]
  intro e
  refine ⟨?_, ?_, ?_, ?_, ?_, ?_, ?_⟩
  · exact k1.trans (i3.trans h3)
  · intro k
    show (collect w fuel ord c).commodRequests k = List.filter _ (allReqs (collect w fuel ord c))
    rw [ha, ← hreq, ← i1.commod k]
    exact congrFun k5 k
  · show (collect w fuel ord c).bids = _
    have : e.commodRequests = (addAllRequests w c.empty).commodRequests := k5.trans hcom
    rw [this]
    exact k2.trans i4
  · intro r
    show (collect w fuel ord c).bidsByRequest r = List.filter _ (allBids (collect w fuel ord c))
    rw [hb, ← hbid, ← i1.byReq r]
    exact congrFun k6 r
  · intro q
    show q ∈ (collect w fuel ord c).requesters ↔ ∃ r ∈ allReqs (collect w fuel ord c), _
    rw [ha, ← hreq, ← i1.reqs q]
    unfold collect adjustAll; rw [k3]
  · show (collect w fuel ord c).requesters.Nodup
    unfold collect adjustAll; rw [k3]; exact i1.nodup
  · intro q
    show q ∈ (collect w fuel ord c).bidders ↔ ∃ r ∈ allBids (collect w fuel ord c), _
    rw [hb, ← hbid, ← i1.bidders q]
    unfold collect adjustAll; rw [k4]

/-! ## C64 -/

theorem adjustUp_eq {w : Traders} {m : Option ℕ} {as : List ℕ} (h : Ancestors w.parent m as) :
    ∀ {fuel : ℕ} (p : PrefMap), as.length ≤ fuel →
      adjustUp w fuel m p = as.foldl (fun p a => w.adjustA a p) p := by
  induction h with
  | root => intro fuel p _; cases fuel <;> rfl
  | @up m as h ih =>
    intro fuel p hf
    cases fuel with
    | zero => simp at hf
    | succ fuel =>
      simp only [adjustUp, List.foldl_cons]
      exact ih _ (by simpa using hf)

/-- **C64.** The preferences of a requester start as those of the bids (or, where a bid has none, of
the request); then the requester adjusts them, then its manager's parent, the parent of that
agent, and so on to the root, each exactly once.  Nothing else changes them, and a trader that
requests nothing has no preferences. -/
theorem C64_preferences (w : Traders) {fuel : ℕ} {ord : List ℕ → List ℕ} (ho : IsOrder ord) (c : Ctx)
    (anc : ℕ → List ℕ) (hanc : ∀ t, Ancestors w.parent (w.parent (w.agent t)) (anc t))
    (hfuel : ∀ t, (anc t).length ≤ fuel) :
    let e := collect w fuel ord c
    ∀ t, (t ∈ e.requesters → ∃ p0 : PrefMap,
        (∀ r b, p0 r b = if b ∈ allBids e ∧ r = (c.bid b).request ∧ t = (c.req r).requester
          then some (defaultPref c b) else none) ∧
        e.prefs t = some ((anc t).foldl (fun p a => w.adjustA a p) (w.adjustT t p0))) ∧
      (t ∉ e.requesters → ∀ r b, ((e.prefs t).bind fun m => m r b) =
        if b ∈ allBids e ∧ r = (c.bid b).request ∧ t = (c.req r).requester
          then some (defaultPref c b) else none) := by
  obtain ⟨h1, h2, h3, h4⟩ := addAllRequests_spec w c
  obtain ⟨i1, i2, i3, i4⟩ := addAllBids_spec w h1 h4
  have key : ∀ (ts : List ℕ) (c : Ctx), ts.Nodup → ∀ t,
      (ts.foldl (adjustPrefs w fuel) c).prefs t = (if t ∈ ts then
        some ((anc t).foldl (fun p a => w.adjustA a p)
          (w.adjustT t ((c.prefs t).getD fun _ _ => none))) else c.prefs t) ∧
      (ts.foldl (adjustPrefs w fuel) c).requesters = c.requesters ∧
      (ts.foldl (adjustPrefs w fuel) c).bids = c.bids ∧
      (ts.foldl (adjustPrefs w fuel) c).bp = c.bp := by
    intro ts
    induction ts with
    | nil => intro c _ t; exact ⟨by simp, rfl, rfl, rfl⟩
    | cons u ts ih =>
      intro c hn t
      rw [List.nodup_cons] at hn
      obtain ⟨j1, j2, j3, j4⟩ := ih (adjustPrefs w fuel c u) hn.2 t
      rw [List.foldl_cons]
      refine ⟨?_, j2, j3, j4⟩
      rw [j1]
      by_cases htu : t = u
      · subst htu
        rw [if_neg hn.1, if_pos List.mem_cons_self]
        simp only [adjustPrefs, Function.update_apply, if_true]
        rw [adjustUp_eq (hanc t) _ (hfuel t)]
      · simp only [List.mem_cons, htu, false_or, adjustPrefs, Function.update_apply, if_false]
  set d := addAllBids w (addAllRequests w c.empty) with hd
  have hnd : (ord d.requesters).Nodup := (ho _).nodup_iff.2 i1.nodup
  intro e t
  obtain ⟨k1, k2, k3, k4⟩ := key (ord d.requesters) d hnd t
  have hreq : d.req = c.req := i2.req.trans h2.req
  have hbid : d.bid = c.bid := i2.bid.trans h2.bid
  have hbids : allBids e = allBids d := by
    show allBids (collect w fuel ord c) = _
    unfold allBids collect adjustAll; rw [← hd, k3, k4]
  have hdp : ∀ b, defaultPref d b = defaultPref c b := by
    intro b; unfold defaultPref; rw [hbid, hreq]
  have hpr : ∀ r b, ((d.prefs t).bind fun m => m r b) =
      if b ∈ allBids e ∧ r = (c.bid b).request ∧ t = (c.req r).requester
        then some (defaultPref c b) else none := by
    intro r b
    rw [i1.prefs t r b, hbids, hbid, hreq, hdp]
  have he : e.prefs t = _ := k1
  have herq : e.requesters = d.requesters := k2
  constructor
  · intro ht
    rw [herq] at ht
    refine ⟨(d.prefs t).getD fun _ _ => none, ?_, ?_⟩
    · intro r b
      rw [← hpr r b]
      cases d.prefs t <;> rfl
    · rw [he, if_pos ((ho _).mem_iff.2 ht)]
  · intro ht r b
    rw [herq] at ht
    rw [he, if_neg (fun h' => ht ((ho _).mem_iff.1 h'))]
    exact hpr r b

/-! ## Concrete case -/

/-- Traders 2, 1, 3, 4 (manager ids 20, 10, 30, 40) of the context `exCtx`; traders 1 and 2 request,
3 and 4 bid.  Requester 1 halves its preferences, its parent (agent 100) adds 1 to them. -/
def exTraders : Traders where
  traders := [2, 1, 3, 4]
  managerId := fun t => 10 * t
  addr := fun t => 1000 - t + (if t > 1000 then 2 * t else 0)
  agent := fun t => t
  parent := fun a => if a < 100 then some 100 else none
  requests := fun t => if t = 1 then [0] else if t = 2 then [1] else []
  bids := fun t k => if t = 3 ∧ k "u" ≠ [] then [0] else if t = 4 then [1] else []
  adjustT := fun t p => if t = 1 then (fun r b => (p r b).map (· / 2)) else p
  adjustA := fun _ p => fun r b => (p r b).map (· + 1)

/-- The order of traders, and the preferences that result: for bid 0 half of 1 plus 1, for bid 1
the 2 of its request plus 1. -/
example : exTraders.init = [1, 2, 3, 4] ∧ IsOrder (id : List ℕ → List ℕ) ∧
    Ancestors exTraders.parent (exTraders.parent (exTraders.agent 1)) [100] ∧
    ((collect exTraders 5 id exCtx).prefs 1).map (fun m => m 0 0) = some (some (3 / 2)) ∧
    ((collect exTraders 5 id exCtx).prefs 2).map (fun m => m 2 1) = some (some 3) ∧
    ((collect exTraders 5 id exCtx).prefs 1).map (fun m => m 1 2) = some (some (1 / 2)) ∧
    (collect exTraders 5 id exCtx).commodRequests "u" = [0, 2] := by
  refine ⟨by decide +kernel, fun l => List.Perm.refl l, ?_, by decide +kernel, by decide +kernel,
    by decide +kernel, by decide +kernel⟩
  exact Ancestors.up (m := 100) Ancestors.root

end Cyclus.Dre
