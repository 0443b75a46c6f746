import Verif.Model.Archetypes
import Mathlib.Tactic.Linarith
import Mathlib.Tactic.Ring
import Mathlib.Tactic.NormNum
import Mathlib.Tactic.Positivity
import Mathlib.Logic.Function.Iterate
import Mathlib.Algebra.BigOperators.Group.List.Lemmas
import Mathlib.Algebra.Order.BigOperators.Group.List
import Mathlib.Data.List.TakeDrop

/-!
# Properties C87, C88, C89: the archetypes
-/

namespace Cyclus.Archetypes

/-! ### C87: sources -/

/-- The sum of the amounts of trades. -/
def totalAmt (ts : List Trade) : ℚ := (ts.map Trade.amt).sum

theorem bidLoop_ok {offer : Mat → Except Err Mat} {f : Mat → Mat} :
    ∀ (rs : List Req) (p : List (ℕ × Mat)), (∀ r ∈ rs, offer r.target = .ok (f r.target)) →
      (∀ r ∈ rs, 0 < (f r.target).qty) →
      bidLoop offer rs p = .ok (p ++ rs.map fun r => (r.id, f r.target))
  | [], p, _, _ => by simp [bidLoop]
  | r :: rs, p, h, hq => by
    have h1 := h r (by simp)
    have h2 := hq r (by simp)
    simp only [bidLoop, h1, addBid, if_pos h2]
    rw [bidLoop_ok rs _ (fun x hx => h x (by simp [hx])) fun x hx => hq x (by simp [hx])]
    simp

/-- What the documentation promises to a request: the capacity if more is asked, with the composition
of the recipe or, without one, the composition asked for. -/
def Source.promised (s : Source) (recipes : ℕ → Option ℕ) (m : Mat) : Mat :=
  ⟨if m.qty ≤ s.capacity then m.qty else s.capacity,
    match s.recipe with
    | none => m.comp
    | some r => (recipes r).getD 0⟩

/-- The recipe of the source is known. -/
def Source.Known (s : Source) (recipes : ℕ → Option ℕ) : Prop :=
  ∀ r, s.recipe = some r → recipes r ≠ none

/-- **C87 (partial).**  A source with a positive capacity answers every request for its commodity, and
no other, with what is promised, under one constraint of its capacity.  Missing: sources without a
recipe that are asked for more than their capacity (`C87_fails_offer`), and sources of capacity 0
(`C87_fails_zero`). -/
theorem C87_bids_partial {s : Source} {recipes : ℕ → Option ℕ} (hk : s.Known recipes)
    (hc : 0 < s.capacity) (reqs : ℕ → Option (List Req))
    (hpos : ∀ rs, reqs s.commod = some rs → ∀ r ∈ rs, 0 < r.target.qty)
    (hle : s.recipe = none → ∀ rs, reqs s.commod = some rs → ∀ r ∈ rs, r.target.qty ≤ s.capacity) :
    s.bids recipes reqs = .ok (match reqs s.commod with
      | none => []
      | some rs => [⟨rs.map fun r => (r.id, s.promised recipes r.target), [s.capacity]⟩]) := by
  unfold Source.bids getBids
  cases hr : reqs s.commod with
  | none => rfl
  | some rs =>
    have hoff : ∀ r ∈ rs, s.offer recipes r.target = .ok (s.promised recipes r.target) := by
      intro r hm
      unfold Source.offer Source.promised
      cases hrec : s.recipe with
      | none => simp [hle hrec rs hr r hm]
      | some c =>
        simp only [getRecipe]
        cases hc' : recipes c with
        | none => exact absurd hc' (hk c hrec)
        | some x =>
          simp only [Option.getD_some, min_def]
    have hq : ∀ r ∈ rs, 0 < (s.promised recipes r.target).qty := by
      intro r hm
      unfold Source.promised
      simp only
      split
      · exact hpos rs hr r hm
      · exact hc
    simp only
    rw [bidLoop_ok (f := s.promised recipes) rs [] hoff hq]
    rfl

theorem tradeLoop_ok {mk : Mat → Except Err ℕ} {f : Mat → ℕ} :
    ∀ (ts : List Trade) (cur : ℚ) (out : List Mat), (∀ t ∈ ts, mk t.target = .ok (f t.target)) →
      tradeLoop mk ts cur out
        = ((cur - totalAmt ts, out ++ ts.map fun t => ⟨t.amt, f t.target⟩), .ok ())
  | [], cur, out, _ => by simp [tradeLoop, totalAmt]
  | t :: ts, cur, out, h => by
    simp only [tradeLoop, h t (by simp)]
    rw [tradeLoop_ok ts _ _ fun x hx => h x (by simp [hx])]
    simp [totalAmt, sub_sub]

/-- **C87.**  Trades that together do not exceed the capacity (by more than the tolerance) are each
answered with exactly the traded quantity, of the recipe or the composition asked for; trades that
exceed it throw a `ValueError`. -/
theorem C87_trades {s : Source} {recipes : ℕ → Option ℕ} (hk : s.Known recipes) (eps : ℚ)
    (ts : List Trade) :
    (totalAmt ts ≤ s.capacity + eps → s.trades recipes eps ts
      = .ok (ts.map fun t => ⟨t.amt, (s.promised recipes t.target).comp⟩)) ∧
    (s.capacity + eps < totalAmt ts → s.trades recipes eps ts = .error .value) := by
  have h := tradeLoop_ok (mk := s.composition recipes) (f := fun t => (s.promised recipes t).comp) ts s.capacity []
    (by
      intro t _
      unfold Source.promised Source.composition
      cases hrec : s.recipe with
      | none => rfl
      | some c =>
        simp only [getRecipe]
        cases hc' : recipes c with
        | none => exact absurd hc' (hk c hrec)
        | some x => rfl)
  unfold Source.trades
  rw [h]
  constructor
  · intro hle
    have : isNegative eps (s.capacity - totalAmt ts) = false := by
      simp only [isNegative, decide_eq_false_iff_not, not_lt]; linarith
    simp [this]
  · intro hlt
    have : isNegative eps (s.capacity - totalAmt ts) = true := by
      simp only [isNegative, decide_eq_true_eq]; linarith
    simp [this]

/-- **C87.**  A source whose recipe does not exist throws a `KeyError` as soon as there is something to
answer. -/
theorem C87_unknown {s : Source} {recipes : ℕ → Option ℕ} {r : ℕ} (hs : s.recipe = some r)
    (hr : recipes r = none) (eps : ℚ) (t : Trade) (ts : List Trade) (q : Req) (qs : List Req)
    (reqs : ℕ → Option (List Req)) (hq : reqs s.commod = some (q :: qs)) :
    s.trades recipes eps (t :: ts) = .error .key ∧ s.bids recipes reqs = .error .key := by
  constructor
  · simp [Source.trades, Source.composition, tradeLoop, hs, getRecipe, hr]
  · simp [Source.bids, getBids, hq, bidLoop, Source.offer, hs, getRecipe, hr]

/-- A source of commodity 1 with recipe 2 and capacity 10. -/
def sampleSource : Source := ⟨1, some 2, 10⟩

example : sampleSource.Known (fun _ => some 7) ∧ 0 < sampleSource.capacity ∧
    sampleSource.bids (fun _ => some 7) (fun c => if c = 1 then some [⟨5, ⟨30, 3⟩⟩, ⟨6, ⟨4, 3⟩⟩] else none)
      = .ok [⟨[(5, ⟨10, 7⟩), (6, ⟨4, 7⟩)], [10]⟩] ∧
    sampleSource.trades (fun _ => some 7) (1 / 1000000) [⟨⟨30, 3⟩, 6⟩, ⟨⟨4, 3⟩, 4⟩]
      = .ok [⟨6, 7⟩, ⟨4, 7⟩] ∧
    sampleSource.trades (fun _ => some 7) (1 / 1000000) [⟨⟨30, 3⟩, 10⟩, ⟨⟨4, 3⟩, 4⟩]
      = .error .value := by
  refine ⟨fun _ _ => by simp, by decide +kernel, by decide +kernel, by decide +kernel,
    by decide +kernel⟩

/-- The code contradicts C87: without a recipe, a source offers all that is asked, here 30 with a
capacity of 10. -/
theorem C87_fails_offer : ∃ (s : Source) (recipes : ℕ → Option ℕ) (m : Mat),
    s.capacity = 10 ∧ s.offer recipes m = .ok ⟨30, 0⟩ :=
  ⟨⟨0, none, 10⟩, fun _ => none, ⟨30, 0⟩, rfl, rfl⟩

/-- The code contradicts C87: a source of capacity 0, which its range allows, throws a `ValueError` as
soon as its commodity is requested. -/
theorem C87_fails_zero (r : ℕ) (recipes : ℕ → Option ℕ) (c : ℕ) (hc : recipes r = some c)
    (q : Req) (hq : 0 < q.target.qty) (qs : List Req) (reqs : ℕ → Option (List Req)) (k : ℕ)
    (hr : reqs k = some (q :: qs)) :
    (⟨k, some r, 0⟩ : Source).bids recipes reqs = .error .value := by
  simp [Source.bids, getBids, hr, bidLoop, Source.offer, getRecipe, hc, addBid, hq.le]

/-! ### C88: sinks and k-facilities -/

/-- The sum of the quantities of objects. -/
def sumOf (heap : ℕ → ResBuf.Obj) (rs : List ℕ) : ℚ := (rs.map fun r => (heap r).qty).sum

/-- An inventory that knows what it holds, and keeps objects apart. -/
structure Sound (b : ResBuf.St) : Prop where
  sum : b.qty = sumOf b.heap b.rs
  pres : ∀ r, r ∈ b.present ↔ r ∈ b.rs
  bulk : b.bulk = false

theorem push_ok {b : ResBuf.St} (h : Sound b) {epsR : ℚ} {r : ℕ} (ht : (b.heap r).isT = true)
    (hn : r ∉ b.rs) (hx : ∀ c, b.cap = some c → b.qty + (b.heap r).qty ≤ c + epsR) :
    ∃ b', ResBuf.push .material epsR b r = (b', .ok ()) ∧ Sound b' ∧ b'.rs = b.rs ++ [r] ∧
      b'.heap = b.heap ∧ b'.cap = b.cap ∧ b'.qty = b.qty + (b.heap r).qty := by
  have hex : ResBuf.exceeds epsR (b.heap r).qty (ResBuf.space b) = false := by
    unfold ResBuf.space
    cases hc : b.cap with
    | none => rfl
    | some c =>
      have := hx c hc
      have hm := le_max_right (0 : ℚ) (c - b.qty)
      simp only [Option.map_some, ResBuf.exceeds, decide_eq_false_iff_not, not_lt]
      linarith
  have hp : r ∉ b.present := fun hm => hn ((h.pres r).1 hm)
  have hsum : sumOf b.heap (b.rs ++ [r]) = b.qty + (b.heap r).qty := by
    rw [h.sum]; simp [sumOf]
  let b1 : ResBuf.St := { b with
    rs := b.rs ++ [r], present := ResBuf.insertPresent b.present r, qty := b.qty + (b.heap r).qty }
  have hpush : ResBuf.push .material epsR b r = (ResBuf.updateQty b1, .ok ()) := by
    unfold ResBuf.push
    simp only [ht, hex, hp, h.bulk, b1]
    simp
  have hup : ResBuf.updateQty b1 = b1 := by
    unfold ResBuf.updateQty
    cases hrs : b.rs with
    | nil =>
      have : b.qty = 0 := by rw [h.sum, hrs]; rfl
      simp only [b1, hrs, List.nil_append, this, zero_add]
    | cons x l =>
      simp only [b1, hrs]
      cases l with
      | nil => rfl
      | cons y l => rfl
  rw [hup] at hpush
  refine ⟨b1, hpush, ⟨hsum.symm, ?_, h.bulk⟩, rfl, rfl, rfl, rfl⟩
  intro x
  simp only [b1, ResBuf.insertPresent, if_neg hp, List.mem_cons, List.mem_append, h.pres x,
    List.mem_singleton]
  simp
  exact or_comm

theorem acceptLoop_ok {epsR : ℚ} : ∀ (rs : List ℕ) (b : ResBuf.St), Sound b →
    (∀ r ∈ rs, (b.heap r).isT = true ∧ 0 ≤ (b.heap r).qty ∧ r ∉ b.rs) → rs.Nodup →
    (∀ c, b.cap = some c → b.qty + sumOf b.heap rs ≤ c + epsR) →
    ∃ b', acceptLoop epsR b rs = (b', .ok ()) ∧ Sound b' ∧ b'.rs = b.rs ++ rs ∧
      b'.heap = b.heap ∧ b'.cap = b.cap ∧ b'.qty = b.qty + sumOf b.heap rs
  | [], b, h, _, _, _ => ⟨b, rfl, h, by simp, rfl, rfl, by simp [sumOf]⟩
  | r :: rs, b, h, hr, hn, hx => by
    have hsplit : sumOf b.heap (r :: rs) = (b.heap r).qty + sumOf b.heap rs := by simp [sumOf]
    have hnn : 0 ≤ sumOf b.heap rs := by
      apply List.sum_nonneg
      intro x hx'
      obtain ⟨y, hy, rfl⟩ := List.mem_map.1 hx'
      exact (hr y (by simp [hy])).2.1
    obtain ⟨b1, h1, h2, h3, h4, h5, h6⟩ := push_ok h (epsR := epsR) (hr r (by simp)).1
      (hr r (by simp)).2.2 (fun c hc => by have := hx c hc; rw [hsplit] at this; linarith)
    rw [List.nodup_cons] at hn
    obtain ⟨b2, g1, g2, g3, g4, g5, g6⟩ := acceptLoop_ok rs b1 h2
      (by
        intro x hx'
        obtain ⟨a1, a2, a3⟩ := hr x (by simp [hx'])
        rw [h4, h3]
        refine ⟨a1, a2, ?_⟩
        simp only [List.mem_append, List.mem_singleton, not_or]
        exact ⟨a3, fun he => hn.1 (he ▸ hx')⟩) hn.2
      (by
        intro c hc
        rw [h5] at hc
        have := hx c hc
        rw [h4, h6]
        rw [hsplit] at this
        linarith)
    refine ⟨b2, ?_, g2, ?_, by rw [g4, h4], by rw [g5, h5], ?_⟩
    · simp only [acceptLoop, h1]; exact g1
    · rw [g3, h3]; simp
    · rw [g6, h4, h6, hsplit]; ring

/-- **C88.**  A sink with a capacity above the tolerance requests that capacity of each of its
commodities, under one constraint for all of them, and otherwise nothing: of materials, with the
recipe if it has one, and of products. -/
theorem C88_requests {s : Sink} {recipes : ℕ → Option ℕ} (hk : ∀ r, s.recipe = some r → recipes r ≠ none)
    (eps : ℚ) :
    (eps < s.capacity → s.matlRequests recipes eps
        = .ok [⟨s.commods.map fun c => (c, ⟨s.capacity, match s.recipe with
            | none => 0
            | some r => (recipes r).getD 0⟩), [s.capacity]⟩] ∧
      s.productRequests eps = [⟨s.commods.map fun c => (c, ⟨s.capacity, 0⟩), [s.capacity]⟩]) ∧
    (s.capacity ≤ eps → s.matlRequests recipes eps = .ok [] ∧ s.productRequests eps = []) := by
  unfold Sink.matlRequests Sink.productRequests
  cases hrec : s.recipe with
  | none =>
    refine ⟨fun h => ?_, fun h => ?_⟩
    · simp [h, blank]
    · simp [not_lt.2 h]
  | some r =>
    cases hc : recipes r with
    | none => exact absurd hc (hk r hrec)
    | some x =>
      refine ⟨fun h => ?_, fun h => ?_⟩
      · simp [h, blank, getRecipe, hc]
      · simp [not_lt.2 h, getRecipe, hc]

/-- **C88 (partial).**  What a sink or a k-facility receives enters its inventory, in order and
completely, if there is space for it.  Missing: inventories without the space
(`C88_fails_full`). -/
theorem C88_accept_partial {epsR : ℚ} {b : ResBuf.St} (h : Sound b) {rs : List ℕ}
    (hr : ∀ r ∈ rs, (b.heap r).isT = true ∧ 0 ≤ (b.heap r).qty ∧ r ∉ b.rs) (hn : rs.Nodup)
    (hx : ∀ c, b.cap = some c → b.qty + sumOf b.heap rs ≤ c + epsR) (s : Sink) (k : KFac) :
    (({ s with inv := b } : Sink).accept epsR rs).2 = .ok () ∧
    (({ k with inv := b } : KFac).accept epsR rs).2 = .ok () ∧
    (∀ b', (b' = (({ s with inv := b } : Sink).accept epsR rs).1.inv ∨
        b' = (({ k with inv := b } : KFac).accept epsR rs).1.inv) →
      Sound b' ∧ b'.rs = b.rs ++ rs ∧ b'.heap = b.heap ∧ b'.qty = b.qty + sumOf b.heap rs) := by
  obtain ⟨b', h1, h2, h3, h4, -, h6⟩ := acceptLoop_ok rs b h hr hn hx
  refine ⟨by simp [Sink.accept, h1], by simp [KFac.accept, h1], ?_⟩
  intro b'' hb
  have : b'' = b' := by
    rcases hb with rfl | rfl
    · simp [Sink.accept, h1]
    · simp [KFac.accept, h1]
  subst this
  exact ⟨h2, h3, h4, h6⟩

theorem tock_iter (k : KFac) (n : ℕ) :
    let k' := KFac.tock^[n] k
    k'.inCap = k.inCap * k.kIn ^ n ∧ k'.outCap = k.outCap * k.kOut ^ n ∧ k'.kIn = k.kIn ∧
    k'.kOut = k.kOut ∧ k'.inCommod = k.inCommod ∧ k'.outCommod = k.outCommod ∧
    k'.recipe = k.recipe := by
  induction n with
  | zero => simp
  | succ n ih =>
    obtain ⟨h1, h2, h3, h4, h5, h6, h7⟩ := ih
    rw [Function.iterate_succ_apply']
    simp only [KFac.tock]
    refine ⟨?_, ?_, h3, h4, h5, h6, h7⟩
    · rw [h1, h3]; ring
    · rw [h2, h4]; ring

/-- **C88.**  Requests and offers of a k-facility follow a power law: after `n` steps it requests
`in kIn ^ n` and offers and supplies at most `out kOut ^ n`. -/
theorem C88_power (k : KFac) (n : ℕ) (eps : ℚ) {recipes : ℕ → Option ℕ} {c : ℕ}
    (hc : recipes k.recipe = some c) (rs : List Req) (hpos : ∀ r ∈ rs, 0 < r.target.qty)
    (ho : 0 < k.outCap * k.kOut ^ n) (reqs : ℕ → Option (List Req)) (hr : reqs k.outCommod = some rs) :
    let k' := KFac.tock^[n] k
    k'.requests eps = (if eps < k.inCap * k.kIn ^ n
      then [⟨[(k.inCommod, ⟨k.inCap * k.kIn ^ n, 0⟩)], [k.inCap * k.kIn ^ n]⟩] else []) ∧
    k'.bids recipes reqs = .ok [⟨rs.map fun r =>
        (r.id, ⟨if r.target.qty ≤ k.outCap * k.kOut ^ n then r.target.qty
          else k.outCap * k.kOut ^ n, c⟩), [k.outCap * k.kOut ^ n]⟩] := by
  intro k'
  obtain ⟨h1, h2, -, -, h5, h6, h7⟩ := tock_iter k n
  constructor
  · unfold KFac.requests
    simp only [k', h1, h5, blank]
  · unfold KFac.bids getBids
    simp only [k', h6, hr]
    rw [bidLoop_ok (f := fun m => ⟨if m.qty ≤ k.outCap * k.kOut ^ n then m.qty
      else k.outCap * k.kOut ^ n, c⟩) rs [] ?_ ?_]
    · simp [h2]
    · intro r _
      simp only [KFac.offer, h7, getRecipe, hc, h2, min_def]
    · intro r hm
      simp only
      split
      · exact hpos r hm
      · exact ho

/-- Several calls of `GetMatlTrades` in one step. -/
inductive Supplies (recipes : ℕ → Option ℕ) (eps : ℚ) : KFac → List Trade → KFac → Prop
  | nil (k : KFac) : Supplies recipes eps k [] k
  | snoc {k k' k'' : KFac} {ts us : List Trade} {out : List Mat} : Supplies recipes eps k ts k' →
      k'.trades recipes eps us = (k'', .ok out) → Supplies recipes eps k (ts ++ us) k''

theorem kfac_trades {recipes : ℕ → Option ℕ} {c : ℕ} (eps : ℚ) (k : KFac)
    (hc : recipes k.recipe = some c) (ts : List Trade) :
    k.trades recipes eps ts = ({ k with cur := k.cur - totalAmt ts },
      if k.cur + eps < totalAmt ts then .error .value else .ok (ts.map fun t => ⟨t.amt, c⟩)) := by
  unfold KFac.trades
  rw [tradeLoop_ok (f := fun _ => c) ts k.cur [] fun t _ => by simp [getRecipe, hc]]
  simp only [isNegative, List.nil_append]
  have e : k.cur - totalAmt ts < -1 * eps ↔ k.cur + eps < totalAmt ts := by
    constructor <;> intro h <;> linarith
  simp only [e, decide_eq_true_eq]

/-- **C88.**  In one step a k-facility supplies at most its capacity (within the tolerance), in however
many calls: each call succeeds, with exactly the traded quantities of its recipe, as long as the
capacity is not exceeded, and throws a `ValueError` when it is. -/
theorem C88_step {recipes : ℕ → Option ℕ} {c : ℕ} {eps : ℚ} {k k' : KFac}
    (hc : recipes k.recipe = some c) {ts : List Trade} (h : Supplies recipes eps k.tick ts k') :
    (0 ≤ k.outCap + eps → totalAmt ts ≤ k.outCap + eps) ∧
    ∀ us, (totalAmt ts + totalAmt us ≤ k.outCap + eps →
        (k'.trades recipes eps us).2 = .ok (us.map fun t => ⟨t.amt, c⟩)) ∧
      (k.outCap + eps < totalAmt ts + totalAmt us → (k'.trades recipes eps us).2 = .error .value) := by
  have key : k'.recipe = k.recipe ∧ k'.cur = k.outCap - totalAmt ts ∧
      (0 ≤ k.outCap + eps → totalAmt ts ≤ k.outCap + eps) := by
    generalize hk0 : k.tick = k0 at h
    induction h with
    | nil => subst hk0; exact ⟨rfl, by simp [KFac.tick, totalAmt], fun h => by simpa [totalAmt] using h⟩
    | @snoc k1 k2 ts us out _ ht ih =>
      subst hk0
      obtain ⟨i1, i2, i3⟩ := ih
      rw [kfac_trades eps k1 (by rw [i1]; exact hc)] at ht
      simp only [Prod.mk.injEq] at ht
      obtain ⟨rfl, ht⟩ := ht
      have hsum : totalAmt (ts ++ us) = totalAmt ts + totalAmt us := by simp [totalAmt]
      refine ⟨i1, by simp only [hsum, i2]; ring, ?_⟩
      intro _
      by_cases hx : k1.cur + eps < totalAmt us
      · rw [if_pos hx] at ht; simp at ht
      · rw [i2] at hx
        rw [hsum]
        linarith
  refine ⟨key.2.2, fun us => ?_⟩
  rw [kfac_trades eps k' (by rw [key.1]; exact hc), key.2.1]
  constructor
  · intro hle
    have : ¬ k.outCap - totalAmt ts + eps < totalAmt us := by linarith
    simp [this]
  · intro hlt
    have : k.outCap - totalAmt ts + eps < totalAmt us := by linarith
    simp [this]

/-- Three objects of 10 each; an empty inventory of a given size. -/
def sampleInv (size : Option ℚ) : ResBuf.St :=
  { heap := fun _ => ⟨10, 0, true⟩, next := 3, rs := [], present := [], qty := 0, cap := size,
    bulk := false }

example : Sound (sampleInv (some 20)) := ⟨rfl, by simp [sampleInv], rfl⟩

example : ((⟨[1], none, 10, sampleInv (some 20)⟩ : Sink).accept (1 / 1000000) [0, 1]).1.inv.qty
    = 20 := by decide +kernel

/-- The code contradicts C88: a sink and a k-facility whose inventory is full go on requesting their
capacity, and throw a `ValueError` when they receive it. -/
theorem C88_fails_full : ∃ (s : Sink) (k : KFac) (recipes : ℕ → Option ℕ) (eps : ℚ),
    0 < eps ∧ Sound s.inv ∧ s.inv = k.inv ∧ s.inv.cap = some 10 ∧ s.inv.qty = 10 ∧
    s.matlRequests recipes eps = .ok [⟨[(1, ⟨10, 0⟩)], [10]⟩] ∧
    k.requests eps = [⟨[(1, ⟨10, 0⟩)], [10]⟩] ∧
    (s.accept eps [1]).2 = .error .value ∧ (k.accept eps [1]).2 = .error .value := by
  let b : ResBuf.St := { sampleInv (some 10) with rs := [0], present := [0], qty := 10 }
  refine ⟨⟨[1], none, 10, b⟩, ⟨1, 2, 3, 10, 10, 10, 1, 1, b⟩, fun _ => none, 1 / 1000000, by norm_num,
    ⟨by simp [b, sumOf, sampleInv], by simp [b], rfl⟩, rfl, rfl, rfl, by decide +kernel,
    by decide +kernel, by decide +kernel, by decide +kernel⟩

/-- The code contradicts C88: a sink asks for its capacity of materials and again of products, so that
it can receive twice what it can accept in a time step. -/
theorem C88_fails_twice : ∃ (s : Sink) (recipes : ℕ → Option ℕ) (eps : ℚ), s.capacity = 10 ∧
    s.matlRequests recipes eps = .ok [⟨[(1, ⟨10, 0⟩)], [10]⟩] ∧
    s.productRequests eps = [⟨[(1, ⟨10, 0⟩)], [10]⟩] ∧ s.inv.qty = 0 ∧
    ((s.accept eps [0]).1.accept eps [1]).1.inv.qty = 20 :=
  ⟨⟨[1], none, 10, sampleInv none⟩, fun _ => none, 1 / 1000000, rfl, by decide +kernel,
    by decide +kernel, rfl, by decide +kernel⟩

/-! ### C89: predators and prey -/

/-- **C89.**  Prey offers itself, one unit, to every request for its commodity, and is eaten (dead)
exactly if some of it is traded; more than one unit throws a `ValueError` and leaves it alive. -/
theorem C89_prey (p : Prey) (eps : ℚ) (ts : List Trade) (reqs : ℕ → Option (List Req)) :
    p.bids reqs = .ok (match reqs p.commod with
      | none => []
      | some rs => [⟨rs.map fun r => (r.id, ⟨1, 0⟩), [1]⟩]) ∧
    (totalAmt ts ≤ 1 + eps → (p.trades eps ts).2 = .ok (ts.map fun t => ⟨t.amt, 0⟩) ∧
      (p.trades eps ts).1 = { p with dead := p.dead || decide (0 < totalAmt ts) }) ∧
    (1 + eps < totalAmt ts → p.trades eps ts = (p, .error .value)) := by
  refine ⟨?_, ?_⟩
  · unfold Prey.bids getBids
    cases hr : reqs p.commod with
    | none => rfl
    | some rs =>
      simp only
      rw [bidLoop_ok (f := fun _ => ⟨1, blank⟩) rs [] (fun _ _ => rfl) fun _ _ => by norm_num]
      rfl
  · have h := tradeLoop_ok (mk := fun _ => .ok blank) (f := fun _ => blank) ts 1 [] fun _ _ => rfl
    have hf : (ts.map Trade.amt).foldl (fun a x => a + x) 0 = totalAmt ts := by
      unfold totalAmt
      rw [List.sum_eq_foldl]
    unfold Prey.trades
    rw [h]
    simp only [hf]
    constructor
    · intro hle
      have : isNegative eps (1 - totalAmt ts) = false := by
        simp only [isNegative, decide_eq_false_iff_not, not_lt]; linarith
      rw [this]
      by_cases hp : 0 < totalAmt ts
      · simp [hp, blank]
      · cases hd : p.dead
        · simp [hp, blank]; rw [← hd]
        · simp [hp, blank]; rw [← hd]
    · intro hlt
      have : isNegative eps (1 - totalAmt ts) = true := by
        simp only [isNegative, decide_eq_true_eq]; linarith
      simp [this]

/-- **C89.**  In a tock prey asks to be removed exactly if it was eaten, has its children exactly every
`birth_freq` steps (not when eaten unless `birth_and_death`), and becomes one step older. -/
theorem C89_prey_tock (p : Prey) (hf : p.birthFreq ≠ 0) :
    ∃ a, p.tock = some ({ p with age := p.age + 1 }, a) ∧ (a.decom = true ↔ p.dead = true) ∧
      a.builds = if p.birthFreq ∣ p.age ∧ (p.dead = true → p.birthAndDeath = true)
        then p.nchildren.toNat else 0 := by
  unfold Prey.tock Prey.births
  simp only [if_neg hf]
  refine ⟨_, rfl, Iff.rfl, ?_⟩
  have hd : p.age.tmod p.birthFreq = 0 ↔ p.birthFreq ∣ p.age := (Int.dvd_iff_tmod_eq_zero).symm
  simp only [hd]
  cases p.dead <;> simp

theorem dropLoop_spec : ∀ (bs : List ℕ) (n : ℕ) (f : ℕ → ℚ), n ≤ bs.length →
    dropLoop bs (n : ℤ) f = some (fun b => if b ∈ bs.take n then -1 else f b)
  | bs, 0, f, _ => by cases bs <;> simp [dropLoop]
  | [], n + 1, f, h => by simp at h
  | b :: bs, n + 1, f, h => by
    have hn : ((n + 1 : ℕ) : ℤ) ≠ 0 := by omega
    have hs : ((n + 1 : ℕ) : ℤ) - 1 = (n : ℤ) := by omega
    simp only [dropLoop, if_neg hn, hs]
    rw [dropLoop_spec bs n _ (by simpa using h)]
    congr 1
    funext x
    simp only [List.take_succ_cons, List.mem_cons]
    by_cases h1 : x ∈ bs.take n <;> by_cases h2 : x = b <;> simp [h1, h2]

/-- **C89 (partial).**  With a success between 0 and 1 a predator sets the preferences of the
`⌊n (1 - success * factor)⌋` bids with the smallest ids to -1 and leaves the others, where `factor` is
the ratio of prey to predators if that counts and is below 1.  Missing: a success outside of that
range (`C89_fails_success`). -/
theorem C89_hunt_partial (p : Predator) {nprey npred : ℤ} (h0 : 0 ≤ p.success) (h1 : p.success ≤ 1)
    (hprey : 0 ≤ nprey) (bids : List ℕ) (prefs : ℕ → ℚ) :
    ∃ n : ℕ, n ≤ bids.length ∧
      (n : ℤ) = ⌊(bids.length : ℚ) * (1 - p.success *
        (if p.huntFactor = true ∧ nprey < npred then (nprey : ℚ) / npred else 1))⌋ ∧
      p.adjust nprey npred bids prefs = some (fun b => if b ∈ bids.take n then -1 else prefs b) := by
  set f : ℚ := if p.huntFactor = true ∧ nprey < npred then (nprey : ℚ) / npred else 1 with hf
  have hf0 : 0 ≤ f ∧ f ≤ 1 := by
    rw [hf]
    split
    · rename_i h
      have hp : (0 : ℚ) < npred := by exact_mod_cast lt_of_le_of_lt hprey h.2
      have hq : (0 : ℚ) ≤ nprey := by exact_mod_cast hprey
      have hl : (nprey : ℚ) ≤ npred := by exact_mod_cast h.2.le
      exact ⟨div_nonneg hq hp.le, (div_le_one hp).2 hl⟩
    · norm_num
  have hs0 : 0 ≤ p.success * f := mul_nonneg h0 hf0.1
  have hs1 : p.success * f ≤ 1 := mul_le_one₀ h1 hf0.1 hf0.2
  have hl : (0 : ℚ) ≤ bids.length := by positivity
  have hx0 : 0 ≤ (bids.length : ℚ) * (1 - p.success * f) := mul_nonneg hl (by linarith)
  have hx1 : (bids.length : ℚ) * (1 - p.success * f) ≤ bids.length := by nlinarith
  have hfl0 : 0 ≤ ⌊(bids.length : ℚ) * (1 - p.success * f)⌋ := Int.floor_nonneg.2 hx0
  have hfl1 : ⌊(bids.length : ℚ) * (1 - p.success * f)⌋ ≤ bids.length := by
    have := Int.floor_le_floor hx1
    rwa [Int.floor_natCast] at this
  obtain ⟨n, hn⟩ := Int.eq_ofNat_of_zero_le hfl0
  refine ⟨n, by omega, hn.symm, ?_⟩
  unfold Predator.adjust Predator.nDrop
  simp only [← hf, hn]
  exact dropLoop_spec bids n prefs (by omega)

/-- **C89.**  A predator hunts exactly every `hunt_freq` steps, for `hunt_cap`. -/
theorem C89_requests (p : Predator) (hf : p.huntFreq ≠ 0) :
    p.requests = some (if p.huntFreq ∣ p.age then [⟨[(p.commod, ⟨p.huntCap, 0⟩)], []⟩] else []) := by
  unfold Predator.requests
  rw [if_neg hf]
  simp only [Int.dvd_iff_tmod_eq_zero, blank]

/-- What happens to a predator: it eats, and its `Tock` is called. -/
inductive Life (p : Predator) : List (List ℚ) → List Asked → Predator → Prop
  | start : Life p [] [] p
  | step {meals : List (List ℚ)} {asked : List Asked} {q : Predator} (qs : List ℚ) :
      Life p meals asked q →
      Life p (meals ++ [qs]) (asked ++ [(q.accept qs).tock.2]) (q.accept qs).tock.1

/-- What a predator ate since it last had children: starting with `c`, what it eats is added, and all
of it is used up in a step in which it has children. -/
def hungerAfter (full : ℚ) (canBear : ℕ → Bool) (c : ℚ) : ℕ → List (List ℚ) → ℚ
  | _, [] => c
  | n, qs :: rest =>
    hungerAfter full canBear
      (if full ≤ c + qs.sum ∧ canBear n = true then 0 else c + qs.sum) (n + 1) rest

theorem hungerAfter_snoc (full : ℚ) (can : ℕ → Bool) (c : ℚ) (n : ℕ) (l : List (List ℚ))
    (qs : List ℚ) : hungerAfter full can c n (l ++ [qs])
      = (let x := hungerAfter full can c n l + qs.sum
         if full ≤ x ∧ can (n + l.length) = true then 0 else x) := by
  induction l generalizing c n with
  | nil => simp [hungerAfter]
  | cons a l ih =>
    simp only [List.cons_append, hungerAfter, ih, List.length_cons]
    rw [show n + 1 + l.length = n + (l.length + 1) by omega]
    rfl

theorem tock_accept (q : Predator) (qs : List ℚ) :
    let x := q.consumed + qs.sum
    let old : Bool := decide (q.lifespan ≤ q.age)
    let bear : Bool := decide (q.full ≤ x) && (!(q.dead || old) || q.birthAndDeath)
    (q.accept qs).tock
      = ({ q with
            consumed := if bear then 0 else x, dead := q.dead || old, age := q.age + 1 },
          ⟨old, if bear then ⌊q.nchildren⌋.toNat else 0⟩) := by
  intro x old bear
  have hsum : qs.foldl (fun a q => a + q) q.consumed = x := by
    have : ∀ (l : List ℚ) (a : ℚ), l.foldl (fun a q => a + q) a = a + l.sum := by
      intro l
      induction l with
      | nil => simp
      | cons y l ih => intro a; simp [ih, add_assoc]
    exact this qs _
  simp only [Predator.tock, Predator.giveBirth, Predator.accept, hsum, bear, old]
  clear_value x
  obtain ⟨a1, a2, a3, a4, a5, a6, a7, a8, a9, d, a11, b⟩ := q
  simp only
  by_cases ho : a9 ≤ a8 <;> by_cases hf : a2 ≤ x <;> cases d <;> cases b <;> simp [ho, hf]

/-- **C89.**  The life of a predator that is not dead at its start: in each step it asks to be removed
exactly if it is at least `lifespan` old, and has its children exactly if it ate `full` units since it
last had some and (unless `birth_and_death`) is not too old. -/
theorem C89_life {p : Predator} (hd : p.dead = false) {meals : List (List ℚ)} {asked : List Asked}
    {q : Predator} (h : Life p meals asked q) (qs : List ℚ) :
    let n := meals.length
    let old : Bool := decide (p.lifespan ≤ p.age + n)
    let can : ℕ → Bool := fun i => !decide (p.lifespan ≤ p.age + i) || p.birthAndDeath
    let ate := hungerAfter p.full can p.consumed 0 meals + qs.sum
    asked.length = n ∧ q.age = p.age + n ∧
    (q.accept qs).tock.2.decom = old ∧
    (q.accept qs).tock.2.builds
      = if p.full ≤ ate ∧ (old = true → p.birthAndDeath = true) then ⌊p.nchildren⌋.toNat else 0 := by
  have key : asked.length = meals.length ∧ q.age = p.age + meals.length ∧ q.lifespan = p.lifespan ∧
      q.full = p.full ∧ q.nchildren = p.nchildren ∧ q.birthAndDeath = p.birthAndDeath ∧
      (q.dead || decide (p.lifespan ≤ p.age + (meals.length : ℤ)))
        = decide (p.lifespan ≤ p.age + (meals.length : ℤ)) ∧
      q.consumed = hungerAfter p.full
        (fun i => !decide (p.lifespan ≤ p.age + i) || p.birthAndDeath) p.consumed 0 meals := by
    induction h with
    | start => simp [hd, hungerAfter]
    | @step meals asked q qs _ ih =>
      obtain ⟨i1, i2, i3, i4, i5, i6, i7, i8⟩ := ih
      have hlen : ((meals ++ [qs]).length : ℤ) = meals.length + 1 := by simp
      rw [hungerAfter_snoc, tock_accept]
      simp only [i2, i3, i4, i5, i6, i7, ← i8, hlen]
      refine ⟨by simp [i1], by ring, trivial, trivial, trivial, trivial, ?_, ?_⟩
      · by_cases ho : p.lifespan ≤ p.age + (meals.length : ℤ)
        · have : p.lifespan ≤ p.age + ((meals.length : ℤ) + 1) := by omega
          simp [this]
        · simp [ho]
      · simp
  obtain ⟨i1, i2, i3, i4, i5, i6, i7, i8⟩ := key
  intro n old can ate
  refine ⟨i1, i2, ?_, ?_⟩
  · rw [tock_accept]
    simp only [i2, i3, old, n]
  · rw [tock_accept]
    simp only [i2, i3, i4, i5, i6, i7, i8, old, n, ate, can]
    by_cases ho : p.lifespan ≤ p.age + (meals.length : ℤ) <;> simp [ho]

/-- A predator that needs two units to be full and lives for three steps. -/
def samplePredator : Predator :=
  { commod := 1, full := 2, huntFreq := 1, huntCap := 1, success := 1 / 2, consumed := 0,
    huntFactor := false, age := 0, lifespan := 3, dead := false, nchildren := 2,
    birthAndDeath := false }

example : (samplePredator.adjust 5 3 [7, 8, 9] (fun _ => 1)).map (fun f => [f 7, f 8, f 9])
    = some [-1, 1, 1] := by decide +kernel

/-- The code contradicts C89: with a success above 1 (the range is in the documentation only) the
number of bids to drop is negative and the loop runs out of the vector, whatever bids there are. -/
theorem C89_fails_success (p : Predator) (hs : 1 < p.success) (hh : p.huntFactor = false)
    (nprey npred : ℤ) (bids : List ℕ) (hb : bids ≠ []) (prefs : ℕ → ℚ) :
    p.adjust nprey npred bids prefs = none := by
  have hneg : p.nDrop bids.length nprey npred < 0 := by
    unfold Predator.nDrop
    simp only [hh]
    have hl : (0 : ℚ) < bids.length := by exact_mod_cast List.length_pos_iff.2 hb
    rw [if_neg (by simp), Int.floor_lt]
    push_cast
    nlinarith
  have : ∀ (bs : List ℕ) (n : ℤ) (f : ℕ → ℚ), n < 0 → dropLoop bs n f = none := by
    intro bs
    induction bs with
    | nil => intro n f hn; simp [dropLoop]; omega
    | cons b bs ih =>
      intro n f hn
      simp only [dropLoop, if_neg (by omega : n ≠ 0)]
      exact ih _ _ (by omega)
  exact this _ _ _ hneg

/-- The code contradicts C89: `consumed` is documented as the units consumed per time step, but is
carried on, so that a predator that never eats `full` units in a step has children. -/
theorem C89_fails_carry : ∃ (q : Predator),
    Life samplePredator [[1], [1]] [⟨false, 0⟩, ⟨false, 2⟩] q := by
  refine ⟨{ samplePredator with age := 2 }, ?_⟩
  have h1 : Life samplePredator [[1]] [⟨false, 0⟩] { samplePredator with age := 1, consumed := 1 } :=
    (by
      have h := Life.step (p := samplePredator) [1] Life.start
      have e : (samplePredator.accept [1]).tock
          = ({ samplePredator with age := 1, consumed := 1 }, ⟨false, 0⟩) := by decide +kernel
      rw [e] at h
      exact h)
  have h2 := Life.step [1] h1
  have e : (({ samplePredator with age := 1, consumed := 1 } : Predator).accept [1]).tock
      = ({ samplePredator with age := 2 }, ⟨false, 2⟩) := by decide +kernel
  rw [e] at h2
  exact h2

end Cyclus.Archetypes
