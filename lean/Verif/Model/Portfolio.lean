import Verif.Model.Basic
import Mathlib.Algebra.BigOperators.Group.List.Basic

/-!
# Model of request and bid portfolios

Models `/repo/src/request.h`, `/repo/src/bid.h`, `/repo/src/capacity_constraint.h`,
`/repo/src/request_portfolio.h` and `/repo/src/bid_portfolio.h`.

* Traders, requests, bids, resources and portfolios are addressed by natural numbers in place of
  pointers; traders are never NULL (`ExchangeContext` asserts that, `exchange_context.h:66,87`).
* The quantity of a target or offer is a value: resources do not change while the portfolio is
  built.
* `double` is ℚ.  A division by zero (NaN or infinity in the code) ends the modelled execution
  with `none`.
* `std::set<CapacityConstraint<T>>` is a list in insertion order.  Its elements are compared by an
  id that every copy draws anew (`capacity_constraint.h:86-89,132-136`), so nothing inserted is ever
  found equal to an element; the order of the elements plays no role beyond being the same each
  time the set is traversed.
-/

namespace Cyclus.Dre

/-- Models `class Request` (`request.h:164-170`); the cost function is dropped. -/
structure Request where
  target : ℚ
  requester : ℕ
  commod : String
  pref : ℚ
  exclusive : Bool
  portfolio : ℕ
  deriving DecidableEq, Repr

/-- Models `class Bid` (`bid.h:138-144`).  `pref = none` is NaN, i.e. no preference of its own;
`offer` is the resource, `qty` its quantity.  The package is dropped. -/
structure Bid where
  request : ℕ
  offer : ℕ
  qty : ℚ
  bidder : ℕ
  pref : Option ℚ
  exclusive : Bool
  portfolio : ℕ
  deriving DecidableEq, Repr

/-- Models `class CapacityConstraint` (`capacity_constraint.h:64-118`).  `conv r b` is the result of
the converter for the offer of bid `b` on an arc to request `r`, `none` if it throws. -/
structure Con where
  cap : ℚ
  conv : ℕ → ℕ → Option ℚ

/-- The constructors of `CapacityConstraint` (`capacity_constraint.h:67-83`). -/
def mkCon (cap : ℚ) (conv : ℕ → ℕ → Option ℚ) : Except Err Con :=
  if cap ≤ 0 then .error .value else .ok ⟨cap, conv⟩

/-- Models `class RequestPortfolio` (`request_portfolio.h:223-236`): the vector of requests, the map
`mass_coeffs_`, the constraints, the quantity, the requester (`none` is NULL). -/
structure RP where
  reqs : List ℕ
  coeffs : ℕ → Option ℚ
  cons : List Con
  qty : ℚ
  requester : Option ℕ

/-- `RequestPortfolio::RequestPortfolio()` (`request_portfolio.h:93`). -/
def RP.empty : RP := ⟨[], fun _ => none, [], 0, none⟩

/-- Models `VerifyRequester_` (`request_portfolio.h:214-221`). -/
def RP.verify (p : RP) (t : ℕ) : Outcome RP Unit :=
  match p.requester with
  | none => ({ p with requester := some t }, .ok ())
  | some t' => if t' ≠ t then (p, .error .key) else (p, .ok ())

/-- Models `AddRequest` (`request_portfolio.h:116-128`); `id` is the new request. -/
def RP.addRequest (p : RP) (id : ℕ) (target : ℚ) (t : ℕ) : Outcome RP Unit :=
  match p.verify t with
  | (p, .error e) => (p, .error e)
  | (p, .ok ()) =>
    ({ p with
       reqs := p.reqs ++ [id]
       coeffs := fun k => if k = id then some 1 else p.coeffs k
       qty := p.qty + target }, .ok ())

/-- The loop of `AddMutualReqs` (`request_portfolio.h:155-160`). -/
def RP.mutualLoop (target : ℕ → ℚ) (avg : ℚ) : RP → List ℕ → RP
  | p, [] => p
  | p, r :: rs =>
    RP.mutualLoop target avg
      { p with
        coeffs := fun k => if k = r then some (target r / avg) else p.coeffs k
        qty := p.qty - target r } rs

/-- Models `AddMutualReqs` (`request_portfolio.h:150-162`).  `none` if a division by zero occurs. -/
def RP.addMutual (target : ℕ → ℚ) (p : RP) (rs : List ℕ) : Option RP :=
  let avg := (rs.map target).sum / rs.length
  if rs.length = 0 ∨ avg = 0 then none
  else
    let p := RP.mutualLoop target avg p rs
    some { p with qty := p.qty + avg }

/-- Models `AddConstraint` (`request_portfolio.h:167-169`). -/
def RP.addCon (p : RP) (c : Con) : RP := { p with cons := p.cons ++ [c] }

/-- Models `qty_converter` and `QtyCoeffConverter::convert` (`request_portfolio.h:32-51,190-192`). -/
def RP.qtyConv (p : RP) (offerQty : ℕ → ℚ) : ℕ → ℕ → Option ℚ :=
  fun r b => (p.coeffs r).map fun c => offerQty b * c

/-- Models `class BidPortfolio` (`bid_portfolio.h:136-143`): the set of bids (a list without
repetitions), the constraints, the bidder. -/
structure BP where
  bids : List ℕ
  cons : List Con
  bidder : Option ℕ

/-- `BidPortfolio::BidPortfolio()` (`bid_portfolio.h:37`). -/
def BP.empty : BP := ⟨[], [], none⟩

/-- Models `VerifyResponder_` (`bid_portfolio.h:124-131`). -/
def BP.verify (p : BP) (t : ℕ) : Outcome BP Unit :=
  match p.bidder with
  | none => ({ p with bidder := some t }, .ok ())
  | some t' => if t' ≠ t then (p, .error .key) else (p, .ok ())

/-- Models `AddBid` (`bid_portfolio.h:56-70`); `id` is the new bid, `q` the quantity of the offer. -/
def BP.addBid (p : BP) (id : ℕ) (q : ℚ) (t : ℕ) : Outcome BP Unit :=
  match p.verify t with
  | (p, .error e) => (p, .error e)
  | (p, .ok ()) =>
    if q > 0 then ({ p with bids := p.bids ++ [id] }, .ok ()) else (p, .error .value)

/-- Models `AddConstraint` (`bid_portfolio.h:87-89`). -/
def BP.addCon (p : BP) (c : Con) : BP := { p with cons := p.cons ++ [c] }

/-! ## Programs building one portfolio -/

/-- Calls on a request portfolio; the `k`-th request created gets the identity `k`. -/
inductive ROp where
  | addRequest (target : ℚ) (t : ℕ) (commod : String) (pref : ℚ) (exclusive : Bool)
  | addMutual (rs : List ℕ)
  | addCon (cap : ℚ) (conv : ℕ → ℕ → Option ℚ)

/-- All requests created so far (`obj k` for `k < n`) and the portfolio. -/
structure RSt where
  obj : ℕ → Request
  n : ℕ
  rp : RP

/-- One call; the exception is kept in the second component. -/
def RSt.step (s : RSt) : ROp → Option (Outcome RSt Unit)
  | .addRequest q t c pr e =>
    let r := s.rp.addRequest s.n q t
    some (⟨fun k => if k = s.n then ⟨q, t, c, pr, e, 0⟩ else s.obj k, s.n + 1, r.1⟩, r.2)
  | .addMutual rs =>
    match s.rp.addMutual (fun r => (s.obj r).target) rs with
    | none => none
    | some p => some ({ s with rp := p }, .ok ())
  | .addCon cap conv =>
    match mkCon cap conv with
    | .error e => some (s, .error e)
    | .ok c => some ({ s with rp := s.rp.addCon c }, .ok ())

/-- A program, whatever the outcome of each call. -/
def RSt.run : RSt → List ROp → Option RSt
  | s, [] => some s
  | s, op :: ops => match s.step op with
    | none => none
    | some (s', _) => RSt.run s' ops

/-- No requests. -/
def RSt.init : RSt := ⟨fun _ => ⟨0, 0, "", 0, false, 0⟩, 0, RP.empty⟩

/-- Calls on a bid portfolio; the `k`-th bid created gets the identity `k`. -/
inductive BOp where
  | addBid (request offer : ℕ) (q : ℚ) (t : ℕ) (exclusive : Bool) (pref : Option ℚ)
  | addCon (cap : ℚ) (conv : ℕ → ℕ → Option ℚ)

/-- All bids created so far and the portfolio. -/
structure BSt where
  obj : ℕ → Bid
  n : ℕ
  bp : BP

/-- One call. -/
def BSt.step (s : BSt) : BOp → Outcome BSt Unit
  | .addBid r o q t e pr =>
    let x := s.bp.addBid s.n q t
    (⟨fun k => if k = s.n then ⟨r, o, q, t, pr, e, 0⟩ else s.obj k, s.n + 1, x.1⟩, x.2)
  | .addCon cap conv =>
    match mkCon cap conv with
    | .error e => (s, .error e)
    | .ok c => ({ s with bp := s.bp.addCon c }, .ok ())

/-- A program, whatever the outcome of each call. -/
def BSt.run (s : BSt) (ops : List BOp) : BSt := ops.foldl (fun s op => (s.step op).1) s

/-- No bids. -/
def BSt.init : BSt := ⟨fun _ => ⟨0, 0, 0, 0, none, false, 0⟩, 0, BP.empty⟩

end Cyclus.Dre
