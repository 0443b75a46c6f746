import Verif.Model.Basic
import Verif.Model.ResBuf
import Mathlib.Data.Rat.Floor

/-!
# Model of the archetypes in `/repo/agents`

Commodities, recipes, compositions, requests and traders are numbers; a recipe name that is empty is
`none`.  Logging is left out.
-/

namespace Cyclus.Archetypes

/-- A material that is offered or traded: quantity and composition. -/
structure Mat where
  qty : ℚ
  comp : ℕ
  deriving DecidableEq, Repr

/-- A request: an id and its target. -/
structure Req where
  id : ℕ
  target : Mat
  deriving DecidableEq, Repr

/-- A bid portfolio: the bids (request and offer) and the capacities of its constraints. -/
structure Bids where
  bids : List (ℕ × Mat)
  caps : List ℚ
  deriving DecidableEq, Repr

/-- A trade of a supplier: the target of its request and `amt`. -/
structure Trade where
  target : Mat
  amt : ℚ
  deriving DecidableEq, Repr

/-- `IsNegative`.  Models `/repo/src/cyc_limits.h.in:24-26`. -/
def isNegative (eps d : ℚ) : Bool := decide (d < -1 * eps)

/-- `AddBid`: throws for a quantity that is not positive.
Models `/repo/src/bid_portfolio.h:56-70` (`VerifyResponder_` accepts all bids of one bidder). -/
def addBid (p : List (ℕ × Mat)) (r : ℕ) (offer : Mat) : Except Err (List (ℕ × Mat)) :=
  if offer.qty > 0 then .ok (p ++ [(r, offer)]) else .error .value

/-- The loop over the requests, with the offer made to each.
Models `/repo/agents/source.cc:59-64`, `/repo/agents/k_facility.cc:97-102`,
`/repo/agents/prey.cc:74-78`. -/
def bidLoop (offer : Mat → Except Err Mat) : List Req → List (ℕ × Mat) →
    Except Err (List (ℕ × Mat))
  | [], p => .ok p
  | r :: rs, p =>
    match offer r.target with
    | .error e => .error e
    | .ok o =>
      match addBid p r.id o with
      | .error e => .error e
      | .ok p' => bidLoop offer rs p'

/-- The portfolios returned: none if nobody requests the commodity, else one with one constraint.
`reqs` is `commod_requests`, with `none` for a missing key.
Models `/repo/agents/source.cc:54-70`, `/repo/agents/k_facility.cc:91-108`,
`/repo/agents/prey.cc:70-83`. -/
def getBids (offer : Mat → Except Err Mat) (cap : ℚ) (reqs : Option (List Req)) :
    Except Err (List Bids) :=
  match reqs with
  | none => .ok []
  | some rs =>
    match bidLoop offer rs [] with
    | .error e => .error e
    | .ok p => .ok [⟨p, [cap]⟩]

/-- `Context::GetRecipe`: a `KeyError` for an unknown recipe (`/repo/src/context.cc:197-202`). -/
def getRecipe (recipes : ℕ → Option ℕ) (r : ℕ) : Except Err ℕ :=
  match recipes r with
  | none => .error .key
  | some c => .ok c

/-! ### Source -/

/-- The state of a `Source` (`/repo/agents/source.h:90-123`). -/
structure Source where
  commod : ℕ
  recipe : Option ℕ
  capacity : ℚ
  deriving DecidableEq, Repr

/-- `Source::GetOffer`.  Models `/repo/agents/source.cc:32-41`. -/
def Source.offer (recipes : ℕ → Option ℕ) (s : Source) (target : Mat) : Except Err Mat :=
  let qty := min target.qty s.capacity
  match s.recipe with
  | none => .ok target
  | some r =>
    match getRecipe recipes r with
    | .error e => .error e
    | .ok c => .ok ⟨qty, c⟩

/-- `Source::GetMatlBids`.  Models `/repo/agents/source.cc:43-71`. -/
def Source.bids (recipes : ℕ → Option ℕ) (s : Source) (reqs : ℕ → Option (List Req)) :
    Except Err (List Bids) :=
  getBids (s.offer recipes) s.capacity (reqs s.commod)

/-- The loop of `GetMatlTrades`: the capacity that is left and the materials created so far.
Models `/repo/agents/source.cc:80-98`; `mk` makes the composition of the response. -/
def tradeLoop (mk : Mat → Except Err ℕ) : List Trade → ℚ → List Mat → Outcome (ℚ × List Mat) Unit
  | [], cur, out => ((cur, out), .ok ())
  | t :: ts, cur, out =>
    match mk t.target with
    | .error e => ((cur - t.amt, out), .error e)
    | .ok c => tradeLoop mk ts (cur - t.amt) (out ++ [⟨t.amt, c⟩])

/-- The composition of a response.  Models `/repo/agents/source.cc:88-93`. -/
def Source.composition (recipes : ℕ → Option ℕ) (s : Source) (target : Mat) : Except Err ℕ :=
  match s.recipe with
  | none => .ok target.comp
  | some r => getRecipe recipes r

/-- `Source::GetMatlTrades`: the responses.  Models `/repo/agents/source.cc:73-105`. -/
def Source.trades (recipes : ℕ → Option ℕ) (eps : ℚ) (s : Source) (ts : List Trade) :
    Except Err (List Mat) :=
  match tradeLoop (s.composition recipes) ts s.capacity [] with
  | (_, .error e) => .error e
  | ((cur, out), .ok ()) => if isNegative eps cur then .error .value else .ok out

/-! ### Sink -/

/-- The state of a `Sink` (`/repo/agents/sink.h:78-117`); the inventory is the buffer, with
`max_inv_size` as its capacity. -/
structure Sink where
  commods : List ℕ
  recipe : Option ℕ
  capacity : ℚ
  inv : ResBuf.St

/-- A request portfolio: the requests (commodity and target) and the capacities of its
constraints. -/
structure Reqs where
  reqs : List (ℕ × Mat)
  caps : List ℚ
  deriving DecidableEq, Repr

/-- The composition of `NewBlankMaterial` (`/repo/src/material.cc:277-280`) and the quality of the
requested products. -/
def blank : ℕ := 0

/-- `Sink::GetMatlRequests`.  Models `/repo/agents/sink.cc:14-44`. -/
def Sink.matlRequests (recipes : ℕ → Option ℕ) (eps : ℚ) (s : Sink) : Except Err (List Reqs) :=
  let amt := s.capacity
  let mat : Except Err Mat := match s.recipe with
    | none => .ok ⟨amt, blank⟩
    | some r =>
      match getRecipe recipes r with
      | .error e => .error e
      | .ok c => .ok ⟨amt, c⟩
  match mat with
  | .error e => .error e
  | .ok m => .ok (if amt > eps then [⟨s.commods.map fun c => (c, m), [amt]⟩] else [])

/-- `Sink::GetProductRequests`.  Models `/repo/agents/sink.cc:46-73`. -/
def Sink.productRequests (eps : ℚ) (s : Sink) : List Reqs :=
  let amt := s.capacity
  if amt > eps then [⟨s.commods.map fun c => (c, ⟨amt, blank⟩), [amt]⟩] else []

/-- The loop of `AcceptMatlTrades` and `AcceptProductTrades`, given the objects received.
Models `/repo/agents/sink.cc:75-93` and `/repo/agents/k_facility.cc:193-212`. -/
def acceptLoop (epsR : ℚ) : ResBuf.St → List ℕ → Outcome ResBuf.St Unit
  | b, [] => (b, .ok ())
  | b, r :: rs =>
    match ResBuf.push .material epsR b r with
    | (b', .error e) => (b', .error e)
    | (b', .ok ()) => acceptLoop epsR b' rs

/-- `Sink::AcceptMatlTrades`, `Sink::AcceptProductTrades`. -/
def Sink.accept (epsR : ℚ) (s : Sink) (rs : List ℕ) : Outcome Sink Unit :=
  let r := acceptLoop epsR s.inv rs
  ({ s with inv := r.1 }, r.2)

/-! ### KFacility -/

/-- The state of a `KFacility` (`/repo/agents/k_facility.h:131-229`). -/
structure KFac where
  inCommod : ℕ
  outCommod : ℕ
  recipe : ℕ
  inCap : ℚ
  outCap : ℚ
  cur : ℚ
  kIn : ℚ
  kOut : ℚ
  inv : ResBuf.St

/-- `KFacility::Tick`.  Models `/repo/agents/k_facility.cc:41-56`. -/
def KFac.tick (k : KFac) : KFac := { k with cur := k.outCap }

/-- `KFacility::Tock`.  Models `/repo/agents/k_facility.cc:59-69`. -/
def KFac.tock (k : KFac) : KFac :=
  { k with inCap := k.inCap * k.kIn, outCap := k.outCap * k.kOut, cur := k.outCap * k.kOut }

/-- `KFacility::GetOffer`.  Models `/repo/agents/k_facility.cc:72-77`. -/
def KFac.offer (recipes : ℕ → Option ℕ) (k : KFac) (target : Mat) : Except Err Mat :=
  match getRecipe recipes k.recipe with
  | .error e => .error e
  | .ok c => .ok ⟨min target.qty k.outCap, c⟩

/-- `KFacility::GetMatlBids`.  Models `/repo/agents/k_facility.cc:80-109`. -/
def KFac.bids (recipes : ℕ → Option ℕ) (k : KFac) (reqs : ℕ → Option (List Req)) :
    Except Err (List Bids) :=
  getBids (k.offer recipes) k.outCap (reqs k.outCommod)

/-- `KFacility::GetMatlTrades`: the capacity that is left is a member and is kept between calls.
Models `/repo/agents/k_facility.cc:112-139`. -/
def KFac.trades (recipes : ℕ → Option ℕ) (eps : ℚ) (k : KFac) (ts : List Trade) :
    Outcome KFac (List Mat) :=
  match tradeLoop (fun _ => getRecipe recipes k.recipe) ts k.cur [] with
  | ((cur, _), .error e) => ({ k with cur := cur }, .error e)
  | ((cur, out), .ok ()) =>
    ({ k with cur := cur }, if isNegative eps cur then .error .value else .ok out)

/-- `KFacility::GetMatlRequests` and `GetProductRequests`, with `RequestAmt()`.
Models `/repo/agents/k_facility.cc:142-190`, `/repo/agents/k_facility.h:126`. -/
def KFac.requests (eps : ℚ) (k : KFac) : List Reqs :=
  let amt := k.inCap
  if amt > eps then [⟨[(k.inCommod, ⟨amt, blank⟩)], [amt]⟩] else []

/-- `KFacility::AcceptMatlTrades` and `AcceptProductTrades`. -/
def KFac.accept (epsR : ℚ) (k : KFac) (rs : List ℕ) : Outcome KFac Unit :=
  let r := acceptLoop epsR k.inv rs
  ({ k with inv := r.1 }, r.2)

/-! ### Prey -/

/-- The state of a `Prey` (`/repo/agents/prey.h:55-110`). -/
structure Prey where
  commod : ℕ
  age : ℤ
  dead : Bool
  nchildren : ℤ
  birthFreq : ℤ
  birthAndDeath : Bool
  deriving DecidableEq, Repr

/-- What an agent asks of the context in one `Tock`: its decommissioning and the number of builds of
its prototype. -/
structure Asked where
  decom : Bool
  builds : ℕ
  deriving DecidableEq, Repr

/-- `Prey::GetProductBids`.  Models `/repo/agents/prey.cc:59-84`. -/
def Prey.bids (p : Prey) (reqs : ℕ → Option (List Req)) : Except Err (List Bids) :=
  getBids (fun _ => .ok ⟨1, blank⟩) 1 (reqs p.commod)

/-- `Prey::GetProductTrades`.  Models `/repo/agents/prey.cc:86-114`; the products have the blank
quality. -/
def Prey.trades (eps : ℚ) (p : Prey) (ts : List Trade) : Outcome Prey (List Mat) :=
  match tradeLoop (fun _ => .ok blank) ts 1 [] with
  | (_, .error e) => (p, .error e)
  | ((cur, out), .ok ()) =>
    if isNegative eps cur then (p, .error .value)
    else
      let provided := (ts.map Trade.amt).foldl (fun a x => a + x) 0
      ((if provided > 0 then { p with dead := true } else p), .ok out)

/-- `Prey::GiveBirth`: the number of builds.  Models `/repo/agents/prey.cc:33-41`; `none` is a
division by 0 (`%` of C++ truncates). -/
def Prey.births (p : Prey) : Option ℕ :=
  let policy := if p.dead then p.birthAndDeath else true
  if p.birthFreq = 0 then none
  else some (if p.age.tmod p.birthFreq = 0 ∧ policy = true then p.nchildren.toNat else 0)

/-- `Prey::Tock`.  Models `/repo/agents/prey.cc:43-57`. -/
def Prey.tock (p : Prey) : Option (Prey × Asked) :=
  match p.births with
  | none => none
  | some n => some ({ p with age := p.age + 1 }, ⟨p.dead, n⟩)

/-! ### Predator -/

/-- The state of a `Predator` (`/repo/agents/predator.h:57-170`). -/
structure Predator where
  commod : ℕ
  full : ℚ
  huntFreq : ℤ
  huntCap : ℚ
  success : ℚ
  consumed : ℚ
  huntFactor : Bool
  age : ℤ
  lifespan : ℤ
  dead : Bool
  nchildren : ℚ
  birthAndDeath : Bool
  deriving DecidableEq, Repr

/-- `Predator::GetProductRequests`.  Models `/repo/agents/predator.cc:19-36`. -/
def Predator.requests (p : Predator) : Option (List Reqs) :=
  if p.huntFreq = 0 then none
  else some (if p.age.tmod p.huntFreq = 0
    then [⟨[(p.commod, ⟨p.huntCap, blank⟩)], []⟩] else [])

/-- The loop that sets preferences of the first bids to -1: `i != n_drop` with `bids[i]`.
`bids` is what is left of the sorted bids and `left` is `n_drop - i`; `none`: the vector is read
outside of its bounds.  Models `/repo/agents/predator.cc:57-59`. -/
def dropLoop : List ℕ → ℤ → (ℕ → ℚ) → Option (ℕ → ℚ)
  | [], left, f => if left = 0 then some f else none
  | b :: bs, left, f =>
    if left = 0 then some f else dropLoop bs (left - 1) fun x => if x = b then -1 else f x

/-- `n_drop`.  Models `/repo/agents/predator.cc:50-53`. -/
def Predator.nDrop (p : Predator) (n : ℕ) (nprey npred : ℤ) : ℤ :=
  let factor : ℚ := if p.huntFactor = true ∧ nprey < npred then (nprey : ℚ) / npred else 1
  ⌊(n : ℚ) * (1 - p.success * factor)⌋

/-- `Predator::AdjustProductPrefs` for the bids to its request, in the order of `SortById`, and
their preferences.  Models `/repo/agents/predator.cc:38-60`. -/
def Predator.adjust (p : Predator) (nprey npred : ℤ) (bids : List ℕ) (prefs : ℕ → ℚ) :
    Option (ℕ → ℚ) :=
  dropLoop bids (p.nDrop bids.length nprey npred) prefs

/-- `Predator::AcceptProductTrades`.  Models `/repo/agents/predator.cc:62-74`. -/
def Predator.accept (p : Predator) (qs : List ℚ) : Predator :=
  { p with consumed := qs.foldl (fun a q => a + q) p.consumed }

/-- `Predator::GiveBirth`.  Models `/repo/agents/predator.cc:88-99`; the conversion of `nchildren` to
`int` truncates. -/
def Predator.giveBirth (p : Predator) : Predator × ℕ :=
  let policy := if p.dead then p.birthAndDeath else true
  if p.consumed ≥ p.full ∧ policy = true then ({ p with consumed := 0 }, ⌊p.nchildren⌋.toNat)
  else (p, 0)

/-- `Predator::Tock`.  Models `/repo/agents/predator.cc:101-115`. -/
def Predator.tock (p : Predator) : Predator × Asked :=
  let old := decide (p.age ≥ p.lifespan)
  let p1 := if old then { p with dead := true } else p
  let r := p1.giveBirth
  ({ r.1 with age := r.1.age + 1 }, ⟨old, r.2⟩)

end Cyclus.Archetypes
