import Verif.Model.Translator

/-!
# Model of the resource exchange (the collection of requests, bids and preferences)

Models `/repo/src/resource_exchange.h` on top of the model of `ExchangeContext`
(`Verif/Model/Translator.lean`).

* What traders return is a parameter: `requests t` are the request portfolios of trader `t`
  (`QueryRequests`), `bids t k` its bid portfolios given the requests by commodity (`QueryBids`), in
  the order in which the returned `std::set` is iterated.  Objects they refer to exist in the
  context beforehand.  `QueryBids` gets the map of requests by reference; traders that write to
  it are not modelled.
* `adjustT t`, `adjustA m` are `AdjustMatlPrefs`/`AdjustProductPrefs` of a trader and of an agent
  (`resource_exchange.h:21-34`): arbitrary functions on preference maps.
-/

namespace Cyclus.Dre

/-- A preference map (`PrefMap`, `exchange_context.h:25-29`). -/
abbrev PrefMap := ℕ → ℕ → Option ℚ

/-- The traders of a simulation: `manager` is the id of the manager, `addr` the address of the
trader, `agent` its manager, `parent` the parent of an agent (`none` is NULL). -/
structure Traders where
  traders : List ℕ
  managerId : ℕ → ℤ
  addr : ℕ → ℕ
  agent : ℕ → ℕ
  parent : ℕ → Option ℕ
  requests : ℕ → List ℕ
  bids : ℕ → (String → List ℕ) → List ℕ
  adjustT : ℕ → PrefMap → PrefMap
  adjustA : ℕ → PrefMap → PrefMap

/-- Models `trader_compare` (`resource_exchange.h:155-165`). -/
def Traders.lt (w : Traders) (a b : ℕ) : Bool :=
  if w.managerId a ≠ w.managerId b then w.managerId a < w.managerId b else w.addr a < w.addr b

/-- Insertion into `std::set<Trader*, trader_compare>`: an equivalent element is kept. -/
def Traders.insert (w : Traders) (l : List ℕ) (t : ℕ) : List ℕ :=
  match l with
  | [] => [t]
  | x :: xs => if w.lt t x then t :: x :: xs else if w.lt x t then x :: w.insert xs t else x :: xs

/-- Models `InitTraders` (`resource_exchange.h:114-122`). -/
def Traders.init (w : Traders) : List ℕ := w.traders.foldl w.insert []

/-- Models `AddAllRequests` and `AddRequests_` (`resource_exchange.h:75-83,125-131`). -/
def addAllRequests (w : Traders) (c : Ctx) : Ctx :=
  w.init.foldl (fun c t => (w.requests t).foldl Ctx.addRequestPortfolio c) c

/-- Models `AddAllBids` and `AddBids_` (`resource_exchange.h:86-94,134-141`). -/
def addAllBids (w : Traders) (c : Ctx) : Ctx :=
  w.init.foldl (fun c t => (w.bids t c.commodRequests).foldl Ctx.addBidPortfolio c) c

/-- The `while` loop of `AdjustPrefs_` (`resource_exchange.h:148-152`), `fuel` bounds the number of
ancestors. -/
def adjustUp (w : Traders) : ℕ → Option ℕ → PrefMap → PrefMap
  | 0, _, p => p
  | _ + 1, none, p => p
  | fuel + 1, some m, p => adjustUp w fuel (w.parent m) (w.adjustA m p)

/-- Models `AdjustPrefs_` (`resource_exchange.h:145-153`); `trader_prefs[t]` creates an entry. -/
def adjustPrefs (w : Traders) (fuel : ℕ) (c : Ctx) (t : ℕ) : Ctx :=
  let p := (c.prefs t).getD fun _ _ => none
  { c with
    prefs := Function.update c.prefs t
      (some (adjustUp w fuel (w.parent (w.agent t)) (w.adjustT t p))) }

/-- Models `AdjustAll` (`resource_exchange.h:97-107`); `ord` is the order of the set of
requesters. -/
def adjustAll (w : Traders) (fuel : ℕ) (ord : List ℕ → List ℕ) (c : Ctx) : Ctx :=
  (ord c.requesters).foldl (adjustPrefs w fuel) c

/-- An exchange context without requests and bids. -/
def Ctx.empty (c : Ctx) : Ctx :=
  { c with
    requests := [], bids := [], requesters := [], bidders := [], commodRequests := fun _ => [],
    bidsByRequest := fun _ => [], prefs := fun _ => none }

/-- The three phases (`exchange_manager.h:37-40`) on a new exchange context. -/
def collect (w : Traders) (fuel : ℕ) (ord : List ℕ → List ℕ) (c : Ctx) : Ctx :=
  adjustAll w fuel ord (addAllBids w (addAllRequests w c.empty))

end Cyclus.Dre
