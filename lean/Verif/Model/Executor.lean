import Verif.Model.Translator

/-!
# Model of the trade executor

Models `/repo/src/trade_executor.h` and `Context::NextTransactionID` (`/repo/src/context.h:328-330`).

* Traders are numbers.  A `std::set<Trader*>` and a `std::map` keyed by pointers are iterated in the
  order of addresses; the model takes an arbitrary reordering as a parameter (`ord`, `ordP`), which
  may even differ from call to call of the program that is modelled.
* What traders do (`PopulateTradeResponses`, `AcceptTrades`, `trader_management.h:49-93`) is a
  parameter `World`: arbitrary functions on an arbitrary state `σ`.  Exceptions of traders are not
  modelled.
* A response is a pair of a trade and a resource; quantity and state id of the resource are read
  from the state when the transaction is recorded.
-/

namespace Cyclus.Dre

/-- A response (`std::pair<Trade<T>, typename T::Ptr>`): a trade and a resource. -/
abbrev Response := Trade × ℕ

/-- The traders and resources: `supply` is `GetMatlTrades`/`GetProductTrades`, `accept` is
`AcceptMatlTrades`/`AcceptProductTrades`. -/
structure World (σ : Type) where
  supply : σ → ℕ → List Trade → σ × List Response
  accept : σ → ℕ → List Response → σ
  qty : σ → ℕ → ℚ
  stateId : σ → ℕ → ℤ

/-- A row of the `Transactions` table (`trade_executor.h:93-99`); the time is dropped. -/
structure TRow where
  id : ℕ
  sender : ℤ
  receiver : ℤ
  resource : ℤ
  commod : String
  deriving DecidableEq, Repr

/-- Models `TradeExecutionContext` (`trade_executor.h:19-36`).  `pairs` are the keys of
`all_trades`. -/
structure XCtx where
  suppliers : List ℕ
  requesters : List ℕ
  bySupplier : ℕ → List Trade
  byRequester : ℕ → List Response
  pairs : List (ℕ × ℕ)
  all : ℕ × ℕ → List Response

/-- The loop body of `GroupTradesBySupplier` (`trade_executor.h:123-127`). -/
def groupStep (c : Ctx) (x : XCtx) (tr : Trade) : XCtx :=
  let s := (c.bid tr.bid).bidder
  { x with
    bySupplier := Function.update x.bySupplier s (x.bySupplier s ++ [tr])
    suppliers := insertSet x.suppliers s
    requesters := insertSet x.requesters (c.req tr.request).requester }

/-- Models `GroupTradesBySupplier` (`trade_executor.h:119-128`) on a new context. -/
def groupTrades (c : Ctx) (trades : List Trade) : XCtx :=
  trades.foldl (groupStep c) ⟨[], [], fun _ => [], fun _ => [], [], fun _ => []⟩

/-- The inner loop body of `GetTradeResponses` (`trade_executor.h:152-154`). -/
def fileResponse (c : Ctx) (s : ℕ) (x : XCtx) (r : Response) : XCtx :=
  let q := (c.req r.1.request).requester
  { x with
    byRequester := Function.update x.byRequester q (x.byRequester q ++ [r])
    pairs := if (s, q) ∈ x.pairs then x.pairs else x.pairs ++ [(s, q)]
    all := Function.update x.all (s, q) (x.all (s, q) ++ [r]) }

/-- A call of `PopulateTradeResponses`: supplier, its trades, its responses. -/
structure Asked where
  supplier : ℕ
  trades : List Trade
  responses : List Response

/-- The outer loop body of `GetTradeResponses` (`trade_executor.h:138-155`); the list records the
calls. -/
def askStep {σ : Type} (c : Ctx) (w : World σ) (x : σ × XCtx × List Asked) (s : ℕ) :
    σ × XCtx × List Asked :=
  let r := w.supply x.1 s (x.2.1.bySupplier s)
  (r.1, r.2.foldl (fileResponse c s) x.2.1, x.2.2 ++ [⟨s, x.2.1.bySupplier s, r.2⟩])

/-- The inner loop body of `RecordTrades` (`trade_executor.h:89-100`), with `NextTransactionID`
(`context.h:328-330`): the state is the next id and the rows written. -/
def recordStep {σ : Type} (c : Ctx) (w : World σ) (eps : ℚ) (st : σ) (key : ℕ × ℕ)
    (x : ℕ × List TRow) (r : Response) : ℕ × List TRow :=
  if w.qty st r.2 > eps then
    (x.1 + 1, x.2 ++ [⟨x.1, c.manager key.1, c.manager key.2, w.stateId st r.2,
      (c.req r.1.request).commod⟩])
  else x

/-- What one call of `ExecuteTrades` did; `mid` is the state when the transactions are recorded. -/
structure Exec (σ : Type) where
  mid : σ
  st : σ
  asked : List Asked
  nextId : ℕ
  rows : List TRow
  accepted : List (ℕ × List Response)

/-- The loop body of `SendTradeResources` (`trade_executor.h:162-166`); the list records the calls
of `AcceptTrades`. -/
def sendStep {σ : Type} (w : World σ) (x : XCtx) (a : σ × List (ℕ × List Response)) (q : ℕ) :
    σ × List (ℕ × List Response) :=
  (w.accept a.1 q (x.byRequester q), a.2 ++ [(q, x.byRequester q)])

/-- Models `TradeExecutor::ExecuteTrades(Context*)` with a context (`trade_executor.h:65-72`). -/
def executeTrades {σ : Type} (c : Ctx) (w : World σ) (eps : ℚ) (ord : List ℕ → List ℕ)
    (ordP : List (ℕ × ℕ) → List (ℕ × ℕ)) (st : σ) (nextId : ℕ) (trades : List Trade) : Exec σ :=
  let x0 := groupTrades c trades
  let a := (ord x0.suppliers).foldl (askStep c w) (st, x0, [])
  let x := a.2.1
  let rec_ := (ordP x.pairs).foldl
    (fun acc key => (x.all key).foldl (recordStep c w eps a.1 key) acc) (nextId, [])
  let s := (ord x.requesters).foldl (sendStep w x) (a.1, [])
  ⟨a.1, s.1, a.2.2, rec_.1, rec_.2, s.2⟩

/-- Several exchanges one after the other (each time step has one for materials and one for
products, `timer.cc:95-99`); each has its own trades, and its own orders. -/
def executeAll {σ : Type} (w : World σ) (eps : ℚ) :
    σ → ℕ → List (Ctx × (List ℕ → List ℕ) × (List (ℕ × ℕ) → List (ℕ × ℕ)) × List Trade) →
    σ × ℕ × List TRow
  | st, n, [] => (st, n, [])
  | st, n, (c, ord, ordP, trades) :: rest =>
    let e := executeTrades c w eps ord ordP st n trades
    let r := executeAll w eps e.st e.nextId rest
    (r.1, r.2.1, e.rows ++ r.2.2)

end Cyclus.Dre
