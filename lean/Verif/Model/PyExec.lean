import Verif.Model.PyTrade
import Verif.Model.Executor

/-!
# Model of the trades of agents written in Python

Models `GetMatlTrades`, `GetProductTrades`, `AcceptMatlTrades`, `AcceptProductTrades`
(`/repo/cyclus/agents.pyx:682-717`), the conversions of trades and responses
(`/repo/cyclus/gentypesystem.py:2308-2380`), and the source and the sink of
`/repo/cyclus/pyagents.py`.

* Memory is a map from addresses to trades: `mem p` is the trade at address `p`, or `none` if no
  trade lives there any more.  A vector of trades occupies consecutive addresses.
* The wrapper of a trade keeps the address only (`gentypesystem.py:2360`), and is hashed and compared
  by its identity (`gentypesystem.py:2342-2343`).
* Values that are neither trades nor resources, `None` among them, are `other n`; all values are
  hashable, lazy iterables (generators) are not modelled.
* `PErr` as in `Verif/Model/PyTrade.lean`: `undefined` is an unchecked cast, or a dangling pointer.
-/

namespace Cyclus.PyExec

open Cyclus.Dre Cyclus.PyTrade

/-- The wrapper of a trade: its class, the identity of the Python object, the address of the trade. -/
structure TradeObj where
  kind : Kind
  id : ℕ
  addr : ℕ
  deriving DecidableEq, Repr

/-- The Python objects that matter here. -/
inductive Obj where
  | trade (t : TradeObj)
  | res (r : Res)
  | other (n : ℕ)
  deriving DecidableEq, Repr

/-- An element of a list of pairs. -/
inductive Item where
  | items (l : List Obj)
  | notIterable
  deriving DecidableEq, Repr

/-- What `get_material_trades` or `get_product_trades` returns: `None`, a thing without `len`, a
mapping, a list. -/
inductive Ans where
  | none
  | noLen
  | map (l : List (Obj × Obj))
  | seq (l : List Item)
  deriving DecidableEq, Repr

/-- Models `material_trade_vector_to_py` and `product_trade_vector_to_py`
(`gentypesystem.py:2352-2363`): `n` is the first new identity, `a` the address of the first trade. -/
def wrap (k : Kind) (n a : ℕ) : List Trade → List TradeObj
  | [] => []
  | _ :: ts => ⟨k, n, a⟩ :: wrap k (n + 1) (a + 1) ts

/-- Assignment to a key of a dict: an existing key keeps its place. -/
def assign : List (Obj × Obj) → Obj → Obj → List (Obj × Obj)
  | [], o, v => [(o, v)]
  | (o', v') :: d, o, v => if o' = o then (o', v) :: d else (o', v') :: assign d o v

/-- `dict(pyresp)` (`agents.pyx:688,702`). -/
def dictOf : List Item → List (Obj × Obj) → Except PErr (List (Obj × Obj))
  | [], d => .ok d
  | .items [o, v] :: l, d => dictOf l (assign d o v)
  | .items _ :: _, _ => .error .value
  | .notIterable :: _, _ => .error .type

/-- The loop that fills `responses` (`agents.pyx:689-695,703-709`). -/
def respond (k : Kind) (mem : ℕ → Option Trade) :
    List (Obj × Obj) → Except PErr (List (Trade × Res))
  | [] => .ok []
  | (.trade t, .res r) :: l =>
    if t.kind ≠ k ∨ r.kind ≠ k then .error .undefined
    else
      match mem t.addr with
      | none => .error .undefined
      | some tr =>
        match respond k mem l with
        | .error e => .error e
        | .ok rs => .ok ((tr, r) :: rs)
  | _ :: _ => .error .undefined

/-- Models `GetMatlTrades` and `GetProductTrades` (`agents.pyx:682-709`) given what the agent
returned. -/
def getTrades (k : Kind) (mem : ℕ → Option Trade) : Ans → Except PErr (List (Trade × Res))
  | .none => .ok []
  | .noLen => .error .type
  | .map [] => .ok []
  | .seq [] => .ok []
  | .map d => respond k mem d
  | .seq l =>
    match dictOf l [] with
    | .error e => .error e
    | .ok d => respond k mem d

/-- Models `material_responses_to_py` and `product_responses_to_py` (`gentypesystem.py:2366-2379`),
which `accept_material_trades` and `accept_product_trades` are given (`agents.pyx:711-717`): the
trade of every response has a new wrapper, so that no key is assigned twice. -/
def acceptArg (k : Kind) (n a : ℕ) : List (Trade × Res) → List (TradeObj × Res)
  | [] => []
  | x :: rs => (⟨k, n, a⟩, x.2) :: acceptArg k (n + 1) (a + 1) rs

/-! ## The source -/

/-- The state of a `Source` (`pyagents.py:73-97`). -/
structure Source where
  commod : String
  recipe : String
  capacity : ℚ

/-- The bids of the list that `get_material_bids` builds (`pyagents.py:108-116`); `n` is the identity
of the first new material. -/
def sourceOffers (s : Source) : ℕ → List ReqObj → List Val
  | _, [] => []
  | n, r :: rs =>
    (if s.recipe = "" then .req r
      else .map [("request", .req r),
        ("offer", .res ⟨.material, n, min r.target.qty s.capacity⟩)]) :: sourceOffers s (n + 1) rs

/-- Models `get_material_bids` (`pyagents.py:104-117`); `requests` are the requests for each
commodity. -/
def sourceBids (s : Source) (n : ℕ) (requests : String → List ReqObj) : Val :=
  match requests s.commod with
  | [] => .none
  | r :: rs => .map [("bids", .seq (sourceOffers s n (r :: rs))), ("constraints", .num s.capacity)]

/-- Models `get_material_trades` (`pyagents.py:119-130`): the quantity is `trade.amt`
(`gentypesystem.py:2331-2335`), read through the address; compositions are not modelled. -/
def sourceTrades (mem : ℕ → Option Trade) : ℕ → List TradeObj → List (Obj × Obj)
  | _, [] => []
  | n, t :: ts =>
    (.trade t, .res ⟨.material, n, ((mem t.addr).map Trade.amt).getD 0⟩) :: sourceTrades mem (n + 1) ts

/-! ## The sink -/

/-- The state of a `Sink` (`pyagents.py:18-46`): `stored` is what `inventory` holds. -/
structure Sink where
  commods : List String
  capacity : ℚ
  maxInv : ℚ
  stored : ℚ

/-- Models `get_material_requests` and `get_product_requests` (`pyagents.py:48-62`). -/
def sinkRequests (s : Sink) (k : Kind) (n : ℕ) : Val :=
  .map [("commodities", .seq (s.commods.map fun c => .map [(c, .res ⟨k, n, s.capacity⟩)])),
    ("constraints", .num s.capacity)]

/-- Models `accept_material_trades` and `accept_product_trades` (`pyagents.py:64-70`): what is
pushed into the inventory. -/
def sinkPushes (d : List (TradeObj × Res)) : List Res := d.map Prod.snd

end Cyclus.PyExec
