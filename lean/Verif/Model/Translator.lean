import Verif.Model.Portfolio
import Verif.Model.ExchangeGraph

/-!
# Model of the exchange context and the exchange translator

Models `/repo/src/exchange_context.h`, `/repo/src/exchange_translation_context.h` and
`/repo/src/exchange_translator.h`.

* The four maps of `ExchangeTranslationContext` are functions to `Option`.
* New nodes and node groups get the next unused number in place of a new address.
* A call that throws drops its partial effects: nothing is read after an exception leaves
  `Translate`.  `Err.generic` stands for the `std::out_of_range` of `std::map::at` and for
  exceptions of a converter.
* Logging is dropped.
-/

namespace Cyclus.Dre

open Cyclus.Exchange

/-- Models `ExchangeContext` (`exchange_context.h:97-117`) together with the objects it points to.
`requests` and `bids` are the vectors of portfolios; `prefs` is `trader_prefs`: the entry of a
trader (`none` if there is none), then the preference of a (request, bid) pair; `manager` gives the
id of a trader's manager. -/
structure Ctx where
  req : ℕ → Request
  bid : ℕ → Bid
  rp : ℕ → RP
  bp : ℕ → BP
  requests : List ℕ
  bids : List ℕ
  requesters : List ℕ
  bidders : List ℕ
  commodRequests : String → List ℕ
  bidsByRequest : ℕ → List ℕ
  prefs : ℕ → Option (ℕ → ℕ → Option ℚ)
  manager : ℕ → ℤ

/-- Insertion into a `std::set`. -/
def insertSet (l : List ℕ) (x : ℕ) : List ℕ := if x ∈ l then l else l ++ [x]

/-- Models `ExchangeContext::AddRequest` (`exchange_context.h:65-69`). -/
def Ctx.addRequest (c : Ctx) (r : ℕ) : Ctx :=
  let k := (c.req r).commod
  { c with
    requesters := insertSet c.requesters (c.req r).requester
    commodRequests := Function.update c.commodRequests k (c.commodRequests k ++ [r]) }

/-- Models `ExchangeContext::AddRequestPortfolio` (`exchange_context.h:53-62`). -/
def Ctx.addRequestPortfolio (c : Ctx) (p : ℕ) : Ctx :=
  (c.rp p).reqs.foldl Ctx.addRequest { c with requests := c.requests ++ [p] }

/-- `std::map::insert` on the preferences of a trader: an existing entry stays. -/
def insertPref (m : ℕ → ℕ → Option ℚ) (r b : ℕ) (x : ℚ) : ℕ → ℕ → Option ℚ :=
  fun r' b' => if r' = r ∧ b' = b then (match m r b with | some y => some y | none => some x)
    else m r' b'

/-- Models `ExchangeContext::AddBid` (`exchange_context.h:86-95`). -/
def Ctx.addBid (c : Ctx) (b : ℕ) : Ctx :=
  let B := c.bid b
  let R := c.req B.request
  let x := match B.pref with
    | none => R.pref
    | some y => y
  { c with
    bidders := insertSet c.bidders B.bidder
    bidsByRequest := Function.update c.bidsByRequest B.request (c.bidsByRequest B.request ++ [b])
    prefs := Function.update c.prefs R.requester
      (some (insertPref ((c.prefs R.requester).getD fun _ _ => none) B.request b x)) }

/-- Models `ExchangeContext::AddBidPortfolio` (`exchange_context.h:72-81`). -/
def Ctx.addBidPortfolio (c : Ctx) (p : ℕ) : Ctx :=
  (c.bp p).bids.foldl Ctx.addBid { c with bids := c.bids ++ [p] }

/-- The state of the translator: the graph, the maps of `ExchangeTranslationContext`, the next
unused node and group, and the request portfolios (to which `Translate` adds a constraint). -/
structure Xlat where
  g : Graph
  reqNode : ℕ → Option ℕ
  nodeReq : ℕ → Option ℕ
  bidNode : ℕ → Option ℕ
  nodeBid : ℕ → Option ℕ
  nn : ℕ
  ng : ℕ
  rp : ℕ → RP

/-- The node of a request (`exchange_translator.h:160-166`), put into group `gid`
(`exchange_graph.cc:90-93`). -/
def reqNodeOf (c : Ctx) (gid r : ℕ) : Node where
  group := some gid
  unitCaps := fun _ => []
  prefs := []
  exclusive := (c.req r).exclusive
  commod := (c.req r).commod
  agent := c.manager (c.req r).requester
  qty := (c.req r).target

/-- The loop body of `TranslateRequestPortfolio` (`exchange_translator.h:159-170`), including
`RequestGroup::AddExchangeNode` (`exchange_graph.cc:106-111`) and `AddRequest`
(`exchange_translator.h:131-137`). -/
def addReqNode (c : Ctx) (gid : ℕ) (t : Xlat) (r : ℕ) : Xlat :=
  let grp := t.g.group gid
  let ex := if (c.req r).exclusive then grp.exclGroups ++ [[t.nn]] else grp.exclGroups
  { t with
    g := { t.g with
      node := Function.update t.g.node t.nn (reqNodeOf c gid r)
      group := Function.update t.g.group gid
        { grp with nodes := grp.nodes ++ [t.nn], exclGroups := ex } }
    reqNode := Function.update t.reqNode r (some t.nn)
    nodeReq := Function.update t.nodeReq t.nn (some r)
    nn := t.nn + 1 }

/-- The loop body over the request portfolios in `Translate` (`exchange_translator.h:51-57`) with
`TranslateRequestPortfolio` (`exchange_translator.h:150-182`). -/
def xlateReqPort (c : Ctx) (t : Xlat) (p : ℕ) : Except Err Xlat :=
  match mkCon (t.rp p).qty ((t.rp p).qtyConv fun b => (c.bid b).qty) with
  | .error e => .error e
  | .ok k =>
    let rp := (t.rp p).addCon k
    let gid := t.ng
    let t1 : Xlat :=
      { t with
        g := { t.g with group := Function.update t.g.group gid ⟨[], [], [], rp.qty⟩ }
        ng := gid + 1
        rp := Function.update t.rp p rp }
    let t2 := rp.reqs.foldl (addReqNode c gid) t1
    .ok { t2 with
      g := { t2.g with
        group := Function.update t2.g.group gid
          { t2.g.group gid with caps := rp.cons.map Con.cap }
        reqs := t2.g.reqs ++ [gid] } }

/-- The node of a bid (`exchange_translator.h:199-203`), put into group `gid`. -/
def bidNodeOf (c : Ctx) (gid b : ℕ) : Node where
  group := some gid
  unitCaps := fun _ => []
  prefs := []
  exclusive := (c.bid b).exclusive
  commod := (c.req (c.bid b).request).commod
  agent := c.manager (c.bid b).bidder
  qty := (c.bid b).qty

/-- `excl_bid_grps[offer].push_back(n)` (`exchange_translator.h:206-208`); the order of the map's
keys is the order of first insertion here. -/
def pushExcl (m : List (ℕ × List ℕ)) (offer n : ℕ) : List (ℕ × List ℕ) :=
  match m with
  | [] => [(offer, [n])]
  | (o, ns) :: rest => if o = offer then (o, ns ++ [n]) :: rest else (o, ns) :: pushExcl rest offer n

/-- The loop body of `TranslateBidPortfolio` (`exchange_translator.h:195-209`), including `AddBid`
(`exchange_translator.h:140-146`). -/
def addBidNode (c : Ctx) (gid : ℕ) (x : Xlat × List (ℕ × List ℕ)) (b : ℕ) :
    Xlat × List (ℕ × List ℕ) :=
  let t := x.1
  let grp := t.g.group gid
  ({ t with
     g := { t.g with
       node := Function.update t.g.node t.nn (bidNodeOf c gid b)
       group := Function.update t.g.group gid { grp with nodes := grp.nodes ++ [t.nn] } }
     bidNode := Function.update t.bidNode b (some t.nn)
     nodeBid := Function.update t.nodeBid t.nn (some b)
     nn := t.nn + 1 },
   if (c.bid b).exclusive then pushExcl x.2 (c.bid b).offer t.nn else x.2)

/-- `TranslateCapacities` (`exchange_translator.h:278-295`): the values pushed for an arc to request
`r` and bid `b`.  The quantity of an offer is positive (`bid_portfolio.h:61`), a division by zero
would give 0 here. -/
def unitCapsOf (c : Ctx) (cons : List Con) (r b : ℕ) : Option (List ℚ) :=
  cons.mapM fun k => (k.conv r b).map fun x => x / (c.bid b).qty

/-- `prefs[a] = pref` on a `std::map`. -/
def setPref (l : List (ArcKey × ℚ)) (k : ArcKey) (x : ℚ) : List (ArcKey × ℚ) :=
  match l with
  | [] => [(k, x)]
  | (k', y) :: rest => if k' = k then (k, x) :: rest else (k', y) :: setPref rest k x

/-- `unit_capacities[a].push_back(…)` for several values. -/
def pushCaps (n : Node) (k : ArcKey) (xs : List ℚ) : Node :=
  { n with unitCaps := Function.update n.unitCaps k (n.unitCaps k ++ xs) }

/-- The adjusted preference of a bid: `trader_prefs.at(requester)[req][bid]`
(`exchange_translator.h:82-83`); an absent entry is created with value 0. -/
def Ctx.pref (c : Ctx) (b : ℕ) : Except Err ℚ :=
  let r := (c.bid b).request
  match c.prefs (c.req r).requester with
  | none => .error .generic
  | some m => .ok ((m r b).getD 0)

/-- Models `AddArc` (`exchange_translator.h:81-107`) and `TranslateArc`
(`exchange_translator.h:240-259`). -/
def addArc (dist : ℚ → ℚ → ℚ) (c : Ctx) (t : Xlat) (b : ℕ) : Except Err Xlat :=
  let r := (c.bid b).request
  match c.pref b with
  | .error e => .error e
  | .ok pref =>
    if pref < 0 then .ok t
    else if pref = 0 then .error .value
    else
      match t.reqNode r, t.bidNode b with
      | some u, some v =>
        match t.nodeReq u with
        | none => .error .generic
        | some r' =>
          match unitCapsOf c (c.bp (c.bid b).portfolio).cons r' b,
              unitCapsOf c (t.rp (c.req r).portfolio).cons r' b with
          | some cv, some cu =>
            let a := mkArc dist t.g.node u v pref
            let n1 := Function.update t.g.node v (pushCaps (t.g.node v) a.key cv)
            let n2 := Function.update n1 u (pushCaps (n1 u) a.key cu)
            let n3 := Function.update n2 u { n2 u with prefs := setPref (n2 u).prefs a.key pref }
            .ok { t with g := { t.g with node := n3, arcs := t.g.arcs ++ [a] } }
          | _, _ => .error .generic
      | _, _ => .error .generic

/-- Repeats a step that may throw. -/
def foldE {σ α : Type} (f : σ → α → Except Err σ) : σ → List α → Except Err σ
  | s, [] => .ok s
  | s, x :: xs => match f s x with
    | .error e => .error e
    | .ok s' => foldE f s' xs

/-- `TranslateBidPortfolio` (`exchange_translator.h:186-230`) and `AddSupplyGroup`. -/
def xlateBids (c : Ctx) (t : Xlat) (p : ℕ) : Xlat :=
  let gid := t.ng
  let t1 : Xlat :=
    { t with
      g := { t.g with group := Function.update t.g.group gid ⟨[], [], [], 0⟩ }
      ng := gid + 1 }
  let x := (c.bp p).bids.foldl (addBidNode c gid) (t1, [])
  let t2 := x.1
  { t2 with
    g := { t2.g with
      group := Function.update t2.g.group gid
        { t2.g.group gid with caps := (c.bp p).cons.map Con.cap, exclGroups := x.2.map Prod.snd }
      sups := t2.g.sups ++ [gid] } }

/-- The loop body over the bid portfolios in `Translate` (`exchange_translator.h:62-74`). -/
def xlateBidPort (dist : ℚ → ℚ → ℚ) (c : Ctx) (t : Xlat) (p : ℕ) : Except Err Xlat :=
  foldE (addArc dist c) (xlateBids c t p) (c.bp p).bids

/-- A new translator and an empty graph (`exchange_translator.h:39-44`). -/
def Xlat.init (c : Ctx) : Xlat where
  g := ⟨fun _ => ⟨none, fun _ => [], [], false, "", 0, 0⟩, fun _ => ⟨[], [], [], 0⟩, [], [], []⟩
  reqNode := fun _ => none
  nodeReq := fun _ => none
  bidNode := fun _ => none
  nodeBid := fun _ => none
  nn := 0
  ng := 0
  rp := c.rp

/-- Models `Translate` (`exchange_translator.h:43-77`). -/
def translate (dist : ℚ → ℚ → ℚ) (c : Ctx) : Except Err Xlat :=
  match foldE (xlateReqPort c) (Xlat.init c) c.requests with
  | .error e => .error e
  | .ok t => foldE (xlateBidPort dist c) t c.bids

/-- Models `struct Trade` (`trade.h`); the unused price is dropped. -/
structure Trade where
  request : ℕ
  bid : ℕ
  amt : ℚ
  deriving DecidableEq, Repr

/-- Models `BackTranslateMatch` (`exchange_translator.h:262-275`). -/
def backMatch (t : Xlat) (m : Arc × ℚ) : Except Err Trade :=
  match t.nodeReq m.1.u, t.nodeBid m.1.v with
  | some r, some b => .ok ⟨r, b, m.2⟩
  | _, _ => .error .generic

/-- Models `BackTranslateSolution` (`exchange_translator.h:110-118`). -/
def backTranslate (t : Xlat) : List (Arc × ℚ) → Except Err (List Trade)
  | [] => .ok []
  | m :: ms => match backMatch t m with
    | .error e => .error e
    | .ok x => match backTranslate t ms with
      | .error e => .error e
      | .ok xs => .ok (x :: xs)

end Cyclus.Dre
