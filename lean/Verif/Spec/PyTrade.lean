import Verif.Model.PyTrade

/-!
# What the portfolios of agents written in Python should mean

Stated without the functions of the model: only the entries of the dicts and lists that the agent
returns, and the requests and bids of the C++ portfolio.
-/

namespace Cyclus.PyTrade.Spec

open Cyclus.Dre Cyclus.PyTrade

/-- Every key occurs once, as in every Python dict. -/
def Keys (d : Dict) : Prop := (d.map Prod.fst).Nodup

/-- The dict has no such key. -/
def Lacks (d : Dict) (key : String) : Prop := ∀ v, (key, v) ∉ d

/-- Values that are numbers, as truth values are in Python. -/
inductive Number : Val → ℚ → Prop where
  | num (x : ℚ) : Number (.num x) x
  | false : Number (.bool false) 0
  | true : Number (.bool true) 1

/-- The number under a key, or the default. -/
def NumAt (d : Dict) (key : String) (dflt x : ℚ) : Prop :=
  (Lacks d key ∧ x = dflt) ∨ ∃ v, (key, v) ∈ d ∧ Number v x

/-- Values that count as false in Python: `None`, `False`, zero, and what is empty. -/
inductive Falsy : Val → Prop where
  | none : Falsy .none
  | false : Falsy (.bool false)
  | zero : Falsy (.num 0)
  | text : Falsy (.str "")
  | dict : Falsy (.map [])
  | list : Falsy (.seq [])

/-- The truth of the value under a key, or `False`. -/
def BoolAt (d : Dict) (key : String) (b : Bool) : Prop :=
  (Lacks d key ∧ b = false) ∨ ∃ v, (key, v) ∈ d ∧ (b = false ↔ Falsy v)

/-- The numbers under the key `constraints`: none, one, or a list. -/
def Caps (d : Dict) (caps : List ℚ) : Prop :=
  (Lacks d "constraints" ∧ caps = []) ∨
  (∃ c, ("constraints", .num c) ∈ d ∧ caps = [c]) ∨
  (∃ l, ("constraints", .seq l) ∈ d ∧ l = caps.map .num)

/-- One request that an agent wants to make. -/
structure Wish where
  name : String
  res : Res
  pref : ℚ
  excl : Bool
  deriving DecidableEq, Repr

/-- A commodity: a dict with one name, and perhaps a preference and exclusivity. -/
def Commodity (k : Kind) (v : Val) (w : Wish) : Prop :=
  ∃ d : Dict, v = .map d ∧ Keys d ∧ (w.name, .res w.res) ∈ d ∧
    (∀ e ∈ d, e.1 = w.name ∨ e.1 = "preference" ∨ e.1 = "exclusive") ∧
    w.name ≠ "preference" ∧ w.name ≠ "exclusive" ∧ w.res.kind = k ∧
    NumAt d "preference" 1 w.pref ∧ BoolAt d "exclusive" w.excl

/-- A request portfolio with a list of commodities. -/
def Asks (k : Kind) (v : Val) (ws : List Wish) (caps : List ℚ) : Prop :=
  ∃ (d : Dict) (cs : List Val), v = .map d ∧ Keys d ∧ ("commodities", .seq cs) ∈ d ∧
    List.Forall₂ (Commodity k) cs ws ∧ Caps d caps

/-- A request portfolio that is a dict of resources. -/
def AsksPlainly (k : Kind) (d : Dict) (ws : List Wish) : Prop :=
  Keys d ∧ Lacks d "commodities" ∧
    List.Forall₂ (fun (e : String × Val) w => e = (w.name, .res w.res) ∧ w.res.kind = k ∧
      w.name ≠ "preference" ∧ w.name ≠ "exclusive" ∧ w.pref = 1 ∧ w.excl = false) d ws

/-- The mean quantity of what is asked for. -/
def mean (ws : List Wish) : ℚ := (ws.map fun w => w.res.qty).sum / ws.length

/-- The C++ portfolio makes these requests in this order in the name of trader `t`, as
alternatives of each other, under these capacities. -/
structure Requests (oq : ℕ → ℚ) (t : ℕ) (ws : List Wish) (caps : List ℚ) (s : RSt) : Prop where
  reqs : s.rp.reqs = List.range ws.length
  obj : ∀ i w, ws[i]? = some w → s.obj i = ⟨w.res.qty, t, w.name, w.pref, w.excl, 0⟩
  requester : s.rp.requester = some t
  qty : s.rp.qty = mean ws
  coeffs : ∀ i w, ws[i]? = some w → s.rp.coeffs i = some (w.res.qty / mean ws)
  cons : s.rp.cons = caps.map fun c => ⟨c, fun _ b => some (oq b)⟩

/-- One bid that an agent wants to make; `pref = none` is NaN. -/
structure Offer where
  req : ReqObj
  res : Res
  pref : Option ℚ
  excl : Bool
  deriving DecidableEq, Repr

/-- The forms in which a bid is written: a dict, a pair, a request for what is asked. -/
inductive Bids (k : Kind) : Val → Offer → Prop where
  | dict {d : Dict} {r : ReqObj} {o : Res} {x : ℚ} {b : Bool} : Keys d → ("request", .req r) ∈ d →
      ("offer", .res o) ∈ d → NumAt d "preference" 1 x → BoolAt d "exclusive" b → r.kind = k →
      o.kind = k → Bids k (.map d) ⟨r, o, some x, b⟩
  | dictNan {d : Dict} {r : ReqObj} {o : Res} {b : Bool} : Keys d → ("request", .req r) ∈ d →
      ("offer", .res o) ∈ d → ("preference", .nan) ∈ d → BoolAt d "exclusive" b → r.kind = k →
      o.kind = k → Bids k (.map d) ⟨r, o, none, b⟩
  | pair {r : ReqObj} {o : Res} : r.kind = k → o.kind = k →
      Bids k (.seq [.req r, .res o]) ⟨r, o, some 1, false⟩
  | request {r : ReqObj} : r.kind = k → r.target.kind = k →
      Bids k (.req r) ⟨r, r.target, some 1, false⟩

/-- The forms in which a bid portfolio is written: a list of bids, a dict with the key `bids`
holding a list or a single bid that is not a sequence, a single bid that is a dict, a single
request. -/
inductive BidPortfolio (k : Kind) : Val → List Offer → List ℚ → Prop where
  | list {l : List Val} {os : List Offer} : List.Forall₂ (Bids k) l os → BidPortfolio k (.seq l) os []
  | dict {d : Dict} {l : List Val} {os : List Offer} {caps : List ℚ} : Keys d → ("bids", .seq l) ∈ d →
      List.Forall₂ (Bids k) l os → Caps d caps → BidPortfolio k (.map d) os caps
  | dictMap {d b : Dict} {o : Offer} {caps : List ℚ} : Keys d → ("bids", .map b) ∈ d →
      Bids k (.map b) o → Caps d caps → BidPortfolio k (.map d) [o] caps
  | dictReq {d : Dict} {r : ReqObj} {o : Offer} {caps : List ℚ} : Keys d → ("bids", .req r) ∈ d →
      Bids k (.req r) o → Caps d caps → BidPortfolio k (.map d) [o] caps
  | bid {d : Dict} {o : Offer} : Lacks d "bids" → Bids k (.map d) o → BidPortfolio k (.map d) [o] []
  | request {r : ReqObj} {o : Offer} : Bids k (.req r) o → BidPortfolio k (.req r) [o] []

/-- The C++ portfolio makes these bids in the name of trader `t`, under these capacities. -/
structure Offers (oq : ℕ → ℚ) (t : ℕ) (os : List Offer) (caps : List ℚ) (s : BSt) : Prop where
  bids : s.bp.bids = List.range os.length
  obj : ∀ i o, os[i]? = some o → s.obj i = ⟨o.req.id, o.res.id, o.res.qty, t, o.pref, o.excl, 0⟩
  bidder : os ≠ [] → s.bp.bidder = some t
  cons : s.bp.cons = caps.map fun c => ⟨c, fun _ b => some (oq b)⟩

end Cyclus.PyTrade.Spec
