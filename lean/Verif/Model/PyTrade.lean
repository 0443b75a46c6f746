import Verif.Model.Translator

/-!
# Model of the portfolios of agents written in Python

Models `normalize_request_portfolio` and `normalize_bid_portfolio` (`/repo/cyclus/lib.pyx:1794-1905`),
the conversion to C++ portfolios (`/repo/cyclus/gentypesystem.py:2163-2217`) and the loops of
`GetMatlRequests`, `GetProductRequests`, `GetMatlBids`, `GetProductBids`
(`/repo/cyclus/agents.pyx:601-679`).

* A Python value is a number, NaN, a truth value, a string, a resource, a request, a dict with
  strings as keys, a list or tuple, `None`, or anything else (not iterable, not a mapping).  Lazy
  iterables (generators) are not modelled.
* The keys of a dict are strings.  `dict(…)` on pairs whose first component is not a string fails
  here at once; the code fails when the name is converted (`gentypesystem.py:2178`).
* `PErr` is the class of a Python exception, with two additions: `undefined` is an unchecked cast of
  an object of another type (`<_Material> …`, undefined behaviour), `nan` is not an exception: the
  code goes on with NaN where the model of the C++ portfolios has numbers.
* The portfolios, requests and bids of C++ are those of `Verif/Model/Portfolio.lean`; the `k`-th
  request or bid of a portfolio has the identity `k`.  An exception of C++ is `value`.
* `cost` is not a field: no entry can change it from `None`, because every entry that
  `normalize_request_portfolio` accepts is a resource (`lib.pyx:1829-1840`).
-/

namespace Cyclus.PyTrade

open Cyclus.Dre

/-- What ends a call. -/
inductive PErr where
  | type | value | index | attribute | undefined | nan
  deriving DecidableEq, Repr

/-- The two classes of resources (`gentypesystem.py:1193,1256`). -/
inductive Kind where
  | material | product
  deriving DecidableEq, Repr

/-- A resource: its class, its identity, its quantity (`gentypesystem.py:950-1039`). -/
structure Res where
  kind : Kind
  id : ℕ
  qty : ℚ
  deriving DecidableEq, Repr

/-- A wrapper of a request (`gentypesystem.py:2075-2146`): the class of what is requested, the
request, its target. -/
structure ReqObj where
  kind : Kind
  id : ℕ
  target : Res
  deriving DecidableEq, Repr

/-- Python values. -/
inductive Val where
  | none
  | num (x : ℚ)
  | nan
  | bool (b : Bool)
  | str (s : String)
  | res (r : Res)
  | req (r : ReqObj)
  | map (l : List (String × Val))
  | seq (l : List Val)
  | other

/-- A dict, in the order of insertion. -/
abbrev Dict := List (String × Val)

/-- Iteration over a value; `none` if it is not iterable. -/
def iter : Val → Option (List Val)
  | .str s => some (s.toList.map fun c => .str (String.singleton c))
  | .map l => some (l.map fun kv => .str kv.1)
  | .seq l => some l
  | _ => none

/-- Assignment to a key of a dict: an existing key keeps its place. -/
def dictSet : Dict → String → Val → Dict
  | [], k, v => [(k, v)]
  | (k', v') :: d, k, v => if k' = k then (k', v) :: d else (k', v') :: dictSet d k v

/-- `dict(…)` on the elements of an iterable. -/
def dictOf : List Val → Dict → Except PErr Dict
  | [], d => .ok d
  | x :: xs, d =>
    match iter x with
    | none => .error .type
    | some [.str k, v] => dictOf xs (dictSet d k v)
    | some [_, _] => .error .type
    | some _ => .error .value

/-- `if not isinstance(inp, Mapping): inp = dict(inp)` (`lib.pyx:1799-1800`). -/
def asDict : Val → Except PErr Dict
  | .map d => .ok d
  | v =>
    match iter v with
    | none => .error .type
    | some l => dictOf l []

/-- The entries of a dict other than `preference` and `exclusive` (`lib.pyx:1804-1808,1812-1815`). -/
def names (d : Dict) : Dict := d.filter fun kv => kv.1 ≠ "preference" ∧ kv.1 ≠ "exclusive"

/-- The list `commods` (`lib.pyx:1802-1808`): one dict with one name for every name of every
commodity. -/
def flatten : List Val → Except PErr (List (String × Val))
  | [] => .ok []
  | .map d :: cs =>
    match flatten cs with
    | .error e => .error e
    | .ok l => .ok (names d ++ l)
  | _ :: _ => .error .attribute

/-- A request in the standard form (`lib.pyx:1823-1824`). -/
structure PReq where
  target : Res
  pref : Val
  excl : Val

/-- `inp['commodities'][index]` (`lib.pyx:1831-1835`). -/
def getItem (v : Val) (i : ℕ) : Except PErr Dict :=
  match v with
  | .seq l =>
    match l[i]? with
    | some (.map d) => .ok d
    | some _ => .error .type
    | none => .error .index
  | _ => .error .type

/-- The body of the loop over `commods` (`lib.pyx:1825-1857`); `cs` is `inp['commodities']`, `none`
if there is no such key, and `i` the position in `commods`.  A mapping or a sequence ends with
`commods[key] = …` on a list, where `key` is a string. -/
def normOne (cs : Option Val) (i : ℕ) (kv : String × Val) : Except PErr (String × PReq) :=
  match kv.2 with
  | .res r =>
    match cs with
    | none => .ok (kv.1, ⟨r, .num 1, .bool false⟩)
    | some c =>
      match getItem c i with
      | .error e => .error e
      | .ok d =>
        .ok (kv.1, ⟨r, (d.lookup "preference").getD (.num 1),
          (d.lookup "exclusive").getD (.bool false)⟩)
  | _ => .error .type

/-- The loop over `commods` (`lib.pyx:1825-1857`). -/
def normLoop (cs : Option Val) : ℕ → List (String × Val) → Except PErr (List (String × PReq))
  | _, [] => .ok []
  | i, kv :: l =>
    match normOne cs i kv with
    | .error e => .error e
    | .ok x =>
      match normLoop cs (i + 1) l with
      | .error e => .error e
      | .ok xs => .ok (x :: xs)

/-- `inp.get('constraints', [])`, made a list if it is not iterable (`lib.pyx:1809,1818-1819`). -/
def constrs (d : Dict) : List Val :=
  match d.lookup "constraints" with
  | none => []
  | some v =>
    match iter v with
    | none => [v]
    | some l => l

/-- Models `normalize_request_portfolio` (`lib.pyx:1794-1859`). -/
def normReq (inp : Val) : Except PErr (List (String × PReq) × List Val) :=
  match asDict inp with
  | .error e => .error e
  | .ok d =>
    match d.lookup "commodities" with
    | none =>
      match normLoop none 0 (names d) with
      | .error e => .error e
      | .ok l => .ok (l, [])
    | some c =>
      match iter c with
      | none => .error .type
      | some cs =>
        match flatten cs with
        | .error e => .error e
        | .ok l =>
          match normLoop (some c) 0 l with
          | .error e => .error e
          | .ok l => .ok (l, constrs d)

/-- Conversion to `double`; `none` is NaN. -/
def toDouble : Val → Except PErr (Option ℚ)
  | .num x => .ok (some x)
  | .nan => .ok none
  | .bool b => .ok (some (if b then 1 else 0))
  | _ => .error .type

/-- Conversion to `bool`: the truth of a value. -/
def truthy : Val → Bool
  | .none => false
  | .num x => x ≠ 0
  | .bool b => b
  | .str s => s ≠ ""
  | .map l => !l.isEmpty
  | .seq l => !l.isEmpty
  | _ => true

/-- The calls of `AddRequest` (`gentypesystem.py:2175-2188`). -/
def addReqs (k : Kind) (t : ℕ) : RSt → List (String × PReq) → Except PErr RSt
  | s, [] => .ok s
  | s, (n, q) :: l =>
    if q.target.kind ≠ k then .error .undefined
    else
      match toDouble q.pref with
      | .error e => .error e
      | .ok none => .error .nan
      | .ok (some p) =>
        match s.step (.addRequest q.target.qty t n p (truthy q.excl)) with
        | some (s', .ok ()) => addReqs k t s' l
        | some (_, .error _) => .error .value
        | none => .error .nan

/-- The calls of `AddConstraint` (`gentypesystem.py:2191-2195`) with the default converter
(`capacity_constraint.h:77-83`), which gives the quantity of the offer, `oq`. -/
def addCons (oq : ℕ → ℚ) : RSt → List Val → Except PErr RSt
  | s, [] => .ok s
  | s, v :: l =>
    match toDouble v with
    | .error e => .error e
    | .ok none => .error .nan
    | .ok (some c) =>
      match s.step (.addCon c fun _ b => some (oq b)) with
      | some (s', .ok ()) => addCons oq s' l
      | some (_, .error _) => .error .value
      | none => .error .nan

/-- Models `material_request_portfolio_to_cpp` and `product_request_portfolio_to_cpp`
(`gentypesystem.py:2163-2195`) after `normalize_request_portfolio`; `t` is the trader. -/
def reqPort (oq : ℕ → ℚ) (k : Kind) (t : ℕ) (inp : Val) : Except PErr RSt :=
  match normReq inp with
  | .error e => .error e
  | .ok (l, cs) =>
    match addReqs k t RSt.init l with
    | .error e => .error e
    | .ok s =>
      match s.step (.addMutual (List.range s.n)) with
      | some (s', .ok ()) => addCons oq s' cs
      | some (_, .error _) => .error .value
      | none => .error .nan

/-- The loop over the portfolios of an agent (`agents.pyx:607-612,621-623`). -/
def reqPorts (oq : ℕ → ℚ) (k : Kind) (t : ℕ) : List Val → Except PErr (List RSt)
  | [] => .ok []
  | v :: l =>
    match reqPort oq k t v with
    | .error e => .error e
    | .ok s =>
      match reqPorts oq k t l with
      | .error e => .error e
      | .ok ss => .ok (s :: ss)

/-- Models `GetMatlRequests` and `GetProductRequests` (`agents.pyx:601-624`) given what
`get_material_requests` or `get_product_requests` returned. -/
def getRequests (oq : ℕ → ℚ) (k : Kind) (t : ℕ) (ret : Val) : Except PErr (List RSt) :=
  match ret with
  | .map d => reqPorts oq k t [.map d]
  | v =>
    match iter v with
    | none => .error .type
    | some l => reqPorts oq k t l

/-- A bid in the standard form (`lib.pyx:1882-1883`). -/
structure PBid where
  request : Val
  offer : Val
  pref : Val
  excl : Val

/-- The body of the loop over the bids (`lib.pyx:1888-1901`). -/
def normBid : Val → Except PErr PBid
  | .map d =>
    .ok ⟨(d.lookup "request").getD .none, (d.lookup "offer").getD .none,
      (d.lookup "preference").getD (.num 1), (d.lookup "exclusive").getD (.bool false)⟩
  | .seq [r, o] => .ok ⟨r, o, .num 1, .bool false⟩
  | .seq _ => .error .value
  | .str s =>
    match s.toList with
    | [a, b] => .ok ⟨.str (String.singleton a), .str (String.singleton b), .num 1, .bool false⟩
    | _ => .error .value
  | .req r => .ok ⟨.req r, .res r.target, .num 1, .bool false⟩
  | _ => .error .type

/-- The loop over the bids (`lib.pyx:1887-1902`). -/
def normBids : List Val → Except PErr (List PBid)
  | [] => .ok []
  | v :: l =>
    match normBid v with
    | .error e => .error e
    | .ok x =>
      match normBids l with
      | .error e => .error e
      | .ok xs => .ok (x :: xs)

/-- A value that is not a sequence becomes a list of one (`lib.pyx:1880-1881`). -/
def asSeq : Val → List Val
  | .seq l => l
  | .str s => s.toList.map fun c => .str (String.singleton c)
  | v => [v]

/-- The bids and the constraints of a portfolio (`lib.pyx:1866-1881`). -/
def bidParts : Val → List Val × List Val
  | .map d =>
    match d.lookup "bids" with
    | some b => (asSeq b, constrs d)
    | none => ([.map d], [])
  | v => (asSeq v, [])

/-- The calls of `AddBid` (`gentypesystem.py:2205-2212`). -/
def addBids (k : Kind) (t : ℕ) : BSt → List PBid → Except PErr BSt
  | s, [] => .ok s
  | s, b :: l =>
    match b.offer, b.request with
    | .res o, .req r =>
      if o.kind ≠ k ∨ r.kind ≠ k then .error .undefined
      else
        match toDouble b.pref with
        | .error e => .error e
        | .ok p =>
          match s.step (.addBid r.id o.id o.qty t (truthy b.excl) p) with
          | (s', .ok ()) => addBids k t s' l
          | (_, .error _) => .error .value
    | _, _ => .error .undefined

/-- The calls of `AddConstraint` (`gentypesystem.py:2213-2216`). -/
def addBidCons (oq : ℕ → ℚ) : BSt → List Val → Except PErr BSt
  | s, [] => .ok s
  | s, v :: l =>
    match toDouble v with
    | .error e => .error e
    | .ok none => .error .nan
    | .ok (some c) =>
      match s.step (.addCon c fun _ b => some (oq b)) with
      | (s', .ok ()) => addBidCons oq s' l
      | (_, .error _) => .error .value

/-- Models `normalize_bid_portfolio` (`lib.pyx:1862-1905`) and `material_bid_portfolio_to_cpp`,
`product_bid_portfolio_to_cpp` (`gentypesystem.py:2198-2217`). -/
def bidPort (oq : ℕ → ℚ) (k : Kind) (t : ℕ) (inp : Val) : Except PErr BSt :=
  match normBids (bidParts inp).1 with
  | .error e => .error e
  | .ok l =>
    match addBids k t BSt.init l with
    | .error e => .error e
    | .ok s => addBidCons oq s (bidParts inp).2

/-- The loop over the portfolios of an agent (`agents.pyx:647-653,677-679`). -/
def bidPorts (oq : ℕ → ℚ) (k : Kind) (t : ℕ) : List Val → Except PErr (List BSt)
  | [] => .ok []
  | v :: l =>
    match bidPort oq k t v with
    | .error e => .error e
    | .ok s =>
      match bidPorts oq k t l with
      | .error e => .error e
      | .ok ss => .ok (s :: ss)

/-- Models the second half of `GetMatlBids` and `GetProductBids` (`agents.pyx:639-680`) given what
`get_material_bids` or `get_product_bids` returned. -/
def getBids (oq : ℕ → ℚ) (k : Kind) (t : ℕ) (ret : Val) : Except PErr (List BSt) :=
  match ret with
  | .none => .ok []
  | .map d => bidPorts oq k t [.map d]
  | v =>
    match iter v with
    | none => .error .type
    | some l => bidPorts oq k t l

end Cyclus.PyTrade
