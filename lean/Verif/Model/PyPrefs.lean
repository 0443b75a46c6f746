import Verif.Model.Basic
import Mathlib.Data.List.Basic

/-!
# Model of preferences and requests as agents written in Python see them

Models `AdjustMatlPrefs` and `AdjustProductPrefs` of the shims (`/repo/cyclus/agents.pyx:46-52,138-179`
and the copies at 262-303, 398-439, 543-584), the first half of `GetMatlBids` and `GetProductBids`
(`agents.pyx:626-641,656-671`), the conversions of preference maps and of maps of requests
(`/repo/cyclus/gentypesystem.py:2149-2160,2295-2305`) and the property `commodity` of bids
(`gentypesystem.py:2105-2112,2265-2268`).

* A wrapper is an object of Python with its identity and the pointer in it.  Wrappers hash by the
  pointer and, having no `__eq__`, are equal only if they are the same object
  (`gentypesystem.py:2141-2142,2286-2287`); a tuple of wrappers is a key in a dict.
* Requests, bids and maps are addressed by natural numbers.
* A preference map is a list of entries for requests, each with a list of entries for bids.  New
  entries come last; in `std::map` they come in the order of addresses.
* An agent written in Python is any function of the dict that it is given: it returns the dict as
  it leaves it and the updates (`None` and an empty dict are the empty list).  An agent written in
  C++ is any function on preference maps.
* `double` is ℚ.
-/

namespace Cyclus.PyPrefs

/-- An object that wraps a pointer to a request or a bid. -/
structure Wrap where
  id : ℕ
  ptr : ℕ
  deriving DecidableEq, Repr

/-- Assignment to a key of a dict or of a map. -/
def upd {α β : Type} [DecidableEq α] : List (α × β) → α → β → List (α × β)
  | [], k, v => [(k, v)]
  | (k', v') :: l, k, v => if k' = k then (k', v) :: l else (k', v') :: upd l k v

/-- `PrefMap` (`exchange_context.h:24-29`). -/
abbrev Map := List (ℕ × List (ℕ × ℚ))

/-- `prefs[r][b] = x` (`agents.pyx:157`). -/
def assign : Map → ℕ → ℕ → ℚ → Map
  | [], r, b, x => [(r, [(b, x)])]
  | (r', bs) :: m, r, b, x =>
    if r' = r then (r', upd bs b x) :: m else (r', bs) :: assign m r b x

/-- The dict of preferences in Python. -/
abbrev Dict := List ((Wrap × Wrap) × ℚ)

/-- The inner loop of `pref_map_to_py` (`gentypesystem.py:2301-2304`); `n` is the next identity. -/
def bidsToPy (r : Wrap) : ℕ → List (ℕ × ℚ) → Dict
  | _, [] => []
  | n, (b, x) :: l => ((r, ⟨n, b⟩), x) :: bidsToPy r (n + 1) l

/-- Models `pref_map_to_py` (`gentypesystem.py:2295-2305`). -/
def mapToPy : ℕ → Map → Dict
  | _, [] => []
  | n, (r, bs) :: m => bidsToPy ⟨n, r⟩ (n + 1) bs ++ mapToPy (n + 1 + bs.length) m

/-- How many wrappers that makes. -/
def mapWraps (m : Map) : ℕ := (m.map fun e => 1 + e.2.length).sum

/-- The global cache (`agents.pyx:46-52`) and the next identity of a wrapper. -/
structure St (δ : Type) where
  time : ℤ
  ptr : ℕ
  dict : δ
  next : ℕ

/-- The lookup in the cache (`agents.pyx:141-149`): what is given to Python. -/
def fetch {μ δ : Type} (conv : ℕ → μ → δ) (count : μ → ℕ) (time : ℤ) (ptr : ℕ) (m : μ) (s : St δ) :
    St δ :=
  if time = s.time ∧ ptr = s.ptr then s
  else ⟨time, ptr, conv s.next m, s.next + count m⟩

/-- `pyprefs.update(updates)` (`agents.pyx:155`). -/
def updateAll (d : Dict) (u : Dict) : Dict := u.foldl (fun d e => upd d e.1 e.2) d

/-- The loop over the updates (`agents.pyx:156-157`). -/
def assignAll (m : Map) (u : Dict) : Map :=
  u.foldl (fun m e => assign m e.1.1.ptr e.1.2.ptr e.2) m

/-- An agent that may adjust preferences. -/
inductive Agent where
  | cpp (f : Map → Map)
  | py (f : Dict → Dict × Dict)

/-- Models `AdjustMatlPrefs` and `AdjustProductPrefs` (`agents.pyx:138-179`, and of agents in
C++).  The first component is what the agent was given, if it is written in Python. -/
def adjust (time : ℤ) (ptr : ℕ) (s : St Dict) (m : Map) : Agent → Option Dict × St Dict × Map
  | .cpp f => (none, s, f m)
  | .py f =>
    let s' := fetch mapToPy mapWraps time ptr m s
    let r := f s'.dict
    (some s'.dict, { s' with dict := updateAll r.1 r.2 }, assignAll m r.2)

/-- The trader and its parents in turn (`resource_exchange.h:145-153`): for every agent written in
Python, what it was given and the map at that time. -/
def chain (time : ℤ) (ptr : ℕ) : List Agent → St Dict → Map → List (Dict × Map) × St Dict × Map
  | [], s, m => ([], s, m)
  | a :: l, s, m =>
    let r := adjust time ptr s m a
    let c := chain time ptr l r.2.1 r.2.2
    ((match r.1 with | some d => [(d, m)] | none => []) ++ c.1, c.2)

/-- A trader with its preferences: the time, the address of the map, the agents, the map. -/
structure Job where
  time : ℤ
  ptr : ℕ
  agents : List Agent
  map : Map

/-- `AdjustAll` over the traders and over the time steps (`resource_exchange.h:97-107`): what each
agent written in Python was given, and the maps afterwards. -/
def jobs : List Job → St Dict → List (Dict × Map) × List Map
  | [], _ => ([], [])
  | j :: l, s =>
    let c := chain j.time j.ptr j.agents s j.map
    let r := jobs l c.2.1
    (c.1 ++ r.1, c.2.2 :: r.2)

/-! ## Requests -/

/-- `CommodMap` (`exchange_context.h:31-35`): the requests for each commodity. -/
abbrev Commods := List (String × List ℕ)

/-- The dict of requests in Python. -/
abbrev ReqDict := List (String × List Wrap)

/-- Wrappers for a vector of requests. -/
def wrapAll : ℕ → List ℕ → List Wrap
  | _, [] => []
  | n, r :: l => ⟨n, r⟩ :: wrapAll (n + 1) l

/-- Models `commod_map_to_py` (`gentypesystem.py:2149-2160`). -/
def commodsToPy : ℕ → Commods → ReqDict
  | _, [] => []
  | n, (c, rs) :: m => (c, wrapAll n rs) :: commodsToPy (n + rs.length) m

/-- How many wrappers that makes. -/
def commodWraps (m : Commods) : ℕ := (m.map fun e => e.2.length).sum

/-- The dicts given to the bidders written in Python, one after the other (`agents.pyx:626-641`,
`resource_exchange.h:86-94`): times, addresses and maps of requests. -/
def bidders : List (ℤ × ℕ × Commods) → St ReqDict → List (ReqDict × Commods)
  | [], _ => []
  | (t, p, m) :: l, s =>
    let s' := fetch commodsToPy commodWraps t p m s
    (s'.dict, m) :: bidders l s'

/-! ## The commodity of a bid -/

/-- A wrapper of a request with its attribute `_commodity` (`gentypesystem.py:2077-2084`). -/
structure ReqWrap where
  ptr : ℕ
  commodity : Option String

/-- `Request.commodity` (`gentypesystem.py:2105-2112`); `commod` is the commodity of a request in
C++. -/
def ReqWrap.read (commod : ℕ → String) (w : ReqWrap) : ReqWrap × String :=
  match w.commodity with
  | some c => (w, c)
  | none => ({ w with commodity := some (commod w.ptr) }, commod w.ptr)

/-- A wrapper of a bid: its pointer, its attribute `_request` (`gentypesystem.py:2222-2227`). -/
structure BidWrap where
  ptr : ℕ
  request : Option ReqWrap

/-- `Bid.request` (`gentypesystem.py:2230-2238`); `of` is the request of a bid in C++. -/
def BidWrap.getRequest (of : ℕ → ℕ) (w : BidWrap) : BidWrap × ReqWrap :=
  match w.request with
  | some r => (w, r)
  | none => ({ w with request := some ⟨of w.ptr, none⟩ }, ⟨of w.ptr, none⟩)

/-- `Bid.commodity` (`gentypesystem.py:2265-2268`): the attribute `_commodity` of the request. -/
def BidWrap.commodity (of : ℕ → ℕ) (w : BidWrap) : BidWrap × Option String :=
  let r := w.getRequest of
  (r.1, r.2.commodity)

/-- Reading `bid.request.commodity`. -/
def BidWrap.requestCommodity (of : ℕ → ℕ) (commod : ℕ → String) (w : BidWrap) : BidWrap × String :=
  let r := w.getRequest of
  let q := r.2.read commod
  ({ r.1 with request := some q.1 }, q.2)

end Cyclus.PyPrefs
