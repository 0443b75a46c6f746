import Verif.Model.ResBuf
import Verif.Model.Package
import Verif.Model.Portfolio

/-!
# Model of the inventory tracker and the buy policy

Models `/repo/src/toolkit/total_inv_tracker.h` and `/repo/src/toolkit/matl_buy_policy.{h,cc}`.

* Of a buffer the tracker and the requests only see quantity and capacity (`Buf`), accepting trades
  works on the buffer itself (`ResBuf.St`).  `none` as capacity is `INFINITY`.
* `std::numeric_limits<double>::max()` is the parameter `dmax`.
* The samples of the random distributions are arguments.
* `int` arithmetic on times does not overflow.
* Assertions (`assert(x > 0)`) are not compiled into releases and are not modelled.
* The names, the log and the table `BuyPolActiveDormant` are dropped.
-/

namespace Cyclus.Policy

/-- What is seen of a `ResBuf` (`res_buf.h:74,111`). -/
structure Buf where
  qty : ℚ
  cap : Option ℚ
  deriving DecidableEq, Repr

/-- `std::min(c, x)` where `c` may be `INFINITY`. -/
def minInf (c : Option ℚ) (x : ℚ) : ℚ :=
  match c with
  | none => x
  | some c => min c x

/-- `ResBuf::space` (`res_buf.h:116`). -/
def Buf.space (b : Buf) : Option ℚ := b.cap.map fun c => max 0 (c - b.qty)

/-- A buffer as the tracker and the policy see it. -/
def Buf.of (s : ResBuf.St) : Buf := ⟨s.qty, s.cap⟩

/-! ## TotalInvTracker -/

/-- Models the members of `TotalInvTracker` (`total_inv_tracker.h:141-143`); `qty_` is only a
scratch variable of `quantity()` and dropped.  Buffers are addressed by natural numbers. -/
structure Tracker where
  maxInv : ℚ
  bufs : List ℕ
  deriving DecidableEq, Repr

/-- `TotalInvTracker()` (`total_inv_tracker.h:43`). -/
def Tracker.new (dmax : ℚ) : Tracker := ⟨dmax, []⟩

/-- `Init` (`total_inv_tracker.h:54-64`).  The buffers are replaced before the capacity is
checked. -/
def Tracker.init (t : Tracker) (bufs : List ℕ) (maxInv : ℚ) : Outcome Tracker Unit :=
  if bufs.length = 0 then (t, .error .value)
  else if maxInv ≤ 0 then ({ t with bufs := bufs }, .error .value)
  else (⟨maxInv, bufs⟩, .ok ())

/-- `quantity()` with `num_bufs()` (`total_inv_tracker.h:68-75,112-118`). -/
def Tracker.quantity (t : Tracker) (B : ℕ → Buf) : Except Err ℚ :=
  if t.bufs.length = 0 then .error .value
  else .ok (t.bufs.foldl (fun q b => q + (B b).qty) 0)

/-- Sum of two capacities of which either may be `INFINITY`. -/
def addInf (a b : Option ℚ) : Option ℚ :=
  match a, b with
  | some a, some b => some (a + b)
  | _, _ => none

/-- `total_capacity_bufs()` (`total_inv_tracker.h:86-93`). -/
def Tracker.bufsCap (t : Tracker) (B : ℕ → Buf) : Except Err (Option ℚ) :=
  if t.bufs.length = 0 then .error .value
  else .ok (t.bufs.foldl (fun c b => addInf c (B b).cap) (some 0))

/-- `capacity()` (`total_inv_tracker.h:80-82`). -/
def Tracker.capacity (t : Tracker) (B : ℕ → Buf) : Except Err ℚ :=
  match t.bufsCap B with
  | .error e => .error e
  | .ok c => .ok (minInf c t.maxInv)

/-- `space()` (`total_inv_tracker.h:99`). -/
def Tracker.space (t : Tracker) (B : ℕ → Buf) : Except Err ℚ :=
  match t.capacity B with
  | .error e => .error e
  | .ok c =>
    match t.quantity B with
    | .error e => .error e
    | .ok q => .ok (max 0 (c - q))

/-- `constrained_buf_space` (`total_inv_tracker.h:103-105`). -/
def Tracker.bufSpace (t : Tracker) (B : ℕ → Buf) (b : ℕ) : Except Err ℚ :=
  match t.space B with
  | .error e => .error e
  | .ok s => .ok (minInf (B b).space s)

/-- `set_capacity` (`total_inv_tracker.h:123-131`). -/
def Tracker.setCapacity (eps : ℚ) (t : Tracker) (B : ℕ → Buf) (cap : ℚ) : Outcome Tracker Unit :=
  match t.quantity B with
  | .error e => (t, .error e)
  | .ok q => if q - cap > eps then (t, .error .value) else ({ t with maxInv := cap }, .ok ())

/-- `buf_in_tracker` (`total_inv_tracker.h:133-138`). -/
def Tracker.has (t : Tracker) (b : ℕ) : Except Err Bool :=
  if t.bufs.length = 0 then .error .value else .ok (decide (b ∈ t.bufs))

/-! ## MatlBuyPolicy -/

/-- Models the members of `MatlBuyPolicy` (`matl_buy_policy.h:255-269`) that the requests depend
on.  `tracker = none` is the pointer `buf_tracker_` before it is set: the constructor leaves it
uninitialised (`matl_buy_policy.cc:16-30`). -/
structure Buy where
  throughput : ℚ
  quantize : ℚ
  fillTo : ℚ
  reqAt : ℚ
  cumCap : ℚ
  cycle : ℚ
  actEnd : ℤ
  dormEnd : ℤ
  tracker : Option Tracker
  deriving DecidableEq, Repr

/-- The constructor (`matl_buy_policy.cc:16-30`, `matl_buy_policy.h:261-262`). -/
def Buy.new (dmax : ℚ) : Buy := ⟨dmax, -1, dmax, dmax, -1, 0, 0, 0, none⟩

/-- `ResetBehavior` (`matl_buy_policy.cc:37-48`): the times stay as they are. -/
def Buy.reset (dmax : ℚ) (p : Buy) : Buy :=
  { p with throughput := dmax, quantize := -1, fillTo := dmax, reqAt := dmax, cumCap := -1,
           cycle := 0 }

/-- `set_total_inv_tracker` (`matl_buy_policy.cc:61-74`).  `none` as result is the use of the
uninitialised pointer; a capacity of `INFINITY` is passed on as `dmax`. -/
def Buy.setTracker (dmax : ℚ) (p : Buy) (B : ℕ → Buf) (b : ℕ) (t : Option Tracker) :
    Option (Outcome Buy Unit) :=
  match t with
  | none =>
    match p.tracker with
    | none => none
    | some cur =>
      match cur.init [b] (minInf (B b).cap dmax) with
      | (cur, r) => some ({ p with tracker := some cur }, r)
  | some t =>
    match t.has b with
    | .error e => some (p, .error e)
    | .ok false => some (p, .error .value)
    | .ok true => some ({ p with tracker := some t }, .ok ())

/-- `set_fill_to` (`matl_buy_policy.cc:92-95`). -/
def Buy.setFillTo (p : Buy) (cap : Option ℚ) (x : ℚ) : Buy := { p with fillTo := minInf cap x }

/-- `set_req_at` (`matl_buy_policy.cc:97-100`). -/
def Buy.setReqAt (p : Buy) (cap : Option ℚ) (x : ℚ) : Buy := { p with reqAt := minInf cap x }

/-- `set_cumulative_cap` (`matl_buy_policy.cc:102-105`). -/
def Buy.setCumCap (p : Buy) (cap : Option ℚ) (x : ℚ) : Buy := { p with cumCap := minInf cap x }

/-- The inventory policies of `set_inv_policy` (`matl_buy_policy.cc:76-90`), after conversion to
lower case; `other` is any other name. -/
inductive InvPolicy where
  | ss
  | rq
  | other
  deriving DecidableEq, Repr

/-- `set_inv_policy` (`matl_buy_policy.cc:76-90`). -/
def Buy.setInvPolicy (p : Buy) (cap : Option ℚ) (k : InvPolicy) (fill reqAt : ℚ) :
    Outcome Buy Unit :=
  let p := p.setReqAt cap reqAt
  match k with
  | .ss => (p.setFillTo cap fill, .ok ())
  | .rq => ({ p with quantize := fill }.setFillTo cap (reqAt + fill), .ok ())
  | .other => (p, .error .value)

/-- `use_cumulative_capacity` (`matl_buy_policy.h:221`). -/
def Buy.cumulative (p : Buy) : Bool := decide (0 < p.cumCap)

/-- `SetNextActiveTime` (`matl_buy_policy.cc:347-358`) with the sample `a`. -/
def Buy.setActive (p : Buy) (time a : ℤ) : Buy := { p with actEnd := a + time }

/-- `SetNextDormantTime` (`matl_buy_policy.cc:360-384`) with the sample `d`. -/
def Buy.setDormant (p : Buy) (time d : ℤ) : Buy :=
  if p.cumulative then { p with dormEnd := d + (time + 1) }
  else if 0 ≤ p.dormEnd then { p with dormEnd := d + max p.actEnd 1 }
  else p

/-- `init_active_dormant` (`matl_buy_policy.cc:117-147`): `a`, `d0`, `d` are the samples drawn (the
distributions that are not given yield 1 and -1), `sizeMax` is the maximum of the size
distribution. -/
def Buy.initTimes (p : Buy) (time : ℤ) (sizeMax : ℚ) (a d0 d : ℤ) : Outcome Buy Unit :=
  if sizeMax > 1 then (p, .error .value)
  else
    let p := p.setActive time a
    if d0 < 0 then ({ p with dormEnd := -1 }, .ok ())
    else if p.cumulative then ({ p with dormEnd := -1 }, .ok ())
    else (p.setDormant time d, .ok ())

/-- `dormant` (`matl_buy_policy.h:217-219`). -/
def Buy.dormant (p : Buy) (time : ℤ) : Bool := decide (p.actEnd ≤ time) && decide (time < p.dormEnd)

/-- `CheckActiveDormantCumulativeTimes` (`matl_buy_policy.cc:390-401`). -/
def Buy.check (p : Buy) (time a d : ℤ) : Buy :=
  if time = p.dormEnd then
    if p.cumulative then { p with dormEnd := -1 }
    else (p.setActive time a).setDormant time d
  else p

/-- `TotalAvailable` (`matl_buy_policy.h:182-187`). -/
def Buy.available (p : Buy) (b : Buf) (trackerSpace : ℚ) : ℚ :=
  min (min p.throughput (p.fillTo - b.qty)) (minInf b.space trackerSpace)

/-- What one call of `GetMatlRequests` asks for: `n` portfolios with one request of `qty` per
commodity, exclusive or not. -/
structure Order where
  n : ℕ
  qty : ℚ
  excl : Bool
  deriving DecidableEq, Repr

/-- `GetMatlRequests` (`matl_buy_policy.cc:278-321`) with `MakeReq`, `Excl`, `ReqQty` and `NReq`
(`matl_buy_policy.h:190-204`).  `size` is the sample of the size distribution.  `none` is the use
of the uninitialised tracker, or a number of requests that does not fit into `int`
(the conversion of `NReq` is undefined and the loop runs from 0 to a number below 0). -/
def Buy.getRequests (dmax eps : ℚ) (p : Buy) (B : ℕ → Buf) (b : ℕ) (time : ℤ) (size : ℚ)
    (a d : ℤ) : Option (Outcome Buy Order) :=
  match p.tracker with
  | none => none
  | some t =>
    match t.quantity B, t.space B with
    | .error e, _ => some (p, .error e)
    | _, .error e => some (p, .error e)
    | .ok q, .ok sp =>
      let maxAmt := if p.cumulative then p.cumCap - p.cycle else dmax
      let amt :=
        if decide (q ≤ p.reqAt) && !p.dormant time then
          min (p.available (B b) sp * size) maxAmt
        else 0
      let p' := p.check time a d
      if amt < eps then some (p', .ok ⟨0, 0, false⟩)
      else if 0 < p.quantize then
        let n := Package.divTrunc amt p.quantize
        if n < 0 then none else some (p', .ok ⟨n.toNat, p.quantize, true⟩)
      else some (p', .ok ⟨1, amt, false⟩)

/-- One portfolio of an order (`matl_buy_policy.cc:305-316`): a request of `qty` for each of `n`
commodities by the policy `self`, made mutual.  `none` is the division by zero when no commodity
is set. -/
def portfolio (self : ℕ) (qty : ℚ) (n : ℕ) : Option Dre.RP :=
  let p := (List.range n).foldl (fun p i => (p.addRequest i qty self).1) Dre.RP.empty
  Dre.RP.addMutual (fun _ => qty) p (List.range n)

/-- The loop of `AcceptMatlTrades` (`matl_buy_policy.cc:327-336`): push each material, then count
the quantity it has after the push. -/
def Buy.acceptLoop (eps : ℚ) : Buy → ResBuf.St → List ℕ → Outcome (Buy × ResBuf.St) Unit
  | p, s, [] => ((p, s), .ok ())
  | p, s, r :: rs =>
    match ResBuf.push .material eps s r with
    | (s, .error e) => ((p, s), .error e)
    | (s, .ok ()) =>
      Buy.acceptLoop eps
        (if p.cumulative then { p with cycle := p.cycle + (s.heap r).qty } else p) s rs

/-- `AcceptMatlTrades` (`matl_buy_policy.cc:323-345`); `d` is the sample of the dormant length. -/
def Buy.accept (eps : ℚ) (p : Buy) (s : ResBuf.St) (time d : ℤ) (rs : List ℕ) :
    Outcome (Buy × ResBuf.St) Unit :=
  match Buy.acceptLoop eps p s rs with
  | (ps, .error e) => (ps, .error e)
  | ((p, s), .ok ()) =>
    if p.cumulative && decide (p.cumCap - p.cycle < eps) then
      (({ p.setDormant time d with cycle := 0 }, s), .ok ())
    else ((p, s), .ok ())

end Cyclus.Policy
