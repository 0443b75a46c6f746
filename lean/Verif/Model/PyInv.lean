import Verif.Model.PyAgent
import Verif.Model.ResBuf
import Verif.Model.ResMap

/-!
# Model of the inventories of agents written in Python

Models the inventory methods of `_Agent` (`/repo/cyclus/agents.pyx:806-807`, 916-966), the wrappers of
`ResBuf` and `ResMap` (`/repo/cyclus/gentypesystem.py:1264-1500`), the conversions of inventories
(`/repo/cyclus/lib.pyx:1266-1292`) and the inventory of `Sink` (`/repo/cyclus/pyagents.py:46-70`).

* The buffers and maps are those of `Model/ResBuf.lean` and `Model/ResMap.lean`; each inventory has resources of
  its own.  The keys of maps are numbers, with 0 for the default key, which is 0 or the empty text.
* An exception of Python ends the method.  What C++ does with it then is not modelled: the shims return an empty
  value to it (`/repo/cyclus/agents.pyx:107-113`).
* `None` is not given as a resource.
-/

namespace Cyclus.PyInv

open InfileGen (Str PyVal)
open ResBuf (Kind)

/-- Exceptions. -/
inductive Fault where
  | type
  | key
  | attr
  /-- from C++ -/
  | cpp (e : Err)
  /-- a null pointer is used -/
  | null

/-- A resource as an object of Python: which class wraps it. -/
inductive Wrap where
  | resource (r : ℕ)
  | typed (k : Kind) (r : ℕ)

/-- The pointer in the wrapper. -/
def Wrap.ptr : Wrap → ℕ
  | .resource r => r
  | .typed _ r => r

/-- The value of an inventory: a wrapper of a buffer, or a wrapper of a map with an attribute `capacity`
that was set, if any. -/
inductive Box where
  | buf (k : Kind) (s : ResBuf.St)
  | map (s : ResMap.St) (cap : Option ℚ)

/-- `push(self, _Material r)` and `push(self, _Product r)` (`gentypesystem.py:1376-1378`), for a wrapper with or
without a buffer. -/
def push (eps : ℚ) (k : Kind) (p : Option ResBuf.St) (w : Wrap) : Option ResBuf.St × Except Fault Unit :=
  match w with
  | .resource _ => (p, .error .type)
  | .typed k' r =>
    if k' = k then
      match p with
      | none => (p, .error .null)
      | some s =>
        match ResBuf.push k eps s r with
        | (s', .ok ()) => (some s', .ok ())
        | (s', .error e) => (some s', .error (.cpp e))
    else (p, .error .type)

/-- `push_many` of a buffer (`gentypesystem.py:1387-1392`). -/
def pushEach (eps : ℚ) (k : Kind) : ResBuf.St → List Wrap → ResBuf.St × Except Fault Unit
  | s, [] => (s, .ok ())
  | s, w :: l =>
    match push eps k (some s) w with
    | (some s', .ok ()) => pushEach eps k s' l
    | (some s', .error e) => (s', .error e)
    | (none, _) => (s, .error .null)

/-- `push_many` (`gentypesystem.py:1387-1392`, 1486-1494). -/
def pushMany (eps : ℚ) (oid : ℕ → ℤ) : Box → List Wrap → Box × Except Fault Unit
  | .buf k s, l => let r := pushEach eps k s l; (.buf k r.1, r.2)
  | .map s c, l => (.map (ResMap.setValues oid s (l.map Wrap.ptr)) c, .ok ())

/-- The values of a map, which are taken as not null. -/
def mapValues (s : ResMap.St) : List ℕ := (ResMap.values s).filterMap id

/-- `pop_all_res` (`gentypesystem.py:1380-1385`, 1480-1484). -/
def popAllRes : Box → Box × Except Fault (List Wrap)
  | .buf k s =>
    match ResBuf.popN s s.rs.length with
    | (s', .ok l) => (.buf k s', .ok (l.map .resource))
    | (s', .error e) => (.buf k s', .error (.cpp e))
  | .map s c => (.map s c, .ok ((mapValues s).map .resource))

/-- `snapshot_inv` (`agents.pyx:955-965`). -/
def snapshotInv (eps : ℚ) (oid : ℕ → ℤ) :
    List (Str × Box) → List (Str × Box) × Except Fault (List (Str × List Wrap))
  | [] => ([], .ok [])
  | (n, b) :: l =>
    match popAllRes b with
    | (b', .error e) => ((n, b') :: l, .error e)
    | (b', .ok ws) =>
      match pushMany eps oid b' ws with
      | (b'', .error e) => ((n, b'') :: l, .error e)
      | (b'', .ok ()) =>
        let r := snapshotInv eps oid l
        ((n, b'') :: r.1, match r.2 with | .ok d => .ok ((n, ws) :: d) | .error e => .error e)

/-- `inventories_to_cpp` (`lib.pyx:1282-1292`): the loop fills `value`, and `invs` is returned. -/
def toCpp (d : List (Str × List Wrap)) : List (Str × List ℕ) :=
  (d.foldl (fun st e => (st.1, e.2.map Wrap.ptr)) (([] : List (Str × List ℕ)), ([] : List ℕ))).1

/-- `SnapshotInv` (`agents.pyx:111-113`). -/
def snapshot (eps : ℚ) (oid : ℕ → ℤ) (l : List (Str × Box)) :
    List (Str × Box) × Except Fault (List (Str × List ℕ)) :=
  let r := snapshotInv eps oid l
  (r.1, match r.2 with | .ok d => .ok (toCpp d) | .error e => .error e)

/-- `inventories_to_py` (`lib.pyx:1266-1279`). -/
def toPy (invs : List (Str × List ℕ)) : List (Str × List Wrap) :=
  invs.map fun e => (e.1, e.2.map .resource)

/-- `init_inv` (`agents.pyx:944-953`). -/
def initInv (eps : ℚ) (oid : ℕ → ℤ) (d : List (Str × List Wrap)) :
    List (Str × Box) → List (Str × Box) × Except Fault Unit
  | [] => ([], .ok ())
  | (n, b) :: l =>
    match d.lookup n with
    | none => let r := initInv eps oid d l; ((n, b) :: r.1, r.2)
    | some ws =>
      match pushMany eps oid b ws with
      | (b', .error e) => ((n, b') :: l, .error e)
      | (b', .ok ()) => let r := initInv eps oid d l; ((n, b') :: r.1, r.2)

/-- `InitInv` (`agents.pyx:107-109`). -/
def init (eps : ℚ) (oid : ℕ → ℤ) (invs : List (Str × List ℕ)) (l : List (Str × Box)) :
    List (Str × Box) × Except Fault Unit :=
  initInv eps oid (toPy invs) l

/-- The annotation `capacity`: missing, the name of a state variable, or a number. -/
inductive Cap where
  | none
  | var (n : Str)
  | num (q : ℚ)

/-- `value.capacity = x` (`gentypesystem.py:1299-1301`); a map has no such property, so that the attribute is
one of Python. `none` is infinity. -/
def setCapacity (eps : ℚ) (b : Box) (x : Option ℚ) : Box × Except Fault Unit :=
  match b with
  | .buf k s =>
    match ResBuf.setCap eps s x with
    | (s', .ok ()) => (.buf k s', .ok ())
    | (s', .error e) => (.buf k s', .error (.cpp e))
  | .map s _ => (.map s x, .ok ())

/-- The conversion to `double`. -/
def toDouble : PyVal → Except Fault ℚ
  | .bool b => .ok (if b then 1 else 0)
  | .int z => .ok z
  | .float q => .ok q
  | _ => .error .type

/-- The capacity for an inventory (`agents.pyx:924-931`). -/
def capacityOf (d : List (Str × PyVal)) : Cap → Except Fault ℚ
  | .none => .ok (10 ^ 300)
  | .var n =>
    match d.lookup n with
    | some x => toDouble x
    | none => .error .key
  | .num q => .ok q

/-- The second loop of `init_from_dict` (`agents.pyx:924-931`). -/
def initCapacities (eps : ℚ) (d : List (Str × PyVal)) :
    List (Str × Cap × Box) → List (Str × Cap × Box) × Except Fault Unit
  | [] => ([], .ok ())
  | (n, c, b) :: l =>
    match capacityOf d c with
    | .error e => ((n, c, b) :: l, .error e)
    | .ok x =>
      match setCapacity eps b (some x) with
      | (b', .error e) => ((n, c, b') :: l, .error e)
      | (b', .ok ()) => let r := initCapacities eps d l; ((n, c, b') :: r.1, r.2)

/-- `value.capacity`. -/
def getCapacity : Box → Except Fault (Option ℚ)
  | .buf _ s => .ok s.cap
  | .map _ (some q) => .ok (some q)
  | .map _ none => .error .attr

/-- The second loop of `init_from_agent` (`agents.pyx:806-807`). -/
def copyCapacities (eps : ℚ) : List (Str × Box) → List (Str × Box) → List (Str × Box) × Except Fault Unit
  | (n, b) :: l, (_, o) :: os =>
    match getCapacity o with
    | .error e => ((n, b) :: l, .error e)
    | .ok x =>
      match setCapacity eps b x with
      | (b', .error e) => ((n, b') :: l, .error e)
      | (b', .ok ()) => let r := copyCapacities eps l os; ((n, b') :: r.1, r.2)
  | l, _ => (l, .ok ())

/-- What an inventory holds. -/
inductive Form where
  | buf (k : Kind)
  | map

/-- `_init` (`gentypesystem.py:1956-1971`): a new buffer or map. -/
def fresh : Form → Box
  | .buf k => .buf k (ResBuf.init false)
  | .map => .map (ResMap.init fun _ => 0) none

/-- What a box holds. -/
def Box.form : Box → Form
  | .buf k _ => .buf k
  | .map _ _ => .map

/-- The inventories of a clone (`agents.pyx:70-77`, 764-770, 806-807). -/
def clone (eps : ℚ) (l : List (Str × Box)) : List (Str × Box) × Except Fault Unit :=
  copyCapacities eps (l.map fun e => (e.1, fresh e.2.form)) l

/-- `Sink.accept_material_trades` and `accept_product_trades` (`pyagents.py:64-70`): the attribute of the class
is a wrapper of a buffer of products that was made without a buffer (46, `gentypesystem.py:1270-1275`). -/
def sinkAccepts (eps : ℚ) (p : Option ResBuf.St) : List Wrap → Option ResBuf.St × Except Fault Unit
  | [] => (p, .ok ())
  | w :: l =>
    match push eps .product p w with
    | (p', .ok ()) => sinkAccepts eps p' l
    | (p', .error e) => (p', .error e)

end Cyclus.PyInv
