import Verif.Model.PyInfile
import Mathlib.Data.List.Sort
import Mathlib.Data.List.Dedup

/-!
# Model of the state variables of agents written in Python

Models `_Agent` of `/repo/cyclus/agents.pyx:724-807`, 916-942 and 985-1008, the descriptors of
`/repo/cyclus/gentypesystem.py:1730-1930`, the conversions of values to Python (533-646) and
`single_query_result_to_py` (`/repo/cyclus/lib.pyx:172-189`).

* A class is a number.  What a program declares does not change: the order in which attributes of a class
  are looked up (`__mro__`), the attributes of each class, and of each state variable its type, value and
  default.  What changes are the members that the classes write: index and name of the variables, and the
  attribute `_statevars` of classes.
* An attribute of a class is a state variable or something else.
* Sets, tuples and arrays of numpy are lists.  Blobs and UUIDs are not modelled as values of Python, nor is
  identity of values: a copy is the value.
* Inventories are in `Model/PyInv.lean`.
-/

namespace Cyclus.PyAgent

open InfileGen (Str Ty Prim PyVal Val)

/-- What is declared. -/
structure Program where
  mro : ℕ → List ℕ
  own : ℕ → List (Str × Option ℕ)
  ty : ℕ → Ty
  value : ℕ → PyVal
  dflt : ℕ → PyVal

/-- What the classes write: `index` and `name` of each variable, `_statevars` of each class. -/
structure World where
  index : ℕ → ℤ
  label : ℕ → Option Str
  cache : ℕ → Option (List (Str × ℕ))

/-- The exceptions. -/
inductive Fault where
  | key
  | attr
  | value
  | conv (e : PyInfile.Exc)
  | ub

/-- `getattr(cls, name)`: nothing if there is no such attribute. -/
def Program.getattr (P : Program) (c : ℕ) (n : Str) : Option (Option ℕ) :=
  (P.mro c).findSome? fun b => (P.own b).lookup n

/-- Comparison of strings. -/
def strLe : Str → Str → Bool
  | [], _ => true
  | _ :: _, [] => false
  | c :: s, d :: t => if c = d then strLe s t else c.toNat ≤ d.toNat

/-- `dir(cls)`. -/
def Program.dir (P : Program) (c : ℕ) : List Str :=
  (((P.mro c).flatMap fun b => (P.own b).map Prod.fst).dedup).insertionSort fun a b => strLe a b = true

/-- The dictionary `vars` (`agents.pyx:774-784`). -/
def Program.visible (P : Program) (c : ℕ) : List (Str × ℕ) :=
  (P.dir c).filterMap fun n =>
    match P.getattr c n with
    | some (some v) => some (n, v)
    | _ => none

/-- `svs.sort(key=_by_index)` (`agents.pyx:1716-1719`). -/
def sortByIndex (index : ℕ → ℤ) (l : List (Str × ℕ)) : List (Str × ℕ) :=
  l.insertionSort fun a b => index a.2 ≤ index b.2

/-- The loop over the sorted variables (`agents.pyx:1721-1722`). -/
def renumber : List (Str × ℕ) → ℕ → (ℕ → ℤ) → ℕ → ℤ
  | [], _, ix => ix
  | x :: l, i, ix => renumber l (i + 1) (Function.update ix x.2 i)

/-- `attr.name = name` for each variable (`agents.pyx:779`). -/
def named : List (Str × ℕ) → (ℕ → Option Str) → ℕ → Option Str
  | [], f => f
  | x :: l, f => named l (Function.update f x.2 (some x.1))

/-- `_init_statevars` (`agents.pyx:772-786`). -/
def gather (P : Program) (c : ℕ) (W : World) : World :=
  let svs := sortByIndex W.index (P.visible c)
  { index := renumber svs 0 W.index
    label := named (P.visible c) W.label
    cache := Function.update W.cache c (some svs) }

/-- `cls._statevars`: the attribute is inherited. -/
def lookupCache (P : Program) (c : ℕ) (W : World) : Option (List (Str × ℕ)) :=
  (P.mro c).findSome? W.cache

/-- An agent: its class, and for each entry of its `_statevars` the name, the variable of the class that it
copies, and the value. -/
structure Inst where
  cls : ℕ
  vars : List (Str × ℕ × PyVal)

/-- `new_py_inst` (`gentypesystem.py:512-530`).  Blobs and UUIDs are not modelled. -/
def newInst : Ty → PyVal
  | .prim .bool => .bool false
  | .prim .int => .int 0
  | .prim .float => .float 0
  | .prim .double => .float 0
  | .prim .string => .str []
  | .prim _ => .none
  | .seq _ _ => .list []
  | .pair _ _ => .list [.none, .none]
  | .map _ _ => .dict []

/-- The value of a new copy of a variable (`agents.pyx:754-759`). -/
def initial (P : Program) (v : ℕ) : PyVal :=
  match P.value v with
  | .none =>
    match P.dflt v with
    | .none => newInst (P.ty v)
    | d => d
  | x => x

/-- The world after the test of `cls._statevars` (`agents.pyx:745-747`). -/
def ready (P : Program) (c : ℕ) (W : World) : World :=
  match lookupCache P c W with
  | some _ => W
  | none => gather P c W

/-- `cls(ctx)` (`agents.pyx:743-762`). -/
def create (P : Program) (c : ℕ) (W : World) : World × Inst :=
  (ready P c W,
    ⟨c, ((lookupCache P c (ready P c W)).getD []).map fun x => (x.1, x.2, initial P x.2)⟩)

/-- Agents are made of one class after another. -/
def run (P : Program) (W : World) (cs : List ℕ) : World := cs.foldl (fun W c => (create P c W).1) W

/-- The entry of `obj.__dict__`. -/
def Inst.find (a : Inst) (n : Str) : Option PyVal := (a.vars.lookup n).map Prod.snd

/-- `obj.__dict__[n].value = x`. -/
def setEntry (n : Str) (x : PyVal) : List (Str × ℕ × PyVal) → Option (List (Str × ℕ × PyVal))
  | [] => none
  | e :: l => if e.1 = n then some ((e.1, e.2.1, x) :: l) else (setEntry n x l).map fun l => e :: l

/-- `getattr(obj, name)` (`gentypesystem.py:1851-1854`). -/
def get (P : Program) (W : World) (a : Inst) (n : Str) : Except Fault PyVal :=
  match P.getattr a.cls n with
  | some (some v) =>
    match (W.label v).bind a.find with
    | some x => .ok x
    | none => .error .key
  | _ => .error .attr

/-- `setattr(obj, name, x)` (`gentypesystem.py:1856-1860`). -/
def set (P : Program) (W : World) (a : Inst) (n : Str) (x : PyVal) : Except Fault Inst :=
  match P.getattr a.cls n with
  | some (some v) =>
    match (W.label v).bind fun l => setEntry l x a.vars with
    | some l => .ok { a with vars := l }
    | none => .error .key
  | _ => .error .attr

/-- `getattr(other, name, None)`. -/
def getOr (P : Program) (W : World) (a : Inst) (n : Str) : Except Fault PyVal :=
  match get P W a n with
  | .error .attr => .ok .none
  | r => r

/-- The loop over the names of the state variables. -/
def assignAll (P : Program) (W : World) (val : Str → Except Fault PyVal) : List Str → Inst → Except Fault Inst
  | [], a => .ok a
  | n :: l, a => (val n).bind fun x => (set P W a n x).bind fun a => assignAll P W val l a

/-- `init_from_agent` (`agents.pyx:799-807`), without inventories. -/
def initFromAgent (P : Program) (W : World) (a other : Inst) : Except Fault Inst :=
  assignAll P W (getOr P W other) (a.vars.map Prod.fst) a

/-- `Clone` (`agents.pyx:70-77`). -/
def clone (P : Program) (W : World) (a : Inst) : World × Except Fault Inst :=
  let r := create P a.cls W
  (r.1, initFromAgent P r.1 r.2 a)

/-- A column of the row: name, type and value. -/
abbrev Cell := Str × Ty × Val

/-- `snapshot` (`agents.pyx:933-942`). -/
def snapshot (P : Program) (a : Inst) : Except Fault (List Cell) :=
  match PyInfile.each (fun e => (PyInfile.toCpp (P.ty e.2.1) e.2.2).bind fun w => .ok (e.1, P.ty e.2.1, w))
      a.vars with
  | .ok row => .ok row
  | .error e => .error (.conv e)

mutual
/-- `db_to_py` and the converters (`gentypesystem.py:533-646`). -/
def toPy : Val → PyVal
  | .bool b => .bool b
  | .int z => .int z
  | .dbl q => .float q
  | .str s => .str s
  | .seq l => .list (toPyList l)
  | .pair a b => .list [toPy a, toPy b]
  | .map l => .dict (toPyItems l)
  | _ => .none
/-- The loop over elements. -/
def toPyList : List Val → List PyVal
  | [] => []
  | v :: l => toPy v :: toPyList l
/-- The loop over entries. -/
def toPyItems : List (Val × Val) → List (PyVal × PyVal)
  | [] => []
  | (k, v) :: l => (toPy k, toPy v) :: toPyItems l
end

/-- `single_query_result_to_py` (`lib.pyx:172-189`). -/
def singleResult (fields : List Str) (rows : List (List Val)) (row : ℕ) : Except Fault (List (Str × PyVal)) :=
  if rows.length < row then .error .value
  else
    match rows[row]? with
    | some r => .ok (fields.zip (r.map toPy))
    | none => if fields = [] then .ok [] else .error .ub

/-- `init_from_dict` (`agents.pyx:916-923`), without inventories. -/
def initFromDict (P : Program) (W : World) (a : Inst) (d : List (Str × PyVal)) : Except Fault Inst :=
  assignAll P W (fun n => match d.lookup n with | some x => .ok x | none => .error .key)
    (a.vars.map Prod.fst) a

/-- `InitFrom(QueryableBackend*)` (`agents.pyx:93-100`), given the table of one row. -/
def initFrom (P : Program) (W : World) (a : Inst) (row : List Cell) : Except Fault Inst :=
  (singleResult (row.map Prod.fst) [row.map fun x => x.2.2] 0).bind fun d => initFromDict P W a d

/-- The keys of `to_dict` (`gentypesystem.py:1862-1868`, 767-792). -/
def dictKeys : List String :=
  ["value", "name", "type", "index", "default", "internal", "shape", "doc", "tooltip", "units", "userlevel",
   "alias", "uilabel", "uitype", "range", "categorical", "schematype", "initfromcopy", "initfromdb",
   "infiletodb", "schema", "snapshot", "snapshotinv", "initinv", "uniquetypeid"]

/-- `for k, v in d`: each key is taken apart into two. -/
def unpack : List Str → Except Fault (List (Char × Char))
  | [] => .ok []
  | [c, d] :: l => (unpack l).bind fun r => .ok ((c, d) :: r)
  | _ :: _ => .error .value

/-- The entry `vars` of `annotations_json` (`agents.pyx:988-990`). -/
def annotations (keys : List Str) : List (Str × ℕ) → Except Fault (List (Str × List (Char × Char)))
  | [] => .ok []
  | x :: l => (unpack keys).bind fun r => (annotations keys l).bind fun rs => .ok ((x.1, r) :: rs)

end Cyclus.PyAgent
