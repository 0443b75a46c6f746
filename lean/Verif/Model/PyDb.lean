import Verif.Model.PyAgent

/-!
# Model of recording and querying data from Python

Models `_Datum`, `query_result_to_py` and `_FullBackend` of `/repo/cyclus/lib.pyx:73-169`, 192-279, with the
recorder (`/repo/src/recorder.cc:67-111`) and the data (`/repo/src/datum.cc:11-37`) they work on.

* Types and values of C++, values of Python and the conversions between them are those of
  `Model/InfileGen.lean`, `Model/PyInfile.lean` and `Model/PyAgent.lean`.
* The name of a column is kept in a `Datum` twice, as a `std::string` (`fields_`) and as a pointer (`vals_`).  The
  pointer is to memory that stays, or to a bytes object of Python with a number, which is alive or not.
* A character is a byte.  `encode` gives a new bytes object, except for texts of at most one byte, of which the
  interpreter keeps one object each.  Bytes objects that the caller passes are kept by the caller.
* A program makes a datum with `new_datum`, calls `add_val`, calls `record`, and drops the Python object; an exception
  of `add_val` ends that, and is caught.  The capacity of the recorder does not change.  Backends do not throw.
* A data frame of pandas is a list of named columns.
-/

namespace Cyclus.PyDb

open InfileGen (Str Ty PyVal Val)

/-- A `const char*`. -/
inductive Ptr where
  /-- To memory that stays. -/
  | stays (s : Str)
  /-- To the text of a bytes object. -/
  | obj (a : ℕ)
  deriving DecidableEq

/-- An entry of `vals_`, `fields_` and `shapes_` (`datum.cc:11-26`). -/
structure Entry where
  name : Ptr
  field : Str
  ty : Ty
  val : Val
  shape : List ℤ

/-- A `Datum`. -/
structure Slot where
  title : Str
  entries : List Entry

/-- What a backend reads of an entry: what the pointer points to (`none` if that was freed), the name kept as a
string, the type, the value and the shape. -/
structure Cell where
  name : Option Str
  field : Str
  ty : Ty
  val : Val
  shape : List ℤ

/-- What a backend reads of a datum. -/
structure Row where
  title : Str
  cells : List Cell

/-- The recorder, the bytes objects, and what the backends got. -/
structure St where
  slots : List Slot
  index : ℕ
  alive : ℕ → Option Str
  next : ℕ
  got : List Row

/-- The text as C sees it. -/
def cstr (s : Str) : Str := s.takeWhile fun c => c ≠ Char.ofNat 0

def Entry.read (alive : ℕ → Option Str) (e : Entry) : Cell :=
  ⟨match e.name with
    | .stays s => some (cstr s)
    | .obj a => (alive a).map cstr, e.field, e.ty, e.val, e.shape⟩

def Slot.read (alive : ℕ → Option Str) (s : Slot) : Row := ⟨s.title, s.entries.map (Entry.read alive)⟩

/-- The argument `type` of `add_val`. -/
inductive TyArg where
  | none
  | unknown
  | known (t : Ty)

/-- The argument `field` of `add_val`. -/
inductive FieldArg where
  | str (s : Str)
  | bytes (s : Str)
  | other

/-- The arguments of `add_val`. -/
structure Add where
  field : FieldArg
  value : PyVal
  shape : Option (List ℤ)
  type : TyArg

/-- The exceptions. -/
inductive Exc where
  | type
  | value
  | overflow
  | conv (e : PyInfile.Exc)
  deriving DecidableEq

/-- `py_to_any` (`gentypesystem.py:1629-1686`), called after the test for `None` (`lib.pyx:111-114`). -/
def toAny (x : PyVal) : TyArg → Except Exc (Ty × Val)
  | .none => .error .type
  | .unknown => .error .type
  | .known t =>
    match PyInfile.toCpp t x with
    | .ok v => .ok (t, v)
    | .error e => .error (.conv e)

/-- `<int> shape[i]` for all `i` (`lib.pyx:127-130`); without a shape the datum gets an empty one
(`datum.cc:14-18`). -/
def toShape : Option (List ℤ) → Except Exc (List ℤ)
  | none => .ok []
  | some l => if l.all fun z => -2147483648 ≤ z ∧ z ≤ 2147483647 then .ok l else .error .overflow

/-- The bytes object for the field name (`lib.pyx:115-120`): the pointer, the text, and the bytes objects there are
afterwards. -/
def encode (alive : ℕ → Option Str) (next : ℕ) : FieldArg → Except Exc (Ptr × Str × (ℕ → Option Str) × ℕ)
  | .str s =>
    if s.length ≤ 1 then .ok (.stays s, s, alive, next)
    else .ok (.obj next, s, Function.update alive next (some s), next + 1)
  | .bytes s => .ok (.stays s, s, alive, next)
  | .other => .error .value

/-- The bytes object in `_fields`. -/
def Ptr.object : Ptr → List ℕ
  | .stays _ => []
  | .obj a => [a]

/-- `add_val` (`lib.pyx:91-132`) on the entries of the datum: the bytes objects there are, those in `_fields`, the entries,
and the exception if there is one. -/
def addVal (alive : ℕ → Option Str) (next : ℕ) (fields : List ℕ) (es : List Entry) (a : Add) :
    (ℕ → Option Str) × ℕ × List ℕ × List Entry × Option Exc :=
  match toAny a.value a.type with
  | .error e => (alive, next, fields, es, some e)
  | .ok (t, v) =>
    match encode alive next a.field with
    | .error e => (alive, next, fields, es, some e)
    | .ok (p, s, alive, next) =>
      match toShape a.shape with
      | .error e => (alive, next, fields ++ p.object, es, some e)
      | .ok sh => (alive, next, fields ++ p.object, es ++ [⟨p, cstr s, t, v, sh⟩], none)

/-- The calls of `add_val`, up to the first exception. -/
def addVals (alive : ℕ → Option Str) (next : ℕ) (fields : List ℕ) (es : List Entry) :
    List Add → (ℕ → Option Str) × ℕ × List ℕ × List Entry × Option Exc
  | [] => (alive, next, fields, es, none)
  | a :: as =>
    match addVal alive next fields es a with
    | (alive, next, fields, es, none) => addVals alive next fields es as
    | r => r

/-- `_fields.clear()`, or the end of the Python object (`lib.pyx:81-89`, 134-137). -/
def release (fields : List ℕ) (alive : ℕ → Option Str) : ℕ → Option Str :=
  fun a => if a ∈ fields then none else alive a

/-- `Record`, `AddDatum` and `NotifyBackends` (`datum.cc:35-37`, `recorder.cc:85-89`, 105-111). -/
def record (s : St) : St :=
  if s.index ≥ s.slots.length then { s with index := 0, got := s.got ++ s.slots.map (Slot.read s.alive) } else s

/-- `Flush` (`recorder.cc:91-103`). -/
def flush (s : St) : St :=
  if s.index = 0 then s
  else { s with index := 0, got := s.got ++ (s.slots.take s.index).map (Slot.read s.alive) }

/-- What every datum starts with: the id of the simulation or nothing (`recorder.cc:58-61`, 70-78). -/
def baseOf : Option Val → List Entry
  | none => []
  | some u => [⟨.stays ['S', 'i', 'm', 'I', 'd'], ['S', 'i', 'm', 'I', 'd'], .prim .uuid, u, []⟩]

/-- A datum from `new_datum` to its end; `base` is what each datum starts with, the id of the simulation or nothing
(`recorder.cc:67-83`).  `none` is an access beyond the end of `data_`. -/
def datum (base : List Entry) (s : St) (title : Str) (adds : List Add) : Option (St × Option Exc) :=
  if s.index < s.slots.length then
    match addVals s.alive s.next [] base adds with
    | (alive, next, fields, es, e) =>
      let s : St := { s with
        slots := s.slots.set s.index ⟨title, es⟩, index := s.index + 1, alive := alive, next := next }
      let s := match e with
        | none => record s
        | some _ => s
      some ({ s with alive := release fields s.alive }, e)
  else none

/-- What a program does. -/
inductive Act where
  | datum (title : Str) (adds : List Add)
  | flush

/-- A program.  Exceptions are caught. -/
def run (base : List Entry) : St → List Act → Option St
  | s, [] => some s
  | s, .datum title adds :: as =>
    match datum base s title adds with
    | none => none
    | some (s, _) => run base s as
  | s, .flush :: as => run base (flush s) as

/-- A recorder with room for `n` data. -/
def start (n : ℕ) : St := ⟨List.replicate n ⟨[], []⟩, 0, fun _ => none, 0, []⟩

/-! ## Queries -/

/-- A table of the database. -/
structure Table where
  cols : List (Str × Ty)
  rows : List (List Val)

/-- The operators of `Cond` (`query_backend.h:386-405`). -/
inductive Op where
  | lt | gt | le | ge | eq | ne
  deriving DecidableEq

def Op.parse (s : Str) : Option Op :=
  if s = ['<'] then some .lt
  else if s = ['>'] then some .gt
  else if s = ['<', '='] then some .le
  else if s = ['>', '='] then some .ge
  else if s = ['=', '='] then some .eq
  else if s = ['!', '='] then some .ne
  else none

/-- The conditions passed on to C++ (`lib.pyx:231-240`).  A conversion or an operator may be refused. -/
def conds (t : Table) : List (Str × Str × PyVal) → Except Exc (List (Str × Op × Val))
  | [] => .ok []
  | (f, o, x) :: cs =>
    match t.cols.lookup (cstr f) with
    | none => conds t cs
    | some ty =>
      match PyInfile.toCpp ty x with
      | .error e => .error (.conv e)
      | .ok v =>
        match Op.parse o with
        | none => .error .value
        | some op =>
          match conds t cs with
          | .error e => .error e
          | .ok r => .ok ((cstr f, op, v) :: r)

/-- `Query` of the backends: the rows for which all conditions hold (C30, C106); `cmp` compares a value with that of a
condition. -/
def select (cmp : Op → Val → Val → Bool) (t : Table) (cs : List (Str × Op × Val)) : List (List Val) :=
  t.rows.filter fun r => cs.all fun c =>
    match ((t.cols.map Prod.fst).zip r).lookup c.1 with
    | some v => cmp c.2.1 v c.2.2
    | none => false

/-- `query_result_to_py` (`lib.pyx:150-169`): column `j` of all the rows. -/
def column (rows : List (List Val)) (j : ℕ) : List PyVal := rows.filterMap fun r => (r[j]?).map PyAgent.toPy

/-- `_FullBackend.query` (`lib.pyx:207-249`): the columns in order. -/
def query (cmp : Op → Val → Val → Bool) (t : Table) (cs : Option (List (Str × Str × PyVal))) :
    Except Exc (List (Str × List PyVal)) :=
  match conds t (cs.getD []) with
  | .error e => .error e
  | .ok cs => .ok (t.cols.zipIdx.map fun p => (p.1.1, column (select cmp t cs) p.2))

/-- `_FullBackend.tables` (`lib.pyx:261-275`): the answer, and what is remembered. -/
def tables (memo : Option (List Str)) (there : List Str) : List Str × Option (List Str) :=
  match memo with
  | some l => (l, some l)
  | none => (there, some there)

end Cyclus.PyDb
