import Verif.Model.Cycpp
import Mathlib.Data.Rat.Defs
import Mathlib.Algebra.Order.Field.Rat

/-!
Model of the code the preprocessor generates to save and restore the state variables of an
archetype: `SnapshotFilter`, `SnapshotInvFilter`, `InitFromDbFilter` and `InitInvFilter` of
`/repo/cli/cycpp.py`, with the part of pass 2 that collects the variables.

The generated text is modelled by statements.  Names of variables are natural numbers.
-/

namespace Cyclus.Cycpp

abbrev Name := ℕ

/-- The annotations of a state variable the four filters read.  `ty` is the canonical type
and `shape` what `canonize_shape` returned (`cli/cycpp.py:499-502`).  `alt` is the `alias`
given by the developer, reduced to its first string (lines 505-507).  `capacity` is the text
given for a buffer, seen as its value in terms of the plain members.  The last four say if
the developer gave own code for a pragma. -/
structure Ann where
  ty : Ty
  shape : Option (List Int) := none
  alt : Option Name := none
  capacity : Option ((Name → ℕ) → ℚ) := none
  ownSnapshot : Bool := false
  ownSnapshotInv : Bool := false
  ownInitFromDb : Bool := false
  ownInitInv : Bool := false

/-- An entry of `context[classname]['vars']`: annotations or an alias pointer, a string. -/
inductive Entry where
  | var (a : Ann)
  | ptr (x : Name)

/-- The ordered dictionary `context[classname]['vars']`. -/
abbrev Ctx := List (Name × Entry)

/-- `d[k] = e` of an ordered dictionary: an existing key keeps its place. -/
def Ctx.put (k : Name) (e : Entry) : Ctx → Ctx
  | [] => [(k, e)]
  | p :: ps => if p.1 = k then (k, e) :: ps else p :: Ctx.put k e ps

/-- `VarDeclarationFilter.transform_pass2` for one variable (`cli/cycpp.py:488-508`). -/
def declare (ctx : Ctx) (d : Name × Ann) : Ctx :=
  let ctx := ctx.put d.1 (.var d.2)
  match d.2.alt with
  | none => ctx
  | some al => ctx.put al (.ptr d.1)

/-- The dictionary after the declarations of a class. -/
def declareAll (ds : List (Name × Ann)) : Ctx := ds.foldl declare []

/-- The loops over `ctx.items()` skip alias pointers
(`if not isinstance(info, Mapping): continue`). -/
def varsOf (ctx : Ctx) : List (Name × Ann) :=
  ctx.filterMap fun p => match p.2 with
    | .var a => some (p.1, a)
    | .ptr _ => none

/-- `t if isinstance(t, STRING_TYPES) else t[0]`. -/
def keyOf : Ty → Str
  | .str s => s
  | .tup n _ => n

/-- `key in BUFFERS` for a string. -/
def isBufferKey (s : Str) : Bool := isBuffer (.str s)

/-- The generated statements for a member `x`. -/
inductive Stmt where
  /-- `->AddVal("x", x, &cycpp_shape_x)` -/
  | addVal (x : Name)
  /-- `->AddVal("x", x.obj_ids(), &cycpp_shape_x)` -/
  | addIds (x : Name)
  /-- `invs["x"] = x.PopNRes(x.count()); x.Push(invs["x"]);` -/
  | takeRes (x : Name)
  /-- `invs["x"] = x.ResValues();` -/
  | takeValues (x : Name)
  /-- `x = qr.GetVal<T>("x");` -/
  | getVal (x : Name)
  /-- `x.capacity(c);` -/
  | setCap (x : Name) (c : (Name → ℕ) → ℚ)
  /-- `x.obj_ids(qr.GetVal<T>("x"));` -/
  | getIds (x : Name)
  /-- `x.capacity();` -/
  | callCap (x : Name)
  /-- `x.Push(inv["x"]);` -/
  | pushRes (x : Name)
  /-- `x.ResValues(inv["x"]);` -/
  | setValues (x : Name)
  /-- `;` -/
  | empty (x : Name)
  /-- code of the developer -/
  | own (x : Name)

/-- The member a statement is about. -/
def Stmt.member : Stmt → Name
  | addVal x | addIds x | takeRes x | takeValues x | getVal x | setCap x _ | getIds x
  | callCap x | pushRes x | setValues x | empty x | own x => x

/-- One turn of the loop of `SnapshotFilter.impl` (`cli/cycpp.py:1873-1895`).  The test
`'shape' in info` always holds, as line 502 stores the key. -/
def snapshotOf (p : Name × Ann) : List Stmt :=
  if p.2.ownSnapshot then [.own p.1]
  else if isBuffer p.2.ty then
    (if keyOf p.2.ty = resMap then [.addIds p.1] else [])
  else [.addVal p.1]

/-- `SnapshotFilter.impl` (`cli/cycpp.py:1868-1898`). -/
def snapshot (ctx : Ctx) : List Stmt := (varsOf ctx).flatMap snapshotOf

/-- The test at `cli/cycpp.py:1925`: `t in BUFFERS or t[0] in BUFFERS`.  For a string `t[0]`
is a character. -/
def inSnapshotInv (p : Name × Ann) : Bool :=
  match p.2.ty with
  | .str s => isBuffer (.str s)
  | .tup n args => isBuffer (.tup n args) || isBufferKey n

/-- One turn of the second loop of `SnapshotInvFilter.impl` (`cli/cycpp.py:1930-1941`); a
failure of `type_to_str` ends the run of the preprocessor. -/
def snapshotInvOf (p : Name × Ann) : Except Err (List Stmt) :=
  if p.2.ownSnapshotInv then .ok [.own p.1]
  else
    match typeToStr isPrim p.2.ty with
    | .error e => .error e
    | .ok _ =>
      if keyOf p.2.ty = resBuf then .ok [.takeRes p.1]
      else if keyOf p.2.ty = resMap then .ok [.takeValues p.1]
      else if keyOf p.2.ty = invTracker then .ok [.empty p.1]
      else .error .cast

/-- `SnapshotInvFilter.impl` (`cli/cycpp.py:1914-1947`). -/
def snapshotInv (ctx : Ctx) : Except Err (List Stmt) :=
  (((varsOf ctx).filter inSnapshotInv).mapM snapshotInvOf).map List.flatten

/-- 1e300 (`cli/cycpp.py:1124`). -/
def bigCap : ℚ := 10 ^ 300

/-- One turn of the first loop of `InitFromDbFilter.impl` (`cli/cycpp.py:1110-1130`), for a
member that is not put aside as a buffer. -/
def initPlainOf (p : Name × Ann) : Except Err (List Stmt) :=
  if p.2.ownInitFromDb then .ok [.own p.1]
  else match typeToStr isPrim p.2.ty with
    | .ok (.str _) => .ok [.getVal p.1]
    | .ok (.tup _ _) => .error .generic
    | .error e => .error e

/-- A member put aside in `cap_buffs` (`cli/cycpp.py:1115-1126`). -/
def isCapBuff (p : Name × Ann) : Bool := !p.2.ownInitFromDb && isBufferKey (keyOf p.2.ty)

/-- One turn of the second loop of `InitFromDbFilter.impl` (`cli/cycpp.py:1132-1140`). -/
def initBuffOf (p : Name × Ann) : Except Err (List Stmt) :=
  match typeToStr isPrim p.2.ty with
  | .error e => .error e
  | .ok _ =>
    if keyOf p.2.ty = resBuf then .ok [.setCap p.1 (p.2.capacity.getD fun _ => bigCap)]
    else if keyOf p.2.ty = resMap then .ok [.getIds p.1]
    else if keyOf p.2.ty = invTracker then .ok [.callCap p.1]
    else .error .cast

/-- `InitFromDbFilter.impl` (`cli/cycpp.py:1097-1142`), without the calls of the parents. -/
def initFromDb (ctx : Ctx) : Except Err (List Stmt) :=
  match (((varsOf ctx).filter fun p => !isCapBuff p).mapM initPlainOf) with
  | .error e => .error e
  | .ok ps =>
    match ((varsOf ctx).filter isCapBuff).mapM initBuffOf with
    | .error e => .error e
    | .ok bs => .ok (ps.flatten ++ bs.flatten)

/-- One turn of the second loop of `InitInvFilter.impl` (`cli/cycpp.py:1985-1996`). -/
def initInvOf (p : Name × Ann) : Except Err (List Stmt) :=
  if p.2.ownInitInv then .ok [.own p.1]
  else if keyOf p.2.ty = resBuf then .ok [.pushRes p.1]
  else if keyOf p.2.ty = resMap then .ok [.setValues p.1]
  else if keyOf p.2.ty = invTracker then .ok [.empty p.1]
  else .error .cast

/-- `InitInvFilter.impl` (`cli/cycpp.py:1969-1998`): only members with `t in BUFFERS` (line
1981). -/
def initInv (ctx : Ctx) : Except Err (List Stmt) :=
  (((varsOf ctx).filter fun p => isBuffer p.2.ty).mapM initInvOf).map List.flatten

/-- The shape variables pass 3 declares (`cli/cycpp.py:520-533`). -/
def shapesDeclared (ctx : Ctx) : List Name :=
  ((varsOf ctx).filter fun p => p.2.shape.isSome).map Prod.fst

/-- The shape variables `Snapshot` refers to. -/
def shapesUsed (ss : List Stmt) : List Name :=
  ss.filterMap fun s => match s with
    | .addVal x | .addIds x => some x
    | _ => none

/-! ## Running the statements -/

/-- The members of an archetype: the plain values, and the capacity and contents (the
quantities, in order) of the buffers. -/
structure Agent where
  data : Name → ℕ
  cap : Name → ℚ
  res : Name → List ℚ

/-- `m[k] = v`. -/
def upd {α : Type} (f : Name → α) (k : Name) (v : α) : Name → α :=
  fun x => if x = k then v else f x

/-- The row of the table `Info` written by `Snapshot`.  Statements outside the fragment with
plain members and `ResBuf` members are errors. -/
def runSnapshot (a : Agent) : List Stmt → List (Name × ℕ) → Except Err (List (Name × ℕ))
  | [], row => .ok row
  | .addVal x :: ss, row => runSnapshot a ss (row ++ [(x, a.data x)])
  | _ :: _, _ => .error .generic

/-- The inventories returned by `SnapshotInv`.  Popping all resources and pushing them back
leaves the buffer as it is (`src/toolkit/res_buf.h`). -/
def runSnapshotInv (a : Agent) : List Stmt → (Name → List ℚ) → Except Err (Name → List ℚ)
  | [], inv => .ok inv
  | .takeRes x :: ss, inv => runSnapshotInv a ss (upd inv x (a.res x))
  | _ :: _, _ => .error .generic

/-- `InitFrom(b)` on a new agent with the row of the table `Info`; `GetVal` throws for a
field that is not in the row (`src/query_backend.h:456-477`), `capacity(c)` for a negative
capacity and for one below the contents (`src/toolkit/res_buf.h:81-94`). -/
def runInitFrom (eps : ℚ) (row : List (Name × ℕ)) : List Stmt → Agent → Except Err Agent
  | [], a => .ok a
  | .getVal x :: ss, a =>
    match row.find? (fun p => p.1 = x) with
    | none => .error .key
    | some p => runInitFrom eps row ss { a with data := upd a.data x p.2 }
  | .setCap x c :: ss, a =>
    if c a.data < 0 then .error .value
    else if (a.res x).sum - c a.data > eps then .error .value
    else runInitFrom eps row ss { a with cap := upd a.cap x (c a.data) }
  | _ :: _, _ => .error .generic

/-- `InitInv(inv)`; `Push` of a list throws if it does not fit
(`src/toolkit/res_buf.h:312-348`; `space()` is at least zero, line 118). -/
def runInitInv (eps : ℚ) (inv : Name → List ℚ) : List Stmt → Agent → Except Err Agent
  | [], a => .ok a
  | .pushRes x :: ss, a =>
    if (inv x).sum - max 0 (a.cap x - (a.res x).sum) > eps then .error .value
    else runInitInv eps inv ss { a with res := upd a.res x (a.res x ++ inv x) }
  | _ :: _, _ => .error .generic

end Cyclus.Cycpp
