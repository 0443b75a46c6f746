import Verif.Model.Basic

/-!
# Resource identities and the tracker that writes the Resources table

Models `/repo/src/res_tracker.cc`, `/repo/src/resource.{h,cc}` (ids) and the places in
`/repo/src/product.cc` and `/repo/src/material.cc` that call the tracker.

Simplifications: quantities are rational numbers; compositions, qualities and package names are left
out, so calls that throw because of them are not steps of this machine.  Decay of a material
(`/repo/src/material.cc:186-261`) appears as a `modify` step.  `none` is the dereference of a null
`Context*` (undefined behaviour).
-/

namespace Cyclus.Tracker

/-- Which class the resources are. -/
inductive Kind where
  | product
  | material
  deriving DecidableEq, Repr

/-- A resource with its tracker.  `sid`, `oid`: `state_id_`, `obj_id_`
(`/repo/src/resource.h:29,108-112`); `ctx`: whether `ctx_` is not NULL; `tracked`: `tracked_`; `ptr`: the
object the tracker's `res_` points to (`/repo/src/res_tracker.h:54-60`). -/
structure Res where
  sid : ℕ
  oid : ℕ
  ctx : Bool
  tracked : Bool
  ptr : ℕ
  qty : ℚ
  deriving DecidableEq, Repr

/-- A row of the Resources table (`/repo/src/res_tracker.cc:107-118`), only the columns needed. -/
structure Row where
  id : ℕ
  obj : ℕ
  qty : ℚ
  p1 : ℕ
  p2 : ℕ
  deriving DecidableEq, Repr

/-- All resources (identities below `n`), the static counters `nextstate_id_` and `nextobj_id_`
(`/repo/src/resource.cc:5-6`) and the rows written so far. -/
structure St where
  obj : ℕ → Res
  n : ℕ
  nextS : ℕ
  nextO : ℕ
  rows : List Row

/-- Program start: both counters are 1 (`/repo/src/resource.cc:5-6`). -/
def init : St :=
  { obj := fun _ => ⟨0, 0, false, false, 0, 0⟩, n := 0, nextS := 1, nextO := 1, rows := [] }

/-- Writing one resource. -/
def setObj (s : St) (i : ℕ) (r : Res) : St :=
  { s with obj := fun k => if k = i then r else s.obj k }

/-- Whether a new resource's tracker tracks: always for a Product, with a context for a Material.
Models `/repo/src/res_tracker.cc:9` and `/repo/src/material.cc:270-274`. -/
def trackedInit : Kind → Bool → Bool
  | .product, _ => true
  | .material, c => c

/-- A new Product or Material.  Models `/repo/src/resource.h:29` (ids), `/repo/src/res_tracker.cc:8-13`,
`/repo/src/product.cc:120-125` and `/repo/src/material.cc:263-275` (a Material without context is not
tracked). -/
def alloc (k : Kind) (s : St) (ctx : Bool) (q : ℚ) : St :=
  { s with
    obj := fun x => if x = s.n then
      { sid := s.nextS, oid := s.nextO, ctx := ctx,
        tracked := trackedInit k ctx, ptr := s.n, qty := q } else s.obj x
    n := s.n + 1, nextS := s.nextS + 1, nextO := s.nextO + 1 }

/-- `ResTracker::Record` of the tracker of `i`.  Models `/repo/src/res_tracker.cc:103-120` and
`BumpStateId` (`/repo/src/resource.cc:8-11`). -/
def record (s : St) (i : ℕ) (bump : Bool) (p1 p2 : ℕ) : Option St :=
  let r := (s.obj i).ptr
  let s1 := if bump then
    { setObj s r { s.obj r with sid := s.nextS } with nextS := s.nextS + 1 } else s
  if (s1.obj i).ctx then
    some { s1 with rows := s1.rows ++ [⟨(s1.obj r).sid, (s1.obj r).oid, (s1.obj r).qty, p1, p2⟩] }
  else none

/-- `ResTracker::Create`.  Models `/repo/src/res_tracker.cc:19-32`. -/
def tCreate (s : St) (i : ℕ) : Option St :=
  if !(s.obj i).tracked then some s else record s i false 0 0

/-- `ResTracker::Modify`.  Models `/repo/src/res_tracker.cc:34-42`. -/
def tModify (s : St) (i : ℕ) : Option St :=
  if !(s.obj i).tracked then some s else record s i true (s.obj (s.obj i).ptr).sid 0

/-- `ResTracker::Extract`; `j` is the removed resource.  Models `/repo/src/res_tracker.cc:44-65`. -/
def tExtract (eps : ℚ) (s : St) (i j : ℕ) : Option St :=
  if !(s.obj i).tracked then some s
  else
    let old := (s.obj (s.obj i).ptr).sid
    let s1 := setObj s j { s.obj j with tracked := (s.obj i).tracked }
    match record s1 j true old 0 with
    | none => none
    | some s2 => if (s2.obj (s2.obj i).ptr).qty > eps then record s2 i true old 0 else some s2

/-- `ResTracker::Absorb`.  Models `/repo/src/res_tracker.cc:67-75`. -/
def tAbsorb (s : St) (i j : ℕ) : Option St :=
  if !(s.obj i).tracked then some s
  else record s i true (s.obj (s.obj i).ptr).sid (s.obj (s.obj j).ptr).sid

/-- `ResTracker::Package`.  Models `/repo/src/res_tracker.cc:77-101`. -/
def tPackage (s : St) (i : ℕ) (parent : Option ℕ) : Option St :=
  if !(s.obj i).tracked then some s
  else match parent with
    | some p => record s i false (s.obj (s.obj p).ptr).sid 0
    | none => record s i true (s.obj (s.obj i).ptr).sid 0

/-- Calls made by users of the resources. -/
inductive Op where
  | create (q : ℚ)
  | createUntracked (q : ℚ)
  | clone (i : ℕ)
  | extract (i : ℕ) (q : ℚ)
  | absorb (i j : ℕ)
  | modify (i : ℕ)
  | packageExtract (i : ℕ) (q : ℚ)
  | repackage (i : ℕ)
  deriving DecidableEq, Repr

/-- The test by which `PackageExtract` refuses a quantity.  Models `/repo/src/product.cc:81` and
`/repo/src/material.cc:144`. -/
def tooMuch (k : Kind) (eps have_ q : ℚ) : Bool :=
  match k with
  | .product => decide (q > have_)
  | .material => decide (q - have_ > eps)

/-- One call.  `create`: `/repo/src/product.cc:15-29`, `/repo/src/material.cc:17-22`; `createUntracked`:
product 32-37, material 24-28; `clone`: product 40-45, material 38-43 (the copy constructor also copies
the tracker, whose `res_` still points to the original); `extract`: product 59-69, material 72-99;
`absorb`: product 48-56, material 101-125; `modify`: `Transmute`, material 127-141; `packageExtract`:
product 80-95, material 143-162 (which tolerates `eps`); `repackage`: the successful branches of
`ChangePackage` that reach the tracker, product 97-117, material 164-184.  A call that throws leaves the
state as it is. -/
def step (k : Kind) (eps : ℚ) (s : St) : Op → Option St
  | .create q => tCreate (alloc k s true q) s.n
  | .createUntracked q =>
    let s1 := alloc k s false q
    some (setObj s1 s.n { s1.obj s.n with tracked := false })
  | .clone i =>
    some { s with
      obj := fun x => if x = s.n then { s.obj i with tracked := false } else s.obj x
      n := s.n + 1 }
  | .extract i q =>
    if q > (s.obj i).qty then some s
    else
      let s1 := setObj s i { s.obj i with qty := (s.obj i).qty - q }
      tExtract eps (alloc k s1 (s.obj i).ctx q) i s.n
  | .absorb i j =>
    let s1 := setObj s i { s.obj i with qty := (s.obj i).qty + (s.obj j).qty }
    let s2 := setObj s1 j { s1.obj j with qty := 0 }
    tAbsorb s2 i j
  | .modify i => tModify s i
  | .packageExtract i q =>
    if tooMuch k eps (s.obj i).qty q then some s
    else
      let s1 := setObj s i { s.obj i with qty := (s.obj i).qty - q }
      match tPackage (alloc k s1 (s.obj i).ctx q) s.n (some i) with
      | none => none
      | some s2 => if (s2.obj i).qty > eps then tModify s2 i else some s2
  | .repackage i => if (s.obj i).ctx then tPackage s i none else some s

/-- A program; `none` if some call dereferences a null context. -/
def run (k : Kind) (eps : ℚ) : St → List Op → Option St
  | s, [] => some s
  | s, op :: ops => match step k eps s op with
    | none => none
    | some s' => run k eps s' ops

end Cyclus.Tracker
