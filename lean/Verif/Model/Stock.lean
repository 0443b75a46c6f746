import Verif.Model.CompMath

/-!
# Model of the resources of a simulation, their tables, snapshots and restarts

Models what `/repo/src/material.cc`, `/repo/src/product.cc`, `/repo/src/res_tracker.cc`, `/repo/src/resource.cc`
and `Composition::Record` (`/repo/src/composition.cc:87-103`) write into the database, the snapshots of
inventories (`/repo/src/sim_init.cc:124-146`) and how a restart reads them (`/repo/src/sim_init.cc:465-485`,
`570-652`).

* Quantities are rational numbers.  A composition is represented by the value of `mass()`, which never changes.
* A call on a material in the decay mode "lazy" is a `decay` followed by the call.  The composition after a
  decay is arbitrary (C76).
* A change of package is one that succeeds (C11).  Clones are not modelled (C54), nor products without a
  context (their pieces crash, C54).
* Tables keep the order of recording.  Only the columns read by a restart are kept, of one simulation
  (`CondInjector`, `sim_init.cc:52-54`).
* Reading the first row of an empty result is undefined behaviour and gives `none`.
-/

namespace Cyclus.Stock

open Cyclus.CompMath

/-- What a resource consists of: the id of the composition of a material, or the quality of a product. -/
inductive What
  | comp (c : ℕ)
  | quality (q : String)
  deriving DecidableEq, Repr

/-- `type() == Material::kType`. -/
def What.mat : What → Bool
  | .comp _ => true
  | .quality _ => false

/-- `Package::unpackaged_name()` (`package.cc`). -/
def unpackaged : String := "unpackaged"

/-- A resource: members of `Material` (`material.h:173-178`) or `Product`, ids (`resource.h:108-112`) and
`tracked_`.  A material that is not tracked has no context. -/
structure Res where
  what : What
  qty : ℚ
  prev : ℤ
  pkg : String
  sid : ℕ
  oid : ℕ
  tracked : Bool

/-- A row of Resources (`res_tracker.cc:107-118`). -/
structure Row where
  id : ℕ
  obj : ℕ
  mat : Bool
  qty : ℚ
  qual : ℕ
  pkg : String
  deriving DecidableEq, Repr

/-- A row of AgentStateInventories (`sim_init.cc:138-143`). -/
structure InvRow where
  agent : ℕ
  time : ℤ
  name : String
  id : ℕ
  deriving DecidableEq, Repr

/-- The tables Resources, MaterialInfo, Compositions, Products and AgentStateInventories. -/
structure Db where
  resources : List Row
  info : List (ℕ × ℤ)
  compositions : List (ℕ × ℕ × ℚ)
  products : List (ℕ × String)
  inv : List InvRow

/-- A simulation: resources (identities below `n`), `nextstate_id_`, `nextobj_id_`, compositions (ids below
`nextC`) and their `recorded_`, `qualids_`, `next_qualid_`, the time and the database. -/
structure St where
  res : ℕ → Res
  n : ℕ
  nextS : ℕ
  nextO : ℕ
  comp : ℕ → CompMap
  nextC : ℕ
  recorded : ℕ → Bool
  quals : List (String × ℕ)
  nextQ : ℕ
  time : ℤ
  db : Db

/-- The start: counters are 1 (`resource.cc:5-6`, `composition.cc:15`, `product.cc:12`).
Composition 0, which no composition of the code has, is blank. -/
def init : St where
  res _ := ⟨.comp 0, 0, 0, unpackaged, 0, 0, false⟩
  n := 0
  nextS := 1
  nextO := 1
  comp _ := []
  nextC := 1
  recorded _ := false
  quals := []
  nextQ := 1
  time := 0
  db := ⟨[], [], [], [], []⟩

/-- Writing one resource. -/
def setRes (s : St) (i : ℕ) (r : Res) : St := { s with res := fun k => if k = i then r else s.res k }

/-- A new resource gets the next ids (`resource.h:29`). -/
def alloc (s : St) (what : What) (qty : ℚ) (prev : ℤ) (pkg : String) (tracked : Bool) : St :=
  { s with
    res := fun k => if k = s.n then ⟨what, qty, prev, pkg, s.nextS, s.nextO, tracked⟩ else s.res k
    n := s.n + 1, nextS := s.nextS + 1, nextO := s.nextO + 1 }

/-- `qual_id()` (`material.cc:30-32`, `product.h`): `qualids_.find(quality_)->second`. -/
def qualId (s : St) : What → ℕ
  | .comp c => c
  | .quality q => (s.quals.lookup q).getD 0

/-- `Composition::Record` (`composition.cc:87-103`). -/
def recordComp (s : St) (c : ℕ) : St :=
  if s.recorded c then s
  else { s with
    recorded := fun k => if k = c then true else s.recorded k
    db := { s.db with compositions := s.db.compositions ++
      (normalize (s.comp c) 1).map fun e => (c, e.1, e.2) } }

/-- `ResTracker::Record` (`res_tracker.cc:103-120`) and `Material::Record` (`material.cc:45-54`). -/
def record (s : St) (i : ℕ) (bump : Bool) : St :=
  let s := if bump then { setRes s i { s.res i with sid := s.nextS } with nextS := s.nextS + 1 } else s
  let r := s.res i
  let s := { s with db := { s.db with
    resources := s.db.resources ++ [⟨r.sid, r.oid, r.what.mat, r.qty, qualId s r.what, r.pkg⟩] } }
  match r.what with
  | .quality _ => s
  | .comp c => recordComp { s with db := { s.db with info := s.db.info ++ [(r.sid, r.prev)] } } c

/-- The parts of the tracker that begin with `if (!tracked_) return;` (`res_tracker.cc:19-101`). -/
def track (s : St) (i : ℕ) (bump : Bool) : St := if (s.res i).tracked then record s i bump else s

/-- `Composition::CreateFromMass` (`composition.cc:29-39`). -/
def newComp (isnuc : ℕ → Bool) (s : St) (v : CompMap) : Except Err (St × ℕ) :=
  match createFrom isnuc v with
  | .error e => .error e
  | .ok w => .ok ({ s with comp := fun k => if k = s.nextC then w else s.comp k, nextC := s.nextC + 1 }, s.nextC)

/-- `ResTracker::Extract` (`res_tracker.cc:44-65`); `j` is the piece. -/
def trackExtract (eps : ℚ) (s : St) (i j : ℕ) : St :=
  if !(s.res i).tracked then s
  else
    let s := record s j true
    if (s.res i).qty > eps then record s i true else s

/-- `Material::ExtractComp` (`material.cc:72-99`). -/
def extractComp (isnuc : ℕ → Bool) (eps : ℚ) (s : St) (i : ℕ) (q : ℚ) (c : ℕ) (thr : ℚ) : St :=
  match (s.res i).what with
  | .quality _ => s
  | .comp c0 =>
    let r := s.res i
    if r.qty < q then s
    else
      let mixed : Except Err (St × ℕ) :=
        if c0 ≠ c then
          match applyThreshold (sub (normalize (s.comp c0) r.qty) (normalize (s.comp c) q)) thr with
          | .error e => .error e
          | .ok v => newComp isnuc s v
        else .ok (s, c0)
      match mixed with
      | .error _ => s
      | .ok (s1, c1) =>
        let s2 := setRes s1 i { r with qty := r.qty - q, what := .comp c1 }
        trackExtract eps (alloc s2 (.comp c) q r.prev unpackaged r.tracked) i s.n

/-- `Product::Extract` (`product.cc:59-69`). -/
def extractProd (eps : ℚ) (s : St) (i : ℕ) (q : ℚ) : St :=
  match (s.res i).what with
  | .comp _ => s
  | .quality _ =>
    let r := s.res i
    if q > r.qty then s
    else
      let s1 := setRes s i { r with qty := r.qty - q }
      trackExtract eps (alloc s1 r.what q 0 r.pkg r.tracked) i s.n

/-- `Absorb`: `qty_ += other->qty_; other->qty_ = 0;` and the tracker (`material.cc:121-124`,
`product.cc:52-55`). -/
def finishAbsorb (s : St) (i j : ℕ) : St :=
  let s1 := setRes s i { s.res i with qty := (s.res i).qty + (s.res j).qty }
  let s2 := setRes s1 j { s1.res j with qty := 0 }
  track s2 i true

/-- `Material::Absorb` (`material.cc:101-125`) and `Product::Absorb` (`product.cc:48-56`). -/
def absorb (isnuc : ℕ → Bool) (s : St) (i j : ℕ) : St :=
  match (s.res i).what, (s.res j).what with
  | .comp c0, .comp c1 =>
    let mixed : Except Err (St × ℕ) :=
      if c0 ≠ c1 then
        newComp isnuc s (add (normalize (s.comp c0) (s.res i).qty) (normalize (s.comp c1) (s.res j).qty))
      else .ok (s, c0)
    match mixed with
    | .error _ => s
    | .ok (s1, c) =>
      let r := s.res i
      let s2 := setRes s1 i { r with
        what := .comp c, prev := if r.qty < (s.res j).qty then (s.res j).prev else r.prev }
      finishAbsorb s2 i j
  | .quality q, .quality q' => if q' ≠ q then s else finishAbsorb s i j
  | _, _ => s

/-- `Material::Transmute` (`material.cc:127-141`): the time is set after recording. -/
def transmute (s : St) (i : ℕ) (c : ℕ) : St :=
  match (s.res i).what with
  | .quality _ => s
  | .comp _ =>
    let s1 := track (setRes s i { s.res i with what := .comp c }) i true
    if (s1.res i).tracked ∧ s1.time > (s1.res i).prev then setRes s1 i { s1.res i with prev := s1.time } else s1

/-- `Material::Decay` when the composition changes (`material.cc:233-235`). -/
def decay (s : St) (i : ℕ) (t : ℤ) (c : ℕ) : St :=
  match (s.res i).what with
  | .quality _ => s
  | .comp _ => transmute (setRes s i { s.res i with prev := t }) i c

/-- `PackageExtract` (`material.cc:143-162`, `product.cc:80-95`). -/
def packageExtract (eps : ℚ) (s : St) (i : ℕ) (q : ℚ) (pkg : String) : St :=
  let r := s.res i
  if (r.what.mat = true ∧ q - r.qty > eps) ∨ (r.what.mat = false ∧ q > r.qty) then s
  else
    let s1 := setRes s i { r with qty := r.qty - q }
    let s2 := track (alloc s1 r.what q r.prev pkg r.tracked) s.n false
    if (s2.res i).qty > eps then track s2 i true else s2

/-- `ChangePackage` when it succeeds (`material.cc:164-184`, `product.cc:97-117`). -/
def changePackage (s : St) (i : ℕ) (pkg : String) : St :=
  let r := s.res i
  if !r.tracked then s
  else if r.what.mat then
    if pkg = unpackaged then setRes s i { r with pkg := pkg }
    else track (setRes s i { r with pkg := pkg }) i true
  else if pkg = r.pkg then s
  else track (setRes s i { r with pkg := pkg }) i true

/-- What agents hold: for each its inventories (`SnapshotInv()`) by name. -/
abbrev Holdings := List (ℕ × List (String × List ℕ))

/-- The rows of a snapshot (`sim_init.cc:130-145`). -/
def invRows (s : St) (h : Holdings) : List InvRow :=
  h.flatMap fun a => a.2.flatMap fun x => x.2.map fun i => ⟨a.1, s.time, x.1, (s.res i).sid⟩

/-- What happens in a simulation. -/
inductive Op
  | tick
  | newComp (v : CompMap)
  | createMat (q : ℚ) (c : ℕ) (pkg : String)
  | createUntracked (q : ℚ) (c : ℕ)
  | createProd (q : ℚ) (quality pkg : String)
  | extractComp (i : ℕ) (q : ℚ) (c : ℕ) (thr : ℚ)
  | extractProd (i : ℕ) (q : ℚ)
  | absorb (i j : ℕ)
  | transmute (i : ℕ) (c : ℕ)
  | decay (i : ℕ) (t : ℤ) (c : ℕ)
  | packageExtract (i : ℕ) (q : ℚ) (pkg : String)
  | changePackage (i : ℕ) (pkg : String)
  | snapshot (h : Holdings)

/-- The objects a call refers to exist; a `CompMap` has distinct keys. -/
def Op.ok (s : St) : Op → Bool
  | .newComp v => decide (v.map Prod.fst).Nodup
  | .createMat _ c _ | .createUntracked _ c => decide (c < s.nextC)
  | .extractComp i _ c _ | .transmute i c | .decay i _ c => decide (i < s.n) && decide (c < s.nextC)
  | .extractProd i _ | .packageExtract i _ _ | .changePackage i _ => decide (i < s.n)
  | .absorb i j => decide (i < s.n) && decide (j < s.n)
  | _ => true

/-- `Product::Create` (`product.cc:15-29`). -/
def createProd (s : St) (q : ℚ) (quality pkg : String) : St :=
  let s1 := if (s.quals.lookup quality).isNone then
    { s with quals := s.quals ++ [(quality, s.nextQ)], nextQ := s.nextQ + 1,
             db := { s.db with products := s.db.products ++ [(s.nextQ, quality)] } } else s
  track (alloc s1 (.quality quality) q 0 pkg true) s.n false

/-- One of them.  A call that throws, or that refers to nothing, changes nothing. -/
def step (isnuc : ℕ → Bool) (eps : ℚ) (s : St) (op : Op) : St :=
  if !op.ok s then s
  else match op with
  | .tick => { s with time := s.time + 1 }
  | .newComp v => match newComp isnuc s v with
    | .ok (s1, _) => s1
    | .error _ => s
  | .createMat q c pkg => track (alloc s (.comp c) q s.time pkg true) s.n false
  | .createUntracked q c => alloc s (.comp c) q 0 unpackaged false
  | .createProd q quality pkg => createProd s q quality pkg
  | .extractComp i q c thr => extractComp isnuc eps s i q c thr
  | .extractProd i q => extractProd eps s i q
  | .absorb i j => absorb isnuc s i j
  | .transmute i c => transmute s i c
  | .decay i t c => decay s i t c
  | .packageExtract i q pkg => packageExtract eps s i q pkg
  | .changePackage i pkg => changePackage s i pkg
  | .snapshot h => { s with db := { s.db with inv := s.db.inv ++ invRows s h } }

/-- A history. -/
def run (isnuc : ℕ → Bool) (eps : ℚ) : St → List Op → St
  | s, [] => s
  | s, op :: ops => run isnuc eps (step isnuc eps s op) ops

/-! ## Restart -/

/-- A resource made by a restart; `content` is the composition's masses or the quality. -/
structure Loaded where
  content : CompMap ⊕ String
  qual : ℕ
  qty : ℚ
  prev : ℤ
  pkg : String
  sid : ℕ
  oid : ℕ
  deriving DecidableEq

/-- `cm[nuc] = x`. -/
def put (v : CompMap) (n : ℕ) (x : ℚ) : CompMap :=
  match v with
  | [] => [(n, x)]
  | (k, y) :: rest => if k = n then (k, x) :: rest else (k, y) :: put rest n x

/-- `SimInit::LoadComposition` (`sim_init.cc:615-629`). -/
def loadComposition (isnuc : ℕ → Bool) (db : Db) (q : ℕ) : Except Err CompMap :=
  createFrom isnuc ((db.compositions.filter fun e => e.1 = q).foldl (fun cm e => put cm e.2.1 e.2.2) [])

/-- `SimInit::LoadResource`, `LoadMaterial` and `LoadProduct` (`sim_init.cc:570-613`, `631-652`).  The package of
the new resource is the default of `Create`. -/
def loadResource (isnuc : ℕ → Bool) (db : Db) (sid : ℕ) : Option (Except Err Loaded) :=
  match db.resources.find? (fun r => r.id = sid) with
  | none => none
  | some r =>
    if r.mat then
      match db.info.find? (fun e => e.1 = sid) with
      | none => none
      | some e =>
        match loadComposition isnuc db r.qual with
        | .error err => some (.error err)
        | .ok cm => some (.ok ⟨.inl cm, r.qual, r.qty, e.2, unpackaged, sid, r.obj⟩)
    else
      match db.products.find? (fun e => e.1 = r.qual) with
      | none => none
      | some e => some (.ok ⟨.inr e.2, r.qual, r.qty, 0, unpackaged, sid, r.obj⟩)

/-- The loop over the rows (`sim_init.cc:478-482`).  The map `invs` is given by the list of what is pushed
under each name. -/
def loadRows (isnuc : ℕ → Bool) (db : Db) : List InvRow → Option (Except Err (List (String × Loaded)))
  | [] => some (.ok [])
  | r :: rs =>
    match loadResource isnuc db r.id with
    | none => none
    | some (.error e) => some (.error e)
    | some (.ok l) =>
      match loadRows isnuc db rs with
      | none => none
      | some (.error e) => some (.error e)
      | some (.ok ls) => some (.ok ((r.name, l) :: ls))

/-- `SimInit::LoadInventories` for one agent (`sim_init.cc:465-485`). -/
def loadInventories (isnuc : ℕ → Bool) (db : Db) (t : ℤ) (agent : ℕ) :
    Option (Except Err (List (String × Loaded))) :=
  loadRows isnuc db (db.inv.filter fun r => r.time = t ∧ r.agent = agent)

/-- `invs[name]`. -/
def inventory (l : List (String × Loaded)) (name : String) : List Loaded :=
  (l.filter fun e => e.1 = name).map Prod.snd

/-- The content of a resource made by a restart. -/
def Loaded.what (l : Loaded) : What :=
  match l.content with
  | .inl _ => .comp l.qual
  | .inr q => .quality q

/-- The simulation that goes on after a restart with the resources `ls`: their compositions count as recorded
(`sim_init.cc:626`), their qualities have ids (`sim_init.cc:646`), the counters are those of the snapshot, and the
database is a new one, without what was recorded while loading (`sim_init.cc:78-79`). -/
def restart (old : St) (ls : List Loaded) : St where
  res k := match ls[k]? with
    | some l => ⟨l.what, l.qty, l.prev, l.pkg, l.sid, l.oid, true⟩
    | none => init.res k
  n := ls.length
  nextS := old.nextS
  nextO := old.nextO
  comp c := match ls.find? (fun l => l.what = .comp c) with
    | some l => match l.content with
      | .inl cm => cm
      | .inr _ => []
    | none => []
  nextC := old.nextC
  recorded c := ls.any fun l => l.what = .comp c
  quals := ls.filterMap fun l => match l.content with
    | .inl _ => none
    | .inr q => some (q, l.qual)
  nextQ := old.nextQ
  time := old.time
  db := ⟨[], [], [], [], []⟩

end Cyclus.Stock
