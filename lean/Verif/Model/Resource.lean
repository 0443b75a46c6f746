import Verif.Model.CompMath

/-!
# Models of `Product` and `Material`: splitting, merging, packaging

Models `/repo/src/product.cc` and `/repo/src/material.cc`.

Objects live in a heap and are referred to by identity, so that an object can be passed as its own
argument.  Decay is not modelled here (`Material::comp()` is taken as `comp_`, i.e. the simulation's
decay mode is not "lazy"); tracking is modelled in `Model/Tracker.lean`.
-/

namespace Cyclus.Product

/-- A Product: `quantity_` and `quality_`.  Models `/repo/src/product.h` (members). -/
structure Prod where
  qty : ℚ
  quality : ℕ
  deriving DecidableEq, Repr

/-- All products of a simulation; identities below `n` are allocated. -/
structure St where
  obj : ℕ → Prod
  n : ℕ

/-- Operations on products. -/
inductive Op where
  | create (q : ℚ) (quality : ℕ)
  | extract (i : ℕ) (q : ℚ)
  | absorb (i j : ℕ)
  | packageExtract (i : ℕ) (q : ℚ)

/-- Writing a quantity. -/
def setQty (s : St) (i : ℕ) (q : ℚ) : St :=
  { s with obj := fun k => if k = i then { s.obj i with qty := q } else s.obj k }

/-- Allocating an object. -/
def alloc (s : St) (p : Prod) : St :=
  { obj := fun k => if k = s.n then p else s.obj k, n := s.n + 1 }

/-- `Extract` and `PackageExtract`, which agree on quantities.
Models `/repo/src/product.cc:59-69` and `:80-95`. -/
def extract (s : St) (i : ℕ) (q : ℚ) : Outcome St (Option ℕ) :=
  if q > (s.obj i).qty then (s, .error .value)
  else
    let s1 := setQty s i ((s.obj i).qty - q)
    (alloc s1 ⟨q, (s.obj i).quality⟩, .ok (some s.n))

/-- `Absorb`, with the two assignments in the order of the code.
Models `/repo/src/product.cc:48-56`. -/
def absorb (s : St) (i j : ℕ) : Outcome St (Option ℕ) :=
  if (s.obj j).quality ≠ (s.obj i).quality then (s, .error .value)
  else
    let s1 := setQty s i ((s.obj i).qty + (s.obj j).qty)
    (setQty s1 j 0, .ok none)

/-- One call; a new object's identity is returned.  `create` models `/repo/src/product.cc:15-37`. -/
def step (s : St) : Op → Outcome St (Option ℕ)
  | .create q ql => (alloc s ⟨q, ql⟩, .ok (some s.n))
  | .extract i q => extract s i q
  | .packageExtract i q => extract s i q
  | .absorb i j => absorb s i j

/-- A program, whatever the outcome of each call. -/
def run (s : St) (ops : List Op) : St := ops.foldl (fun s op => (step s op).1) s

/-- No objects. -/
def init : St := { obj := fun _ => ⟨0, 0⟩, n := 0 }

end Cyclus.Product

namespace Cyclus.Material

open Cyclus.CompMath

/-- A Material: `qty_` and the pointer `comp_`.  Models `/repo/src/material.h` (members). -/
structure Mat where
  qty : ℚ
  comp : ℕ
  deriving DecidableEq, Repr

/-- All materials and compositions; identities below `n` (`nc`) are allocated.  A composition is
represented by its mass map, which never changes after creation. -/
structure St where
  obj : ℕ → Mat
  n : ℕ
  comp : ℕ → CompMap
  nc : ℕ

/-- Operations on materials and compositions. -/
inductive Op where
  | newComp (v : CompMap)
  | create (q : ℚ) (c : ℕ)
  | extractComp (i : ℕ) (q : ℚ) (c : ℕ) (thr : ℚ)
  | extractQty (i : ℕ) (q : ℚ)
  | absorb (i j : ℕ)
  | packageExtract (i : ℕ) (q : ℚ)

/-- Writing one material. -/
def setObj (s : St) (i : ℕ) (m : Mat) : St :=
  { s with obj := fun k => if k = i then m else s.obj k }

/-- Allocating a material. -/
def alloc (s : St) (m : Mat) : St :=
  { s with obj := fun k => if k = s.n then m else s.obj k, n := s.n + 1 }

/-- `Composition::CreateFromMass`: checks and allocates.  Models `/repo/src/composition.cc:29-39`. -/
def newComp (isnuc : ℕ → Bool) (s : St) (v : CompMap) : Except Err (St × ℕ) :=
  match createFrom isnuc v with
  | .error e => .error e
  | .ok w => .ok ({ s with comp := fun k => if k = s.nc then w else s.comp k, nc := s.nc + 1 }, s.nc)

/-- `ExtractComp`.  Models `/repo/src/material.cc:72-99`. -/
def extractComp (isnuc : ℕ → Bool) (s : St) (i : ℕ) (q : ℚ) (c : ℕ) (thr : ℚ) :
    Outcome St (Option ℕ) :=
  let m := s.obj i
  if m.qty < q then (s, .error .value)
  else if m.comp ≠ c then
    let newv := sub (normalize (s.comp m.comp) m.qty) (normalize (s.comp c) q)
    match applyThreshold newv thr with
    | .error e => (s, .error e)
    | .ok w =>
      match newComp isnuc s w with
      | .error e => (s, .error e)
      | .ok (s1, c') => (alloc (setObj s1 i ⟨m.qty - q, c'⟩) ⟨q, c⟩, .ok (some s.n))
  else (alloc (setObj s i ⟨m.qty - q, m.comp⟩) ⟨q, c⟩, .ok (some s.n))

/-- `ExtractQty`.  Models `/repo/src/material.cc:68-70`; the default threshold is `eps_rsrc()`
(`/repo/src/material.h:121-122`). -/
def extractQty (isnuc : ℕ → Bool) (eps : ℚ) (s : St) (i : ℕ) (q : ℚ) : Outcome St (Option ℕ) :=
  extractComp isnuc s i q (s.obj i).comp eps

/-- `Absorb`, with the assignments in the order of the code.
Models `/repo/src/material.cc:101-125`. -/
def absorb (isnuc : ℕ → Bool) (s : St) (i j : ℕ) : Outcome St (Option ℕ) :=
  let finish (s : St) : St :=
    let s1 := setObj s i ⟨(s.obj i).qty + (s.obj j).qty, (s.obj i).comp⟩
    setObj s1 j ⟨0, (s1.obj j).comp⟩
  if (s.obj i).comp ≠ (s.obj j).comp then
    let v := add (normalize (s.comp (s.obj i).comp) (s.obj i).qty)
      (normalize (s.comp (s.obj j).comp) (s.obj j).qty)
    match newComp isnuc s v with
    | .error e => (s, .error e)
    | .ok (s1, c') => (finish (setObj s1 i ⟨(s.obj i).qty, c'⟩), .ok none)
  else (finish s, .ok none)

/-- `PackageExtract`.  Models `/repo/src/material.cc:143-162`. -/
def packageExtract (eps : ℚ) (s : St) (i : ℕ) (q : ℚ) : Outcome St (Option ℕ) :=
  let m := s.obj i
  if q - m.qty > eps then (s, .error .value)
  else (alloc (setObj s i ⟨m.qty - q, m.comp⟩) ⟨q, m.comp⟩, .ok (some s.n))

/-- One call.  `create` models `/repo/src/material.cc:17-28`. -/
def step (isnuc : ℕ → Bool) (eps : ℚ) (s : St) : Op → Outcome St (Option ℕ)
  | .newComp v =>
    match newComp isnuc s v with
    | .error e => (s, .error e)
    | .ok (s1, _) => (s1, .ok none)
  | .create q c => (alloc s ⟨q, c⟩, .ok (some s.n))
  | .extractComp i q c t => extractComp isnuc s i q c t
  | .extractQty i q => extractQty isnuc eps s i q
  | .absorb i j => absorb isnuc s i j
  | .packageExtract i q => packageExtract eps s i q

/-- A program, whatever the outcome of each call. -/
def run (isnuc : ℕ → Bool) (eps : ℚ) (s : St) (ops : List Op) : St :=
  ops.foldl (fun s op => (step isnuc eps s op).1) s

/-- No objects. -/
def init : St := { obj := fun _ => ⟨0, 0⟩, n := 0, comp := fun _ => [], nc := 0 }

end Cyclus.Material

namespace Cyclus.ChangePackage

/-- Which class's `ChangePackage` is called. -/
inductive Kind where
  | product
  | material
  deriving DecidableEq, Repr

/-- Package table of a context: name to limits.  `unpackaged` (name 0) is always known and accepts
quantities from 0 to the largest double.  Models `/repo/src/context.cc:224-235`. -/
def getPackage (table : ℕ → Option (ℚ × ℚ)) (dmax : ℚ) (name : ℕ) : Except Err (ℚ × ℚ) :=
  if name = 0 then .ok (0, dmax)
  else match table name with
    | none => .error .key
    | some l => .ok l

/-- `ChangePackage(name)` of a resource with quantity `qty` and package `cur`; returns the package
name afterwards.  `ctx = none` is a resource without context.
Models `/repo/src/product.cc:97-117` and `/repo/src/material.cc:164-184`. -/
def changePackage (k : Kind) (ctx : Option (ℕ → Option (ℚ × ℚ))) (dmax qty : ℚ) (cur name : ℕ) :
    Outcome ℕ Unit :=
  match k, ctx with
  | .product, none => (cur, .ok ())
  | .product, some table =>
    if name = cur then (cur, .ok ())
    else if name = 0 then (name, .ok ())
    else match getPackage table dmax name with
      | .error e => (cur, .error e)
      | .ok (lo, hi) => if qty ≥ lo ∧ qty ≤ hi then (name, .ok ()) else (cur, .error .value)
  | .material, none => (cur, .ok ())
  | .material, some table =>
    if name = 0 then (name, .ok ())
    else match getPackage table dmax cur with
      | .error e => (cur, .error e)
      | .ok (lo, hi) => if qty ≥ lo ∧ qty ≤ hi then (name, .ok ()) else (cur, .error .value)

end Cyclus.ChangePackage
