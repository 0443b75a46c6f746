import Verif.Model.Basic
import Mathlib.Data.Rat.Floor

/-!
# Model of the registries of the context

Models the members of `Context` that keep prototypes, recipes, packages and transport units
(`/repo/src/context.cc:160-270`, `/repo/src/context.h:371-382`), the creation of packages and units
(`/repo/src/package.cc`), the functions of `SimInit` that fill the registries from the database
(`/repo/src/sim_init.cc:177-240,350-376`), and those of `XMLFileLoader` that fill them from the
input file (`/repo/src/xml_file_loader.cc:323-361`).

* Maps are lists of pairs in the order of insertion; their order is never looked at.
* The database is the rows of the five tables.  A table that does not exist is an empty one
  (`catch` clauses, `sim_init.cc:181,199,222`).
* A composition is its id (`LoadComposition` gives the composition it loads the id that it was asked
  for, `sim_init.cc:628`).  An agent is its id, its spec and its version.
* What `SnapAgent` records and what archetypes do in `InitFrom` is dropped.
* The queries of the input file are given as their results; `none` is an element that is absent.
-/

namespace Cyclus.Registry

/-- A row of `Packages` and a `Package` (`context.cc:216-221`, `package.h:113-117`). -/
structure Pkg where
  name : String
  lo : ℚ
  hi : ℚ
  strategy : String
  deriving DecidableEq

/-- A row of `TransportUnits` and a `TransportUnit` (`context.cc:250-255`, `package.h:192-196`). -/
structure TUnit where
  name : String
  lo : ℤ
  hi : ℤ
  strategy : String
  deriving DecidableEq

/-- What the registry uses of an agent. -/
structure Proto where
  id : ℕ
  spec : String
  version : String
  deriving DecidableEq

/-- The tables `Prototypes`, `AgentVersions`, `Recipes`, `Packages` and `TransportUnits`. -/
structure Tables where
  protos : List (String × ℕ × String)
  versions : List (String × String)
  recipes : List (String × ℕ)
  pkgs : List Pkg
  units : List TUnit
  deriving DecidableEq

/-- The members of `Context` (`context.h:371-382`), the tables, and whether the static singletons
`Package::unpackaged_` and `TransportUnit::unrestricted_` exist (`package.cc:7,116`). -/
structure World where
  protos : List (String × Proto)
  recVer : List String
  recipes : List (String × ℕ)
  pkgs : List (String × Pkg)
  units : List (String × TUnit)
  db : Tables
  unpackaged : Bool
  unrestricted : Bool
  deriving DecidableEq

/-- A new context with an empty database. -/
def fresh (unpackaged unrestricted : Bool) : World :=
  ⟨[], [], [], [], [], ⟨[], [], [], [], []⟩, unpackaged, unrestricted⟩

/-- `find` in a map. -/
def get {α : Type} (m : List (String × α)) (k : String) : Option α :=
  (m.find? fun e => e.1 = k).map Prod.snd

/-- `m[k] = v`. -/
def put {α : Type} (m : List (String × α)) (k : String) (v : α) : List (String × α) :=
  match get m k with
  | none => m ++ [(k, v)]
  | some _ => m.map fun e => if e.1 = k then (k, v) else e

/-- `Context::AddPrototype` (`context.cc:160-187`). -/
def addPrototype (w : World) (name : String) (p : Proto) (overwrite : Bool) : Outcome World Unit :=
  if overwrite = false ∧ get w.protos name ≠ none then (w, .error .key)
  else
    let w' : World := { w with
      protos := put w.protos name p
      db := { w.db with protos := w.db.protos ++ [(name, p.id, p.spec)] } }
    if p.spec ∈ w.recVer then (w', .ok ())
    else
      ({ w' with
        recVer := w.recVer ++ [p.spec]
        db := { w'.db with versions := w.db.versions ++ [(p.spec, p.version)] } }, .ok ())

/-- `Context::AddRecipe` (`context.cc:189-195`). -/
def addRecipe (w : World) (name : String) (qual : ℕ) : World :=
  { w with
    recipes := put w.recipes name qual
    db := { w.db with recipes := w.db.recipes ++ [(name, qual)] } }

/-- `Context::GetRecipe` (`context.cc:197-202`). -/
def getRecipe (w : World) (name : String) : Except Err ℕ :=
  match get w.recipes name with
  | none => .error .key
  | some q => .ok q

/-- `Package::Create` and the constructor (`package.cc:9-19,101-113`; `package.h:103-108`; equal
limits are refused by `NormalDoubleDist`, `random_number_generator.h:136-138`). -/
def createPkg (unpackaged : Bool) (p : Pkg) : Except Err Pkg :=
  if p.lo < 0 ∨ p.hi < 0 then .error .value
  else if p.lo > p.hi then .error .value
  else if p.name = "unpackaged" ∧ unpackaged = true then .error .value
  else if ¬ (p.strategy = "first" ∨ p.strategy = "equal" ∨ p.strategy = "uniform" ∨
      p.strategy = "normal") then .error .value
  else if p.strategy = "normal" ∧ p.lo = p.hi then .error .value
  else .ok p

/-- `Context::AddPackage` (`context.cc:204-213`). -/
def addPackage (w : World) (p : Pkg) : Outcome World Unit :=
  match get w.pkgs p.name with
  | some _ => (w, .error .key)
  | none =>
    match createPkg w.unpackaged p with
    | .error e => (w, .error e)
    | .ok p =>
      ({ w with
        pkgs := put w.pkgs p.name p
        db := { w.db with pkgs := w.db.pkgs ++ [p] } }, .ok ())

/-- The singleton `Package::unpackaged()` (`package.cc:24-31`, `package.h:111-116`); `dmax` is the
largest double. -/
def unpackagedPkg (dmax : ℚ) : Pkg := ⟨"unpackaged", 0, dmax, "first"⟩

/-- `RecordPackage(Package::unpackaged())` (`context.cc:215-222`). -/
def recordUnpackaged (dmax : ℚ) (w : World) : World :=
  { w with
    db := { w.db with pkgs := w.db.pkgs ++ [unpackagedPkg dmax] }
    unpackaged := true }

/-- `Context::GetPackage` (`context.cc:224-235`). -/
def getPackage (dmax : ℚ) (w : World) (name : String) : Outcome World Pkg :=
  if name = "unpackaged" then ({ w with unpackaged := true }, .ok (unpackagedPkg dmax))
  else if w.pkgs.length = 0 then (w, .error .key)
  else
    match get w.pkgs name with
    | none => (w, .error .key)
    | some p => (w, .ok p)

/-- `TransportUnit::Create` and the constructor (`package.cc:118-127,192-202`). -/
def createUnit (unrestricted : Bool) (u : TUnit) : Except Err TUnit :=
  if u.lo < 0 ∨ u.hi < 0 then .error .value
  else if u.lo > u.hi then .error .value
  else if u.name = "unrestricted" ∧ unrestricted = true then .error .value
  else if ¬ (u.strategy = "first" ∨ u.strategy = "equal" ∨ u.strategy = "hybrid") then
    .error .value
  else .ok u

/-- `Context::AddTransportUnit` (`context.cc:237-247`). -/
def addUnit (w : World) (u : TUnit) : Outcome World Unit :=
  match get w.units u.name with
  | some _ => (w, .error .key)
  | none =>
    match createUnit w.unrestricted u with
    | .error e => (w, .error e)
    | .ok u =>
      ({ w with
        units := put w.units u.name u
        db := { w.db with units := w.db.units ++ [u] } }, .ok ())

/-- The largest `int`. -/
def intMax : ℤ := 2 ^ 31 - 1

/-- The singleton `TransportUnit::unrestricted()` (`package.cc:132-137`, `package.h:182-185`). -/
def unrestrictedUnit : TUnit := ⟨"unrestricted", 0, intMax, "hybrid"⟩

/-- `RecordTransportUnit(TransportUnit::unrestricted())` (`context.cc:249-256`). -/
def recordUnrestricted (w : World) : World :=
  { w with
    db := { w.db with units := w.db.units ++ [unrestrictedUnit] }
    unrestricted := true }

/-- `Context::GetTransportUnit` (`context.cc:259-270`). -/
def getUnit (w : World) (name : String) : Outcome World TUnit :=
  if name = "unrestricted" then ({ w with unrestricted := true }, .ok unrestrictedUnit)
  else if w.units.length = 0 then (w, .error .key)
  else
    match get w.units name with
    | none => (w, .error .key)
    | some u => (w, .ok u)

/-- A use of the registries. -/
inductive Op where
  | addPrototype (name : String) (p : Proto) (overwrite : Bool)
  | addRecipe (name : String) (qual : ℕ)
  | addPackage (p : Pkg)
  | addUnit (u : TUnit)
  | recordUnpackaged
  | recordUnrestricted
  | getPackage (name : String)
  | getUnit (name : String)

/-- The world after a use, whether it throws or not. -/
def Op.run (dmax : ℚ) (w : World) : Op → World
  | .addPrototype n p o => (Registry.addPrototype w n p o).1
  | .addRecipe n q => Registry.addRecipe w n q
  | .addPackage p => (Registry.addPackage w p).1
  | .addUnit u => (Registry.addUnit w u).1
  | .recordUnpackaged => Registry.recordUnpackaged dmax w
  | .recordUnrestricted => Registry.recordUnrestricted w
  | .getPackage n => (Registry.getPackage dmax w n).1
  | .getUnit n => (Registry.getUnit w n).1

/-- The world after a sequence of uses. -/
def runOps (dmax : ℚ) (ops : List Op) (w : World) : World := ops.foldl (Op.run dmax) w

/-! ## Loading from a database -/

/-- `LoadRecipes` (`sim_init.cc:177-191`). -/
def loadRecipes (rows : List (String × ℕ)) (w : World) : World :=
  rows.foldl (fun w r => addRecipe w r.1 r.2) w

/-- `LoadPackages` (`sim_init.cc:193-214`). -/
def loadPackages (dmax : ℚ) : List Pkg → World → Outcome World Unit
  | [], w => (w, .ok ())
  | p :: ps, w =>
    if p.name ≠ "unpackaged" then
      match addPackage w p with
      | (w', .error e) => (w', .error e)
      | (w', .ok _) => loadPackages dmax ps w'
    else loadPackages dmax ps (recordUnpackaged dmax w)

/-- `LoadTransportUnits` (`sim_init.cc:216-237`). -/
def loadUnits : List TUnit → World → Outcome World Unit
  | [], w => (w, .ok ())
  | u :: us, w =>
    if u.name ≠ "unrestricted" then
      match addUnit w u with
      | (w', .error e) => (w', .error e)
      | (w', .ok _) => loadUnits us w'
    else loadUnits us (recordUnrestricted w)

/-- `LoadPrototypes` (`sim_init.cc:350-376`); `version` is what the modules of the archetypes
report. -/
def loadPrototypes (version : String → String) :
    List (String × ℕ × String) → World → Outcome World Unit
  | [], w => (w, .ok ())
  | r :: rs, w =>
    match addPrototype w r.1 ⟨r.2.1, r.2.2, version r.2.2⟩ false with
    | (w', .error e) => (w', .error e)
    | (w', .ok _) => loadPrototypes version rs w'

/-- The registries as `InitBase` fills them (`sim_init.cc:58-64`, without the solver). -/
def load (dmax : ℚ) (version : String → String) (db : Tables) (w : World) : Outcome World Unit :=
  match loadPackages dmax db.pkgs (loadRecipes db.recipes w) with
  | (w', .error e) => (w', .error e)
  | (w', .ok _) =>
    match loadUnits db.units w' with
    | (w', .error e) => (w', .error e)
    | (w', .ok _) => loadPrototypes version db.protos w'

/-! ## Loading from the input file -/

/-- The default of `OptionalQuery` for an absent element. -/
def orElse {α : Type} (q : Option α) (d : α) : α := q.getD d

/-- A package of the input file (`xml_file_loader.cc:330-341`). -/
def xmlPackage (eps dmax : ℚ) (name : Option String) (lo hi : Option ℚ) (strategy : Option String)
    (w : World) : Outcome World Unit :=
  addPackage w ⟨orElse name "default", orElse lo eps, orElse hi dmax, orElse strategy "first"⟩

/-- The conversion of a double to `int`: undefined (`none`) if the value does not fit. -/
def toInt (x : ℚ) : Option ℤ :=
  let t : ℤ := if 0 ≤ x then ⌊x⌋ else ⌈x⌉
  if -2 ^ 31 ≤ t ∧ t ≤ intMax then some t else none

/-- A transport unit of the input file (`xml_file_loader.cc:349-360`): the limits are read as doubles
and passed as `int`. -/
def xmlUnit (eps dmax : ℚ) (name : Option String) (lo hi : Option ℚ) (strategy : Option String)
    (w : World) : Option (Outcome World Unit) :=
  match toInt (orElse lo eps) with
  | none => none
  | some l =>
    match toInt (orElse hi dmax) with
    | none => none
    | some h => some (addUnit w ⟨orElse name "default", l, h, orElse strategy "first"⟩)

end Cyclus.Registry
