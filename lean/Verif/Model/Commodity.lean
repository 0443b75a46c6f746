import Verif.Model.Package

/-!
# Model of commodity producers, supply and demand, and build decisions

Models `/repo/src/toolkit/commodity_producer.{h,cc}`, `commodity_producer_manager.{h,cc}`,
`builder.h`, `building_manager.{h,cc}` and `supply_demand_manager.{h,cc}`.

* Commodities, producers, builders and managers are natural numbers.
* A set of pointers is a list without duplicates; the order of iteration is that of the list, and
  arbitrary, as that of addresses.
* The mixed integer program of `BuildingManager` is the data given to COIN; the solution that COIN
  returns is an arbitrary vector.
-/

namespace Cyclus.Commod

/-- `CommodInfo` (`commodity_producer.h:14-20`). -/
structure Info where
  capacity : ℚ
  cost : ℚ
  deriving DecidableEq, Repr

/-- `CommodityProducer` (`commodity_producer.h:89-98`): `commodities_` and the defaults.  The map is
a function to optional entries. -/
structure Producer where
  commods : ℕ → Option Info
  defCapacity : ℚ
  defCost : ℚ

/-- `Produces` (`commodity_producer.h:32-34`). -/
def Producer.produces (p : Producer) (c : ℕ) : Bool := (p.commods c).isSome

/-- Assignment of a map entry. -/
def put (m : ℕ → Option Info) (c : ℕ) (i : Info) : ℕ → Option Info :=
  fun d => if d = c then some i else m d

/-- `commodities_[commodity]`: creates an entry with the default arguments of `CommodInfo`, 0 and
`kModifierLimit` (`commodity_producer.h:14-20`), here `klim`. -/
def Producer.entry (klim : ℚ) (p : Producer) (c : ℕ) : Producer × Info :=
  match p.commods c with
  | some i => (p, i)
  | none => ({ p with commods := put p.commods c ⟨0, klim⟩ }, ⟨0, klim⟩)

/-- `Capacity` (`commodity_producer.h:38-40`), which may create an entry. -/
def Producer.capacity (klim : ℚ) (p : Producer) (c : ℕ) : Producer × ℚ :=
  ((p.entry klim c).1, (p.entry klim c).2.capacity)

/-- `Cost` (`commodity_producer.h:44-46`), which may create an entry. -/
def Producer.cost (klim : ℚ) (p : Producer) (c : ℕ) : Producer × ℚ :=
  ((p.entry klim c).1, (p.entry klim c).2.cost)

/-- `SetCapacity` (`commodity_producer.h:51-53`). -/
def Producer.setCapacity (klim : ℚ) (p : Producer) (c : ℕ) (q : ℚ) : Producer :=
  { (p.entry klim c).1 with commods := put p.commods c { (p.entry klim c).2 with capacity := q } }

/-- `SetCost` (`commodity_producer.h:58-60`). -/
def Producer.setCost (klim : ℚ) (p : Producer) (c : ℕ) (q : ℚ) : Producer :=
  { (p.entry klim c).1 with commods := put p.commods c { (p.entry klim c).2 with cost := q } }

/-- `Add` with information (`commodity_producer.h:72-74`): an entry that exists stays. -/
def Producer.addInfo (p : Producer) (c : ℕ) (i : Info) : Producer :=
  match p.commods c with
  | some _ => p
  | none => { p with commods := put p.commods c i }

/-- `Add` (`commodity_producer.h:64-66`). -/
def Producer.add (p : Producer) (c : ℕ) : Producer := p.addInfo c ⟨p.defCapacity, p.defCost⟩

/-- `Rm` (`commodity_producer.h:78-80`). -/
def Producer.rm (p : Producer) (c : ℕ) : Producer :=
  { p with commods := fun d => if d = c then none else p.commods d }

/-- `Copy` (`commodity_producer.cc:33-42`); `cs` is `ProducedCommodities()` of the source. -/
def Producer.copy (klim : ℚ) (p src : Producer) (cs : List ℕ) : Producer :=
  cs.foldl (fun p c =>
    ((p.add c).setCapacity klim c (src.capacity klim c).2).setCost klim c (src.cost klim c).2) p

/-- `std::set::insert`. -/
def setInsert (s : List ℕ) (x : ℕ) : List ℕ := if x ∈ s then s else x :: s

/-- `std::set::erase`. -/
def setErase (s : List ℕ) (x : ℕ) : List ℕ := s.filter fun y => !decide (y = x)

/-- `CommodityProducerManager::TotalCapacity` (`commodity_producer_manager.cc:7-17`).  `Capacity` is
only called for a commodity that is produced and changes nothing. -/
def totalCapacity (klim : ℚ) (P : ℕ → Producer) (c : ℕ) (ps : List ℕ) : ℚ :=
  ps.foldl (fun t p => if (P p).produces c then t + ((P p).capacity klim c).2 else t) 0

/-- `SupplyDemandManager` (`supply_demand_manager.h:75-79`). -/
structure SD where
  demand : ℕ → Option (Option (ℤ → ℚ))
  managers : List ℕ

/-- `RegisterCommodity` (`supply_demand_manager.h:33-36`): `insert` keeps an entry that exists. -/
def SD.register (s : SD) (c : ℕ) (f : ℤ → ℚ) : SD :=
  match s.demand c with
  | some _ => s
  | none => { s with demand := fun d => if d = c then some (some f) else s.demand d }

/-- `ManagesCommodity` (`supply_demand_manager.h:40-42`). -/
def SD.manages (s : SD) (c : ℕ) : Bool := (s.demand c).isSome

/-- `DemandFunction` (`supply_demand_manager.h:64-66`): `operator[]` creates a NULL pointer for an
unknown commodity. -/
def SD.demandFunction (s : SD) (c : ℕ) : SD × Option (ℤ → ℚ) :=
  match s.demand c with
  | some f => (s, f)
  | none => ({ s with demand := fun d => if d = c then some none else s.demand d }, none)

/-- `Demand` (`supply_demand_manager.h:58-60`): `none` is the use of a NULL pointer. -/
def SD.demandAt (s : SD) (c : ℕ) (t : ℤ) : Option ℚ := (s.demandFunction c).2.map fun f => f t

/-- `Supply` (`supply_demand_manager.cc:9-16`); `M` are the producers of each manager. -/
def SD.supply (klim : ℚ) (P : ℕ → Producer) (M : ℕ → List ℕ) (s : SD) (c : ℕ) : ℚ :=
  s.managers.foldl (fun v m => v + totalCapacity klim P c (M m)) 0

/-- `BuildOrder` (`building_manager.h:20-25`). -/
structure Order where
  number : ℤ
  builder : ℕ
  producer : ℕ
  deriving DecidableEq, Repr

/-- One column of the program (`building_manager.cc:46-53`): builder, producer, cost and
capacity. -/
structure Col where
  builder : ℕ
  producer : ℕ
  cost : ℚ
  capacity : ℚ
  deriving DecidableEq, Repr

/-- `SetUp_` (`building_manager.cc:30-61`): the columns; the single row is
`Σ capacity * n ≥ demand`, the columns are integer and at least 0. `B` are the producers of each
builder. -/
def setUp (klim : ℚ) (P : ℕ → Producer) (B : ℕ → List ℕ) (c : ℕ) (bs : List ℕ) : List Col :=
  bs.flatMap fun b => ((B b).filter fun p => (P p).produces c).map fun p =>
    ⟨b, p, ((P p).cost klim c).2, ((P p).capacity klim c).2⟩

/-- `p_to_b[p]` after `SetUp_` (`building_manager.cc:51`): the last builder of the producer. -/
def builderOf (cols : List Col) (p : ℕ) : ℕ :=
  cols.foldl (fun b col => if col.producer = p then col.builder else b) 0

/-- `Solve_` after the solution `sol` of COIN (`building_manager.cc:80-92`): the conversion to `int`
truncates. -/
def orders (cols : List Col) (sol : List ℚ) : List Order :=
  (cols.zip sol).filterMap fun cs =>
    let n := Package.divTrunc cs.2 1
    if 0 < n then some ⟨n, builderOf cols cs.1.producer, cs.1.producer⟩ else none

/-- `MakeBuildDecision` (`building_manager.cc:16-28`).  With no column, `loadProblem` is given the
address of the first element of empty vectors (`building_manager.cc:70-71`): `none`. -/
def makeDecision (klim : ℚ) (P : ℕ → Producer) (B : ℕ → List ℕ) (bs : List ℕ) (c : ℕ) (demand : ℚ)
    (solver : List Col → ℚ → List ℚ) : Option (List Order) :=
  if 0 < demand then
    let cols := setUp klim P B c bs
    if cols = [] then none else some (orders cols (solver cols demand))
  else some []

end Cyclus.Commod
