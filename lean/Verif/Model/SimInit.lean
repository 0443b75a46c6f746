import Verif.Model.Timer
import Mathlib.Order.Defs.LinearOrder
import Mathlib.Data.String.Basic

/-!
# Model of simulation initialisation and restart

Models `Snapshot`, `LoadInitialAgents`, `LoadBuildSched`, `LoadDecomSched` and `LoadNextIds` of
`/repo/src/sim_init.cc`, and the construction of the agent hierarchy in
`/repo/src/xml_flat_loader.cc`.

* The database is the rows of one simulation (the condition on `SimId`, `sim_init.cc:52-54`, has been
  applied); a table that does not exist is an empty one (`catch` clauses, `sim_init.cc:404`, `493`,
  `509`).
* A `ParentId` of -1 is `none`.  Agent ids of instances are natural numbers.
* What archetypes do in `InitFrom`, `Connect`, `EnterNotify`, `Build` and `BuildNotify`, inventories,
  recipes, packages and prototypes are dropped.
* Dereferencing a `NULL` agent is `none`; so is a loop that runs out of fuel.
-/

namespace Cyclus.Init

open Timing (Timer Op)

/-- `m[key x] = x` for a `std::map` sorted by key (also `std::set::insert`). -/
def mapInsert {A K : Type} [LinearOrder K] (key : A → K) (x : A) : List A → List A
  | [] => [x]
  | y :: ys => if key x < key y then x :: y :: ys
      else if key x = key y then x :: ys else y :: mapInsert key x ys

/-- Filling the map in order. -/
def mapOf {A K : Type} [LinearOrder K] (key : A → K) (l : List A) : List A :=
  l.foldl (fun m x => mapInsert key x m) []

/-- The parent is built, or there is none (`sim_init.cc:438-452`, `xml_flat_loader.cc:106-116`). -/
def ready {A K : Type} [DecidableEq K] (key : A → K) (parent : A → Option K) (built : List A) (x : A) :
    Bool :=
  match parent x with
  | none => true
  | some p => p ∈ built.map key

/-- The loop that builds the hierarchy (`sim_init.cc:430-456`, `xml_flat_loader.cc:99-120`).  The
container of unbuilt agents is `bef ++ aft`, the iterator stands at the head of `aft`. -/
def hier {A K : Type} [DecidableEq K] (key : A → K) (parent : A → Option K) :
    ℕ → List A → List A → List A → Option (List A)
  | _, _, [], built => some built
  | 0, _, _ :: _, _ => none
  | fuel + 1, bef, x :: rest, built =>
    if ready key parent built x then
      match rest with
      | [] => hier key parent fuel [] bef (built ++ [x])
      | r :: rs => hier key parent fuel bef (r :: rs) (built ++ [x])
    else
      match rest with
      | [] => hier key parent fuel [] (bef ++ [x]) built
      | r :: rs => hier key parent fuel (bef ++ [x]) (r :: rs) built

/-- An agent of a flat input file (`xml_flat_loader.cc:88-97`); an empty `parent` is `none`. -/
structure Listed where
  name : String
  proto : String
  parent : Option String
  deriving DecidableEq, Repr

/-- Building the agents of a flat input file (`xml_flat_loader.cc:83-121`): the agents in the order in
which they are built. -/
def flatLoad (fuel : ℕ) (l : List Listed) : Option (List Listed) :=
  hier Listed.name Listed.parent fuel [] (mapOf Listed.name l) []

/-- A row of `AgentEntry` (`agent.cc:226-236`). -/
structure Entry where
  id : ℕ
  proto : String
  parent : Option ℕ
  enter : ℤ
  deriving DecidableEq, Repr

/-- A row of `AgentStateAgent` (`agent.cc:52-57`). -/
structure State where
  id : ℕ
  time : ℤ
  proto : String
  lifetime : ℤ
  deriving DecidableEq, Repr

/-- A row of `BuildSchedule` (`context.cc:132-137`). -/
structure BuildRow where
  parent : Option ℕ
  proto : String
  sched : ℤ
  build : ℤ
  deriving DecidableEq, Repr

/-- A row of `DecomSchedule` (`context.cc:148-152`). -/
structure DecomRow where
  id : ℕ
  sched : ℤ
  decom : ℤ
  deriving DecidableEq, Repr

/-- The tables read by a restart. -/
structure Db where
  entries : List Entry
  exits : List (ℕ × ℤ)
  states : List State
  builds : List BuildRow
  decoms : List DecomRow
  nextIds : List (ℤ × String × ℤ)

/-- An agent in memory. -/
structure Ag where
  id : ℕ
  proto : String
  parent : Option ℕ
  enter : ℤ
  lifetime : ℤ
  deriving DecidableEq, Repr

/-- The entries for which an agent is created (`sim_init.cc:385-404`). -/
def aliveRows (db : Db) (t : ℤ) : List Entry :=
  ((db.entries.filter fun e => e.enter ≤ t).filter fun e => ¬ (t > 0 ∧ e.enter = t)).filter
    fun e => ((db.exits.filter fun x => x.1 = e.id ∧ x.2 < t).isEmpty)

/-- `Agent::InitFrom` (`agent.cc:45-50`) with the conditions of `sim_init.cc:420-425`: the first row of
the agent's state at the time; if there is none, `GetVal` throws. -/
def readState (db : Db) (t : ℤ) (e : Entry) : Except Err Ag :=
  match db.states.find? fun s => s.id = e.id ∧ s.time = t with
  | none => .error .state
  | some s => .ok ⟨s.id, s.proto, e.parent, e.enter, s.lifetime⟩

/-- Creating all of them. -/
def readAll (db : Db) (t : ℤ) : List Entry → Except Err (List Ag)
  | [] => .ok []
  | e :: es => match readState db t e with
    | .error r => .error r
    | .ok a => match readAll db t es with
      | .error r => .error r
      | .ok as => .ok (a :: as)

/-- Models `SimInit::LoadInitialAgents` (`sim_init.cc:378-463`): the agents, in the order in which they
are connected. -/
def loadAgents (fuel : ℕ) (db : Db) (t : ℤ) : Option (Except Err (List Ag)) :=
  match readAll db t (aliveRows db t) with
  | .error r => some (.error r)
  | .ok as => (hier Ag.id Ag.parent fuel [] (mapOf Ag.id as) []).map .ok

/-- Models `SimInit::LoadBuildSched` (`sim_init.cc:487-501`): `agents_[parentid]` is `NULL` for ids that
are not among the loaded agents. -/
def loadBuilds (db : Db) (t : ℤ) (ags : List Ag) (s : Timer) : Timer :=
  (db.builds.filter fun r => r.build > t).foldl
    (fun s r => (s.call (fun _ => false) (.schedBuild r.proto
      (r.parent.filter fun p => p ∈ ags.map Ag.id) r.build)).1) s

/-- Models `SimInit::LoadDecomSched` (`sim_init.cc:503-516`): `agents_[agentid]` is `NULL` for ids that
are not among the loaded agents, and `Context::SchedDecom` reads its id (`context.cc:149`). -/
def loadDecoms (ags : List Ag) : List DecomRow → Timer → Option Timer
  | [], s => some s
  | r :: rs, s =>
    if r.id ∈ ags.map Ag.id then
      loadDecoms ags rs (s.call (fun _ => false) (.schedDecom r.id r.decom)).1
    else none

/-- The counters (`sim_init.cc:92-121`). -/
structure Counters where
  agent : ℤ
  trans : ℤ
  comp : ℤ
  state : ℤ
  obj : ℤ
  qual : ℤ
  deriving DecidableEq, Repr

/-- The rows of `NextIds` written by `SimInit::Snapshot` (`sim_init.cc:91-121`). -/
def snapIds (t : ℤ) (c : Counters) : List (ℤ × String × ℤ) :=
  [(t, "Agent", c.agent), (t, "Transaction", c.trans), (t, "Composition", c.comp),
    (t, "ResourceState", c.state), (t, "ResourceObj", c.obj), (t, "Product", c.qual)]

/-- One row in `LoadNextIds` (`sim_init.cc:523-538`). -/
def setId (c : Counters) (obj : String) (n : ℤ) : Except Err Counters :=
  if obj = "Agent" then .ok { c with agent := n }
  else if obj = "Transaction" then .ok { c with trans := n }
  else if obj = "Composition" then .ok { c with comp := n }
  else if obj = "ResourceState" then .ok { c with state := n }
  else if obj = "ResourceObj" then .ok { c with obj := n }
  else if obj = "Product" then .ok { c with qual := n }
  else .error .io

/-- The loop of `LoadNextIds`. -/
def setIds (c : Counters) : List (ℤ × String × ℤ) → Except Err Counters
  | [] => .ok c
  | r :: rs => match setId c r.2.1 r.2.2 with
    | .error e => .error e
    | .ok c' => setIds c' rs

/-- Models `SimInit::LoadNextIds` (`sim_init.cc:518-540`). -/
def loadNextIds (db : Db) (t : ℤ) (c : Counters) : Except Err Counters :=
  setIds c (db.nextIds.filter fun r => r.1 = t)

/-- The timer during loading (`Timer::Initialize`, `timer.cc:268-281`, without branch time). -/
def timer0 (dur : ℤ) : Timer := ⟨0, dur, false, false, [], [], [], fun _ => [], []⟩

/-- What a restart makes. -/
structure Restarted where
  ags : List Ag
  timer : Timer
  ids : Counters

/-- Models `SimInit::Restart` (`sim_init.cc:32-42`) with `InitBase` (`50-76`), as far as agents,
schedules and counters are concerned; `c` are the counters before. -/
def restart (fuel : ℕ) (db : Db) (dur t : ℤ) (c : Counters) : Option (Except Err Restarted) :=
  match loadAgents fuel db t with
  | none => none
  | some (.error e) => some (.error e)
  | some (.ok ags) =>
    match loadDecoms ags (db.decoms.filter fun r => r.decom ≥ t) (loadBuilds db t ags (timer0 dur)) with
    | none => none
    | some s => match loadNextIds db t c with
      | .error e => some (.error e)
      | .ok c' => some (.ok ⟨ags, { s with time := if t > -1 then t else 0 }, c'⟩)

end Cyclus.Init
