import Verif.Model.Convert

/-!
# Model of the simulations made in code for testing archetypes

Models `MockAgent` and `MockSim` (`/repo/src/mock_sim.cc:36-226`), the `Build` of the two archetypes that
they use (`/repo/agents/source.h:85-90`, `/repo/agents/sink.h:71-76`), `Agent::exit_time`
(`/repo/src/agent.h:405-408`), and the parts of `Context::SchedBuild`, `Context::SchedDecom`
(`/repo/src/context.cc:124-155`), `Timer::SchedBuild`, `Timer::SchedDecom`, `Timer::DoBuild`,
`Timer::DoDecom` and `Timer::RunSim` (`/repo/src/timer.cc:19-82`, `181-191`, `217-253`) which such a
simulation uses.

* The XML text made by `Finalize` is not modelled as a text; the model takes the values that are read
  back from it.  Texts are read back as they were written, which needs that they hold no markup, and a
  capacity is read back as the number written with six significant digits (`Convert.round6`, C97).
* An agent is named by the name of its prototype, of which at most one agent is made here.  The text of
  the name is the word and the decimal number; the model keeps the pair.
* What the agents do in a step, and the agents that they might build or remove, are not modelled.
* All agents are built with parent `NULL`, so no institution decommissions them.
* The queues are lists of pairs in the order of the calls; a queue of the code is a map from times to
  such lists.  Entries of past times are not removed.  `SchedDecom` removes the first earlier entry of the
  agent; the model removes all.
-/

namespace Cyclus.MockSim

/-- Exceptions. -/
inductive Err where
  /-- `ValueError`. -/
  | value
  deriving DecidableEq

/-- The agents of a mock simulation. -/
inductive Who where
  /-- `"source"` or `"sink"` and the number. -/
  | mock (source : Bool) (n : ℕ)
  /-- `"agent_being_tested"`. -/
  | tested
  deriving DecidableEq

/-- The members of a `MockAgent` (`mock_sim.h:59-66`). -/
structure Conf where
  proto : Who
  source : Bool
  commod : String
  recipe : String
  cap : ℚ
  start : ℤ
  life : ℤ
  deriving DecidableEq

/-- The constructor, with the static counter `nextid_` (`mock_sim.cc:38-56`).  `CY_LARGE_DOUBLE` is
`1e299` (`CMakeLists.txt:19`). -/
def fresh (next : ℕ) (source : Bool) : Conf × ℕ :=
  (⟨.mock source next, source, "", "", 10 ^ 299, 0, -1⟩, next + 1)

/-- The calls on a `MockAgent` (`mock_sim.cc:58-77`). -/
inductive Call where
  | commod (s : String)
  | recipe (s : String)
  | capacity (q : ℚ)
  | start (t : ℤ)
  | lifetime (n : ℤ)

/-- A call: it changes the object and returns it (`mock_sim.cc:58-77`). -/
def Conf.call (c : Conf) : Call → Conf
  | .commod s => { c with commod := s }
  | .recipe s => { c with recipe := s }
  | .capacity q => { c with cap := q }
  | .start t => { c with start := t }
  | .lifetime n => { c with life := n }

/-- `AddSource` and `AddSink` (`mock_sim.cc:199-209`). -/
def add (next : ℕ) (source : Bool) (commod : String) : Conf × ℕ :=
  ((fresh next source).1.call (.commod commod), (fresh next source).2)

/-- A chain of calls `sim.AddSource("…").start(…)…`, several of them one after the other: each gives the
commodity and the further calls. -/
def addAll : ℕ → List (Bool × String × List Call) → List Conf
  | _, [] => []
  | next, (source, commod, calls) :: l =>
      calls.foldl Conf.call (add next source commod).1 :: addAll (add next source commod).2 l

/-- The state of a prototype after `InitAgent`: the archetype, and the values of the state variables. -/
structure Proto where
  spec : String
  lifetime : ℤ
  commods : List String
  recipe : String
  capacity : ℚ
  deriving DecidableEq

/-- The prototype that `Finalize` makes (`mock_sim.cc:79-103`).  Without the element `recipe_name` the
variable has its default, the empty text (`source.h:107`, `sink.h:91`). -/
def Conf.prototype (c : Conf) : Proto :=
  { spec := if c.source then ":agents:Source" else ":agents:Sink"
    lifetime := c.life
    commods := [c.commod]
    recipe := if c.recipe ≠ "" then c.recipe else ""
    capacity := Convert.round6 c.cap }

/-- `DummyProto(name)` (`mock_sim.cc:165-177`); `Agent::InfileToDb` gives the lifetime -1
(`agent.cc:38`). -/
def dummy : Proto := ⟨":agents:Source", -1, ["alongunusedcommodityname"], "", 0⟩

/-- `DummyProto(name, commod, capacity)` (`mock_sim.cc:179-191`): the text `commod` is a literal. -/
def dummyWith (_commod : String) (capacity : ℚ) : Proto :=
  ⟨":agents:Source", -1, ["commod"], "", Convert.round6 capacity⟩

/-- The state of a mock simulation. -/
structure State where
  /-- `time_`. -/
  time : ℤ
  /-- The prototypes. -/
  protos : List (Who × Proto)
  /-- `build_queue_`. -/
  builds : List (ℤ × Conf)
  /-- `decom_queue_`. -/
  decoms : List (ℤ × Who)
  /-- The agents that entered, with their times. -/
  entries : List (Who × ℤ)
  /-- The agents that left, with their times. -/
  exits : List (Who × ℤ)
  deriving DecidableEq

/-- `InitSim` (`timer.cc:268-281`). -/
def init : State := ⟨0, [], [], [], [], []⟩

/-- `exit_time` (`agent.h:405-408`). -/
def exitTime (enter life : ℤ) : ℤ := if life = -1 then -1 else enter + life - 1

/-- `Context::SchedDecom` and `Timer::SchedDecom` (`context.cc:141-155`, `timer.cc:224-253`). -/
def schedDecom (s : State) (w : Who) (t : ℤ) : Except Err State :=
  let t' := if t = -1 then s.time else t
  if t' < s.time then .error .value
  else .ok { s with decoms := s.decoms.filter (fun d => d.2 ≠ w) ++ [(t', w)] }

/-- `Context::SchedBuild` and `Timer::SchedBuild` (`context.cc:124-139`, `timer.cc:217-222`). -/
def schedBuild (s : State) (c : Conf) (t : ℤ) : Except Err State :=
  let t' := if t = -1 then s.time + 1 else t
  if t' ≤ s.time then .error .value
  else .ok { s with builds := s.builds ++ [(t', c)] }

/-- `Build` of an agent; `own` for the archetypes that schedule their own decommissioning: `Source` and
`Sink` do (`source.h:85-90`, `sink.h:71-76`), `Facility::Build` does not (`facility.cc:27-29`). -/
def build (own : Bool) (w : Who) (life : ℤ) (s : State) : Except Err State :=
  let s := { s with entries := s.entries ++ [(w, s.time)] }
  if own = true ∧ life ≥ 0 then schedDecom s w (exitTime s.time life) else .ok s

/-- `Finalize` (`mock_sim.cc:79-112`). -/
def finalize (s : State) (c : Conf) : Except Err State :=
  let s := { s with protos := s.protos ++ [(c.proto, c.prototype)] }
  if c.start = 0 then build true c.proto c.life s else schedBuild s c c.start

/-- `Timer::DoBuild` (`timer.cc:65-82`). -/
def doBuild (s : State) : Except Err State :=
  ((s.builds.filter fun b => b.1 = s.time).map Prod.snd).foldlM
    (fun s c => build true c.proto c.life s) s

/-- `Timer::DoDecom` (`timer.cc:181-191`). -/
def doDecom (s : State) : State :=
  { s with exits := s.exits ++ (s.decoms.filter fun d => d.1 = s.time).map fun d => (d.2, s.time) }

/-- A step of `RunSim` (`timer.cc:26-56`). -/
def step (s : State) : Except Err State := do
  let s ← doBuild s
  let s := doDecom s
  return { s with time := s.time + 1 }

/-- `RunSim`: steps while `time_ < duration` (`timer.cc:26`). -/
def steps : ℕ → State → Except Err State
  | 0, s => .ok s
  | n + 1, s => do steps n (← step s)

/-- A mock simulation: the mock agents are added, the agent under test is built, and the simulation runs
(`mock_sim.cc:215-226`). -/
def run (cs : List Conf) (own : Bool) (life : ℤ) (duration : ℕ) : Except Err State := do
  let s ← cs.foldlM finalize init
  let s ← build own .tested life s
  steps duration s

end Cyclus.MockSim
