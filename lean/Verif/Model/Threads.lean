import Verif.Model.Basic
import Mathlib.Logic.Function.Basic

/-!
# Model of the parallel ticks and tocks

Models what the time listeners share while `Timer::DoTick` and `Timer::DoTock` (`/repo/src/timer.cc:83-93`,
`101-122`) execute them by `omp parallel for`: the recorder (`/repo/src/recorder.cc`), the queues of builds
and decommissionings with the critical sections of `Context::SchedBuild` and `SchedDecom`
(`/repo/src/context.cc:124-157`), and the counter of resource states (`/repo/src/resource.cc:8-11`).

* OpenMP distributes the listeners over threads; the program of a thread is what its listeners call, in
  order.  Calls that touch nothing shared are not modelled.  All critical sections are unnamed and hence
  exclude each other.
* Memory is sequentially consistent and each access is atomic; an execution is an arbitrary interleaving of
  the accesses, given by the list of the threads that take the next step.  (In C++ conflicting accesses
  without a lock are undefined behaviour, so that the failures shown are the mildest ones.)
* `SimId`, which stays the first value of each datum, is left out, and so are shapes.
* `AddDatum` with `NotifyBackends` is one access; backends do not throw.
* An agent is in the queue of decommissionings at most once, so that the search for it
  (`timer.cc:230-249`) removes all its entries.
* Access beyond the end of `data_` is undefined behaviour and gives `none`.
* An exception that leaves a parallel region or a critical section ends the program (`dead`).
-/

namespace Cyclus.Par

/-- A value of a datum. -/
inductive Val
  | int (z : ℤ)
  | str (s : String)
  deriving DecidableEq, Repr

/-- A datum: title and values. -/
abbrev Datum := String × List Val

/-- What the threads share: `data_` and `index_` of the recorder, what the backends got, `build_queue_` (time,
prototype, parent) and `decom_queue_` (time, agent) of the timer in the order of insertion,
`Resource::nextstate_id_`, and the thread in a critical section. -/
structure Shared where
  slots : List Datum
  index : ℕ
  got : List Datum
  builds : List (ℤ × String × ℤ)
  decoms : List (ℤ × ℤ)
  nextId : ℕ
  lock : Option ℕ
  dead : Bool
  deriving DecidableEq, Repr

/-- Accesses to what is shared, and the lock. -/
inductive Step
  | lock
  | unlock
  | pushBuild (t : ℤ) (proto : String) (parent : ℤ)
  | pushDecom (t : ℤ) (agent : ℤ)
  | loadSlot
  | setTitle (s : String)
  | clear
  | loadIndex
  | storeIndex
  | addVal (v : Val)
  | record
  | useId
  | loadId
  | storeId
  deriving DecidableEq, Repr

/-- What a thread has for itself: the pointer to its datum, a register, and the ids it has taken. -/
structure Regs where
  slot : ℕ
  reg : ℕ
  ids : List ℕ
  deriving DecidableEq, Repr

/-- A thread, with the steps it has to do. -/
structure Th where
  regs : Regs
  todo : List Step
  deriving DecidableEq, Repr

/-- What listeners call. -/
inductive Call
  | schedBuild (parent : ℤ) (proto : String) (t : ℤ)
  | schedDecom (agent : ℤ) (t : ℤ)
  | datum (title : String) (vals : List Val)
  | bump
  deriving DecidableEq, Repr

/-- `NewDatum(title)->AddVal(..)->..->Record()`: `NewDatum` (`recorder.cc:67-83`) with `index_++` as a load and
a store, `AddVal` (`datum.cc:11-32`), `AddDatum` (`recorder.cc:85-89`). -/
def datumSteps (title : String) (vals : List Val) : List Step :=
  [.loadSlot, .setTitle title, .clear, .loadIndex, .storeIndex] ++ vals.map .addVal ++ [.record]

/-- The body of the critical section of `Context::SchedBuild` (`context.cc:126-139`, the time `-1` is already
replaced) or `SchedDecom` (`context.cc:143-154`). -/
def body (now : ℤ) : Call → List Step
  | .schedBuild parent proto t => .pushBuild t proto parent ::
      datumSteps "BuildSchedule" [.int parent, .str proto, .int now, .int t]
  | .schedDecom agent t => .pushDecom t agent ::
      datumSteps "DecomSchedule" [.int agent, .int now, .int t]
  | .datum title vals => datumSteps title vals
  | .bump => [.useId, .loadId, .storeId]

/-- The call is a critical section. -/
def Call.critical : Call → Bool
  | .schedBuild .. => true
  | .schedDecom .. => true
  | _ => false

/-- The steps of a call.  `RecordTimeSeries` (`toolkit/timeseries.h:48-67`), `RecordInventory`
(`timer.cc:147-175`) and `BumpStateId` (`resource.cc:8-11`) are not critical sections. -/
def Call.steps (now : ℤ) (c : Call) : List Step :=
  if c.critical then .lock :: body now c ++ [.unlock] else body now c

/-- The steps of the calls of a thread. -/
def program (now : ℤ) (cs : List Call) : List Step := cs.flatMap (Call.steps now)

/-- One step of thread `i` that is not blocked; `none` is undefined behaviour. -/
def act (now : ℤ) (i : ℕ) (s : Step) (sh : Shared) (th : Regs) : Option (Shared × Regs) :=
  match s with
  | .lock => some ({ sh with lock := some i }, th)
  | .unlock => some ({ sh with lock := none }, th)
  | .pushBuild t proto parent =>
    if t ≤ now then some ({ sh with dead := true }, th)
    else some ({ sh with builds := sh.builds ++ [(t, proto, parent)] }, th)
  | .pushDecom t agent =>
    if t < now then some ({ sh with dead := true }, th)
    else some ({ sh with decoms := sh.decoms.filter (·.2 ≠ agent) ++ [(t, agent)] }, th)
  | .loadSlot => if sh.index < sh.slots.length then some (sh, { th with slot := sh.index }) else none
  | .setTitle s => some ({ sh with slots := sh.slots.modify th.slot fun d => (s, d.2) }, th)
  | .clear => some ({ sh with slots := sh.slots.modify th.slot fun d => (d.1, []) }, th)
  | .loadIndex => some (sh, { th with reg := sh.index })
  | .storeIndex => some ({ sh with index := th.reg + 1 }, th)
  | .addVal v => some ({ sh with slots := sh.slots.modify th.slot fun d => (d.1, d.2 ++ [v]) }, th)
  | .record =>
    if sh.slots.length ≤ sh.index then some ({ sh with index := 0, got := sh.got ++ sh.slots }, th)
    else some (sh, th)
  | .useId => some (sh, { th with ids := th.ids ++ [sh.nextId] })
  | .loadId => some (sh, { th with reg := sh.nextId })
  | .storeId => some ({ sh with nextId := th.reg + 1 }, th)

/-- All threads and what they share. -/
structure Cfg where
  sh : Shared
  ths : List Th
  deriving DecidableEq, Repr

/-- The turn of thread `i`: nothing happens if the program is dead, if the thread is done, or if it waits for
a critical section. -/
def turn (now : ℤ) (i : ℕ) (c : Cfg) : Option Cfg :=
  if c.sh.dead then some c
  else match c.ths[i]? with
    | none => some c
    | some th => match th.todo with
      | [] => some c
      | s :: rest =>
        if s = .lock ∧ c.sh.lock ≠ none then some c
        else match act now i s c.sh th.regs with
          | none => none
          | some (sh, regs) => some ⟨sh, c.ths.set i ⟨regs, rest⟩⟩

/-- An execution: the threads take turns in this order. -/
def exec (now : ℤ) : List ℕ → Cfg → Option Cfg
  | [], c => some c
  | i :: is, c => match turn now i c with
    | none => none
    | some c => exec now is c

/-- The threads before the parallel region. -/
def start (now : ℤ) (sh : Shared) (progs : List (List Call)) : Cfg :=
  ⟨sh, progs.map fun cs => ⟨⟨0, 0, []⟩, program now cs⟩⟩

/-- The region ends when all threads are done. -/
def Cfg.done (c : Cfg) : Prop := ∀ th ∈ c.ths, th.todo = []

end Cyclus.Par
