import Verif.Model.Basic

/-!
# Model of the timer

Models `/repo/src/timer.cc` and `Context::SchedBuild`, `Context::SchedDecom`
(`/repo/src/context.cc:124-155`).

* Agents are identified with their ids, which are unique (`agent.cc:61`); pointers that outlive
  their agent keep the agent's id.
* Everything agents do when the timer calls them is a parameter `World`: an arbitrary function of
  an arbitrary state, the timer and the event, that gives the calls the agent makes to the timer.
  A call that throws leaves the timer as it was; the agent is taken to catch the exception (an
  exception that is not caught ends the run).
* `Build`, `EnterNotify` and `BuildNotify` are one event, as are `DecomNotify` and `Decommission`.
* The loops marked `#pragma omp parallel for` are run in index order.
* `RecordInventories` (`timer.cc:111-121`) writes rows only and is dropped, like logging.
* Undefined behaviour is `none`: changing the vector over which a range-`for` runs, and erasing the
  map element at which an iterator stands.  Loops over containers that may grow have fuel; a loop
  that runs out of it is `none` as well.
-/

namespace Cyclus.Timing

/-- A call to the timer.  `schedBuild` and `schedDecom` are `Context::SchedBuild` and
`Context::SchedDecom` with the arguments as passed. -/
inductive Op
  | schedBuild (proto : String) (parent : Option ℕ) (t : ℤ)
  | schedDecom (m : ℕ) (t : ℤ)
  | kill
  | snapshot
  | register (a : ℕ)
  | unregister (a : ℕ)
  deriving DecidableEq, Repr

/-- What happens in a run: calls from the timer to agents and the exchange, calls of agents to
the timer (with whether they were accepted), and the `Finish` row.  The first field is the time. -/
inductive Ev
  | snap (t : ℤ)
  | build (t : ℤ) (proto : String) (parent : Option ℕ)
  | tick (t : ℤ) (a : ℕ)
  | matl (t : ℤ)
  | prod (t : ℤ)
  | tock (t : ℤ) (a : ℕ)
  | decision (t : ℤ) (a : ℕ)
  | decom (t : ℤ) (a : ℕ)
  | loop (t : ℤ)
  | op (t : ℤ) (o : Op) (ok : Bool)
  | finish (t : ℤ) (early : Bool) (endTime : ℤ)
  deriving DecidableEq, Repr

/-- Models the members of `Timer` (`timer.h:98-120`).  `decoms` is the map `decom_queue_` in key
order. -/
structure Timer where
  time : ℤ
  dur : ℤ
  wantSnapshot : Bool
  wantKill : Bool
  tickers : List ℕ
  py : List ℕ
  cpp : List ℕ
  builds : ℤ → List (String × Option ℕ)
  decoms : List (ℤ × List ℕ)

/-- `decom_queue_[t]`; the empty entry that `operator[]` creates is dropped. -/
def qget (q : List (ℤ × List ℕ)) (t : ℤ) : List ℕ :=
  match q with
  | [] => []
  | (t', l) :: rest => if t' = t then l else qget rest t

/-- `decom_queue_[t].push_back(m)`, the map being sorted by time. -/
def qpush (q : List (ℤ × List ℕ)) (t : ℤ) (m : ℕ) : List (ℤ × List ℕ) :=
  match q with
  | [] => [(t, [m])]
  | (t', l) :: rest =>
    if t' = t then (t', l ++ [m]) :: rest
    else if t < t' then (t, [m]) :: (t', l) :: rest
    else (t', l) :: qpush rest t m

/-- The loop that removes a previous decommissioning (`timer.cc:234-251`). -/
def qremove (q : List (ℤ × List ℕ)) (m : ℕ) : List (ℤ × List ℕ) :=
  match q with
  | [] => []
  | (t, l) :: rest => if m ∈ l then (t, l.erase m) :: rest else (t, l) :: qremove rest m

/-- `tickers_[id] = agent`: insertion into a map sorted by id. -/
def minsert (l : List ℕ) (a : ℕ) : List ℕ :=
  match l with
  | [] => [a]
  | x :: xs => if a < x then a :: x :: xs else if a = x then x :: xs else x :: minsert xs a

/-- The time for which `Context::SchedBuild` schedules (`context.cc:127-129`). -/
def buildTime (now t : ℤ) : ℤ := if t = -1 then now + 1 else t

/-- The time for which `Context::SchedDecom` schedules (`context.cc:144-146`). -/
def decomTime (now t : ℤ) : ℤ := if t = -1 then now else t

/-- Executes a call; the second component tells whether it was accepted (did not throw).
`SchedBuild` models `timer.cc:217-222`, `SchedDecom` `timer.cc:224-254`, `KillSim` and `Snapshot`
`timer.h:55-60`, `RegisterTimeListener` and `UnregisterTimeListener` `timer.cc:193-215`;
`shim` is `IsShim()`. -/
def Timer.call (shim : ℕ → Bool) (s : Timer) : Op → Timer × Bool
  | .schedBuild proto parent t =>
    let bt := buildTime s.time t
    if bt ≤ s.time then (s, false)
    else ({ s with builds := Function.update s.builds bt (s.builds bt ++ [(proto, parent)]) }, true)
  | .schedDecom m t =>
    let dt := decomTime s.time t
    if dt < s.time then (s, false)
    else ({ s with decoms := qpush (qremove s.decoms m) dt m }, true)
  | .kill => ({ s with wantKill := true }, true)
  | .snapshot => ({ s with wantSnapshot := true }, true)
  | .register a =>
    let s1 := { s with tickers := minsert s.tickers a }
    (if shim a then { s1 with py := s1.py ++ [a] } else { s1 with cpp := s1.cpp ++ [a] }, true)
  | .unregister a =>
    let s1 := { s with tickers := s.tickers.filter (· ≠ a) }
    (if shim a then { s1 with py := s1.py.filter (· ≠ a) }
      else { s1 with cpp := s1.cpp.filter (· ≠ a) }, true)

/-- The agents. -/
structure World (σ : Type) where
  shim : ℕ → Bool
  act : σ → Timer → Ev → σ × List Op

/-- The state of a run. -/
structure Sim (σ : Type) where
  t : Timer
  w : σ
  trace : List Ev

/-- An agent calls the timer. -/
def Sim.call {σ : Type} (W : World σ) (s : Sim σ) (o : Op) : Sim σ :=
  let r := s.t.call W.shim o
  { s with t := r.1, trace := s.trace ++ [.op s.t.time o r.2] }

/-- The timer calls an agent or the exchange. -/
def Sim.fire {σ : Type} (W : World σ) (s : Sim σ) (e : Ev) : Sim σ :=
  let r := W.act s.w s.t e
  r.2.foldl (Sim.call W) { s with w := r.1, trace := s.trace ++ [e] }

variable {σ : Type}

/-- Models `DoBuild` (`timer.cc:65-80`). -/
def doBuild (W : World σ) (s : Sim σ) : Sim σ :=
  (s.t.builds s.t.time).foldl (fun s x => s.fire W (.build s.t.time x.1 x.2)) s

/-- A range-`for` over `py_tickers_` (`timer.cc:85-87`). -/
def pyLoop (W : World σ) (ev : ℤ → ℕ → Ev) (orig : List ℕ) : List ℕ → Sim σ → Option (Sim σ)
  | [], s => some s
  | a :: rest, s =>
    let s' := s.fire W (ev s.t.time a)
    if s'.t.py = orig then pyLoop W ev orig rest s' else none

/-- The index loop over `cpp_tickers_` (`timer.cc:89-92`). -/
def cppLoop (W : World σ) (ev : ℤ → ℕ → Ev) : ℕ → ℕ → Sim σ → Option (Sim σ)
  | 0, _, _ => none
  | fuel + 1, i, s =>
    match s.t.cpp[i]? with
    | none => some s
    | some a => cppLoop W ev fuel (i + 1) (s.fire W (ev s.t.time a))

/-- Models `DoTick` (`timer.cc:83-93`), and `DoTock` (`timer.cc:101-109`) with another event. -/
def doListeners (W : World σ) (ev : ℤ → ℕ → Ev) (fuel : ℕ) (s : Sim σ) : Option (Sim σ) :=
  match pyLoop W ev s.t.py s.t.py s with
  | none => none
  | some s' => cppLoop W ev fuel 0 s'

/-- Models `DoResEx` (`timer.cc:95-99`). -/
def doResEx (W : World σ) (s : Sim σ) : Sim σ :=
  let s1 := s.fire W (.matl s.t.time)
  s1.fire W (.prod s1.t.time)

/-- The map iterator of `DoDecision` standing at `a` (`timer.cc:125-129`): calls `a`, then moves to
the next element. -/
def decisionLoop (W : World σ) : ℕ → Option ℕ → Sim σ → Option (Sim σ)
  | _, none, s => some s
  | 0, some _, _ => none
  | fuel + 1, some a, s =>
    let s' := s.fire W (.decision s.t.time a)
    if a ∈ s'.t.tickers then decisionLoop W fuel (s'.t.tickers.find? (a < ·)) s' else none

/-- Models `DoDecision` (`timer.cc:124-130`). -/
def doDecision (W : World σ) (fuel : ℕ) (s : Sim σ) : Option (Sim σ) :=
  decisionLoop W fuel s.t.tickers.head? s

/-- Models `DoDecom` (`timer.cc:181-191`). -/
def doDecom (W : World σ) (s : Sim σ) : Sim σ :=
  (qget s.t.decoms s.t.time).foldl (fun s a => s.fire W (.decom s.t.time a)) s

/-- The snapshot at the beginning of a step (`timer.cc:29-32`). -/
def doSnapshot (W : World σ) (s : Sim σ) : Sim σ :=
  if s.t.wantSnapshot then
    Sim.fire W { s with t := { s.t with wantSnapshot := false } } (.snap s.t.time)
  else s

/-- One pass of the loop of `RunSim` up to `EventLoop` (`timer.cc:29-48`). -/
def phases (W : World σ) (fuel : ℕ) (s : Sim σ) : Option (Sim σ) :=
  match doListeners W .tick fuel (doBuild W (doSnapshot W s)) with
  | none => none
  | some s1 => match doListeners W .tock fuel (doResEx W s1) with
    | none => none
    | some s2 => match doDecision W fuel s2 with
      | none => none
      | some s3 =>
        let s4 := doDecom W s3
        some (s4.fire W (.loop s4.t.time))

/-- One pass of the loop including `time_++` (`timer.cc:50`). -/
def step (W : World σ) (fuel : ℕ) (s : Sim σ) : Option (Sim σ) :=
  (phases W fuel s).map fun s => { s with t := { s.t with time := s.t.time + 1 } }

/-- The loop of `RunSim` (`timer.cc:26-55`); `n` is the number of steps left. -/
def runLoop (W : World σ) (fuel : ℕ) : ℕ → Sim σ → Option (Sim σ)
  | 0, s => some s
  | n + 1, s => match step W fuel s with
    | none => none
    | some s' => if s'.t.wantKill then some s' else runLoop W fuel n s'

/-- The end of `RunSim` (`timer.cc:57-63`). -/
def finishRun (W : World σ) (s : Sim σ) : Sim σ :=
  let s1 : Sim σ := { s with trace := s.trace ++ [.finish s.t.time s.t.wantKill (s.t.time - 1)] }
  s1.fire W (.snap s1.t.time)

/-- Models `RunSim` (`timer.cc:19-63`): `while (time_ < duration)` with one step of time per pass. -/
def runSim (W : World σ) (fuel : ℕ) (s : Sim σ) : Option (Sim σ) :=
  (runLoop W fuel (s.t.dur - s.t.time).toNat s).map (finishRun W)

/-- A timer after `Initialize` (`timer.cc:268-281`) that starts at time `t0`, and the calls made
while the simulation is set up. -/
def start (W : World σ) (w : σ) (t0 dur : ℤ) (setup : List Op) : Sim σ :=
  setup.foldl (Sim.call W) ⟨⟨t0, dur, false, false, [], [], [], fun _ => [], []⟩, w, []⟩

end Cyclus.Timing
