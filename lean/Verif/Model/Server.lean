import Mathlib.Data.List.Count
import Mathlib.Logic.Relation

/-!
Model of pausing in the Python server: `/repo/cyclus/server.py`, `/repo/cyclus/actions.py` and
`/repo/cyclus/events.pyx`.

The simulation runs in a thread of its own; everything else takes turns on one event loop,
changing over only where something is awaited.  A step of the model is what happens between two
such points, or one turn of the draining loop of the consumer.
-/

namespace Cyclus.Server

/-- Actions.  `other` stands for all actions that come to an end by themselves, such as
`echo`, `sleep` and `table_data`. -/
inductive Act where
  | pause | unpause | other | shutdown
  deriving DecidableEq

/-- A task made of an action by the consumer: not started, waiting for a sleep of 1e100 seconds
(taken to be for ever), or done. -/
inductive Tk where
  | fresh (a : Act)
  | waiting (id : ℕ)
  | done
  deriving DecidableEq

/-- The state of the server.
* `actions`, `monitor`: `action_queue` and `monitor_queue`.
* `staged`: `staged_tasks` of `action_consumer`.
* `waiting`: the consumer is at `await asyncio.wait(staged_tasks)`; otherwise it is draining the
  queue or, with nothing staged, asleep between two turns.
* `pauseTask`: `tasks['pause']`.
* `cancelled`: the sleeps that were cancelled.
* `next`: the next sleep. -/
structure S where
  actions : List Act := []
  monitor : List Act := []
  staged : List Tk := []
  waiting : Bool := false
  pauseTask : Option ℕ := none
  cancelled : List ℕ := []
  next : ℕ := 0
  stopped : Bool := false
  deriving DecidableEq

/-- `queue_message_action` (`server.py:254-267`) with `EVENT_ACTIONS` and `MONITOR_ACTIONS`
(`events.pyx:38-59`).  Repeating actions, which `loop` puts in the action queue in each time
step (`events.pyx:21-28`), come in the same way. -/
def recv (a : Act) (s : S) : S :=
  match a with
  | .pause | .other => { s with actions := s.actions ++ [a] }
  | .unpause | .shutdown => { s with monitor := s.monitor ++ [a] }

/-- `unpause` (`actions.py:69-74`). -/
def doUnpause (s : S) : S :=
  match s.pauseTask with
  | none => s
  | some id => { s with pauseTask := none, cancelled := id :: s.cancelled }

/-- The steps of the consumer (`server.py:220-232`), of the tasks, and of the monitor
(`server.py:235-244`). -/
inductive Step : S → S → Prop
  /-- The consumer takes an action out of the queue and makes it a task. -/
  | take (s : S) (a : Act) (r : List Act) : s.waiting = false → s.actions = a :: r →
      Step s { s with actions := r, staged := s.staged ++ [.fresh a] }
  /-- With the queue empty, the consumer waits for the staged tasks. -/
  | wait (s : S) : s.waiting = false → s.actions = [] → s.staged ≠ [] →
      Step s { s with waiting := true }
  /-- All staged tasks are done. -/
  | finish (s : S) : s.waiting = true → (∀ t ∈ s.staged, t = .done) →
      Step s { s with staged := [], waiting := false }
  /-- `pause` starts (`actions.py:61-66`). -/
  | startPause (s : S) (l r : List Tk) : s.waiting = true →
      s.staged = l ++ .fresh .pause :: r →
      Step s { s with staged := l ++ .waiting s.next :: r, pauseTask := some s.next,
                      next := s.next + 1 }
  /-- Another action is carried out. -/
  | startOther (s : S) (l r : List Tk) : s.waiting = true →
      s.staged = l ++ .fresh .other :: r → Step s { s with staged := l ++ .done :: r }
  /-- `unpause` from the command line is put in the action queue (`server.py:390-397`). -/
  | startUnpause (s : S) (l r : List Tk) : s.waiting = true →
      s.staged = l ++ .fresh .unpause :: r →
      Step s { doUnpause s with staged := l ++ .done :: r }
  /-- A sleep that was cancelled ends its pause. -/
  | wake (s : S) (l r : List Tk) (id : ℕ) : s.staged = l ++ .waiting id :: r →
      id ∈ s.cancelled → Step s { s with staged := l ++ .done :: r }
  /-- The monitor carries out an unpause, whenever the consumer is at an await. -/
  | monUnpause (s : S) (r : List Act) : s.waiting = true ∨ s.staged = [] →
      s.monitor = .unpause :: r → Step s { doUnpause s with monitor := r }
  /-- The monitor carries out a shutdown when at most one action is queued
  (`actions.py:221-236`); until then it does nothing else. -/
  | monShutdown (s : S) (r : List Act) : s.waiting = true ∨ s.staged = [] →
      s.monitor = .shutdown :: r → s.actions.length ≤ 1 →
      Step s { s with monitor := r, stopped := true }

/-- The simulation leaves the waiting loop (`events.pyx:29-31`). -/
def CanGo (s : S) : Prop := s.pauseTask = none ∧ s.actions = []

end Cyclus.Server
