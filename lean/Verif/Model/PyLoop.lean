import Mathlib.Data.List.Basic
import Mathlib.Data.Int.Notation
import Mathlib.Logic.Function.Iterate

/-!
# Model of the repeating actions of a simulation from Python, and of the life of the interpreter

Models `loop` (`/repo/cyclus/events.pyx:15-28`), the table of actions (38-58), its caller in C++
(`/repo/src/eventhooks.pyx:4-6`, `/repo/src/pyhooks.cc:34`), and `PyStart` and `PyStop` (`/repo/src/pyhooks.cc:12-32`) as they are
used in `/repo/cli/cyclus.cc:60,228` and `/repo/src/mock_sim.cc:217,224`.

Simplifications.
* Calling an action is arbitrary: it gives a task or an exception for each callable and each value of the parameters.  The queue is the
  list of the tasks in the order they are put.  Waiting (lines 29-31) is C39.
* Signals are left out.  C++ does not look at exceptions of `loop`; the next step starts afresh.
* Functions that are registered to run at the exit of the process run once, after everything else.
-/

namespace Cyclus.PyLoop

/-- Texts. -/
abbrev Txt := List Char

/-- Exceptions: a parameter that was never set, a name that is not in the table, a sequence that is too short, a value that cannot be
called, and those of actions. -/
inductive Err where
  | unbound | key | index | type
  | other (n : ℕ)
  deriving DecidableEq, Repr

/-- The first member of a pair. -/
inductive Head (F : Type) where
  | name (n : Txt)
  | fn (f : F)
  | value
  deriving DecidableEq

/-- A repeating action: a callable, a sequence whose first two members are an action and its parameters, a shorter sequence, or a
text. -/
inductive Act (F P : Type) where
  | fn (f : F)
  | pair (h : Head F) (p : P)
  | short
  | text (s : Txt)
  deriving DecidableEq

/-- The other parts. -/
structure World (F P C : Type) where
  /-- The function in the table for a name (`events.pyx:43-54`). -/
  event : Txt → F
  /-- `action(STATE, **params)`. -/
  call : F → P → Except Err C
  /-- A text of one character as parameters. -/
  char : Char → P

/-- The keys of `EVENT_ACTIONS` (`events.pyx:43-54`). -/
def eventNames : List Txt :=
  ["agent_annotations".toList, "deregister_tables".toList, "echo".toList, "load".toList, "pause".toList, "register_tables".toList,
    "registry_request".toList, "sleep".toList, "table_data".toList, "table_names_request".toList]

/-- `EVENT_ACTIONS[action]` (line 27). -/
def find {F P C : Type} (w : World F P C) (n : Txt) : Except Err F := if n ∈ eventNames then .ok (w.event n) else .error .key

/-- Lines 22-27: the callable, and the value of `params` afterwards (`none` while it is not bound). -/
def resolve {F P C : Type} (w : World F P C) (params : Option P) (a : Act F P) : Except Err (F × Option P) :=
  match a with
  | .fn f => .ok (f, params)
  | .pair h p =>
    match h with
    | .name n =>
      match find w n with
      | .ok f => .ok (f, some p)
      | .error e => .error e
    | .fn f => .ok (f, some p)
    | .value => .error .type
  | .short => .error .index
  | .text s =>
    match s with
    | a :: b :: _ =>
      match find w [a] with
      | .ok f => .ok (f, some (w.char b))
      | .error e => .error e
    | _ => .error .index

/-- Lines 21-28: the tasks that are put, and the exception that ends the loop. -/
def acts {F P C : Type} (w : World F P C) (params : Option P) : List (Act F P) → List C × Option Err
  | [] => ([], none)
  | a :: r =>
    match resolve w params a with
    | .error e => ([], some e)
    | .ok (_, none) => ([], some .unbound)
    | .ok (f, some p) =>
      match w.call f p with
      | .error e => ([], some e)
      | .ok c => (c :: (acts w (some p) r).1, (acts w (some p) r).2)

/-- What `loop` does to the recorder and the queue. -/
inductive Ev (C : Type) where
  | flush
  | put (c : C)
  deriving DecidableEq

/-- `loop` (`events.pyx:15-28`); the argument is the repeating actions of `STATE`, if there is a state. -/
def loop {F P C : Type} (w : World F P C) (state : Option (List (Act F P))) : List (Ev C) × Option Err :=
  match state with
  | none => ([], none)
  | some l => (.flush :: (acts w none l).1.map .put, (acts w none l).2)

/-- The events of `n` steps of a simulation. -/
def steps {F P C : Type} (w : World F P C) (state : Option (List (Act F P))) : ℕ → List (Ev C)
  | 0 => []
  | n + 1 => steps w state n ++ (loop w state).1

/-- The interpreter (`pyhooks.cc:12-13`): the two variables, how often `Py_Initialize` and `Py_Finalize` were called, and how many calls
of `PyStop` are registered for the exit. -/
structure Interp where
  count : ℤ
  init : Bool
  inits : ℕ
  fins : ℕ
  exits : ℕ
  deriving DecidableEq, Repr

/-- At the start of the process. -/
def Interp.zero : Interp := ⟨0, false, 0, 0, 0⟩

/-- `PyStart` (`pyhooks.cc:16-23`). -/
def pyStart (s : Interp) : Interp :=
  if s.init then { s with count := s.count + 1 }
  else ⟨s.count + 1, true, s.inits + 1, s.fins, s.exits + 1⟩

/-- `PyStop` (`pyhooks.cc:25-32`). -/
def pyStop (s : Interp) : Interp :=
  if s.init = true ∧ s.count - 1 < 0 then { s with count := s.count - 1, fins := s.fins + 1 }
  else { s with count := s.count - 1 }

/-- A call. -/
inductive Op where
  | start | stop
  deriving DecidableEq, Repr

/-- One call. -/
def Op.run (s : Interp) : Op → Interp
  | .start => pyStart s
  | .stop => pyStop s

/-- The calls of a process before it exits. -/
def run (l : List Op) : Interp := l.foldl Op.run .zero

/-- The exit: the registered calls. -/
def exit (s : Interp) : Interp := pyStop^[s.exits] s

end Cyclus.PyLoop
