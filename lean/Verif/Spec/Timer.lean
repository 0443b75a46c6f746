import Verif.Model.Timer

/-!
# Vocabulary for the properties of the timer

All notions are about the trace of a run: the calls of the timer to agents, and the calls of agents
to the timer.
-/

namespace Cyclus.Timing.Spec

/-- Whether the timer calls somebody (as opposed to an agent calling the timer). -/
def isCall : Ev → Bool
  | .op _ _ _ => false
  | _ => true

/-- The time of an event. -/
def time : Ev → ℤ
  | .snap t => t
  | .build t _ _ => t
  | .tick t _ => t
  | .matl t => t
  | .prod t => t
  | .tock t _ => t
  | .decision t _ => t
  | .decom t _ => t
  | .loop t => t
  | .op t _ _ => t
  | .finish t _ _ => t

/-- The position within a time step. -/
def phase : Ev → ℕ
  | .finish _ _ _ => 0
  | .snap _ => 1
  | .build _ _ _ => 2
  | .tick _ _ => 3
  | .matl _ => 4
  | .prod _ => 5
  | .tock _ _ => 6
  | .decision _ _ => 7
  | .decom _ _ => 8
  | .loop _ => 9
  | .op _ _ _ => 0

/-- The calls of the timer. -/
def calls (tr : List Ev) : List Ev := tr.filter isCall

/-- Which calls to the timer are accepted at time `now`: builds must be scheduled for a later time,
decommissionings not for an earlier time; -1 stands for the next, or the present, step. -/
def accepts (now : ℤ) : Op → Bool
  | .schedBuild _ _ t => t = -1 ∨ now < t
  | .schedDecom _ t => t = -1 ∨ now ≤ t
  | _ => true

/-- The accepted requests to build at time `t`, in order. -/
def schedFor (tr : List Ev) (t : ℤ) : List (String × Option ℕ) :=
  tr.filterMap fun e => match e with
    | .op now (.schedBuild proto parent t') true =>
      if (if t' = -1 then now + 1 else t') = t then some (proto, parent) else none
    | _ => none

/-- What was built at time `t`, in order. -/
def builtAt (tr : List Ev) (t : ℤ) : List (String × Option ℕ) :=
  tr.filterMap fun e => match e with
    | .build t' proto parent => if t' = t then some (proto, parent) else none
    | _ => none

/-- The effect of an event on the agenda of decommissionings: a later request replaces an earlier
one for the same agent. -/
def agendaStep (l : List (ℕ × ℤ)) : Ev → List (ℕ × ℤ)
  | .op now (.schedDecom m t) true =>
    l.filter (·.1 ≠ m) ++ [(m, if t = -1 then now else t)]
  | _ => l

/-- Which agent is to be decommissioned when. -/
def agenda (tr : List Ev) : List (ℕ × ℤ) := tr.foldl agendaStep []

/-- The agents to be decommissioned at time `t`, in the order of the requests. -/
def pending (tr : List Ev) (t : ℤ) : List ℕ := ((agenda tr).filter (·.2 = t)).map Prod.fst

/-- The agents decommissioned at time `t`, in order. -/
def decomsAt (tr : List Ev) (t : ℤ) : List ℕ :=
  tr.filterMap fun e => match e with
    | .decom t' a => if t' = t then some a else none
    | _ => none

/-- The effect of an event on the registered listeners. -/
def listenStep (l : List ℕ) : Ev → List ℕ
  | .op _ (.register a) _ => l ++ [a]
  | .op _ (.unregister a) _ => l.filter (· ≠ a)
  | _ => l

/-- The registered listeners in the order of registration. -/
def listeners (tr : List Ev) : List ℕ := tr.foldl listenStep []

/-- No registration and no deregistration. -/
def Quiet (tr : List Ev) : Prop :=
  ∀ t a ok, Ev.op t (.register a) ok ∉ tr ∧ Ev.op t (.unregister a) ok ∉ tr

/-- Whether a snapshot was asked for since the last one. -/
def requested (tr : List Ev) : Bool :=
  tr.foldl (fun b e => match e with
    | .op _ .snapshot _ => true
    | .snap _ => false
    | _ => b) false

/-- Whether somebody asked to end the simulation. -/
def killed (tr : List Ev) : Prop := ∃ t ok, Ev.op t .kill ok ∈ tr

/-- No agent schedules a decommissioning of an agent that is already decommissioned, nor any
decommissioning while or after the agents of the current step are decommissioned. -/
def Sane (tr : List Ev) : Prop :=
  tr.Pairwise fun e f => ∀ now m t, f = Ev.op now (.schedDecom m t) true →
    (∀ t', e ≠ .decom t' m) ∧ ¬ (isCall e = true ∧ time e = now ∧ 8 ≤ phase e)

end Cyclus.Timing.Spec
