import Verif.Model.Agent
import Verif.Model.Timer

/-!
# Model of agents in a simulation

Puts the agents (`Verif.Model.Agent`) into the world of the timer (`Verif.Model.Timer`): the timer's
calls act on the context as the base classes `Facility`, `Institution` and `Region` do.

* What agents do in addition is a parameter (`extra`): an arbitrary function of an arbitrary state.
* The answers of `CheckDecommissionCondition` are a parameter (`cond`).
* `none` as state of the context stands for undefined behaviour and for an exception that is not
  caught; it ends the simulation.
-/

namespace Cyclus.Agents

open Timing (World Timer Ev)

/-- The prototypes (name to spec, class and lifetime), and what agents do. -/
structure Fleet (τ : Type) where
  protos : String → Option (String × Kind × ℤ)
  cond : τ → ℕ → Bool
  extra : τ → Ctx → Timer → Ev → τ × List Timing.Op
  shim : ℕ → Bool

/-- `CreateAgent` and `Build` (`timer.cc:70-71`). -/
def enter (c : Ctx) (proto : String) (p : String × Kind × ℤ) (parent : Option ℕ) : Option Ctx :=
  match build (create c proto p.1 p.2.1 p.2.2) c.nextId parent with
  | some (c', .ok ()) => some c'
  | _ => none

/-- Agents built before the simulation starts (`xml_file_loader.cc:441-448`; after a restart
`sim_init.cc:378-469` rebuilds the same tree): prototype name, spec, class,
lifetime and parent. -/
def initial (t0 : ℤ) (l : List (String × (String × Kind × ℤ) × Option ℕ)) : Option Ctx :=
  l.foldl (fun oc x => oc.bind fun c => enter c x.1 x.2.1 x.2.2) (some (Ctx.empty t0))

/-- The calls with which an agent registers as time listener (`facility.cc:34`,
`institution.cc:40`, `region.cc:29`). -/
def listen (k : Kind) (a : ℕ) : List Timing.Op := if k = .other then [] else [.register a]

/-- The calls with which it deregisters (`facility.cc:52`, `institution.cc:44`, `region.cc:33`). -/
def unlisten (k : Kind) (a : ℕ) : List Timing.Op := if k = .other then [] else [.unregister a]

/-- What happens when the timer calls; `Build` by `timer.cc:65-80`, `Tock` by
`institution.cc:48-61`, `Decommission` by `timer.cc:181-191`. -/
def Fleet.act {τ : Type} (F : Fleet τ) (w : Option Ctx × τ) (t : Timer) (e : Ev) :
    (Option Ctx × τ) × List Timing.Op :=
  match w.1 with
  | none => (w, [])
  | some c0 =>
    let c : Ctx := { c0 with time := t.time }
    let r := F.extra w.2 c t e
    match e with
    | .build _ proto parent => match F.protos proto with
      | none => ((none, r.1), [])
      | some p => match enter c proto p parent with
        | none => ((none, r.1), [])
        | some c' => ((some c', r.1), listen p.2.1 c.nextId ++ r.2)
    | .tock _ i => match c.mem i with
      | none => ((none, r.1), [])
      | some I =>
        if I.kind = .inst then match instTock c (F.cond w.2) i with
          | none => ((none, r.1), [])
          | some l => ((some c, r.1), l.map (.schedDecom · (-1)) ++ r.2)
        else ((some c, r.1), r.2)
    | .decom _ a => match c.mem a with
      | none => ((none, r.1), [])
      | some A => match decommission c a (F.cond w.2 a) with
        | some (c', .ok ()) => ((some c', r.1), unlisten A.kind a ++ r.2)
        | _ => ((none, r.1), [])
    | _ => ((some c, r.1), r.2)

/-- The world of the timer. -/
def Fleet.world {τ : Type} (F : Fleet τ) : World (Option Ctx × τ) := ⟨F.shim, F.act⟩

end Cyclus.Agents
