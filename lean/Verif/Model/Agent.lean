import Verif.Model.Basic
import Mathlib.Logic.Function.Basic

/-!
# Model of agents and their registration with the context

Models `/repo/src/agent.cc`, `facility.cc`, `institution.cc`, `region.cc`, and the parts of
`/repo/src/context.h`, `context.cc` that keep agents.

* An agent is known by its id (`id_(next_id_++)`, `agent.cc:61`), which stands for its address as
  well; an address is not reused after the agent is deleted.
* A use of a deleted agent is undefined behaviour and gives `none`.
* Prototype and spec of an agent do not change after it is created.
* A set of pointers is a list without repetitions, in order of insertion; nothing below depends on
  the order.
* Python agents, logging, and virtual methods overridden by archetypes are dropped.
-/

namespace Cyclus.Agents

/-- Which base class the agent has; `other` is a direct subclass of `Agent`. -/
inductive Kind
  | facility
  | inst
  | region
  | other
  deriving DecidableEq, Repr

/-- Members of `Agent` (`agent.h:463-495`). -/
structure Agent where
  proto : String
  spec : String
  kind : Kind
  lifetime : ℤ
  enter : ℤ
  parent : Option ℕ
  parentId : ℤ
  children : List ℕ
  deriving DecidableEq, Repr

/-- Rows of the tables `AgentEntry` (`agent.cc:226-236`) and `AgentExit` (`agent.cc:185-188`). -/
inductive Row
  | entry (id : ℕ) (kind : Kind) (spec proto : String) (parentId lifetime enter : ℤ)
  | exit (id : ℕ) (time : ℤ)
  deriving DecidableEq, Repr

/-- The memory of agents and the members of `Context` that concern them (`context.h:371-386`):
`list` is `agent_list_`. -/
structure Ctx where
  nextId : ℕ
  mem : ℕ → Option Agent
  list : List ℕ
  nProto : String → ℤ
  nSpec : String → ℤ
  traders : List ℕ
  time : ℤ
  rows : List Row

/-- The context before any agent exists. -/
def Ctx.empty (time : ℤ) : Ctx := ⟨0, fun _ => none, [], fun _ => 0, fun _ => 0, [], time, []⟩

/-- The result of a call: `none` for undefined behaviour. -/
abbrev Res := Option (Ctx × Except Err Unit)

/-- Insertion into a set. -/
def insertSet (l : List ℕ) (a : ℕ) : List ℕ := if a ∈ l then l else l ++ [a]

/-- Writes an agent. -/
def Ctx.put (c : Ctx) (a : ℕ) (A : Agent) : Ctx :=
  { c with
    mem := Function.update c.mem a (some A) }

/-- Models the constructor (`agent.cc:59-70`) followed by `InitFrom` (`agent.cc:19-25`), which sets
prototype, spec and lifetime. -/
def create (c : Ctx) (proto spec : String) (kind : Kind) (lifetime : ℤ) : Ctx :=
  { c.put c.nextId ⟨proto, spec, kind, lifetime, -1, none, -1, []⟩ with
    nextId := c.nextId + 1
    list := insertSet c.list c.nextId }

/-- The loop of `~Agent` over the children (`agent.cc:89-93`). -/
def orphan (c : Ctx) : List ℕ → Option Ctx
  | [] => some c
  | k :: ks => match c.mem k with
    | none => none
    | some K => orphan (c.put k { K with parent := none, parentId := -1 }) ks

/-- Models `~Agent` (`agent.cc:72-94`). -/
def destroy (c : Ctx) (a : ℕ) : Option Ctx :=
  match c.mem a with
  | none => none
  | some A =>
    let c1 := { c with list := c.list.filter (· ≠ a) }
    let c2 := match A.parent with
      | none => some c1
      | some p => match c1.mem p with
        | none => none
        | some P => some (c1.put p { P with children := P.children.filter (· ≠ a) })
    match c2 with
    | none => none
    | some c2 => (orphan c2 A.children).map fun c3 =>
        { c3 with mem := Function.update c3.mem a none }

/-- Models `Context::DelAgent` (`context.cc:115-122`). -/
def delAgent (c : Ctx) (a : ℕ) : Option Ctx :=
  if a ∈ c.list then destroy { c with list := c.list.filter (· ≠ a) } a else some c

/-- Models `Context::RegisterAgent` (`context.h:360-363`). -/
def registerAgent (c : Ctx) (A : Agent) : Ctx :=
  { c with
    nProto := Function.update c.nProto A.proto (c.nProto A.proto + 1)
    nSpec := Function.update c.nSpec A.spec (c.nSpec A.spec + 1) }

/-- Models `Context::UnregisterAgent` (`context.h:366-369`). -/
def unregisterAgent (c : Ctx) (A : Agent) : Ctx :=
  { c with
    nProto := Function.update c.nProto A.proto (c.nProto A.proto - 1)
    nSpec := Function.update c.nSpec A.spec (c.nSpec A.spec - 1) }

/-- Models `Agent::Connect` (`agent.cc:170-180`). -/
def connect (c : Ctx) (a : ℕ) (parent : Option ℕ) : Res :=
  match c.mem a with
  | none => none
  | some A =>
    if parent = some a then some (c, .error .key)
    else match parent with
      | none => some (c, .ok ())
      | some p => match c.mem p with
        | none => none
        | some P => some (((c.put a { A with parent := some p, parentId := p }).put p
            { P with children := insertSet P.children a }), .ok ())

/-- Models `EnterNotify` of the agent's class (`agent.cc:166-168`, `facility.cc:31-35`,
`institution.cc:39-41`, `region.cc:28-30`); the registration as time listener is in the model of the
timer. -/
def enterNotify (c : Ctx) (a : ℕ) (A : Agent) : Ctx :=
  match A.kind with
  | .facility =>
    let c1 := registerAgent c A
    { c1 with traders := insertSet c1.traders a }
  | .other => registerAgent c A
  | .inst => c
  | .region => c

/-- The part of `Build` after `Connect` (`agent.cc:160-163`). -/
def enterSim (c : Ctx) (a : ℕ) : Res :=
  match c.mem a with
  | none => none
  | some A =>
    let A' := { A with enter := c.time }
    let c' := enterNotify (c.put a A') a A'
    some ({ c' with
      rows := c'.rows ++ [.entry a A'.kind A'.spec A'.proto A'.parentId A'.lifetime A'.enter] },
      .ok ())

/-- Models `Agent::Build` (`agent.cc:152-164`). -/
def build (c : Ctx) (a : ℕ) (parent : Option ℕ) : Res :=
  match connect c a parent with
  | none => none
  | some (c', .error e) => some (c', .error e)
  | some (c', .ok ()) => enterSim c' a

/-- Models `Decommission` of the agent's class (`agent.cc:182-191`, `facility.cc:46-54`,
`institution.cc:43-46`, `region.cc:32-35`); `cond` is `CheckDecommissionCondition()`. -/
def decommission (c : Ctx) (a : ℕ) (cond : Bool) : Res :=
  match c.mem a with
  | none => none
  | some A =>
    if A.kind = .facility ∧ cond = false then some (c, .error .generic)
    else
      let traders := if A.kind = .facility then c.traders.filter (· ≠ a) else c.traders
      let c1 : Ctx := { c with traders := traders, rows := c.rows ++ [.exit a c.time] }
      let c2 := unregisterAgent c1 A
      (delAgent c2 a).map fun c3 => (c3, .ok ())

/-- Models `Agent::lifetime(int)` (`agent.cc:108-113`). -/
def setLifetime (c : Ctx) (a : ℕ) (n : ℤ) : Res :=
  match c.mem a with
  | none => none
  | some A =>
    if A.enter ≠ -1 then some (c, .error .value)
    else some (c.put a { A with lifetime := n }, .ok ())

/-- Models `Agent::lifetime_force` (`agent.cc:115-127`). -/
def lifetimeForce (c : Ctx) (a : ℕ) (n : ℤ) : Res :=
  match setLifetime c a n with
  | none => none
  | some (c', .ok ()) => some (c', .ok ())
  | some (c', .error _) => match c'.mem a with
    | none => none
    | some A =>
      if A.enter + n ≤ c'.time then setLifetime c' a (c'.time - A.enter + 1)
      else some (c'.put a { A with lifetime := n }, .ok ())

/-- Models `Agent::exit_time` (`agent.h:405-409`). -/
def Agent.exitTime (A : Agent) : ℤ := if A.lifetime = -1 then -1 else A.enter + A.lifetime - 1

/-- Models `Agent::AncestorOf` (`agent.cc:129-137`): `up` is the variable `other` in the loop.  The
loop has fuel; `none` means that it does not end within it. -/
def ancestorLoop (c : Ctx) (this : ℕ) : ℕ → Option ℕ → Option Bool
  | _, none => some false
  | 0, some _ => none
  | fuel + 1, some up =>
    if this = up then some true
    else match c.mem up with
      | none => none
      | some U => ancestorLoop c this fuel U.parent

/-- `a->AncestorOf(other)`. -/
def ancestorOf (c : Ctx) (fuel : ℕ) (a other : ℕ) : Option Bool :=
  match c.mem other with
  | none => none
  | some O => ancestorLoop c a fuel O.parent

/-- A loop that returns at the first `true`. -/
def anyM (f : ℕ → Option Bool) : List ℕ → Option Bool
  | [] => some false
  | x :: xs => match f x with
    | none => none
    | some true => some true
    | some false => anyM f xs

/-- `a->DecendentOf(other)` (`agent.cc:139-147`). -/
def decendentOf (c : Ctx) : ℕ → ℕ → ℕ → Option Bool
  | 0, _, _ => none
  | fuel + 1, a, other => match c.mem other with
    | none => none
    | some O => anyM (fun k => if a = k then some true else decendentOf c fuel a k) O.children

/-- `a->InFamilyTree(other)` (`agent.cc:149-151`). -/
def inFamilyTree (c : Ctx) (fuel : ℕ) (a other : ℕ) : Option Bool :=
  if a = other then some true
  else match ancestorOf c fuel a other with
    | none => none
    | some true => some true
    | some false => decendentOf c fuel a other

/-- Models `GetTreePrintOuts` (`agent.cc:207-225`): the number of lines it returns. -/
def treePrintOuts (c : Ctx) (this : ℕ) : ℕ → Option ℕ
  | 0 => none
  | fuel + 1 => match c.mem this with
    | none => none
    | some A => A.children.foldl (fun acc _ => match acc, treePrintOuts c this fuel with
        | some n, some m => some (n + m)
        | _, _ => none) (some 1)

/-- Models the end of `~Context` (`context.cc:103-112`). -/
def destroyContext (c : Ctx) : Option Ctx :=
  (c.list.filter fun a => ((c.mem a).map fun A => A.parent) = some none).foldl
    (fun oc a => oc.bind fun c => delAgent c a) (some c)

/-- Models `Institution::Tock` (`institution.cc:48-61`): the agents for which it calls `SchedDecom`;
`cond` is `CheckDecommissionCondition()`. -/
def instTock (c : Ctx) (cond : ℕ → Bool) (i : ℕ) : Option (List ℕ) :=
  match c.mem i with
  | none => none
  | some I =>
    if I.children.all fun k => (c.mem k).isSome then
      some (I.children.filter fun k => match c.mem k with
        | none => false
        | some K => K.lifetime ≠ -1 ∧ c.time ≥ K.exitTime ∧ (K.kind ≠ .facility ∨ cond k = true))
    else none

/-- A call of one of the methods. -/
inductive Op
  | create (proto spec : String) (kind : Kind) (lifetime : ℤ)
  | build (a : ℕ) (parent : Option ℕ)
  | decommission (a : ℕ) (cond : Bool)
  | del (a : ℕ)
  | setLifetime (a : ℕ) (n : ℤ)
  | lifetimeForce (a : ℕ) (n : ℤ)
  | step
  deriving DecidableEq, Repr

/-- Executes a call. -/
def exec (c : Ctx) : Op → Res
  | .create proto spec kind lifetime => some (create c proto spec kind lifetime, .ok ())
  | .build a parent => build c a parent
  | .decommission a cond => decommission c a cond
  | .del a => (delAgent c a).map fun c => (c, .ok ())
  | .setLifetime a n => setLifetime c a n
  | .lifetimeForce a n => lifetimeForce c a n
  | .step => some ({ c with time := c.time + 1 }, .ok ())

/-- Executes calls one after the other; exceptions are caught by the caller. -/
def run (c : Ctx) : List Op → Option Ctx
  | [] => some c
  | o :: os => match exec c o with
    | none => none
    | some (c', _) => run c' os

end Cyclus.Agents
