import Mathlib.Logic.Function.Basic
import Mathlib.Data.Option.Basic
import Mathlib.Tactic.Common

/-!
# Model of the lifetime of agents written in Python

Models the cache `_AGENT_REFS` and the functions that use it (`/repo/cyclus/lib.pyx:1243-1263`, 1905-1935), the making and freeing
of wrappers (`lib.pyx:1297-1312`, `/repo/cyclus/agents.pyx:733-741`, 1058-1072), `Clone` and `InitFrom` of the shims
(`agents.pyx:69-77`, 92-100), `Context::DelAgent` (`/repo/src/context.cc:115-122`), the list of agents (`/repo/src/agent.cc:68`, 74), and the
property `annotations` (`lib.pyx:1377-1384`, `agents.pyx:1121-1128`).

Simplifications.  C++ agents have numbers that are never used again (`agent.cc:61`), and so have Python objects.  An agent is in the list
of agents as long as it lives.  A Python object lives as long as the user or the cache has a reference to it (no cycles).  Using an agent or an object that does not live any
more, and deleting an agent twice, ends the program (`none`).  Constructors of classes in Python do not fail and do not store
references to their objects.  C++ has no pointers to agents that were deleted (operations on them do nothing).
-/

namespace Cyclus.PyLife

/-- A Python object: the number of the agent in `ptx`, `_free`, and how many references the user has. -/
structure Obj where
  cpp : ℕ
  free : Bool
  held : ℕ
  deriving DecidableEq, Repr

/-- A C++ agent: one written in C++, the shim of an object, or a shim that an object had before it got its own (see `create`); nothing has a pointer to the last kind but the
list of agents. -/
inductive Who where
  | cpp
  | shim (o : ℕ)
  | orphan
  deriving DecidableEq, Repr

/-- C++ agents that live; Python objects that live; `_AGENT_REFS`; the next numbers. -/
structure St where
  cpp : ℕ → Option Who
  objs : ℕ → Option Obj
  refs : ℕ → Option ℕ
  nc : ℕ
  np : ℕ

/-- Before any agent is made. -/
def St.init : St := ⟨fun _ => none, fun _ => none, fun _ => none, 0, 0⟩

/-- Change of a map at one key. -/
def upd {α : Type} (f : ℕ → α) (k : ℕ) (v : α) : ℕ → α := fun x => if x = k then v else f x

/-- `__dealloc__` (`lib.pyx:1303-1312`, `agents.pyx:1064-1072`): an object that is free deletes the agent. -/
def dealloc (s : St) (o : ℕ) (b : Obj) : Option St :=
  if b.free then
    match s.cpp b.cpp with
    | none => none
    | some _ => some { s with objs := upd s.objs o none, cpp := upd s.cpp b.cpp none }
  else some { s with objs := upd s.objs o none }

/-- The end of a reference to object `o`: it is deallocated if it was the last one. -/
def settle (s : St) (o : ℕ) : Option St :=
  match s.objs o with
  | none => none
  | some b => if b.held = 0 ∧ s.refs b.cpp ≠ some o then dealloc s o b else some s

/-- The number of the agent of the next object. -/
def own (s : St) (sub : Bool) : ℕ := if sub then s.nc + 1 else s.nc

/-- A new object and its agent.  The `__cinit__` of a base class runs before that of the class: for regions, institutions and
facilities (`sub`) an agent has already been made (`agents.pyx:733-741`) when the pointer to it is overwritten (1060-1063, 1260-1263, 1461-1464). -/
def create (s : St) (sub free : Bool) (held : ℕ) : St :=
  { s with
    cpp := upd (if sub then upd s.cpp s.nc (some .orphan) else s.cpp) (own s sub) (some (.shim s.np))
    objs := upd s.objs s.np (some ⟨own s sub, free, held⟩)
    nc := own s sub + 1
    np := s.np + 1 }

/-- `make_py_agent` (`lib.pyx:1908-1920`) and the end of `Clone` (`agents.pyx:71-77`): the object is not free, and is in the cache. -/
def make (s : St) (sub : Bool) : St := { create s sub false 0 with refs := upd s.refs (own s sub) (some s.np) }

/-- Operations of the user, of C++ and of Python. -/
inductive Op where
  /-- An agent is made in C++. -/
  | cpp
  /-- The user calls a class in Python and keeps the object. -/
  | user (sub : Bool)
  /-- `make_py_agent`. -/
  | make (sub : Bool)
  /-- `Clone` of agent `c`, which has a class of the same kind. -/
  | clone (c : ℕ) (sub : Bool)
  /-- `InitFrom(QueryableBackend*)` of agent `c`. -/
  | initFrom (c : ℕ)
  /-- `agent_to_py` of agent `c`; the user keeps the object. -/
  | wrap (c : ℕ)
  /-- The user forgets a reference to object `o`. -/
  | release (o : ℕ)
  /-- The user uses the agent of object `o`. -/
  | use (o : ℕ)
  /-- C++ calls a method of agent `c`. -/
  | call (c : ℕ)
  /-- `Context::DelAgent`. -/
  | del (c : ℕ)
  /-- `_clear_agent_refs`. -/
  | clear
  deriving DecidableEq

/-- The object that `agent_to_py` returns (`lib.pyx:1243-1263`). -/
def wrapped (s : St) (c : ℕ) : ℕ := (s.refs c).getD s.np

/-- `agent_to_py` (`lib.pyx:1243-1263`). -/
def wrap (s : St) (c : ℕ) : Option St :=
  match s.cpp c with
  | none => some s
  | some .orphan => some s
  | some _ =>
    match s.refs c with
    | none => some { s with objs := upd s.objs s.np (some ⟨c, false, 1⟩), refs := upd s.refs c (some s.np), np := s.np + 1 }
    | some o =>
      match s.objs o with
      | none => none
      | some b => some { s with objs := upd s.objs o (some { b with held := b.held + 1 }) }

/-- `_del_agent` (`lib.pyx:1929-1935`). -/
def delRef (s : St) (c : ℕ) : Option St :=
  match s.refs c with
  | none => some s
  | some o => settle { s with refs := upd s.refs c none } o

/-- `delete m` (`context.cc:119`). -/
def delete (s : St) (c : ℕ) : Option St :=
  match s.cpp c with
  | none => none
  | some _ => some { s with cpp := upd s.cpp c none }

/-- One operation; `none` if it ends the program. -/
def step (s : St) : Op → Option St
  | .cpp => some { s with cpp := upd s.cpp s.nc (some .cpp), nc := s.nc + 1 }
  | .user sub => some (create s sub true 1)
  | .make sub => some (make s sub)
  | .clone c sub =>
    match s.cpp c with
    | none => some s
    | some .orphan => some s
    | some .cpp => some { s with cpp := upd s.cpp s.nc (some .cpp), nc := s.nc + 1 }
    | some (.shim o) => (s.objs o).map fun _ => make s sub
  | .initFrom c =>
    match s.cpp c with
    | some (.shim o) =>
      match s.objs o with
      | none => none
      | some _ =>
        match s.refs c with
        | none => some { s with refs := upd s.refs c (some o) }
        | some w => settle { s with refs := upd s.refs c (some o) } w
    | _ => some s
  | .wrap c => wrap s c
  | .release o =>
    match s.objs o with
    | none => some s
    | some b => if b.held = 0 then some s else settle { s with objs := upd s.objs o (some { b with held := b.held - 1 }) } o
  | .use o =>
    match s.objs o with
    | none => some s
    | some b => (s.cpp b.cpp).map fun _ => s
  | .call c =>
    match s.cpp c with
    | some (.shim o) => (s.objs o).map fun _ => s
    | _ => some s
  | .del c =>
    match s.cpp c with
    | none => some s
    | some _ => (delRef s c).bind fun s' => delete s' c
  | .clear => some
      { s with
        refs := fun _ => none
        objs := fun o => (s.objs o).bind fun b => if b.held = 0 ∧ s.refs b.cpp = some o then none else some b
        cpp := fun c => (s.cpp c).bind fun x =>
          match s.refs c with
          | none => some x
          | some o => if (s.objs o).any fun b => b.free && b.held == 0 then none else some x }

/-- Operations in order. -/
def exec (s : St) : List Op → Option St
  | [] => some s
  | o :: l => (step s o).bind fun s' => exec s' l

/-- The property `annotations` (`lib.pyx:1377-1384`): the answer, which is also what is remembered; `empty` is `jsoncpp.Value()` and `a` is what the agent has. -/
def annotations {α : Type} (empty a : α) (remembered : Option α) : α :=
  match remembered with
  | none => a
  | some _ => empty

end Cyclus.PyLife
