import Verif.Model.Discovery
import Verif.Model.Loader
import Mathlib.Data.List.Dedup

/-!
# Model of the modules that agents are made from

Models `DynamicModule` (`/repo/src/dynamic_module.cc:62-64`, 70-146), the opening and closing of libraries
(`/repo/src/unix_helper_functions.h:13-53`), `MakePyAgent` (`/repo/src/pyhooks.cc:38-41`,
`/repo/src/pymodule.pyx:38-58`, `/repo/cyclus/lib.pyx:1908-1920`) and `DiscoverSpecs`
(`/repo/src/discovery.cc:48-78`), on a system where libraries end in `.so` and with Python.

Simplifications.
* The system (`World`) is arbitrary but does not change during an operation: which files exist, which of them `dlopen` can
  open, which symbols they have, which Python modules and classes there are, and whether `dlclose` succeeds.
* The system counts how often each library is open (`refs`), as `dlopen` and `dlclose` do.  Calling a function of a library
  that is not open, using a deleted module, and using the null pointer end the program (`crash`).
* A constructor is an arbitrary value `κ`; of the agent, the constructor that made it and the member `spec_` are kept.
  Constructors of C++ do not fail.  Maps are lists in the order of their keys.  What `ClearPyAgentRefs` does is not modelled.
-/

namespace Cyclus.DynMod

open Load (Spec)

/-- Texts. -/
abbrev Txt := List Char

/-- The system: files, libraries, Python modules. -/
structure World (κ : Type) where
  /-- `fs::exists`. -/
  ex : Txt → Bool
  /-- `operator/` of paths. -/
  join : Txt → Txt → Txt
  /-- `PyFindModule` (`pymodule.pyx:26-35`). -/
  py : Txt → Txt
  /-- `Env::cyclus_path`. -/
  dirs : List Txt
  /-- `dlopen` succeeds. -/
  opens : Txt → Bool
  /-- `dlsym`, by the name of the symbol. -/
  sym : Txt → Txt → Option κ
  /-- What `cyclib.make_py_agent` makes of the names of a module and a class; `none` for a Python exception. -/
  cls : Txt → Txt → Option κ
  /-- `dlclose` returns 0. -/
  shuts : Txt → Bool

/-- Exceptions of C++. -/
inductive Err where
  | io | value
  deriving DecidableEq, Repr

/-- The members of a `DynamicModule` (`dynamic_module.h:101-112`); `ctor_name_` is used in the constructor only. -/
structure Module (κ : Type) where
  path : Txt
  handle : Option Txt
  ctor : Option κ
  deriving DecidableEq

/-- The static members (`dynamic_module.h:95-99`) and the libraries that are open.  An entry of `modules_` is `none` after the
module was deleted. -/
structure St (κ : Type) where
  mods : List (Txt × Option (Module κ))
  man : List (Txt × κ)
  refs : Txt → ℕ

/-- Before anything is loaded. -/
def St.init (κ : Type) : St κ := ⟨[], [], fun _ => 0⟩

/-- What an operation does. -/
inductive Res (κ α : Type) where
  | ok (a : α) (s : St κ)
  | err (e : Err) (s : St κ)
  | crash

/-- An agent: what made it, and `spec_`. -/
structure Agent (κ : Type) where
  made : κ
  spec : Txt
  deriving DecidableEq

variable {κ : Type}

/-- `AgentSpec::LibPath` (`dynamic_module.cc:62-64`). -/
def libPath (w : World κ) (p : Spec) : Txt := w.join p.path ("lib".toList ++ p.lib ++ ".so".toList)

/-- `boost::starts_with(path, "<py>")`. -/
def isPy (path : Txt) : Bool := "<py>".toList.isPrefixOf path

/-- `dlopen` and `dlclose`: the count of one library. -/
def bump (refs : Txt → ℕ) (p : Txt) : Txt → ℕ := fun q => if q = p then refs q + 1 else refs q

/-- See `bump`. -/
def drop (refs : Txt → ℕ) (p : Txt) : Txt → ℕ := fun q => if q = p then refs q - 1 else refs q

/-- `DynamicModule::DynamicModule(AgentSpec)`, `OpenLibrary` and `SetConstructor` (`dynamic_module.cc:126-138`,
`unix_helper_functions.h:13-41`): the module or the exception, and the libraries that are open after it. -/
def construct (w : World κ) (refs : Txt → ℕ) (p : Spec) : Except Err (Module κ) × (Txt → ℕ) :=
  match Discovery.findModule w.ex w.join w.py w.dirs (libPath w p) p.lib with
  | .error _ => (.error .io, refs)
  | .ok path =>
    if isPy path then (.ok ⟨path, none, none⟩, refs)
    else if w.opens path then
      match w.sym path ("Construct".toList ++ p.agent) with
      | none => (.error .io, bump refs path)
      | some c => (.ok ⟨path, some path, some c⟩, bump refs path)
    else (.error .io, refs)

/-- `modules_[key] = dyn` for a key that is not there. -/
def ins {α : Type} (k : Txt) (v : α) : List (Txt × α) → List (Txt × α)
  | [] => [(k, v)]
  | e :: l => if k < e.1 then (k, v) :: e :: l else e :: ins k v l

/-- The second half of `Make` (`dynamic_module.cc:83-94`) with the module `dyn`.  `make_py_agent` returns the null pointer if there is a
Python exception, and `a->spec` is called on it (line 93). -/
def instantiate (w : World κ) (s : St κ) (p : Spec) : Option (Module κ) → Res κ (Agent κ)
  | none => .crash
  | some m =>
    if isPy m.path then
      match w.cls p.lib p.agent with
      | none => .crash
      | some c => .ok ⟨c, p.str⟩ s
    else
      match m.ctor, m.handle with
      | some c, some h => if 0 < s.refs h then .ok ⟨c, p.str⟩ s else .crash
      | _, _ => .crash

/-- `DynamicModule::Make` (`dynamic_module.cc:73-95`). -/
def make (w : World κ) (s : St κ) (p : Spec) : Res κ (Agent κ) :=
  match s.man.lookup p.str with
  | some c => .ok ⟨c, p.str⟩ s
  | none =>
    match s.mods.lookup p.str with
    | some m => instantiate w s p m
    | none =>
      match construct w s.refs p with
      | (.error e, r) => .err e { s with refs := r }
      | (.ok m, r) => instantiate w { s with mods := ins p.str (some m) s.mods, refs := r } p (some m)

/-- `DynamicModule::Exists` (`dynamic_module.cc:97-105`).  There is no destructor: the library stays open. -/
def exist (w : World κ) (s : St κ) (p : Spec) : Bool × St κ :=
  match construct w s.refs p with
  | (.error _, r) => (false, { s with refs := r })
  | (.ok _, r) => (true, { s with refs := r })

/-- `DynamicModule::IsPyAgent` (`dynamic_module.cc:118-124`).  For a key that is not there `operator[]` gives the null pointer. -/
def isPyAgent (w : World κ) (s : St κ) (p : Spec) : Res κ Bool :=
  match exist w s p with
  | (false, s') => .ok false s'
  | (true, s') =>
    match s'.mods.lookup p.str with
    | some (some m) => .ok (isPy m.path) s'
    | _ => .crash

/-- The loop of `CloseAll` with `CloseLibrary` (`dynamic_module.cc:109-112`, `unix_helper_functions.h:44-53`): the map, the libraries that are
open, and whether there was no exception; `none` if a deleted module is used. -/
def closeLoop (w : World κ) : List (Txt × Option (Module κ)) → (Txt → ℕ) →
    Option (List (Txt × Option (Module κ)) × (Txt → ℕ) × Bool)
  | [], r => some ([], r, true)
  | (_, none) :: _, _ => none
  | (k, some m) :: l, r =>
    match m.handle with
    | none => (closeLoop w l r).map fun x => ((k, none) :: x.1, x.2)
    | some h =>
      if w.shuts h then (closeLoop w l (drop r h)).map fun x => ((k, none) :: x.1, x.2)
      else some ((k, some m) :: l, r, false)

/-- `DynamicModule::CloseAll` (`dynamic_module.cc:107-116`). -/
def closeAll (w : World κ) (s : St κ) : Res κ Unit :=
  match closeLoop w s.mods s.refs with
  | none => .crash
  | some (l, r, false) => .err .io { s with mods := l, refs := r }
  | some (_, r, true) => .ok () ⟨[], [], r⟩

/-- The loop of `DiscoverSpecs` (`discovery.cc:71-76`) over the names. -/
def discoverLoop (w : World κ) (dir lib : Txt) : List Txt → St κ → Res κ (List Txt)
  | [], s => .ok [] s
  | n :: l, s =>
    match Spec.parse (dir ++ [':'] ++ lib ++ [':'] ++ n) with
    | .error _ => .err .value s
    | .ok p =>
      match discoverLoop w dir lib l (exist w s p).2 with
      | .ok r s' => .ok (if (exist w s p).1 then (dir ++ [':'] ++ lib ++ [':'] ++ n) :: r else r) s'
      | x => x

/-- `DiscoverSpecs` (`discovery.cc:48-78`); `text` is what is in a file.  Sets are lists without repetitions. -/
def discoverSpecs (w : World κ) (text : Txt → Txt) (dir lib : Txt) (s : St κ) : Res κ (List Txt) :=
  match Discovery.findModule w.ex w.join w.py w.dirs (w.join dir ("lib".toList ++ lib ++ ".so".toList)) [] with
  | .error _ => .err .io s
  | .ok f =>
    match Discovery.discover (text f) with
    | none => .crash
    | some l => discoverLoop w dir lib l.dedup s

end Cyclus.DynMod
