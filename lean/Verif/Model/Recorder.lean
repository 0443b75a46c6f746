import Verif.Model.Basic
import Mathlib.Logic.Function.Basic

/-!
# Model of the recorder

Models `/repo/src/recorder.cc`, `/repo/src/recorder.h` and `/repo/src/datum.cc`.

* Values (`boost::spirit::hold_any`) are elements of an arbitrary type `α`.
* A `Datum*` is the index of its slot in `data_`.  Pointers to data deleted by `set_dump_count` are
  not modelled.
* A backend is a number; the model keeps what it has been notified of and how often it has been
  flushed.  Backends do not throw.
* Access beyond the end of `data_` is undefined behaviour and gives `none`.
-/

namespace Cyclus.Rec

/-- Members of `Datum` (`datum.h:84-88`).  The name in an entry of `vals_` is a `const char*`: `none`
is a pointer to freed memory. -/
structure Datum (α : Type) where
  title : String
  vals : List (Option String × α)
  shapes : List (List ℤ)
  fields : List String
  deriving DecidableEq, Repr

/-- Members of `Recorder` (`recorder.h:122-127`), and what the backends have seen. -/
structure Recorder (α : Type) where
  data : List (Datum α)
  index : ℕ
  backs : List ℕ
  dumpCount : ℕ
  uuid : α
  inject : Bool
  got : ℕ → List (Datum α)
  flushed : ℕ → ℕ

variable {α : Type}

/-- The name of an argument of `AddVal`: a literal (`const char*`) or a `std::string`. -/
inductive Name
  | lit (s : String)
  | str (s : String)
  deriving DecidableEq, Repr

/-- Models `Datum::AddVal` and `AddValBase` (`datum.cc:11-32`).  The overload for `std::string` stores
`field.c_str()` of its own parameter, which is freed on return. -/
def Datum.addVal (d : Datum α) (field : Name) (val : α) (shape : Option (List ℤ)) : Datum α :=
  match field with
  | .lit s => { d with
      fields := d.fields ++ [s], vals := d.vals ++ [(some s, val)], shapes := d.shapes ++ [shape.getD []] }
  | .str s => { d with
      fields := d.fields ++ [s], vals := d.vals ++ [(none, val)], shapes := d.shapes ++ [shape.getD []] }

/-- A datum as `set_dump_count` creates it (`recorder.cc:58-62`). -/
def freshDatum (inject : Bool) (uuid : α) : Datum α :=
  if inject then Datum.addVal ⟨"", [], [], []⟩ (.lit "SimId") uuid none else ⟨"", [], [], []⟩

/-- Models `Recorder::set_dump_count` (`recorder.cc:51-65`). -/
def Recorder.setDumpCount (r : Recorder α) (n : ℕ) : Recorder α :=
  { r with data := List.replicate n (freshDatum r.inject r.uuid), dumpCount := n }

/-- Models the constructors (`recorder.cc:13-31`) for a given dump count. -/
def Recorder.new (n : ℕ) (inject : Bool) (uuid : α) : Recorder α :=
  Recorder.setDumpCount ⟨[], 0, [], 0, uuid, inject, fun _ => [], fun _ => 0⟩ n

/-- Models `Recorder::NewDatum` (`recorder.cc:67-83`).  `resize(1)` keeps the first element; it is
applied only to lists with at least one. -/
def Recorder.newDatum (r : Recorder α) (title : String) : Option (Recorder α × ℕ) :=
  match r.data[r.index]? with
  | none => none
  | some d =>
    let n := if r.inject then 1 else 0
    let d' : Datum α := ⟨title, d.vals.take n, d.shapes.take n, d.fields.take n⟩
    some ({ r with data := r.data.set r.index d', index := r.index + 1 }, r.index)

/-- `AddVal` through a pointer. -/
def Recorder.addVal (r : Recorder α) (p : ℕ) (field : Name) (val : α) (shape : Option (List ℤ)) :
    Recorder α :=
  { r with data := r.data.modify p fun d => d.addVal field val shape }

/-- `(*it)->Notify(data)` for each backend (`recorder.cc:108-110`). -/
def notifyAll (backs : List ℕ) (data : List (Datum α)) (got : ℕ → List (Datum α)) :
    ℕ → List (Datum α) :=
  backs.foldl (fun g b => Function.update g b (g b ++ data)) got

/-- `(*it)->Flush()` for each backend (`recorder.cc:101`). -/
def flushAll (backs : List ℕ) (flushed : ℕ → ℕ) : ℕ → ℕ :=
  backs.foldl (fun f b => Function.update f b (f b + 1)) flushed

/-- Models `Datum::Record`, `Recorder::AddDatum` and `NotifyBackends` (`datum.cc:35-37`,
`recorder.cc:85-89`, `105-111`). -/
def Recorder.record (r : Recorder α) : Recorder α :=
  if r.index ≥ r.data.length then
    { r with index := 0, got := notifyAll r.backs r.data r.got }
  else r

/-- Models `Recorder::Flush` (`recorder.cc:91-103`). -/
def Recorder.flush (r : Recorder α) : Recorder α :=
  if r.index = 0 then r
  else { r with
    index := 0
    got := notifyAll r.backs (r.data.take r.index) r.got
    flushed := flushAll r.backs r.flushed }

/-- Models `Recorder::RegisterBackend` (`recorder.cc:113-115`). -/
def Recorder.register (r : Recorder α) (b : ℕ) : Recorder α := { r with backs := r.backs ++ [b] }

/-- Models `Recorder::Close` (`recorder.cc:117-120`). -/
def Recorder.close (r : Recorder α) : Recorder α := { r.flush with backs := [] }

/-- Models `Recorder::inject_sim_id(bool)` (`recorder.h:79-86`). -/
def Recorder.setInject (r : Recorder α) (x : Bool) : Recorder α :=
  if x = r.inject then r
  else
    let r1 := r.flush
    Recorder.setDumpCount { r1 with inject := x } r1.dumpCount

/-- What a client does; `datum` is `NewDatum(..)->AddVal(..)->..->Record()`. -/
inductive Act (α : Type)
  | datum (title : String) (vals : List (Name × α × Option (List ℤ)))
  | flush
  | register (b : ℕ)
  | close
  | setDumpCount (n : ℕ)
  | setInject (x : Bool)

/-- Executes one of them. -/
def Recorder.exec (r : Recorder α) : Act α → Option (Recorder α)
  | .datum title vals => (r.newDatum title).map fun q =>
      (vals.foldl (fun r v => r.addVal q.2 v.1 v.2.1 v.2.2) q.1).record
  | .flush => some r.flush
  | .register b => some (r.register b)
  | .close => some r.close
  | .setDumpCount n => some (r.setDumpCount n)
  | .setInject x => some (r.setInject x)

/-- Executes a list of them. -/
def Recorder.run (r : Recorder α) : List (Act α) → Option (Recorder α)
  | [] => some r
  | a :: as => (r.exec a).bind fun r' => r'.run as

end Cyclus.Rec
