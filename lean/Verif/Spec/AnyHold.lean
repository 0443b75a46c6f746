import Verif.Model.AnyHold

/-!
# Specification of the container for values of any type

Containers as plain variables.
-/

namespace Cyclus.AnyHold.Spec

variable {V : Type}

/-- The variables: a container that does not exist, that is empty, or that has a type and a value. -/
abbrev Vars (V : Type) := ℕ → Option (Option (ℕ × V))

/-- What an operation does to the variables; `none` for operations that are not allowed: containers are
constructed once and used while they exist, no value is of the type of the empty container,
text is not given as `const char*`, and a reference into a container is not assigned to the same container. -/
def step (A : Vars V) : Op V → Option (Vars V)
  | .empty i => if (A i).isNone then some (Function.update A i (some none)) else none
  | .make i t v =>
    match A i with
    | none => if t = 0 then none else some (Function.update A i (some (some (t, v))))
    | some _ => none
  | .chars _ _ => none
  | .copy i j =>
    match A i, A j with
    | none, some c => some (Function.update A i (some c))
    | _, _ => none
  | .setAny i j =>
    match A i, A j with
    | some _, some c => some (Function.update A i (some c))
    | _, _ => none
  | .set i t v =>
    match A i with
    | some _ => if t = 0 then none else some (Function.update A i (some (some (t, v))))
    | none => none
  | .setRef i j =>
    match A i, A j with
    | some _, some (some c) => if i = j then none else some (Function.update A i (some (some c)))
    | _, _ => none
  | .swap i j =>
    match A i, A j with
    | some c, some d => some (Function.update (Function.update A i (some d)) j (some c))
    | _, _ => none
  | .reset i =>
    match A i with
    | some _ => some (Function.update A i (some none))
    | none => none
  | .drop i =>
    match A i with
    | some _ => some (Function.update A i none)
    | none => none

/-- A program on variables. -/
def run : Vars V → List (Op V) → Option (Vars V)
  | A, [] => some A
  | A, o :: os =>
    match step A o with
    | none => none
    | some A => run A os

/-- Whether the assignment of a value of type `t` gives up the memory of the value it replaces: that was big,
and the new one is of the same type or small. -/
def forgets (size : ℕ → ℕ) (A : Vars V) (i t : ℕ) : ℕ :=
  match A i with
  | some (some c) => if 8 < size c.1 ∧ (t = c.1 ∨ size t ≤ 8) then 1 else 0
  | _ => 0

/-- The blocks of memory that an operation gives up. -/
def lost (size : ℕ → ℕ) (A : Vars V) : Op V → ℕ
  | .set i t _ => forgets size A i t
  | .setRef i j =>
    match A j with
    | some (some c) => forgets size A i c.1
    | _ => 0
  | _ => 0

/-- The blocks of memory that a program gives up. -/
def losses (size : ℕ → ℕ) : Vars V → List (Op V) → ℕ
  | _, [] => 0
  | A, o :: os =>
    match step A o with
    | none => 0
    | some A' => lost size A o + losses size A' os

end Cyclus.AnyHold.Spec
