import Mathlib.Data.Nat.Notation
import Mathlib.Logic.Function.Basic

/-!
# Model of the container for values of any type

Models `basic_hold_any` (`/repo/src/any.hpp:72-412`), which holds the values of every datum that is
recorded and every field of a query result.

* Types are numbers; `size t` is `sizeof`.  The type `0` is `detail::empty`.  A table of functions is the
  type it was made for.
* Values are of an arbitrary type `V`; what copying, moving and destroying a value does inside the
  value is not modelled, and constructors do not throw.
* Memory from `new` has an address never used before.  A block remembers its type, and its value unless that is
  destroyed.  Undefined behaviour is `none`.
* The member `object` is a word that holds zero, a small value, what is left of one, or a pointer.
-/

namespace Cyclus.AnyHold

/-- The member `object`. -/
inductive Word (V : Type) where
  | zero
  | val (v : V)
  | dead
  | ptr (a : ℕ)

/-- `table` and `object` (`any.hpp:355-356`). -/
structure Any (V : Type) where
  ty : ℕ
  w : Word V

/-- The heap: at an allocated address the type, and the value unless it is destroyed. -/
structure Mem (V : Type) where
  heap : ℕ → Option (ℕ × Option V)
  next : ℕ

variable {V : Type}

/-- `is_small` (`any.hpp:169`); a pointer has 8 bytes. -/
def small (size : ℕ → ℕ) (t : ℕ) : Bool := decide (size t ≤ 8)

/-- `new T(x)`. -/
def Mem.alloc (m : Mem V) (t : ℕ) (v : V) : Mem V × Word V :=
  (⟨Function.update m.heap m.next (some (t, some v)), m.next + 1⟩, .ptr m.next)

/-- `new_object` (`any.hpp:228-238`). -/
def newObject (size : ℕ → ℕ) (m : Mem V) (t : ℕ) (v : V) : Mem V × Word V :=
  if small size t then (m, .val v) else m.alloc t v

/-- The destructor on a small value (`any.hpp:114-121`); `empty` has nothing to destroy. -/
def destroySmall (x : Any V) : Option (Word V) :=
  match x.w with
  | .val _ => some .dead
  | .zero => if x.ty = 0 then some .zero else none
  | _ => none

/-- `static_delete` (`any.hpp:114-117, 145-149`). -/
def staticDelete (size : ℕ → ℕ) (m : Mem V) (x : Any V) : Option (Mem V × Word V) :=
  if small size x.ty then (destroySmall x).map fun w => (m, w)
  else
    match x.w with
    | .ptr a =>
      match m.heap a with
      | some (t, some _) =>
        if t = x.ty then some (⟨Function.update m.heap a none, m.next⟩, .ptr a) else none
      | _ => none
    | _ => none

/-- `destruct` (`any.hpp:118-121, 150-154`). -/
def destruct (size : ℕ → ℕ) (m : Mem V) (x : Any V) : Option (Mem V × Word V) :=
  if small size x.ty then (destroySmall x).map fun w => (m, w)
  else
    match x.w with
    | .ptr a =>
      match m.heap a with
      | some (t, some _) =>
        if t = x.ty then some (⟨Function.update m.heap a (some (t, none)), m.next⟩, .ptr a) else none
      | _ => none
    | _ => none

/-- `clone` (`any.hpp:122-125, 155-158`): the new value of the member `object` of the target. -/
def clone (size : ℕ → ℕ) (m : Mem V) (x : Any V) : Option (Mem V × Word V) :=
  if small size x.ty then
    match x.w with
    | .val v => some (m, .val v)
    | .zero => if x.ty = 0 then some (m, .zero) else none
    | _ => none
  else
    match x.w with
    | .ptr a =>
      match m.heap a with
      | some (t, some v) => if t = x.ty then some (m.alloc t v) else none
      | _ => none
    | _ => none

/-- `move` (`any.hpp:126-130, 159-163`): an assignment of values of the same type. -/
def moveTo (size : ℕ → ℕ) (m : Mem V) (x y : Any V) : Option (Mem V × Word V) :=
  if small size x.ty then
    match x.w, y.w with
    | .val v, .val _ => some (m, .val v)
    | .zero, .zero => if x.ty = 0 then some (m, .zero) else none
    | _, _ => none
  else
    match x.w, y.w with
    | .ptr a, .ptr b =>
      match m.heap a, m.heap b with
      | some (t, some v), some (u, some _) =>
        if t = x.ty ∧ u = x.ty then some (⟨Function.update m.heap b (some (t, some v)), m.next⟩, .ptr b)
        else none
      | _, _ => none
    | _, _ => none

/-- `reset` (`any.hpp:337-345`). -/
def reset (size : ℕ → ℕ) (m : Mem V) (x : Any V) : Option (Mem V × Any V) :=
  if x.ty = 0 then some (m, x)
  else (staticDelete size m x).map fun r => (r.1, ⟨0, .zero⟩)

/-- `assign(basic_hold_any const&)` to another container (`any.hpp:240-255`). -/
def assignAny (size : ℕ → ℕ) (m : Mem V) (x y : Any V) : Option (Mem V × Any V) :=
  if y.ty = x.ty then (moveTo size m x y).map fun r => (r.1, ⟨y.ty, r.2⟩)
  else
    match reset size m y with
    | none => none
    | some (m, _) => (clone size m x).map fun r => (r.1, ⟨x.ty, r.2⟩)

/-- `assign(T const&)` (`any.hpp:257-281`), where the argument is read with `read` at the time it is
copied. -/
def assignVal (size : ℕ → ℕ) (m : Mem V) (y : Any V) (t : ℕ) (read : Mem V → Option V) :
    Option (Mem V × Any V) :=
  if y.ty = t ∨ small size t then
    match destruct size m y with
    | none => none
    | some (m, _) => (read m).map fun v => ((newObject size m t v).1, ⟨t, (newObject size m t v).2⟩)
  else
    match reset size m y with
    | none => none
    | some (m, _) => (read m).map fun v => ((newObject size m t v).1, ⟨t, (newObject size m t v).2⟩)

/-- `cast<T>` and `any_cast` (`any.hpp:308-319, 360-411`): the value; the outer `none` is undefined
behaviour, the inner one `bad_any_cast` or the null pointer. -/
def cast (size : ℕ → ℕ) (m : Mem V) (x : Any V) (t : ℕ) : Option (Option V) :=
  if x.ty ≠ t then some none
  else if small size t then
    match x.w with
    | .val v => some (some v)
    | _ => none
  else
    match x.w with
    | .ptr a =>
      match m.heap a with
      | some (u, some v) => if u = t then some (some v) else none
      | _ => none
    | _ => none

/-- What a program does with containers, which have numbers. -/
inductive Op (V : Type) where
  /-- The default constructor (`any.hpp:210-214`). -/
  | empty (i : ℕ)
  /-- The constructor from a value (`any.hpp:197-202`). -/
  | make (i t : ℕ) (v : V)
  /-- The constructor from a `const char*`, where `v` is the string (`any.hpp:204-208`). -/
  | chars (i : ℕ) (v : V)
  /-- The copy constructor (`any.hpp:216-221`). -/
  | copy (i j : ℕ)
  /-- Assignment of container `j` to container `i`. -/
  | setAny (i j : ℕ)
  /-- Assignment of a value. -/
  | set (i t : ℕ) (v : V)
  /-- Assignment of the reference that `cast` gives for container `j`. -/
  | setRef (i j : ℕ)
  /-- `swap` (`any.hpp:297-302`). -/
  | swap (i j : ℕ)
  /-- `reset`. -/
  | reset (i : ℕ)
  /-- The destructor (`any.hpp:223-226`). -/
  | drop (i : ℕ)

/-- The memory and the containers there are. -/
structure St (V : Type) where
  mem : Mem V
  anys : ℕ → Option (Any V)

def St.put (s : St V) (i : ℕ) (r : Mem V × Any V) : St V :=
  ⟨r.1, Function.update s.anys i (some r.2)⟩

/-- One operation.  Operations on containers that do not exist are undefined; so is a string put on a word that
is too small for it (`any.hpp:207`).  `str` is the type `std::string`. -/
def step (size : ℕ → ℕ) (str : ℕ) (s : St V) : Op V → Option (St V)
  | .empty i => some (s.put i (s.mem, ⟨0, .zero⟩))
  | .make i t v => some (s.put i ((newObject size s.mem t v).1, ⟨t, (newObject size s.mem t v).2⟩))
  | .chars i v => if small size str then some (s.put i (s.mem, ⟨str, .val v⟩)) else none
  | .copy i j =>
    match s.anys j with
    | none => none
    | some x => (assignAny size s.mem x ⟨0, .zero⟩).map (s.put i)
  | .setAny i j =>
    match s.anys i, s.anys j with
    | some y, some x => if i = j then some s else (assignAny size s.mem x y).map (s.put i)
    | _, _ => none
  | .set i t v =>
    match s.anys i with
    | none => none
    | some y => (assignVal size s.mem y t fun _ => some v).map (s.put i)
  | .setRef i j =>
    match s.anys i, s.anys j with
    | some y, some x =>
      (assignVal size s.mem y x.ty fun m =>
        (cast size m (if i = j then
          (match destruct size s.mem y with
            | some r => ⟨y.ty, r.2⟩
            | none => y) else x) x.ty).join).map (s.put i)
    | _, _ => none
  | .swap i j =>
    match s.anys i, s.anys j with
    | some x, some y =>
      some ⟨s.mem, Function.update (Function.update s.anys i (some y)) j (some x)⟩
    | _, _ => none
  | .reset i =>
    match s.anys i with
    | none => none
    | some x => (reset size s.mem x).map (s.put i)
  | .drop i =>
    match s.anys i with
    | none => none
    | some x => (staticDelete size s.mem x).map fun r => ⟨r.1, Function.update s.anys i none⟩

/-- A program. -/
def run (size : ℕ → ℕ) (str : ℕ) : St V → List (Op V) → Option (St V)
  | s, [] => some s
  | s, o :: os =>
    match step size str s o with
    | none => none
    | some s => run size str s os

/-- No memory and no containers. -/
def start : St V := ⟨⟨fun _ => none, 0⟩, fun _ => none⟩

end Cyclus.AnyHold
