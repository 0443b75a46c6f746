import Mathlib.Algebra.Order.Field.Rat

/-!
# Shared vocabulary of the models

Quantities of type `double` are modelled by `ℚ`: exact arithmetic, no rounding, no NaN.
-/

namespace Cyclus

/-- The exception classes of cyclus that the modelled functions throw.
Models `/repo/src/error.h:11-72` (class hierarchy under `cyclus::Error`; message texts are
dropped, only the class of the exception is kept).  `generic` is a plain `cyclus::Error`. -/
inductive Err where
  | generic
  | value
  | key
  | cast
  | state
  | io
  | valid
  deriving DecidableEq, Repr

/-- Equality of outcomes is decidable (used to evaluate concrete cases in the kernel). -/
instance {α : Type} [DecidableEq α] : DecidableEq (Except Err α)
  | .ok a, .ok b => if h : a = b then isTrue (h ▸ rfl) else isFalse (fun e => h (by injection e))
  | .error a, .error b =>
    if h : a = b then isTrue (h ▸ rfl) else isFalse (fun e => h (by injection e))
  | .ok _, .error _ => isFalse (fun e => by injection e)
  | .error _, .ok _ => isFalse (fun e => by injection e)

/-- Outcome of a call that may throw: the state that is reached when control leaves the call
(normally or by an exception) together with the value or the exception. -/
abbrev Outcome (σ α : Type) := σ × Except Err α

end Cyclus
