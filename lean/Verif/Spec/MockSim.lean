import Mathlib.Data.Rat.Defs

/-!
# Specification of mock simulations

What the documentation of `MockSim` promises (`/repo/src/mock_sim.h:13-52`, `145-152`).
-/

namespace Cyclus.MockSim.Spec

/-- What one asks of a mock agent: the last value given with each call, or the default. -/
structure Asked where
  source : Bool
  commod : String
  recipe : String
  cap : ℚ
  start : ℤ
  life : ℤ

/-- An agent that enters in step `start` with a lifetime of `n` steps is there in `n` steps, the last of
which is `t`. -/
def LastStep (start n t : ℤ) : Prop := 1 ≤ n ∧ t = start + n - 1

end Cyclus.MockSim.Spec
