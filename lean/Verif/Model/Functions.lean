import Verif.Model.Basic
import Mathlib.Analysis.SpecialFunctions.Exp

/-!
# Model of the symbolic functions and their factories

Models `/repo/src/toolkit/symbolic_functions.cc` and
`/repo/src/toolkit/symbolic_function_factories.cc`.

* Doubles are real numbers.  A function object is the function it computes: the objects are not
  changed after they are built, except the piecewise function of a factory, which is the state here.
  Adding the piecewise function to itself, which makes `value` recurse for ever, is not modelled.
* A parameter string is the list of its words; a word is a number or not.
* `none` is a value that is never initialised.
* Printing and logging are dropped.
-/

namespace Cyclus.Fn

/-- `LinearFunction::value` (`symbolic_functions.cc:12-14`). -/
noncomputable def linear (slope intercept x : ℝ) : ℝ := slope * x + intercept

/-- `ExponentialFunction::value` (`symbolic_functions.cc:24-26`). -/
noncomputable def exponential (constant exponent intercept x : ℝ) : ℝ :=
  constant * Real.exp (exponent * x) + intercept

/-- `PiecewiseFunctionInfo` (`symbolic_functions.h:88-97`). -/
structure Seg where
  f : ℝ → ℝ
  x : ℝ
  y : ℝ

/-- The loop of `PiecewiseFunction::value` (`symbolic_functions.cc:42-46`): the last segment before
the first one that starts after `x`, or `cur`. -/
noncomputable def find (x : ℝ) (cur : Seg) : List Seg → Seg
  | [] => cur
  | s :: ss => if x ≥ s.x then find x s ss else cur

/-- `PiecewiseFunction::value` (`symbolic_functions.cc:37-50`). -/
noncomputable def value (ss : List Seg) (x : ℝ) : ℝ :=
  match ss with
  | [] => 0
  | s :: rest =>
    if x < s.x then 0
    else
      let g := find x s rest
      g.f (x - g.x) + g.y

/-- `PiecewiseFunctionFactory::AddFunction` (`symbolic_function_factories.cc:59-78`). -/
noncomputable def add (ss : List Seg) (f : ℝ → ℝ) (start : ℝ) (continuous : Bool) :
    Outcome (List Seg) Unit :=
  let y := if continuous then value ss start - f 0 else 0
  match ss.getLast? with
  | some last => if start ≤ last.x then (ss, .error .generic) else (ss ++ [⟨f, start, y⟩], .ok ())
  | none => (ss ++ [⟨f, start, y⟩], .ok ())

/-- The kinds of functions of `BasicFunctionFactory` (`symbolic_function_factories.cc:86-93`). -/
inductive Kind where
  | lin
  | exp
  deriving DecidableEq, Repr

/-- `enum_names_` (`symbolic_function_factories.cc:81-93`). -/
def kindOf (name : String) : Option Kind :=
  if name = "lin" ∨ name = "linear" then some .lin
  else if name = "exp" ∨ name = "exponential" then some .exp
  else none

/-- `ss >> v` for a double without initial value: the state of the stream and the value.  Reading
from a stream that has failed or that is at its end leaves the variable as it is; a word that is no
number makes the stream fail and sets the variable to 0 (C++11). -/
noncomputable def read (ws : Option (List (Option ℝ))) (init : Option ℝ) :
    Option (List (Option ℝ)) × Option ℝ :=
  match ws with
  | none => (none, init)
  | some [] => (none, init)
  | some (none :: _) => (none, some 0)
  | some (some v :: ws) => (some ws, some v)

/-- `LinFunctionFactory::GetFunctionPtr` (`symbolic_function_factories.cc:10-21`). -/
noncomputable def getLin (params : List (Option ℝ)) : Option (ℝ → ℝ) :=
  match read (some params) none with
  | (s, m) =>
    match m, (read s none).2 with
    | some m, some b => some (linear m b)
    | _, _ => none

/-- `ExpFunctionFactory::GetFunctionPtr` (`symbolic_function_factories.cc:24-41`).  The test for the
end of the stream is without influence: reading at the end leaves the intercept at 0. -/
noncomputable def getExp (params : List (Option ℝ)) : Option (ℝ → ℝ) :=
  match read (some params) none with
  | (s, c) =>
    match read s none with
    | (s, e) =>
      match c, e, (read s (some 0)).2 with
      | some c, some e, some i => some (exponential c e i)
      | _, _, _ => none

/-- `BasicFunctionFactory::GetFunctionPtr` (`symbolic_function_factories.cc:96-118`). -/
noncomputable def getFunction (type : String) (params : List (Option ℝ)) :
    Except Err (Option (ℝ → ℝ)) :=
  match kindOf type with
  | none => .error .generic
  | some .lin => .ok (getLin params)
  | some .exp => .ok (getExp params)

end Cyclus.Fn
