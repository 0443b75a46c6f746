import Verif.Model.Basic
import Mathlib.Algebra.Order.Ring.Rat
import Mathlib.Algebra.Order.Ring.Abs

/-!
# Model of the sum with compensation, in floating-point arithmetic

Models `/repo/src/cyc_arithmetic.cc:13-39` (`KahanSum`, `sort_inplace_ascending`) and the callers
`/repo/src/comp_math.cc:36-43` and `/repo/src/toolkit/res_map.h:216-233`.

* A double is a rational number, an infinity or no number.  There is one zero: the sign of a zero is lost.
* Rounding is an arbitrary function `fl` from the exact result of an operation to a double; what is assumed
  about it is a hypothesis of each theorem.  Every operation rounds once, to double: there is no extended
  precision and the compiler does not reassociate.
* `std::sort` of a vector with a NaN is undefined (`<` is no strict weak order); the result is `none`.
-/

namespace Cyclus.Kahan

/-- A double. -/
inductive Dbl
  | num (q : ℚ)
  | pinf
  | ninf
  | nan
  deriving DecidableEq, Repr

/-- `a < b`. -/
def lt : Dbl → Dbl → Bool
  | .num a, .num b => a < b
  | .num _, .pinf => true
  | .ninf, .num _ => true
  | .ninf, .pinf => true
  | _, _ => false

/-- `a + b`. -/
def add (fl : ℚ → Dbl) : Dbl → Dbl → Dbl
  | .num a, .num b => fl (a + b)
  | .nan, _ => .nan
  | _, .nan => .nan
  | .pinf, .ninf => .nan
  | .ninf, .pinf => .nan
  | .pinf, _ => .pinf
  | _, .pinf => .pinf
  | .ninf, _ => .ninf
  | _, .ninf => .ninf

/-- The sign changed. -/
def neg : Dbl → Dbl
  | .num a => .num (-a)
  | .pinf => .ninf
  | .ninf => .pinf
  | .nan => .nan

/-- `a - b`. -/
def sub (fl : ℚ → Dbl) (a b : Dbl) : Dbl := add fl a (neg b)

/-- Insertion into a sorted list. -/
def insert (x : Dbl) : List Dbl → List Dbl
  | [] => [x]
  | y :: l => if lt y x then y :: insert x l else x :: y :: l

/-- `sort_inplace_ascending` (`cyc_arithmetic.cc:37-39`): the sorted vector of doubles without NaN is
unique. -/
def sort (l : List Dbl) : List Dbl := l.foldr insert []

/-- The loop of `KahanSum` (`cyc_arithmetic.cc:20-30`): `sum` and `c` after it. -/
def loop (fl : ℚ → Dbl) : List Dbl → Dbl → Dbl → Dbl
  | [], sum, _ => sum
  | x :: rest, sum, c =>
    let y := sub fl x c
    let t := add fl sum y
    loop fl rest t (sub fl (sub fl t sum) y)

/-- `KahanSum` (`cyc_arithmetic.cc:13-32`). -/
def kahanSum (fl : ℚ → Dbl) (input : List Dbl) : Option Dbl :=
  if Dbl.nan ∈ input then none else some (loop fl (sort input) (.num 0) (.num 0))

/-- `compmath::Sum` (`comp_math.cc:36-43`): the values in the order of the keys. -/
def compSum (fl : ℚ → Dbl) (v : List (ℕ × Dbl)) : Option Dbl := kahanSum fl (v.map Prod.snd)

/-- `ResMap::UpdateQuantity` (`res_map.h:216-233`): the new `quantity_` for the quantities of the
resources. -/
def updateQuantity (fl : ℚ → Dbl) (resources : List (ℕ × Dbl)) : Option Dbl :=
  if resources.length = 0 then some (.num 0) else kahanSum fl (resources.map Prod.snd)

end Cyclus.Kahan
