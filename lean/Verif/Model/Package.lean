import Verif.Model.Basic
import Mathlib.Data.Rat.Floor
import Mathlib.Algebra.BigOperators.Group.List.Basic

/-!
# Model of `Package` and `TransportUnit`

Models `/repo/src/package.h` and `/repo/src/package.cc`.

Random numbers are an arbitrary stream of raw draws.  Loops whose termination depends on the draws
take a bound on the number of iterations and return `none` when it is exhausted.

Conversions of a `double` outside the range of `int` (infinities, NaN from `0/0`, large numbers) give
`INT_MIN`, the behaviour of x86-64 that `/repo/src/package.h:74-79` relies on.
-/

namespace Cyclus.Package

/-- `std::numeric_limits<int>::min()`. -/
def intMin : ℤ := -2147483648

/-- `std::numeric_limits<int>::max()`. -/
def intMax : ℤ := 2147483647

/-- Conversion of a floored value to `int`, `INT_MIN` when out of range
(used at `/repo/src/package.cc:53,61,62,74`). -/
def toInt (z : ℤ) : ℤ := if intMin ≤ z ∧ z ≤ intMax then z else intMin

/-- `SplitLimit()`.  Models `/repo/src/package.h:94-96`. -/
def splitLimit : ℤ := intMax / 10

/-- `ExceedsSplitLimits(int)`: whether it throws `ValueError`.
Models `/repo/src/package.h:73-86`; the comparison `pkgs < 0.9*INT_MIN` is kept exactly. -/
def exceedsSplitLimits (pkgs : ℤ) : Bool :=
  decide (pkgs > splitLimit) || decide (pkgs * 10 < intMin * 9)

/-- Packaging strategies.  Models `/repo/src/package.h:98-103`. -/
inductive Strategy where
  | first
  | equal
  | uniform
  | normal
  deriving DecidableEq, Repr

/-- A package type.  Models `/repo/src/package.h:116-120` (the name does not influence the
computation; the distribution is determined by the other fields, `/repo/src/package.cc:33-43`). -/
structure Pkg where
  fillMin : ℚ
  fillMax : ℚ
  strategy : Strategy
  deriving DecidableEq, Repr

/-- `Package::Create`.  Models `/repo/src/package.cc:9-19`, the constructor lines 101-113, and the
`ValueError` of `NormalDoubleDist` for equal limits, `/repo/src/random_number_generator.h:136-138`.
(Invalid strategy names cannot be expressed in `Strategy`.) -/
def create (fillMin fillMax : ℚ) (st : Strategy) : Except Err Pkg :=
  if fillMin < 0 ∨ fillMax < 0 then .error .value
  else if fillMin > fillMax then .error .value
  else if st = .normal ∧ fillMin = fillMax then .error .value
  else .ok ⟨fillMin, fillMax, st⟩

/-- `int` value of `a / b` truncated toward zero, as passed at `/repo/src/package.cc:53`;
`b = 0` gives an infinity or NaN, hence `INT_MIN`. -/
def divTrunc (a b : ℚ) : ℤ :=
  if b = 0 then intMin
  else toInt (if 0 ≤ a / b then ⌊a / b⌋ else ⌈a / b⌉)

/-- `int` value of `std::floor(a / b)`, `/repo/src/package.cc:61,74`. -/
def divFloor (a b : ℚ) : ℤ := if b = 0 then intMin else toInt ⌊a / b⌋

/-- `int` value of `std::ceil(a / b)`, `/repo/src/package.cc:62`. -/
def divCeil (a b : ℚ) : ℤ := if b = 0 then intMin else toInt ⌈a / b⌉

/-- Rejection sampling of the truncated normal distribution, from raw draw number `pos` on.
Models `/repo/src/random_number_generator.cc:65-71`. -/
def reject (lo hi : ℚ) (raw : ℕ → ℚ) : ℕ → ℕ → Option (ℚ × ℕ)
  | 0, _ => none
  | fuel + 1, pos =>
    if raw pos < lo ∨ raw pos > hi then reject lo hi raw fuel (pos + 1) else some (raw pos, pos + 1)

/-- `dist_->sample()`.  Models `/repo/src/random_number_generator.h:123` (uniform: the draw itself;
that boost's uniform draw lies within the limits is a hypothesis of the theorems) and
`/repo/src/random_number_generator.cc:65-71` (normal). -/
def sample (p : Pkg) (raw : ℕ → ℚ) (fuel pos : ℕ) : Option (ℚ × ℕ) :=
  match p.strategy with
  | .normal => reject p.fillMin p.fillMax raw fuel pos
  | _ => some (raw pos, pos + 1)

/-- The random filling loop; returns the remaining quantity and the packages.
Models `/repo/src/package.cc:84-88`. -/
def drawLoop (p : Pkg) (eps : ℚ) (raw : ℕ → ℚ) : ℕ → ℕ → ℚ → List ℚ → Option (ℚ × List ℚ)
  | 0, _, _, _ => none
  | fuel + 1, pos, qty, acc =>
    if qty ≥ max eps p.fillMax then
      match sample p raw fuel pos with
      | none => none
      | some (x, pos') => drawLoop p eps raw fuel pos' (qty - x) (acc ++ [x])
    else some (qty, acc)

/-- The partial package and the final check.  Models `/repo/src/package.cc:91-98`. -/
def finish (p : Pkg) (eps qty : ℚ) (acc : List ℚ) : Except Err (List ℚ) :=
  let pk := if qty ≥ max eps p.fillMin then acc ++ [qty] else acc
  if exceedsSplitLimits (toInt pk.length) then .error .value else .ok pk

/-- Fill mass of the deterministic strategies, before the `std::min` with the quantity.
Models `/repo/src/package.cc:58-70`.  (`num_max_fill = 0` occurs only for quantities within `eps`
of 0; then `qty / 0` is an infinity or NaN and line 73 gives `qty`.) -/
def fillMass (p : Pkg) (qty : ℚ) : ℚ :=
  match p.strategy with
  | .equal =>
    let numMin := divFloor qty p.fillMin
    let numMax := divCeil qty p.fillMax
    if numMin ≥ numMax then (if numMax = 0 then qty else qty / numMax) else p.fillMax
  | _ => p.fillMax

/-- `GetFillMass(double)`.  Models `/repo/src/package.cc:45-99`; `none` means that the sampling
loops did not finish within `fuel` iterations. -/
def getFillMass (p : Pkg) (eps : ℚ) (raw : ℕ → ℚ) (fuel : ℕ) (qty : ℚ) :
    Option (Except Err (List ℚ)) :=
  if qty - p.fillMin < -eps then some (.ok [])
  else if exceedsSplitLimits (divTrunc qty p.fillMax) then some (.error .value)
  else
    match p.strategy with
    | .first | .equal =>
      let fill := min qty (fillMass p qty)
      let n := divFloor qty fill
      if exceedsSplitLimits n then some (.error .value)
      else some (finish p eps (qty - n * fill) (List.replicate n.toNat fill))
    | .uniform | .normal =>
      match drawLoop p eps raw fuel 0 qty [] with
      | none => none
      | some (rest, acc) => some (finish p eps rest acc)

end Cyclus.Package

namespace Cyclus.TransportUnit

open Cyclus.Package (intMax)

/-- Strategies of transport units.  Models `/repo/src/package.cc:201`. -/
inductive Strategy where
  | first
  | equal
  | hybrid
  deriving DecidableEq, Repr

/-- A transport unit type; `unrestricted` says whether `name_ == unrestricted_name_`.
Models the members set at `/repo/src/package.cc:194-204`. -/
structure TU where
  fillMin : ℤ
  fillMax : ℤ
  strategy : Strategy
  unrestricted : Bool
  deriving DecidableEq, Repr

/-- `TransportUnit::Create`.  Models `/repo/src/package.cc:117-126`. -/
def create (fillMin fillMax : ℤ) (st : Strategy) (unr : Bool) : Except Err TU :=
  if fillMin < 0 ∨ fillMax < 0 then .error .value
  else if fillMin > fillMax then .error .value
  else .ok ⟨fillMin, fillMax, st, unr⟩

/-- `GetTransportUnitFill(int)`; `none` is undefined behaviour (division by zero or signed overflow).
Models `/repo/src/package.cc:138-163`.  C++ division truncates, hence `Int.tdiv`. -/
def getFill (t : TU) (qty : ℤ) : Option ℤ :=
  if qty < t.fillMin then some 0
  else
    match t.strategy with
    | .first => some t.fillMax
    | .equal | .hybrid =>
      if t.fillMin = 0 ∨ t.fillMax = 0 ∨ qty + t.fillMax > intMax then none
      else
        let numMin := Int.tdiv qty t.fillMin
        let numMax := Int.tdiv (qty + t.fillMax - 1) t.fillMax
        if numMin ≥ numMax then
          if numMax = 0 then none else some ⌊(qty : ℚ) / (numMax : ℚ)⌋
        else some t.fillMax

/-- The loop of the hybrid strategy; returns the packages put into each unit, in order.
Models `/repo/src/package.cc:184-188` (`shippable` is the sum of the list).  `none`: undefined
behaviour, or the loop has not finished within `fuel` iterations. -/
def hybridLoop (t : TU) : ℕ → ℤ → Option (List ℤ)
  | 0, _ => none
  | fuel + 1, pkgs =>
    if pkgs > 0 ∧ pkgs ≥ t.fillMin then
      match getFill t pkgs with
      | none => none
      | some f => (hybridLoop t fuel (pkgs - f)).map (f :: ·)
    else some []

/-- `MaxShippablePackages(int)`.  Models `/repo/src/package.cc:165-192`. -/
def maxShippable (t : TU) (fuel : ℕ) (pkgs : ℤ) : Option ℤ :=
  if pkgs = 0 ∨ pkgs < t.fillMin then some 0
  else if t.unrestricted then some pkgs
  else
    match t.strategy with
    | .first | .equal =>
      match getFill t pkgs with
      | none => none
      | some f => if f = 0 then some 0 else some (min pkgs (Int.tdiv pkgs f * f))
    | .hybrid => (hybridLoop t fuel pkgs).map List.sum

end Cyclus.TransportUnit
