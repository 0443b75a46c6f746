import Verif.Model.Basic
import Mathlib.Algebra.BigOperators.Group.List.Basic
import Mathlib.Data.List.Sort

/-!
# Model of `cyclus::compmath` and of composition creation

Models `/repo/src/comp_math.cc`, `/repo/src/cyc_arithmetic.cc:13-43` and
`/repo/src/composition.cc:17-65`.

A `CompMap` (`std::map<Nuc, double>`) is an association list with distinct keys; the order of the
entries (key order in the code) plays no role in the modelled results.
`pyne::nucname::isnuclide` and `pyne::atomic_mass` are arbitrary parameters.
-/

namespace Cyclus.CompMath

/-- `std::map<Nuc, double>`, `/repo/src/composition.h` (typedef `CompMap`). -/
abbrev CompMap := List (ℕ × ℚ)

/-- The quantity stored for a nuclide, 0 if there is no entry (what `v[nuc]` reads). -/
def get (v : CompMap) (n : ℕ) : ℚ :=
  match v with
  | [] => 0
  | (k, q) :: rest => if k = n then q else get rest n

/-- Whether the map has an entry for the nuclide (`v.count(nuc)`). -/
def has (v : CompMap) (n : ℕ) : Bool := v.any fun e => e.1 == n

/-- `out[nuc] += q`: adds to the entry, which is created with 0 if missing.
Models one iteration of `/repo/src/comp_math.cc:20-23`. -/
def addTo (v : CompMap) (n : ℕ) (q : ℚ) : CompMap :=
  match v with
  | [] => [(n, q)]
  | (k, x) :: rest => if k = n then (k, x + q) :: rest else (k, x) :: addTo rest n q

/-- `compmath::Add`.  Models `/repo/src/comp_math.cc:18-25`. -/
def add (v w : CompMap) : CompMap := w.foldl (fun out e => addTo out e.1 e.2) v

/-- `compmath::Sub`.  Models `/repo/src/comp_math.cc:27-34`. -/
def sub (v w : CompMap) : CompMap := w.foldl (fun out e => addTo out e.1 (-e.2)) v

/-- The loop of `KahanSum`, with running sum and compensation.
Models `/repo/src/cyc_arithmetic.cc:16-31` in exact arithmetic. -/
def kahanLoop : List ℚ → ℚ → ℚ → ℚ
  | [], sum, _ => sum
  | x :: rest, sum, c =>
    let y := x - c
    let t := sum + y
    kahanLoop rest t ((t - sum) - y)

/-- Insertion into a sorted list. -/
def insertSorted (x : ℚ) : List ℚ → List ℚ
  | [] => [x]
  | y :: l => if x ≤ y then x :: y :: l else y :: insertSorted x l

/-- The sorted list (what `std::sort` produces is unique). -/
def sorted (l : List ℚ) : List ℚ := l.foldr insertSorted []

/-- `CycArithmetic::KahanSum`.  Models `/repo/src/cyc_arithmetic.cc:13-32`. -/
def kahanSum (input : List ℚ) : ℚ := kahanLoop (sorted input) 0 0

/-- `compmath::Sum`.  Models `/repo/src/comp_math.cc:36-43`. -/
def sum (v : CompMap) : ℚ := kahanSum (v.map Prod.snd)

/-- `compmath::ApplyThreshold`.  Models `/repo/src/comp_math.cc:45-61`. -/
def applyThreshold (v : CompMap) (thr : ℚ) : Except Err CompMap :=
  if thr < 0 then .error .value
  else .ok (v.filter fun e => !decide (|e.2| ≤ thr))

/-- `compmath::Normalize`.  Models `/repo/src/comp_math.cc:63-71`. -/
def normalize (v : CompMap) (val : ℚ) : CompMap :=
  if sum v ≠ val ∧ sum v ≠ 0 then v.map fun e => (e.1, e.2 * (val / sum v)) else v

/-- `compmath::ValidNucs`.  Models `/repo/src/comp_math.cc:73-81`. -/
def validNucs (isnuc : ℕ → Bool) (v : CompMap) : Bool := v.all fun e => isnuc e.1

/-- `compmath::AllPositive`.  Models `/repo/src/comp_math.cc:83-91`. -/
def allPositive (v : CompMap) : Bool := v.all fun e => !decide (e.2 < 0)

/-- `compmath::AlmostEq`.  Models `/repo/src/comp_math.cc:93-134`. -/
def almostEq (v w : CompMap) (thr : ℚ) : Except Err Bool :=
  if thr < 0 then .error .value
  else if v.length ≠ w.length then .ok false
  else if v.isEmpty && w.isEmpty then .ok true
  else .ok <| v.all fun e =>
    has w e.1 &&
      (let minuend := get w e.1
       let subtrahend := get v e.1
       let diff := minuend - subtrahend
       if |minuend| = 0 ∨ |subtrahend| = 0 then !decide (|diff| > |diff| * thr)
       else !(decide (|diff| > |minuend| * thr) || decide (|diff| > |subtrahend| * thr)))

/-- The checks of `CreateFromMass` and `CreateFromAtom`.
Models `/repo/src/composition.cc:17-39`; the result is the stored map. -/
def createFrom (isnuc : ℕ → Bool) (v : CompMap) : Except Err CompMap :=
  if !validNucs isnuc v then .error .value
  else if !allPositive v then .error .value
  else .ok v

/-- `Composition::mass()` of a composition created from atoms.
Models `/repo/src/composition.cc:56-65`. -/
def massOfAtom (am : ℕ → ℚ) (v : CompMap) : CompMap := v.map fun e => (e.1, e.2 * am e.1)

/-- `Composition::atom()` of a composition created from masses.
Models `/repo/src/composition.cc:45-54`. -/
def atomOfMass (am : ℕ → ℚ) (v : CompMap) : CompMap := v.map fun e => (e.1, e.2 / am e.1)

end Cyclus.CompMath
