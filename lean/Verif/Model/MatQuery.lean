import Verif.Model.CompMath

/-!
# Model of `toolkit::MatQuery` and of the uranium queries

Models `/repo/src/toolkit/mat_query.cc` and `/repo/src/toolkit/enrichment.cc:36-82`.

A material is given by its quantity and the mass map of its composition, both after the decay that
`Material::comp()` may cause (see C77).  The atom map is the one of a composition created from masses
(`Composition::atom()`).  `pyne::atomic_mass` is an arbitrary parameter.
The versions that take a nuclide name only convert it to an id.
-/

namespace Cyclus.MatQuery

open Cyclus.CompMath

/-- A material as a query sees it: `quantity()` and `comp()->mass()`. -/
structure Mat where
  qty : ℚ
  mass : CompMap
  deriving DecidableEq, Repr

/-- `MatQuery::mass_frac(Nuc)`.  Models `/repo/src/toolkit/mat_query.cc:23-27`; `Normalize` has the
default value 1 (`/repo/src/comp_math.h:39`). -/
def massFrac (m : Mat) (n : ℕ) : ℚ := get (normalize m.mass 1) n

/-- `MatQuery::mass(Nuc)`.  Models `/repo/src/toolkit/mat_query.cc:15-17`. -/
def mass (m : Mat) (n : ℕ) : ℚ := massFrac m n * m.qty

/-- `MatQuery::moles(Nuc)`.  Models `/repo/src/toolkit/mat_query.cc:19-21`; `none` if the atomic mass
is 0 (the division gives infinity or NaN). -/
def moles (am : ℕ → ℚ) (g : ℚ) (m : Mat) (n : ℕ) : Option ℚ :=
  if am n * g = 0 then none else some (mass m n / (am n * g))

/-- `MatQuery::mass_frac(std::set<Nuc>)`.  Models `/repo/src/toolkit/mat_query.cc:29-36`; the set is a
list in order.  `none` is NaN: for an empty material the code computes `0 / 0`. -/
def massFracSet (m : Mat) (nucs : List ℕ) : Option ℚ :=
  let tot := nucs.foldl (fun t n => t + mass m n) 0
  if m.qty = 0 then none else some (tot / m.qty)

/-- `MatQuery::atom_frac(Nuc)`.  Models `/repo/src/toolkit/mat_query.cc:38-42`. -/
def atomFrac (am : ℕ → ℚ) (m : Mat) (n : ℕ) : ℚ := get (normalize (atomOfMass am m.mass) 1) n

/-- `MatQuery::atom_frac(std::set<Nuc>)`.  Models `/repo/src/toolkit/mat_query.cc:44-56`. -/
def atomFracSet (am : ℕ → ℚ) (m : Mat) (nucs : List ℕ) : ℚ :=
  let v := normalize (atomOfMass am m.mass) 1
  nucs.foldl (fun t n => if has v n then t + get v n else t) 0

/-- The loop of `Amount` over the entries of the requested composition, with the smallest ratio so
far; `none` is the early `return 0`.  Models `/repo/src/toolkit/mat_query.cc:92-105`.
For a requested fraction of 0 the ratio is infinite or NaN and never smaller.  (`m[nuc]` adds an entry
of 0 to a local map; the keys of the other map are distinct, so that it is never read.) -/
def amountLoop (m : CompMap) : CompMap → ℚ → Option ℚ
  | [], r => some r
  | (n, q) :: rest, r =>
    if !has m n && decide (0 < q) then none
    else if q = 0 then amountLoop m rest r
    else if get m n / q < r then amountLoop m rest (get m n / q)
    else amountLoop m rest r

/-- `MatQuery::Amount`.  Models `/repo/src/toolkit/mat_query.cc:82-114`; `large` is
`CY_LARGE_DOUBLE` and `c` the mass map of the composition. -/
def amount (large : ℚ) (m : Mat) (c : CompMap) : ℚ :=
  let other := normalize c 1
  match amountLoop (normalize m.mass 1) other large with
  | none => 0
  | some r => (normalize other (r * m.qty)).foldl (fun s e => s + e.2) 0

/-- The ids of U-235 and U-238 used in `/repo/src/toolkit/enrichment.cc:44-45`. -/
def u235 : ℕ := 922350000
@[inherit_doc u235] def u238 : ℕ := 922380000

/-- `UraniumAssayAtom` (and `UraniumAssay`, which calls it).
Models `/repo/src/toolkit/enrichment.cc:36-57`. -/
def assayAtom (am : ℕ → ℚ) (m : Mat) : ℚ :=
  let a := atomFrac am m u235
  let b := atomFrac am m u238
  if 0 < a + b then a / (a + b) else 0

/-- `UraniumAssayMass`.  Models `/repo/src/toolkit/enrichment.cc:60-76`. -/
def assayMass (m : Mat) : ℚ :=
  let a := massFrac m u235
  let b := massFrac m u238
  if 0 < a + b then a / (a + b) else 0

/-- `UraniumQty`.  Models `/repo/src/toolkit/enrichment.cc:79-82`. -/
def uraniumQty (m : Mat) : ℚ := mass m u235 + mass m u238

end Cyclus.MatQuery
