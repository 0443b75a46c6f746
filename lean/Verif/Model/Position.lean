import Verif.Model.Basic
import Mathlib.Data.Rat.Floor
import Mathlib.Analysis.SpecialFunctions.Complex.Arg

/-!
# Model of `toolkit::Position`

Models `/repo/src/toolkit/position.cc`.  Coordinates are rationals and the operations of `double` exact;
the trigonometric functions are those of the real numbers.
-/

namespace Cyclus.Position

/-- A position: `latitude_` and `longitude_` in seconds of degree
(`/repo/src/toolkit/position.h:132-137`). -/
structure Pos where
  lat : ℚ
  lon : ℚ
  deriving DecidableEq, Repr

/-- `SetPrecision` with a precision other than 0.  Models `/repo/src/toolkit/position.cc:106-111`. -/
def setPrecision (value : ℚ) (precision : ℕ) : ℚ :=
  (⌊value * 10 ^ precision + 1 / 2⌋ : ℤ) / 10 ^ precision

/-- `LatCheck`.  Models `/repo/src/toolkit/position.cc:46-54`. -/
def latCheck (lat : ℚ) : Except Err Unit := if lat > 90 ∨ lat < -90 then .error .value else .ok ()

/-- `LonCheck`.  Models `/repo/src/toolkit/position.cc:56-64`. -/
def lonCheck (lon : ℚ) : Except Err Unit :=
  if lon > 180 ∨ lon < -180 then .error .value else .ok ()

/-- The value stored for a coordinate, `/repo/src/toolkit/position.cc:15-16`. -/
def store (x : ℚ) : ℚ := setPrecision (x * 3600) 1

/-- The getters.  Models `/repo/src/toolkit/position.cc:21-27`. -/
def load (stored : ℚ) : ℚ := setPrecision (stored / 3600) 6

/-- `latitude(lat)`.  Models `/repo/src/toolkit/position.cc:29-32`. -/
def setLat (p : Pos) (lat : ℚ) : Outcome Pos Unit :=
  match latCheck lat with
  | .error e => (p, .error e)
  | .ok () => ({ p with lat := store lat }, .ok ())

/-- `longitude(lon)`.  Models `/repo/src/toolkit/position.cc:34-37`. -/
def setLon (p : Pos) (lon : ℚ) : Outcome Pos Unit :=
  match lonCheck lon with
  | .error e => (p, .error e)
  | .ok () => ({ p with lon := store lon }, .ok ())

/-- `set_position`, and the constructor applied to the position that does not exist yet.
Models `/repo/src/toolkit/position.cc:12-17, 39-44`. -/
def setPosition (p : Pos) (lat lon : ℚ) : Outcome Pos Unit :=
  match latCheck lat with
  | .error e => (p, .error e)
  | .ok () =>
    match lonCheck lon with
    | .error e => (p, .error e)
    | .ok () => (⟨store lat, store lon⟩, .ok ())

/-- `atan2`. -/
noncomputable def atan2 (y x : ℝ) : ℝ := Complex.arg (x + y * Complex.I)

/-- `half_chord_length_sq` for coordinates in radians.
Models `/repo/src/toolkit/position.cc:72-77`. -/
noncomputable def halfChordSq (lat1 lon1 lat2 lon2 : ℝ) : ℝ :=
  Real.sin ((lat2 - lat1) / 2) ^ 2 +
    Real.sin ((lon2 - lon1) / 2) ^ 2 * Real.cos lat1 * Real.cos lat2

/-- Degrees to radians, as in `/repo/src/toolkit/position.cc:68-71`. -/
noncomputable def rad (x : ℚ) : ℝ := (x : ℝ) * Real.pi / 180

/-- `Distance`.  Models `/repo/src/toolkit/position.cc:66-82`. -/
noncomputable def distance (p q : Pos) : ℝ :=
  let h := halfChordSq (rad (load p.lat)) (rad (load p.lon)) (rad (load q.lat)) (rad (load q.lon))
  6372.8 * (2 * atan2 (Real.sqrt h) (Real.sqrt (1 - h)))

/-- The digits of a number as `<<` writes them. -/
def digits (n : ℕ) : List Char := Nat.toDigits 10 n

/-- `ToStringHelper`.  Models `/repo/src/toolkit/position.cc:161-169`. -/
def signText (x : ℚ) : List Char := if x > 0 then ['+'] else ['-']

/-- A padding zero. -/
def pad (b : Bool) : List Char := if b then ['0'] else []

/-- `ToStringHelperDMS` of a fraction of a degree.  Models `/repo/src/toolkit/position.cc:182-198`;
`std::fixed` with one decimal rounds to the nearest tenth. -/
def dmsText (frac : ℚ) : List Char :=
  let v := |frac| * 60
  let minutes := ⌊v⌋.toNat
  let secs := (v - ⌊v⌋) * 60
  let tenths := ⌊secs * 10 + 1 / 2⌋.toNat
  pad (minutes / 10 = 0) ++ digits minutes ++ pad (⌊secs⌋.toNat / 10 = 0) ++ digits (tenths / 10) ++
    '.' :: digits (tenths % 10)

/-- `ToStringHelperLat` for degrees, minutes and seconds, of a value in degrees.
Models `/repo/src/toolkit/position.cc:113-134`; `modf` splits towards 0. -/
def latText (x : ℚ) : List Char :=
  let d := ⌊|x|⌋.toNat
  signText x ++ pad (d / 10 = 0) ++ digits d ++ dmsText (|x| - ⌊|x|⌋)

/-- `ToStringHelperLon` for degrees, minutes and seconds.
Models `/repo/src/toolkit/position.cc:136-159`. -/
def lonText (x : ℚ) : List Char :=
  let d := ⌊|x|⌋.toNat
  signText x ++ pad (d / 10 = 0) ++ pad (d / 100 = 0) ++ digits d ++ dmsText (|x| - ⌊|x|⌋)

/-- `ToString(DEGREES_MINUTES_SECONDS)`.  Models `/repo/src/toolkit/position.cc:84-104`.  The other two
formats, which write numbers with a given count of significant digits, are not modelled. -/
def text (p : Pos) : List Char := latText (load p.lat) ++ lonText (load p.lon) ++ ['/']

end Cyclus.Position
