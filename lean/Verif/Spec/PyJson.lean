import Verif.Model.PyJson
import Verif.Spec.JsonText

/-!
# What a JSON value in Python should be

It should hold what the Python value says, and behave like a list or a dict.
-/

namespace Cyclus.PyJson.Spec

open Cyclus.JsonText
open Cyclus.PyJson

/-- Item `j` is the one that index `i` of a list with `n` items means. -/
def Pos (i : ℤ) (n j : ℕ) : Prop :=
  (0 ≤ i ∧ i = j ∧ j < n) ∨ (i < 0 ∧ i + n = j)

/-- The members of an object: each name once, in order. -/
def Members (ms : List (Text × V)) : Prop := ms.Pairwise fun p q => p.1 < q.1

mutual

/-- A JSON value says what a Python value says. -/
def Means : P → V → Prop
  | .none, v => v = .null
  | .bool b, v => v = .bool b
  | .int z, v => v = .int z
  | .float x, v => v = .real x
  | .str s, v => v = .str s
  | .bytes s, v => v = .str s
  | .value w, v => v = w
  | .seq l, v => ∃ vs, v = .arr vs ∧ MeansItems l vs
  | .dict l, v => ∃ ms, v = .obj ms ∧ Members ms ∧ ms.length = l.length ∧ MeansMembers l ms
  | .other, _ => False

def MeansItems : List P → List V → Prop
  | [], vs => vs = []
  | p :: l, vs => ∃ x xs, vs = x :: xs ∧ Means p x ∧ MeansItems l xs

def MeansMembers : List (Option Text × P) → List (Text × V) → Prop
  | [], _ => True
  | (k, p) :: l, ms => (∃ n x, k = some n ∧ (n, x) ∈ ms ∧ Means p x) ∧ MeansMembers l ms

end

mutual

/-- Everything in a Python value has a form in JSON. -/
def Convertible : P → Prop
  | .int z => -2 ^ 31 ≤ z ∧ z < 2 ^ 31
  | .seq l => ConvertibleItems l
  | .dict l => ConvertibleMembers l
  | .other => False
  | _ => True

def ConvertibleItems : List P → Prop
  | [] => True
  | p :: l => Convertible p ∧ ConvertibleItems l

def ConvertibleMembers : List (Option Text × P) → Prop
  | [] => True
  | (k, p) :: l => k ≠ none ∧ Convertible p ∧ ConvertibleMembers l

end

mutual

/-- A Python value made of strings, JSON values and dicts. -/
def Textual : P → Prop
  | .value _ => True
  | .str _ => True
  | .bytes _ => True
  | .dict l => TextualMembers l
  | _ => False

def TextualMembers : List (Option Text × P) → Prop
  | [] => True
  | (k, p) :: l => k ≠ none ∧ Textual p ∧ TextualMembers l

end

mutual

/-- No string holds the byte 0; the keys of a dict are distinct, as they are in Python. -/
def Clean : P → Prop
  | .str s => Char.ofNat 0 ∉ s
  | .bytes s => Char.ofNat 0 ∉ s
  | .seq l => CleanItems l
  | .dict l => (l.map Prod.fst).Nodup ∧ CleanMembers l
  | _ => True

def CleanItems : List P → Prop
  | [] => True
  | p :: l => Clean p ∧ CleanItems l

def CleanMembers : List (Option Text × P) → Prop
  | [] => True
  | (k, p) :: l => (∀ n, k = some n → Char.ofNat 0 ∉ n) ∧ Clean p ∧ CleanMembers l

end

/-- The value of a name in a dict. -/
def Has (ms : List (Text × V)) (k : Text) (x : V) : Prop := (k, x) ∈ ms

/-- The items of a list that are not at the positions `r`. -/
def without (l : List V) (r : List ℕ) : List V :=
  (l.zipIdx.filter fun p => p.2 ∉ r).map Prod.fst

/-- The name of a Python type for what `self[…]` gives: the value itself. -/
def Read : V → Got → Prop
  | .null, g => g = .none
  | .bool b, g => g = .bool b
  | .int z, g => g = .int z
  | .uint n, g => g = .int n
  | .real x, g => g = .float x
  | .str s, g => g = .str s
  | .arr l, g => g = .view (.arr l)
  | .obj ms, g => g = .view (.obj ms)

/-- A value that Python can read: its integers are integers of C. -/
def Readable : V → Prop
  | .int z => -2 ^ 31 ≤ z ∧ z < 2 ^ 31
  | .uint n => n < 2 ^ 31
  | _ => True

/-- A value that is an array or an object. -/
def Nested : V → Prop
  | .arr _ => True
  | .obj _ => True
  | _ => False

end Cyclus.PyJson.Spec
