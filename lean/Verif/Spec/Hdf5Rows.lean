import Verif.Model.Hdf5Rows

/-!
# Vocabulary of the property about rows of HDF5 tables
-/

namespace Cyclus.Hdf5Rows

/-- A type of fixed length: every entry of the shape is at least one. -/
def Shaped : Ty → Prop
  | .prim n => 1 ≤ n
  | .str n => 1 ≤ n
  | .vl => True
  | .seq n c => 1 ≤ n ∧ Shaped c
  | .set n c => 1 ≤ n ∧ Shaped c
  | .map n a b => 1 ≤ n ∧ Shaped a ∧ Shaped b
  | .pair a b => Shaped a ∧ Shaped b

/-- What is assumed of the world outside: digests are 20 bytes, a value is fetched with its digest, and the order of a
set has no two elements each before the other. -/
structure Good (e : Env) : Prop where
  digest_length : ∀ v, (e.digest v).length = 20
  fetch_digest : ∀ v, e.fetch (e.digest v) = v
  asymm : ∀ t a b, e.lt t a b = true → e.lt t b a = false

/-- A value whose containers are full, with texts no longer than their length and without zeros. -/
def Full (e : Env) : (t : Ty) → Val t → Prop
  | .prim n, v => v.length = n
  | .str n, v => v.length ≤ n ∧ 0 ∉ v
  | .vl, _ => True
  | .seq n c, v => v.length = n ∧ ∀ x ∈ v, Full e c x
  | .set n c, v => v.length = n ∧ (∀ x ∈ v, Full e c x) ∧ v.Pairwise fun x y => e.lt c x y = true
  | .map n a b, v =>
    v.length = n ∧ (∀ p ∈ v, Full e a p.1 ∧ Full e b p.2) ∧ v.Pairwise fun p q => e.lt a p.1 q.1 = true
  | .pair a b, v => Full e a v.1 ∧ Full e b v.2

/-- A value whose containers are no longer than the shape; texts may be longer. -/
def Within : (t : Ty) → Val t → Prop
  | .prim n, v => v.length = n
  | .str _, _ => True
  | .vl, _ => True
  | .seq n c, v => v.length ≤ n ∧ ∀ x ∈ v, Within c x
  | .set n c, v => v.length ≤ n ∧ ∀ x ∈ v, Within c x
  | .map n a b, v => v.length ≤ n ∧ ∀ p ∈ v, Within a p.1 ∧ Within b p.2
  | .pair a b, v => Within a v.1 ∧ Within b v.2

/-- The same, but the container at the top may have any number of elements. -/
def WithinBelow : (t : Ty) → Val t → Prop
  | .seq _ c, v => ∀ x ∈ v, Within c x
  | .set _ c, v => ∀ x ∈ v, Within c x
  | .map _ a b, v => ∀ p ∈ v, Within a p.1 ∧ Within b p.2
  | t, v => Within t v

/-- The set of the elements of a list. -/
def setOf (e : Env) (c : Ty) (l : List (Val c)) : List (Val c) := l.foldl (fun s x => sinsert (e.lt c) x s) []

/-- The map of a list of assignments. -/
def mapOf (e : Env) (a b : Ty) (l : List (Val a × Val b)) : List (Val a × Val b) :=
  l.foldl (fun m p => minsert (e.lt a) p.1 p.2 m) []

/-- The value of a type all of whose bytes are zero. -/
def zero (e : Env) : (t : Ty) → Val t
  | .prim n => List.replicate n 0
  | .str _ => []
  | .vl => e.fetch (List.replicate 20 0)
  | .seq n c => List.replicate n (zero e c)
  | .set n c => setOf e c (List.replicate n (zero e c))
  | .map n a b => mapOf e a b (List.replicate n (zero e a, zero e b))
  | .pair a b => (zero e a, zero e b)

/-- What becomes of a value below the top: texts are cut at their length and at the first zero, and containers are
filled up with elements of zeros. -/
def back (e : Env) : (t : Ty) → Val t → Val t
  | .prim _, v => v
  | .str n, v => (v.take n).takeWhile (· ≠ 0)
  | .vl, v => v
  | .seq n c, v => v.map (back e c) ++ List.replicate (n - v.length) (zero e c)
  | .set n c, v => setOf e c (v.map (back e c) ++ List.replicate (n - v.length) (zero e c))
  | .map n a b, v =>
    mapOf e a b (v.map (fun p => (back e a p.1, back e b p.2)) ++
      List.replicate (n - v.length) (zero e a, zero e b))
  | .pair a b, v => (back e a v.1, back e b v.2)

/-- What may be read of a value: a container at the top has the first elements of the value and then, if the value has
too few, any others. -/
def Seen (e : Env) : (t : Ty) → Val t → Val t → Prop
  | .seq n c, v, r => ∃ w, w.length = n - v.length ∧ r = (v.take n).map (back e c) ++ w
  | .set n c, v, r => ∃ w : List (Val c), w.length = n - v.length ∧ r = setOf e c ((v.take n).map (back e c) ++ w)
  | .map n a b, v, r =>
    ∃ w : List (Val a × Val b), w.length = n - v.length ∧
      r = mapOf e a b ((v.take n).map (fun p => (back e a p.1, back e b p.2)) ++ w)
  | t, v, r => r = back e t v

/-- A row of a table with the columns `ts`: a cell of each column's type. -/
def RowOf (ts : List Ty) (P : (t : Ty) → Val t → Prop) (d : List Cell) : Prop :=
  d.map (·.1) = ts ∧ ∀ c ∈ d, P c.1 c.2

/-- Two cells of one type whose values are related. -/
inductive CellRel (R : (t : Ty) → Val t → Val t → Prop) : Cell → Cell → Prop
  | mk (t : Ty) (v r : Val t) (h : R t v r) : CellRel R ⟨t, v⟩ ⟨t, r⟩

end Cyclus.Hdf5Rows
