import Verif.Model.PyDb
import Verif.Spec.PyInfile

/-!
# Specification of recording and querying data from Python
-/

namespace Cyclus.PyDb.Spec

open InfileGen (Str Ty PyVal Val)

/-- A value with its column, type and shape, and whether the name of the column lasts: it is a bytes object of the
caller, or no longer than a byte. -/
structure Put where
  lasting : Bool
  name : Str
  ty : Ty
  val : Val
  shape : List ℤ

/-- A text up to its first null character. -/
def upToNull (s : Str) : Str := s.takeWhile fun c => c ≠ Char.ofNat 0

/-- The shape is one of C. -/
def ShapeOk (s : Option (List ℤ)) : Prop := ∀ l, s = some l → ∀ z ∈ l, -2 ^ 31 ≤ z ∧ z < 2 ^ 31

/-- The call of `add_val` says: this value in this column. -/
inductive Says : Add → Put → Prop
  | str {s x sh t v} : PyInfile.toCpp t x = .ok v → ShapeOk sh →
      Says ⟨.str s, x, sh, .known t⟩ ⟨decide (s.length ≤ 1), upToNull s, t, v, sh.getD []⟩
  | bytes {s x sh t v} : PyInfile.toCpp t x = .ok v → ShapeOk sh →
      Says ⟨.bytes s, x, sh, .known t⟩ ⟨true, upToNull s, t, v, sh.getD []⟩

/-- The calls say these values, or those up to the first that says nothing. -/
inductive AllSay : List Add → List Put → Bool → Prop
  | nil : AllSay [] [] true
  | cons {a p as ps b} : Says a p → AllSay as ps b → AllSay (a :: as) (p :: ps) b
  | stop {a as} : (∀ p, ¬ Says a p) → AllSay (a :: as) [] false

/-- The cell of a value; its name can be read at once, later only if it lasts. -/
def cell (soon : Bool) (p : Put) : Cell :=
  ⟨if soon || p.lasting then some p.name else none, p.name, p.ty, p.val, p.shape⟩

/-- The row of a datum: what every row starts with, and the values. -/
def row (base : List Cell) (soon : Bool) (d : Str × List Put) : Row := ⟨d.1, base ++ d.2.map (cell soon)⟩

/-- What backends get of a program, where data wait until there are `n` of them or the recorder is flushed, and the last
of `n` is passed on while it is recorded.  A datum that could not be completed waits like the others, but does not
cause them to be passed on; when it takes the last place, the next datum finds none. -/
inductive Gets (n : ℕ) (base : List Cell) : List (Str × List Put) → List Act → Option (List Row) → Prop
  | done {w} : Gets n base w [] (some [])
  | flush {w as r} : Gets n base [] as r →
      Gets n base w (.flush :: as) (r.map (w.map (row base false) ++ ·))
  | full {w t adds as ps r} : AllSay adds ps true → w.length + 1 = n → Gets n base [] as r →
      Gets n base w (.datum t adds :: as) (r.map ((w.map (row base false) ++ [row base true (t, ps)]) ++ ·))
  | wait {w t adds as ps r} : AllSay adds ps true → w.length + 1 < n → Gets n base (w ++ [(t, ps)]) as r →
      Gets n base w (.datum t adds :: as) r
  | broken {w t adds as ps r} : AllSay adds ps false → w.length + 1 ≤ n → Gets n base (w ++ [(t, ps)]) as r →
      Gets n base w (.datum t adds :: as) r
  | beyond {w t adds as} : n ≤ w.length → Gets n base w (.datum t adds :: as) none

/-- What every row starts with: the id of the simulation, if that is wanted. -/
def simCells : Option Val → List Cell
  | none => []
  | some u => [⟨some ['S', 'i', 'm', 'I', 'd'], ['S', 'i', 'm', 'I', 'd'], .prim .uuid, u, []⟩]

/-- The data of a program in which all are complete. -/
inductive Data : List Act → List (Str × List Put) → Prop
  | nil : Data [] []
  | flush {as ds} : Data as ds → Data (.flush :: as) ds
  | datum {t adds as ps ds} : AllSay adds ps true → Data as ds → Data (.datum t adds :: as) ((t, ps) :: ds)

/-- How the comparisons are written. -/
def written : Op → Str
  | .lt => ['<']
  | .gt => ['>']
  | .le => ['<', '=']
  | .ge => ['>', '=']
  | .eq => ['=', '=']
  | .ne => ['!', '=']

/-- The condition makes sense: if it is about a column there is, it has a comparison and a value of the type of the
column. -/
def Sense (t : Table) (c : Str × Str × PyVal) : Prop :=
  ∀ ty, (upToNull c.1, ty) ∈ t.cols → (∃ op, c.2.1 = written op) ∧ ∃ w, PyInfile.toCpp ty c.2.2 = .ok w

/-- The condition holds for the row, or is about a column that there is not. -/
def Holds (cmp : Op → Val → Val → Bool) (t : Table) (r : List Val) (c : Str × Str × PyVal) : Prop :=
  ∀ (j : ℕ) (ty : Ty) (v : Val), t.cols[j]? = some (upToNull c.1, ty) → r[j]? = some v →
    ∃ op w, c.2.1 = written op ∧ PyInfile.toCpp ty c.2.2 = .ok w ∧ cmp op v w = true

/-- The names of the columns differ, and each row has a value for each. -/
structure Regular (t : Table) : Prop where
  names : (t.cols.map Prod.fst).Nodup
  rows : ∀ r ∈ t.rows, r.length = t.cols.length

end Cyclus.PyDb.Spec
