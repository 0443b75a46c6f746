import Verif.Model.CycppLine

/-!
# Specification of line directives: which line and file a compiler reports
-/

namespace Cyclus.CycppLine

open CycppText (Str)

/-- How a compiler reads lines: a state (within a comment or not), how a line changes it, whether a line that begins in
the state can be a directive, and which line number and file a line sets as a directive. -/
structure Reader (S : Type) where
  step : S → Str → S
  free : S → Bool
  line : Str → Option (ℕ × Str)

/-- A state with the number and the file of the line that comes next. -/
structure Pos (S : Type) where
  state : S
  num : ℕ
  file : Str

/-- The position after a line. -/
def Reader.next {S : Type} (R : Reader S) (p : Pos S) (l : Str) : Pos S :=
  match R.free p.state, R.line l with
  | true, some (n, f) => ⟨R.step p.state l, n, f⟩
  | _, _ => ⟨R.step p.state l, p.num + 1, p.file⟩

/-- The lines with their numbers and files. -/
def Reader.report {S : Type} (R : Reader S) : Pos S → List Str → List (Str × ℕ × Str)
  | _, [] => []
  | p, l :: ls => (l, p.num, p.file) :: R.report (R.next p l) ls

/-- The state after lines. -/
def Reader.after {S : Type} (R : Reader S) (s : S) (ls : List Str) : S := ls.foldl R.step s

/-- The compiler understands the directives that are put in, and they change neither comments nor literals. -/
def Reader.Knows {S : Type} (R : Reader S) (file : Str) : Prop :=
  (∀ n, R.line (directive file n) = some (n, file)) ∧ ∀ s n, R.step s (directive file n) = s

/-- Blocks of equal lines of `a` and `b`, in the order of both. -/
def Matching (a b : List Str) (blocks : List Block) : Prop :=
  blocks.Pairwise (fun x y => x.i + x.n ≤ y.i ∧ x.j + x.n ≤ y.j) ∧
    ∀ x ∈ blocks, x.j ≤ b.length ∧ ∀ k < x.n, ∃ l, a[x.i + k]? = some l ∧ b[x.j + k]? = some l

/-- The lines of `b`, which begin at line `pos`, with a directive before each block. -/
def weave (file : Str) : ℕ → List Block → List Str → List Str
  | _, [], b => b
  | pos, x :: xs, b =>
    b.take (x.j - pos) ++ directive file (x.i + 1) :: weave file x.j xs (b.drop (x.j - pos))

/-- The logical lines of physical lines: a backslash at the end of a line joins it to the next. -/
def logical (cur : Str) : List Str → List Str
  | [] => []
  | [l] => [cur ++ l]
  | l :: ls => if l.getLast? = some '\\' then logical (cur ++ l.dropLast) ls else (cur ++ l) :: logical [] ls

end Cyclus.CycppLine
