import Verif.Model.CycppGen

/-!
# Model of the line directives of the preprocessor

Models `insert_line_directives`, `ensure_startswith_newlinehash` and the text of the third pass in `main`
(`/repo/cli/cycpp.py:2315-2327`, 2359-2377).

* `difflib.SequenceMatcher.get_matching_blocks` is an arbitrary function; its result ends with an entry that stands for
  no lines.
* Python's `str.splitlines` breaks lines at more characters than the line feed (`isBreak`).
* Reading and writing of files, and the preprocessor that makes the text of the second pass, are left out.
-/

namespace Cyclus.CycppLine

open CycppText (Str)

/-- The characters at which `str.splitlines` breaks a line. -/
def isBreak (c : Char) : Bool :=
  [0x0a, 0x0b, 0x0c, 0x0d, 0x1c, 0x1d, 0x1e, 0x85, 0x2028, 0x2029].contains c.toNat

/-- `splitlines` after the characters `cur` of a line. -/
def linesFrom : Str → Str → List Str
  | cur, [] => if cur = [] then [] else [cur]
  | cur, '\r' :: '\n' :: s => cur :: linesFrom [] s
  | cur, c :: s => if isBreak c then cur :: linesFrom [] s else linesFrom (cur ++ [c]) s

/-- `str.splitlines` (`cli/cycpp.py:2321`, 2322). -/
def splitlines (s : Str) : List Str := linesFrom [] s

/-- `"\n".join` (`cli/cycpp.py:2327`). -/
def joinLines : List Str → Str
  | [] => []
  | [l] => l
  | l :: ls => l ++ '\n' :: joinLines ls

/-- A matching block: `n` lines from line `i` of the first and line `j` of the second file, counted from zero. -/
structure Block where
  i : ℕ
  j : ℕ
  n : ℕ
  deriving DecidableEq

/-- The line that is put in (`cli/cycpp.py:2326`). -/
def directive (file : Str) (n : ℕ) : Str :=
  ['#', 'l', 'i', 'n', 'e', ' '] ++ Nat.toDigits 10 n ++ [' ', '"'] ++ file ++ ['"']

/-- `list.insert`. -/
def insertAt (l : List Str) (j : ℕ) (x : Str) : List Str := l.take j ++ x :: l.drop j

/-- The loop over the blocks, from the last but one to the first (`cli/cycpp.py:2325-2326`). -/
def insertAll (file : Str) (blocks : List Block) (new : List Str) : List Str :=
  blocks.dropLast.reverse.foldl (fun l b => insertAt l b.j (directive file (b.i + 1))) new

/-- `insert_line_directives` (`cli/cycpp.py:2317-2327`). -/
def insertLineDirectives (matching : List Str → List Str → List Block) (file orig new : Str) : Str :=
  joinLines (insertAll file (matching (splitlines orig) (splitlines new)) (splitlines new))

/-- `ensure_startswith_newlinehash` (`cli/cycpp.py:2315`). -/
def ensureHash : Str → Str
  | '#' :: s => '\n' :: '#' :: s
  | s => s

/-- `replace('\\\n', '')` (`cli/cycpp.py:2368`). -/
def dropContinuations : Str → Str
  | '\\' :: '\n' :: s => dropContinuations s
  | c :: s => c :: dropContinuations s
  | [] => []

/-- `main` with the original file for the third pass (`cli/cycpp.py:2364-2371`). -/
def mainOrig (matching : List Str → List Str → List Block) (cfg : CycppGen.Cfg) (file orig : Str) : Option Str :=
  (CycppGen.generateCode cfg (dropContinuations (ensureHash orig))).map (insertLineDirectives matching file orig)

end Cyclus.CycppLine
