import Mathlib.Data.List.Basic

/-!
# Model of the command that begins and extends projects of archetypes

Models `/repo/cli/cycstub`, with the first lines of `/repo/stubs/CMakeLists.txt` and `/repo/stubs/src/CMakeLists.txt`.

Simplifications.
* Of a project, the first line of `CMakeLists.txt`, the lines of `src/CMakeLists.txt` and the files of sources are modelled; the other files which a
  new project gets are left out.
* `fromcapcase` (regular expressions) is any function `low`; what the copied stubs hold after `rename_stub` and `cleanfiles` is any function `stub`.
  Names that contain the words which `rename_stub` replaces (`StubFacility`, `LibName`, `LibPath`, …) would also be changed in the lines of
  `CMakeLists.txt`; they are not considered.
* `cyclus` is installed with its stubs and the files can be read and written.
-/

namespace Cyclus.Stub

/-- Texts. -/
abbrev Txt := List Char

/-- Puts a character before the first part. -/
def consHead (c : Char) : List Txt → List Txt
  | [] => [[c]]
  | h :: t => (c :: h) :: t

/-- `s.split(':')`, `/repo/cli/cycstub:28`. -/
def splitC : Txt → List Txt
  | [] => [[]]
  | c :: l => if c = ':' then [] :: splitC l else consHead c (splitC l)

/-- `s.split('::')`, `/repo/cli/cycstub:33`: from the left, without overlap. -/
def splitCC : Txt → List Txt
  | [] => [[]]
  | c :: l => if c = ':' ∧ l.head? = some ':' then [] :: splitCC l.tail else consHead c (splitCC l)
termination_by l => l.length
decreasing_by all_goals simp; try omega

/-- `s.strip()`. -/
def strip (s : Txt) : Txt := ((s.dropWhile Char.isWhitespace).reverse.dropWhile Char.isWhitespace).reverse

/-- `parse_spec`, `/repo/cli/cycstub:27-28`. -/
def parseSpec (s : Txt) : List Txt := splitC (strip s)

/-- The parts of a specification, when there are three of them: `/repo/cli/cycstub:113,126`. -/
def three : List Txt → Option (Txt × Txt × Txt)
  | [a, b, c] => some (a, b, c)
  | _ => none

/-- `read_cmake_spec`, `/repo/cli/cycstub:30-34,126`, of the first line; `none` when the unpacking raises. -/
def readSpec (line : Txt) : Option (Txt × Txt × Txt) :=
  match splitCC line with
  | [_, s] => three (parseSpec (strip s))
  | _ => none

/-- Whether a text is within a line (`below in line`, `/repo/cli/cycstub:71`). -/
def within (t line : Txt) : Bool := line.tails.any (fun s => t.isPrefixOf s)

/-- `insert_line`, `/repo/cli/cycstub:67-80`; `none` when there is no such line. -/
def insertLine (below new : Txt) : List Txt → Option (List Txt)
  | [] => none
  | l :: ls => if within below l then some (l :: new :: ls) else (insertLine below new ls).map (l :: ·)

/-- `INSERT_ARCHETYPES_HERE`, `/repo/cli/cycstub:137`. -/
def marker : Txt := "INSERT_ARCHETYPES_HERE".toList

/-- `USE_CYCLUS("{0}" "{1}")\n`, `/repo/cli/cycstub:136`, `/repo/stubs/src/CMakeLists.txt:2`. -/
def use (lib fname : Txt) : Txt := "USE_CYCLUS(\"".toList ++ lib ++ "\" \"".toList ++ fname ++ "\")\n".toList

/-- The first line of `CMakeLists.txt`, `/repo/stubs/CMakeLists.txt:1`, after `rename_cmake`, `/repo/cli/cycstub:13-25`. -/
def firstLine (path lib arch : Txt) : Txt :=
  "# DO NOT DELETE THIS LINE".toList ++ "::".toList ++ (" ".toList ++ (path ++ ":".toList ++ lib ++ ":".toList ++ arch) ++ "\n".toList)

/-- The line below which archetypes are entered, `/repo/stubs/src/CMakeLists.txt:1`. -/
def here : Txt := "### DO NOT DELETE THIS COMMENT: INSERT_ARCHETYPES_HERE ###\n".toList

/-- The files of an archetype, `/repo/cli/cycstub:83-92`. -/
def targets (f : Txt) : List Txt :=
  ["src/".toList ++ f ++ ".h".toList, "src/".toList ++ f ++ ".cc".toList, "src/".toList ++ f ++ "_tests.cc".toList,
   "example_".toList ++ f ++ ".xml".toList]

/-- A project: the first line of `CMakeLists.txt` if there is one, the lines of `src/CMakeLists.txt`, the files. -/
structure Project where
  first : Option Txt
  lines : List Txt
  files : Txt → Option Txt

/-- How the command ends: `sys.exit(0)` or the end of the script, `sys.exit(1)`, or an exception. -/
inductive Status
  | done
  | refused
  | raised
  deriving DecidableEq

/-- What the command depends on: `fromcapcase`, what the stubs become for a type, library and archetype, and the rest of `src/CMakeLists.txt`. -/
structure Env where
  low : Txt → Txt
  stub : Txt → Txt → Txt → Txt → Txt → Txt
  rest : Txt → List Txt

/-- `copy_srcfiles`, `rename_stub` and `cleanfiles`, `/repo/cli/cycstub:82-101,138-144,149,175-178`: copies replace what is there. -/
def copied (e : Env) (ty path lib arch : Txt) (files : Txt → Option Txt) : Txt → Option Txt :=
  fun n => if n ∈ targets (e.low arch) then some (e.stub ty path lib arch n) else files n

/-- An archetype for a project that exists, `/repo/cli/cycstub:126-147`. -/
def extend (e : Env) (p : Project) (ty path lib arch : Txt) : Option (Txt × Txt × Txt) → Status × Project
  | none => (.raised, p)
  | some (prevPath, prevLib, _) =>
    if path ≠ prevPath then (.refused, p)
    else if lib ≠ prevLib then (.refused, p)
    else
      match insertLine marker (use lib (e.low arch)) p.lines with
      | none => (.refused, p)
      | some ls => (.done, { p with lines := ls, files := copied e ty path lib arch p.files })

/-- A new project, `/repo/cli/cycstub:149-178`. -/
def create (e : Env) (p : Project) (ty path lib arch : Txt) : Project :=
  { first := some (firstLine path lib arch)
    lines := here :: use lib (e.low arch) :: e.rest lib
    files := copied e ty path lib arch p.files }

/-- With the parts of the specification, `/repo/cli/cycstub:125-178`. -/
def build (e : Env) (p : Project) (ty : Txt) : Option (Txt × Txt × Txt) → Status × Project
  | none => (.raised, p)
  | some (path, lib, arch) =>
    match p.first with
    | none => (.done, create e p ty path lib arch)
    | some line => extend e p ty path lib arch (readSpec line)

/-- The command, `/repo/cli/cycstub:103-178`. -/
def run (e : Env) (p : Project) (ty spec : Txt) : Status × Project := build e p ty (three (parseSpec spec))

/-- Commands one after the other, each of which is done: the project at the end. -/
def runAll (e : Env) (p : Project) : List (Txt × Txt) → Option Project
  | [] => some p
  | (ty, spec) :: l =>
    match run e p ty spec with
    | (.done, q) => runAll e q l
    | _ => none

end Cyclus.Stub
