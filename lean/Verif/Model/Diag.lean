import Verif.Model.SimInfo

/-!
# Model of warnings and log messages

Models `Warn` (`/repo/src/error.h:83-143`, `/repo/src/error.cc:13-36`), the logger
(`/repo/src/logger.h:35-174`, `/repo/src/logger.cc:8-86`), the options of the command line that set them
(`/repo/cli/cyclus.cc:509-530`) and their Python counterparts (`/repo/cyclus/lib.pyx:692-739`,
`/repo/cyclus/main.py:157-195`).

* Texts are lists of characters.  The texts written to one stream are kept in their order.
* Levels are integers: the casts to `LogLevel` keep values outside of the enumeration.
* Threads are not modelled.
-/

namespace Cyclus.Diag

/-! ## Warnings -/

/-- `Warnings` (`error.h:83-94`). -/
inductive Kind
  | warning | value | key | state | io | cast | validation | deprecation | pending | experimental
  deriving DecidableEq, Repr

/-- `warn_prefixes` (`error.cc:20-34`). -/
def Kind.title : Kind → List Char
  | .warning => ['W', 'a', 'r', 'n', 'i', 'n', 'g']
  | .value => ['V', 'a', 'l', 'u', 'e', ' ', 'W', 'a', 'r', 'n', 'i', 'n', 'g']
  | .key => ['K', 'e', 'y', ' ', 'W', 'a', 'r', 'n', 'i', 'n', 'g']
  | .state => ['S', 't', 'a', 't', 'e', ' ', 'W', 'a', 'r', 'n', 'i', 'n', 'g']
  | .io => ['I', '/', 'O', ' ', 'W', 'a', 'r', 'n', 'i', 'n', 'g']
  | .cast => ['C', 'a', 's', 't', ' ', 'W', 'a', 'r', 'n', 'i', 'n', 'g']
  | .validation => ['V', 'a', 'l', 'i', 'd', 'a', 't', 'i', 'o', 'n', ' ', 'W', 'a', 'r', 'n', 'i',
      'n', 'g']
  | .deprecation => ['D', 'e', 'p', 'r', 'e', 'c', 'a', 't', 'i', 'o', 'n', ' ', 'W', 'a', 'r', 'n',
      'i', 'n', 'g']
  | .pending => ['P', 'e', 'n', 'd', 'i', 'n', 'g', ' ', 'D', 'e', 'p', 'r', 'e', 'c', 'a', 't', 'i',
      'o', 'n', ' ', 'W', 'a', 'r', 'n', 'i', 'n', 'g']
  | .experimental => ['E', 'x', 'p', 'e', 'r', 'i', 'm', 'e', 'n', 't', 'a', 'l', ' ', 'W', 'a', 'r',
      'n', 'i', 'n', 'g']

/-- The exception for a warning (`error.h:117-132`). -/
def Kind.thrown : Kind → Err
  | .value => .value
  | .key => .key
  | .state => .state
  | .io => .io
  | .cast => .cast
  | .validation => .valid
  | _ => .generic

/-- `warn_count`: numbers of 32 bits without sign, at first 0. -/
abbrev Counts := Kind → ℕ

/-- `Warn` (`error.h:114-143`): the counts afterwards, and what is written. -/
def warn (limit : ℕ) (asError : Bool) (count : Counts) (k : Kind) (msg : List Char) :
    Counts × Except Err (List Char) :=
  if asError then (count, .error k.thrown)
  else
    (Function.update count k ((count k + 1) % 2 ^ 32),
      .ok (
        if count k < limit then k.title ++ [':', ' '] ++ msg ++ ['\n']
        else if count k = 0 then []
        else if count k = limit then ['F', 'u', 'r', 't', 'h', 'e', 'r', ' '] ++ k.title ++ ['s', ' ',
            'w', 'i', 'l', 'l', ' ', 'b', 'e', ' ', 's', 'u', 'p', 'p', 'r', 'e', 's', 's', 'e', 'd',
                '.', '\n']
        else []))

/-- Warnings one after the other: what each of them does. -/
def warnings (limit : ℕ) (asError : Bool) : Counts → List (Kind × List Char) → List (Except Err (List Char))
  | _, [] => []
  | c, w :: ws =>
    (warn limit asError c w.1 w.2).2 :: warnings limit asError (warn limit asError c w.1 w.2).1 ws

/-! ## The logger -/

/-- The names that `Initialize` adds, without `LEV_` (`logger.cc:43-56`). -/
def names : List (List Char) := [
  ['E', 'R', 'R', 'O', 'R'], ['W', 'A', 'R', 'N'],
  ['I', 'N', 'F', 'O', '1'], ['I', 'N', 'F', 'O', '2'], ['I', 'N', 'F', 'O', '3'],
  ['I', 'N', 'F', 'O', '4'], ['I', 'N', 'F', 'O', '5'], ['D', 'E', 'B', 'U', 'G', '1'],
  ['D', 'E', 'B', 'U', 'G', '2'], ['D', 'E', 'B', 'U', 'G', '3'], ['D', 'E', 'B', 'U', 'G', '4'],
  ['D', 'E', 'B', 'U', 'G', '5']]

/-- `ToLogLevel` (`logger.cc:59-65`). -/
def toLogLevel (text : List Char) : ℤ :=
  match names.findIdx? (fun n => ['L', 'E', 'V', '_'] ++ n = text) with
  | some i => i
  | none => 0

/-- The text that `AddLevel` stores (`logger.cc:82-84`). -/
def padded (text : List Char) : List Char := List.replicate (6 - text.length) ' ' ++ text

/-- `ToString` (`logger.cc:68-76`). -/
def levelText (level : ℤ) : List Char :=
  if level < 0 then ['B', 'A', 'D', '_', 'L', 'E', 'V', 'E', 'L']
  else match names[level.toNat]? with
    | some n => padded n
    | none => ['B', 'A', 'D', '_', 'L', 'E', 'V', 'E', 'L']

/-- `Get` (`logger.cc:18-32`). -/
def header (level : ℤ) (pre : List Char) : List Char :=
  let ind := if level - 2 < 0 then 0 else level - 2
  let p := pre.take 6
  levelText level ++ ['('] ++ (p ++ List.replicate (6 - p.length) ' ') ++ [')', ':'] ++
    List.replicate (ind * 2).toNat ' '

/-- The settings (`logger.cc:10-12`). -/
structure Log where
  report : ℤ
  noAgent : Bool
  noMem : Bool
  deriving DecidableEq

/-- The settings at the start. -/
def Log.start : Log := ⟨0, false, false⟩

/-- Statements with `LOG`, `CLOG` and `MLOG`. -/
inductive Source
  | agent (pre : List Char)
  | core
  | memory
  deriving DecidableEq

/-- A statement (`logger.h:35-45`) and the destructor (`logger.cc:35-40`): what is written. -/
def Log.put (l : Log) (src : Source) (level : ℤ) (text : List Char) : List Char :=
  match src with
  | .agent pre => if l.report < level ∨ l.noAgent = true then [] else header level pre ++ text ++ ['\n']
  | .core => if l.report < level then [] else header level ['c', 'o', 'r', 'e'] ++ text ++ ['\n']
  | .memory => if l.report < level ∨ l.noMem = true then [] else header level ['m', 'e', 'm', 'o',
      'r', 'y'] ++ text ++ ['\n']

/-- `-v` (`cli/cyclus.cc:516-523`). -/
def Log.verb (l : Log) (v : List Char) : Log :=
  if v.length < 3 then { l with report := Info.castLong (Info.strtol v) }
  else { l with report := toLogLevel v }

/-- `--no-agent` (`cli/cyclus.cc:510-512`). -/
def Log.optNoAgent (l : Log) : Log := { l with noAgent := true }

/-- `--no-mem` (`cli/cyclus.cc:513-515`). -/
def Log.optNoMem (l : Log) : Log := { l with noMem := true }

/-- `SetNoAgent` (`logger.h:99-101`). -/
def Log.setNoAgent (l : Log) (b : Bool) : Log := { l with noAgent := b }

/-- `SetNoMem` (`logger.h:111-113`). -/
def Log.setNoMem (l : Log) (b : Bool) : Log := { l with noAgent := b }

/-- The constants of the Python module (`lib.pyx:693-704`), by name. -/
def pyLevel : List (List Char × ℤ) := [
  (['E', 'R', 'R', 'O', 'R'], 0), (['W', 'A', 'R', 'N'], 1),
  (['I', 'N', 'F', 'O', '1'], 2), (['I', 'N', 'F', 'O', '2'], 3),
  (['I', 'N', 'F', 'O', '3'], 4), (['I', 'N', 'F', 'O', '4'], 5),
  (['I', 'N', 'F', 'O', '5'], 6), (['D', 'E', 'B', 'U', 'G', '1'], 6),
  (['D', 'E', 'B', 'U', 'G', '2'], 8), (['D', 'E', 'B', 'U', 'G', '3'], 9),
  (['D', 'E', 'B', 'U', 'G', '4'], 10), (['D', 'E', 'B', 'U', 'G', '5'], 11)]

end Cyclus.Diag
