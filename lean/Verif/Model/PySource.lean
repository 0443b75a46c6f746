import Mathlib.Data.List.Basic
import Mathlib.Data.Nat.Notation

/-!
# Model of input files in Python and of the formats of input

Models `/repo/src/pyinfile.pyx` (18-64), its callers in C++ (`/repo/src/pyhooks.cc:53-55`,
`/repo/src/toolkit/infile_converters.cc:164-170`), `LoadStringstreamFromFile` (`/repo/src/xml_file_loader.cc:30-61`), and the
constructor of `XMLParser` in Python (`/repo/cyclus/lib.pyx:932-951`).

Simplifications.
* Python is arbitrary (`Py`): what running a text defines, which values can be called and what they return, which are texts, bytes or
  mappings, and the functions of `json` and `pprint`.  Texts decode and encode without errors; signals are left out.
* The conversions between JSON and XML (C97, C98), the files, and the extension of a path are arbitrary.
* Functions of Cython that return C++ strings give C++ the empty string after an exception (`except *` is looked at only by
  callers in Cython); the Python exception that is left pending is not modelled.
-/

namespace Cyclus.PySource

/-- Texts. -/
abbrev Txt := List Char

/-- Exceptions: `RuntimeError` raised here, `IOError`, and those of other parts. -/
inductive Err where
  | runtime | io
  | other (n : ℕ)
  deriving DecidableEq, Repr

/-- Python, with its values. -/
structure Py (V : Type) where
  /-- `exec(infile, ctx, ctx)`: the names that are defined afterwards. -/
  exec : Txt → Except Err (Txt → Option V)
  /-- `none` if the value cannot be called. -/
  call : V → Option (Except Err V)
  /-- The text, if the value is a `str`. -/
  str : V → Option Txt
  /-- The decoded text, if the value is a `bytes`. -/
  bytes : V → Option (Except Err Txt)
  /-- `json.dumps(sim, sort_keys=True, indent=1)`, if the value is a `Mapping`. -/
  mapping : V → Option (Except Err Txt)
  /-- `json.loads`. -/
  loads : Txt → Except Err V
  /-- `pformat(sim, indent=1)`. -/
  pformat : V → Txt

/-- `str_py_to_cpp` (`pyinfile.pyx:18-22`): a `const char*` ends at the first character 0. -/
def strPyToCpp (t : Txt) : Txt := t.takeWhile (· != Char.ofNat 0)

/-- Lines 28-29. -/
def closed (s : Txt) : Txt := if s.getLast? = some '\n' then s else s ++ ['\n']

/-- The names in the order of line 32. -/
def names : List Txt := ["simulation".toList, "SIMULATION".toList, "Simulation".toList]

/-- Lines 33-38. -/
def lookup {V : Type} (ctx : Txt → Option V) : List Txt → Except Err V
  | [] => .error .runtime
  | n :: r =>
    match ctx n with
    | some v => .ok v
    | none => lookup ctx r

/-- Lines 39-40: what can be called is called. -/
def called {V : Type} (P : Py V) (v : V) : Except Err V :=
  match P.call v with
  | none => .ok v
  | some r => r

/-- Lines 42-50. -/
def textOf {V : Type} (P : Py V) (v : V) : Except Err Txt :=
  match P.str v with
  | some t => .ok t
  | none =>
    match P.bytes v with
    | some t => t
    | none =>
      match P.mapping v with
      | some t => t
      | none => .error .runtime

/-- `py_to_json` (`pyinfile.pyx:25-53`). -/
def pyToJson {V : Type} (P : Py V) (s : Txt) : Except Err Txt :=
  match P.exec (closed s) with
  | .error e => .error e
  | .ok ctx =>
    match lookup ctx names with
    | .error e => .error e
    | .ok sim =>
      match called P sim with
      | .error e => .error e
      | .ok sim =>
        match textOf P sim with
        | .error e => .error e
        | .ok t => .ok (strPyToCpp t)

/-- `json_to_py` (`pyinfile.pyx:56-64`). -/
def jsonToPy {V : Type} (P : Py V) (s : Txt) : Except Err Txt :=
  match P.loads s with
  | .error e => .error e
  | .ok v => .ok (strPyToCpp ("SIMULATION = ".toList ++ P.pformat v ++ ['\n']))

/-- What C++ gets. -/
def toCpp (r : Except Err Txt) : Txt :=
  match r with
  | .ok t => t
  | .error _ => []

/-- The other parts. -/
structure World where
  /-- Reading a file (`xml_file_loader.cc:30-38`); `none` if it cannot be opened. -/
  read : Txt → Option Txt
  /-- `fs::path(file).extension()`. -/
  ext : Txt → Txt
  /-- `JsonToXml`. -/
  jsonToXml : Txt → Except Err Txt
  /-- `XmlToJson`. -/
  xmlToJson : Txt → Except Err Txt

/-- `PyToXml` (`infile_converters.cc:164-166`). -/
def pyToXml {V : Type} (P : Py V) (w : World) (s : Txt) : Except Err Txt := w.jsonToXml (toCpp (pyToJson P s))

/-- `XmlToPy` (`infile_converters.cc:168-170`). -/
def xmlToPy {V : Type} (P : Py V) (w : World) (s : Txt) : Except Err Txt :=
  match w.xmlToJson s with
  | .error e => .error e
  | .ok t => .ok (toCpp (jsonToPy P t))

/-- Lines 48-54 of `xml_file_loader.cc`. -/
def convert {V : Type} (P : Py V) (w : World) (inext format s : Txt) : Except Err Txt :=
  if inext = ".json".toList ∨ format = "json".toList then w.jsonToXml s
  else if inext = ".py".toList ∨ format = "py".toList then pyToXml P w s
  else .ok s

/-- `LoadStringFromFile` (`xml_file_loader.cc:40-61`). -/
def loadString {V : Type} (P : Py V) (w : World) (file format : Txt) : Except Err Txt :=
  if format = "none".toList then
    match w.read file with
    | none => .error .io
    | some s => convert P w (w.ext file) format s
  else convert P w [] format file

/-- The text that `XMLParser(filename, format, raw)` parses (`lib.pyx:934-951`); in line 947 `s` is empty. -/
def xmlParser {V : Type} (P : Py V) (w : World) (filename format raw : Option Txt) : Except Err Txt :=
  match filename with
  | some f => loadString P w f (format.getD "none".toList)
  | none =>
    match raw with
    | some r =>
      match format with
      | none => .ok r
      | some g => loadString P w [] g
    | none => .error .runtime

end Cyclus.PySource
