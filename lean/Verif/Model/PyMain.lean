import Mathlib.Data.List.Basic
import Mathlib.Data.Nat.Notation

/-!
# Model of running simulations from Python

Models the command line in Python (`/repo/cyclus/main.py:48-51`, 68-81, 239-250, 307-427) and `SimState`
(`/repo/cyclus/simstate.py:17-40`, 100-196).

Simplifications.
* What other parts do is given by arbitrary functions (`World`): opening the output, reading the input file, loading
  it, initialising and running the simulation, and the options that print something else or set up the logger.
* The arguments of the command line are already divided into options with their values and positional ones.  Otherwise
  `argparse` (of Python 3.11) is modelled as far as it matters here: actions are called in the order of the arguments, the
  first positional one is `input_file`, further ones are an error after all actions, and without any the positional
  `input_file` is set to its default after all actions.
* What happens is a list of events; each is recorded when it is tried, whether or not it fails.  An exception that Python
  code itself raises is an event too.  Members of a `SimState` are followed only if the call succeeds.
* Texts are lists of characters, paths those of Unix.
-/

namespace Cyclus.PyMain

/-- Texts. -/
abbrev Txt := List Char

/-- Python exceptions; `exit` is the `SystemExit` of `argparse`, `other` comes from other parts. -/
inductive Err where
  | runtime | type | exit | attribute
  | other (n : ℕ)
  deriving DecidableEq, Repr

/-- The kinds of output files. -/
inductive Kind where
  | hdf5 | sqlite
  deriving DecidableEq, Repr

/-- The argument and member `memory_backend`: `None`, something that is not a `MemBack`, by its truth value, a `MemBack` of the
user, or one that was made here, with its registry and the file it falls back on. -/
inductive Mem where
  | none
  | flag (b : Bool)
  | given (n : ℕ)
  | made (registry : ℕ) (kind : Kind) (path : Txt)
  deriving DecidableEq, Repr

/-- What happens. -/
inductive Ev where
  /-- The output is opened. -/
  | opened (k : Kind) (path : Txt)
  /-- The file is registered with the recorder. -/
  | file
  /-- A backend in memory is registered with the recorder. -/
  | memory (m : Mem)
  /-- The input is read and parsed for the type of schema. -/
  | read (file format : Txt)
  /-- The input is loaded. -/
  | load (flat : Bool) (schema file format : Txt) (print : Bool)
  /-- `SimInit` is made. -/
  | init
  /-- `run_sim`. -/
  | run
  /-- The recorder is flushed. -/
  | flush
  /-- The message of success, with the path of the output. -/
  | success (path : Txt)
  /-- Something printed by an option. -/
  | say (t : Txt)
  /-- A file that is read to be printed. -/
  | file_read (path : Txt)
  /-- Another option is acted on. -/
  | info (n : ℕ)
  /-- An exception is raised. -/
  | raised (e : Err)
  deriving DecidableEq, Repr

/-- The other parts. -/
structure World where
  /-- `Env.rng_schema`. -/
  std : Bool → Txt
  /-- The constructors of the backends. -/
  opens : Kind → Txt → Except Err Unit
  /-- `XMLParser` and `InfileTree` (`simstate.py:171-173`): the type of schema, empty if there is none. -/
  parse : Txt → Txt → Except Err Txt
  /-- `XMLFlatLoader` or `XMLFileLoader` with `load_sim` (`simstate.py:183-191`). -/
  load : Bool → Txt → Txt → Txt → Bool → Except Err Unit
  /-- `SimInit(rec, backend)`. -/
  init : Except Err Unit
  /-- `si.timer.run_sim()`. -/
  sim : Except Err Unit
  /-- `load_string_from_file`. -/
  text : Txt → Except Err Txt
  /-- Other options. -/
  info : ℕ → Except Err Unit

/-- A computation: what happened, and its result. -/
abbrev M (α : Type) := List Ev × Except Err α

/-- The result is given. -/
def ret {α : Type} (a : α) : M α := ([], .ok a)

/-- One event with its result. -/
def try_ {α : Type} (e : Ev) (r : Except Err α) : M α := ([e], r)

/-- An exception. -/
def raise {α : Type} (e : Err) : M α := ([.raised e], .error e)

/-- One computation after another. -/
def andThen {α β : Type} (x : M α) (f : α → M β) : M β :=
  match x.2 with
  | .error e => (x.1, .error e)
  | .ok a => (x.1 ++ (f a).1, (f a).2)

/-- `os.path.basename`. -/
def basename (p : Txt) : Txt := (p.reverse.takeWhile (· != '/')).reverse

/-- What precedes it. -/
def before (p : Txt) : Txt := (p.reverse.dropWhile (· != '/')).reverse

/-- `os.path.splitext`: the last dot of the last component begins the extension, unless only dots precede it there. -/
def splitext (p : Txt) : Txt × Txt :=
  match (basename p).reverse.dropWhile (· != '.') with
  | [] => (p, [])
  | _ :: stem =>
    if stem.any (· != '.') then
      (before p ++ stem.reverse, '.' :: ((basename p).reverse.takeWhile (· != '.')).reverse)
    else (p, [])

/-- `get_schema_path` (`simstate.py:17-25`). -/
def getSchemaPath (w : World) (flat : Bool) (schema : Option Txt) : Txt :=
  if flat then w.std true
  else match schema with
    | some p => p
    | none => w.std false

/-- The members of a `SimState` (`simstate.py:105-127`); `rec` (here `recd`), `file_backend` and `si` are `None` at first. -/
structure SimState where
  input : Option Txt
  format : Option Txt
  output : Txt
  mem : Mem
  registry : ℕ
  schema : Option Txt
  flat : Bool
  print : Bool
  recd : Bool
  file : Option (Kind × Txt)
  si : Bool
  deriving DecidableEq, Repr

/-- The default of `output_path` (`simstate.py:108-112`). -/
def defaultOutput (input format : Option Txt) : Except Err Txt :=
  match format with
  | none =>
    match input with
    | none => .error .type
    | some f => .ok ((splitext (basename f)).1 ++ ".h5".toList)
  | some g =>
    if g = "none".toList then
      match input with
      | none => .error .type
      | some f => .ok ((splitext (basename f)).1 ++ ".h5".toList)
    else .ok ("cyclus".toList ++ ".h5".toList)

/-- `__init__` (`simstate.py:100-127`). -/
def create (input format output : Option Txt) (mem : Mem) (registry : ℕ) (schema : Option Txt) (flat print : Bool) :
    M SimState :=
  match output with
  | some o => ret ⟨input, format, o, mem, registry, schema, flat, print, false, none, false⟩
  | none =>
    match defaultOutput input format with
    | .error e => raise e
    | .ok o => ret ⟨input, format, o, mem, registry, schema, flat, print, false, none, false⟩

/-- The member `memory_backend` after lines 154-163. -/
def memOf (s : SimState) (k : Kind) : Mem :=
  match s.mem with
  | .none => .none
  | .given n => .given n
  | .made r k' p => .made r k' p
  | .flag true => .made s.registry k s.output
  | .flag false => .none

/-- The registration of the backend in memory (`simstate.py:166-167`). -/
def register (m : Mem) : M Unit :=
  match m with
  | .none => ret ()
  | m => try_ (.memory m) (.ok ())

/-- `_load_backends` (`simstate.py:141-167`) once the kind of the file is known. -/
def loadBackend (w : World) (s : SimState) (k : Kind) : M SimState :=
  andThen (try_ (.opened k s.output) (w.opens k s.output)) fun _ =>
  andThen (try_ .file (.ok ())) fun _ =>
  andThen (register (memOf s k)) fun _ =>
  ret { s with file := some (k, s.output), mem := memOf s k }

/-- `_load_backends`. -/
def loadBackends (w : World) (s : SimState) : M SimState :=
  if (splitext s.output).2 = ".h5".toList then loadBackend w s .hdf5
  else if (splitext s.output).2 = ".sqlite".toList then loadBackend w s .sqlite
  else raise .runtime

/-- `None` stands for the format "none" (`lib.pyx:808`, 841, 940). -/
def formatOf (f : Option Txt) : Txt := f.getD "none".toList

/-- `_load_schema_path` (`simstate.py:169-179`); without a file `XMLParser` raises (`lib.pyx:949`). -/
def loadSchemaPath (w : World) (s : SimState) : M SimState :=
  match s.input with
  | none => raise .runtime
  | some f =>
    andThen (try_ (.read f (formatOf s.format)) (w.parse f (formatOf s.format))) fun t =>
    let flat := if t = "flat".toList ∧ s.flat = false then true else s.flat
    ret { s with flat := flat, schema := some (getSchemaPath w flat s.schema) }

/-- `_load_input_file` (`simstate.py:181-191`). -/
def loadInputFile (w : World) (s : SimState) : M Unit :=
  match s.input, s.schema with
  | some f, some p =>
    if s.flat then try_ (.load true p f (formatOf s.format) s.print) (w.load true p f (formatOf s.format) s.print)
    else try_ (.load false p f (formatOf s.format) s.print) (w.load false p f (formatOf s.format) s.print)
  | _, _ => raise .attribute

/-- `load` (`simstate.py:132-139`). -/
def load (w : World) (s : SimState) : M SimState :=
  andThen (loadBackends w { s with recd := true }) fun s =>
  andThen (loadSchemaPath w s) fun s =>
  andThen (loadInputFile w s) fun _ =>
  andThen (try_ .init w.init) fun _ =>
  ret { s with si := true }

/-- `run` (`simstate.py:193-196`); before `load`, `self.si` is `None`. -/
def run (w : World) (s : SimState) : M Unit :=
  if s.si then
    andThen (try_ .run w.sim) fun _ => try_ .flush (.ok ())
  else raise .attribute

/-- `__del__` (`simstate.py:129-130`): before `load`, `self.rec` is `None`. -/
def del (s : SimState) : M Unit := if s.recd then try_ .flush (.ok ()) else raise .attribute

/-- `ensure_close_dynamic_modules` (`simstate.py:28-40`): the flag and the number of functions registered. -/
def ensureClose (s : Bool × ℕ) : Bool × ℕ := if s.1 then s else (true, s.2 + 1)

/-- The arguments of the command line (`main.py:307-393`). -/
inductive Item where
  | pos (s : Txt)
  | inputFile (s : Txt)
  | output (s : Txt)
  | format (s : Txt)
  | schemaPath (s : Txt)
  | flat
  | rngPrint
  | schema
  | rngSchema
  | restart (s : Txt)
  | info (n : ℕ)
  deriving DecidableEq, Repr

/-- The namespace with its defaults. -/
structure Ns where
  input : Option Txt := none
  output : Txt := "cyclus.sqlite".toList
  format : Option Txt := none
  schema : Option Txt := none
  flat : Bool := false
  rng : Bool := false

/-- `set_schema_path` (`main.py:48-51`). -/
def setSchemaPath (w : World) (ns : Ns) : Ns := { ns with schema := some (getSchemaPath w ns.flat ns.schema) }

/-- The action of an option: those of `argparse` that store, `Schema` (`main.py:75-81`), `RngSchema` (239-244), `RngPrint`
(246-250), `Restart` (68-72) and others. -/
def act (w : World) (ns : Ns) : Item → M Ns
  | .pos _ => ret ns
  | .inputFile s => ret { ns with input := some s }
  | .output s => ret { ns with output := s }
  | .format s => ret { ns with format := some s }
  | .schemaPath s => ret { ns with schema := some s }
  | .flat => ret { ns with flat := true }
  | .rngPrint => ret { ns with rng := true }
  | .schema =>
    let ns := setSchemaPath w ns
    let p := getSchemaPath w ns.flat ns.schema
    andThen (try_ (.file_read p) (w.text p)) fun t => andThen (try_ (.say t) (.ok ())) fun _ => ret ns
  | .rngSchema =>
    let ns := setSchemaPath w ns
    andThen (try_ (.say (getSchemaPath w ns.flat ns.schema)) (.ok ())) fun _ => ret ns
  | .restart _ => raise .runtime
  | .info n => andThen (try_ (.info n) (w.info n)) fun _ => ret ns

/-- The loop of `parse_args`: the namespace, whether there was a positional argument, and whether there were more. -/
def parseLoop (w : World) (ns : Ns) (seen extra : Bool) : List Item → M (Ns × Bool × Bool)
  | [] => ret (ns, seen, extra)
  | .pos s :: r => if seen then parseLoop w ns seen true r else parseLoop w { ns with input := some s } true extra r
  | i :: r => andThen (act w ns i) fun ns => parseLoop w ns seen extra r

/-- `parse_args`. -/
def parseArgs (w : World) (items : List Item) : M Ns :=
  andThen (parseLoop w {} false false items) fun x =>
  if x.2.2 then raise .exit
  else ret (if x.2.1 then x.1 else { x.1 with input := none })

/-- `run_simulation` (`main.py:396-408`). -/
def runSimulation (w : World) (ns : Ns) : M Unit :=
  andThen (create ns.input ns.format (some ns.output) (.flag false) 0 ns.schema ns.flat false) fun s =>
  andThen (load w s) fun s =>
  andThen (run w s) fun _ =>
  try_ (.success ns.output) (.ok ())

/-- `print_main_schema` (`main.py:410-415`). -/
def printMainSchema (w : World) (ns : Ns) : M Unit :=
  andThen (create ns.input ns.format (some ns.output) (.flag false) 0 ns.schema ns.flat true) fun s =>
  andThen (load w s) fun _ => ret ()

/-- `main` (`main.py:418-427`). -/
def main (w : World) (items : List Item) : M Unit :=
  andThen (parseArgs w items) fun ns =>
  if ns.rng then printMainSchema w ns
  else match ns.input with
    | some _ => runSimulation w ns
    | none => ret ()

end Cyclus.PyMain
