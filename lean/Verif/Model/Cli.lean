import Verif.Model.Recorder
import Verif.Model.Loader
import Verif.Model.Infile

/-!
# Model of the command line

Models `/repo/cli/cyclus.cc`: `main` (57-237), `ParseCliArgs` (239-307), `EarlyExitArgs` (309-495) and
`GetSimInfo` (497-545).

* The result of parsing the arguments is given: they are invalid, there is more than one positional one,
  or they are options with values.  Boost's parser is not modelled.
* What the other parts of Cyclus do is given by arbitrary functions (`World`): reading and converting the
  input file, loading it, initialising, restarting and running simulations, and the texts of the
  options that only print something.  They return what they record and whether they throw.
* The output is the recorder of `Verif.Model.Recorder` with its default dump count of 10000
  (`recorder.h:21`) and one backend.  The flushes of the loader before its last one are left out: they do
  not change what arrives.
* An exception that leaves `main` ends the program without running destructors (`std::terminate`).
* The value of the uninitialised `ms_print` is arbitrary.
* Options for the logger, warnings and threads are left out (C102).
-/

namespace Cyclus.Cli

abbrev Text := List Char

/-- Exceptions: those of Cyclus and others. -/
inductive Exc
  | cyclus (e : Err)
  | other
  deriving DecidableEq, Repr

/-- The options that print something and exit, in the order of their tests (`cyclus.cc:311-492`). -/
inductive Info
  | help | version | path | includeDir | installPath | cmakeModulePath | buildPath | rngSchema | nucData | schema
  | agentSchema | agentVersion | agentAnnotations | agentListing | allAgentListing
  | jsonToXml | xmlToJson | jsonToPy | pyToJson | pyToXml | xmlToPy | metadata
  deriving DecidableEq, Repr

/-- The tests of `EarlyExitArgs` in their order. -/
def tests : List Info := [
  .help, .version, .path, .includeDir, .installPath, .cmakeModulePath, .buildPath, .rngSchema, .nucData, .schema,
  .agentSchema, .agentVersion, .agentAnnotations, .agentListing, .allAgentListing, .jsonToXml, .xmlToJson,
  .jsonToPy, .pyToJson, .pyToXml, .xmlToPy, .metadata]

/-- The branch has a handler for `IOError`: all from `agent-schema` on. -/
def handled : Info → Bool
  | .help | .version | .path | .includeDir | .installPath | .cmakeModulePath | .buildPath | .rngSchema
  | .nucData | .schema => false
  | _ => true

/-- The options (`cyclus.cc:240-287`); `format` has the default "none", a missing `restart` is empty. -/
structure Opts where
  infos : Info → Bool
  flat : Bool
  schemaPath : Option Text
  restart : Text
  input : Option Text
  format : Text
  output : Option Text
  rngPrint : Bool

/-- The arguments of the program. -/
inductive Args
  | invalid
  | tooMany
  | ok (o : Opts)

/-- What is recorded: `NewDatum(title)->AddVal(..)->..->Record()`. -/
structure Entry where
  title : String
  vals : List (Rec.Name × ℕ × Option (List ℤ))

/-- A simulation: from an input file with a schema, or from a snapshot. -/
inductive Job
  | fresh (flat : Bool) (schema file format : Text)
  | again (db : Text) (sim : ℕ) (time : ℤ)
  deriving DecidableEq

/-- The other parts of Cyclus and the environment. -/
structure World where
  /-- `Env::rng_schema`. -/
  rngSchema : Bool → Text
  /-- The backend of the output file can be created. -/
  opens : Text → Bool
  /-- `LoadStringstreamFromFile`, `XMLParser::Init` and the query for the schema type
  (`cyclus.cc:144-151`). -/
  read : Text → Text → Except Exc Text
  /-- The constructor of the loader and `LoadSim`. -/
  load : Bool → Text → Text → Text → List Entry × Except Exc Unit
  /-- `SimInit::Init` or `SimInit::Restart`: what is recorded after its last flush. -/
  init : Job → List Entry × Except Exc Unit
  /-- `Timer::RunSim`. -/
  run : Job → List Entry × Except Exc Unit
  /-- `boost::uuids::string_generator`. -/
  uuid : Text → Option ℕ
  /-- What an option prints. -/
  info : Info → Except Exc Text
  /-- `getenv("CYCLUS_NO_CATCH")`. -/
  noCatch : Option Text
  /-- The uninitialised `ms_print`. -/
  junk : Bool
  /-- The ids of the recorders of `main` and of `SimInit::Restart`. -/
  sid : ℕ
  sid' : ℕ

/-- The end of the program. -/
inductive Exit
  | code (n : ℕ)
  | terminate
  deriving DecidableEq, Repr

/-- The end, the simulation that was run, the output file with what it has got (`none`: it was not opened),
the text printed by an option, and whether the schema was printed. -/
structure Result where
  exit : Exit
  ran : Option Job := none
  out : Option (Text × List (Rec.Datum ℕ)) := none
  said : Option Text := none
  schema : Bool := false

/-- `kDefaultDumpCount` (`recorder.h:21`). -/
def dumpCount : ℕ := 10000

/-- Records entries.  With a positive dump count this is always defined (C29). -/
def record (r : Rec.Recorder ℕ) : List Entry → Rec.Recorder ℕ
  | [] => r
  | e :: es => record ((r.exec (.datum e.title e.vals)).getD r) es

/-- `EarlyExitArgs` (`cyclus.cc:309-495`). -/
def early (w : World) (o : Opts) : Option Result :=
  match tests.find? o.infos with
  | none => none
  | some i =>
    match w.info i with
    | .ok t => some { exit := .code 0, said := some t }
    | .error (.cyclus .io) => some { exit := if handled i then .code 0 else .terminate }
    | .error _ => some { exit := .terminate }

/-- The call of `RunSim` (`cyclus.cc:214-224`): `none` is to go on.  The comparison with `"0"` compares
pointers and is true. -/
def guard (w : World) : Except Exc Unit → Option Exit
  | .ok _ => none
  | .error (.cyclus _) => some (if w.noCatch.isSome then .terminate else .code 1)
  | .error .other => some .terminate

/-- From line 159 on: a simulation from the input file (`cyclus.cc:159-178`, `214-237`).  `rec` flushes when it
is destroyed. -/
def runFresh (w : World) (path : Text) (rec : Rec.Recorder ℕ) (job : Job) (shown : Bool)
    (loaded : List Entry × Except Exc Unit) : Result :=
  let r1 := record rec loaded.1
  match loaded.2 with
  | .error (.cyclus _) => { exit := .code 1, out := some (path, r1.flush.got 0), schema := shown }
  | .error .other => { exit := .terminate, out := some (path, r1.got 0), schema := shown }
  | .ok _ =>
    let r2 := r1.flush
    match (w.init job).2 with
    | .error _ => { exit := .terminate, out := some (path, r2.got 0), schema := shown }
    | .ok _ =>
      let r3 := record r2 (w.run job).1
      match guard w (w.run job).2 with
      | none => { exit := .code 0, ran := some job, out := some (path, r3.flush.got 0), schema := shown }
      | some .terminate => { exit := .terminate, ran := some job, out := some (path, r3.got 0), schema := shown }
      | some e => { exit := e, ran := some job, out := some (path, r3.flush.got 0), schema := shown }

/-- From line 179 on: a simulation from a snapshot (`cyclus.cc:179-237`).  `SimInit::Restart` makes its own
recorder (`sim_init.cc:34`), which nobody flushes or deletes; the backend is registered with it
afterwards. -/
def runAgain (w : World) (path : Text) (job : Job) : Result :=
  match (w.init job).2 with
  | .error _ => { exit := .terminate, out := some (path, []) }
  | .ok _ =>
    let r1 := (record (Rec.Recorder.new dumpCount true w.sid') (w.init job).1).register 0
    let r2 := record r1 (w.run job).1
    match guard w (w.run job).2 with
    | none => { exit := .code 0, ran := some job, out := some (path, r2.got 0) }
    | some e => { exit := e, ran := some job, out := some (path, r2.got 0) }

/-- `main` after `EarlyExitArgs` (`cyclus.cc:80-237`). -/
def simulate (w : World) (o : Opts) : Result :=
  if o.input.isNone ∧ o.restart = [] then { exit := .code 1 }
  else
    let path := o.output.getD ['c', 'y', 'c', 'l', 'u', 's', '.', 's', 'q', 'l', 'i', 't', 'e']
    if !w.opens path then { exit := .terminate }
    else
    let infile := o.input.getD []
    let rec0 := (Rec.Recorder.new dumpCount true w.sid).register 0
    match w.read infile o.format with
    | .error _ => { exit := .terminate, out := some (path, []) }
    | .ok ty =>
      let switch := decide (ty = ['f', 'l', 'a', 't']) && !o.flat
      let flat := o.flat || switch
      let schema := if switch then w.rngSchema true else o.schemaPath.getD (w.rngSchema o.flat)
      if o.restart = [] then
        runFresh w path rec0 (.fresh flat schema infile o.format) (o.rngPrint || w.junk)
          (w.load flat schema infile o.format)
      else
        match Load.split ':' o.restart with
        | [db, sim, t] =>
          match w.uuid sim, Infile.lexicalInt t with
          | some s, some z => runAgain w path (.again db s z)
          | _, _ => { exit := .code 1, out := some (path, []) }
        | _ => { exit := .code 1, out := some (path, []) }

/-- `main` (`cyclus.cc:57-237`). -/
def main (w : World) : Args → Result
  | .invalid => { exit := .code 1 }
  | .tooMany => { exit := .terminate }
  | .ok o => (early w o).getD (simulate w o)

end Cyclus.Cli
