import Verif.Model.Infile
import Verif.Model.Loader
import Verif.Model.Convert

/-!
# Model of the archetypes of an input file and of the master schema

Models `/repo/src/xml_file_loader.cc:30-127`, `363-368` and `/repo/src/xml_flat_loader.cc:14-45`.

* The parser of libxml++ is an arbitrary function from texts to documents; the file system, the
  extension of a path and the converters are arbitrary functions.
* `DynamicModule::Make` followed by `kind()` and `schema()` is an arbitrary function of the
  specification, which may throw.
* The set of specifications that were seen holds exactly the strings of those that were kept.
* The temporary timer, recorder and context have no effect on the result.
-/

namespace Cyclus.Schema

open Infile (Node Tree Query Fail Step)
open Load (Spec)

/-- What the loaders use of their surroundings. -/
structure World where
  file : List Char → Option (List Char)
  extension : List Char → List Char
  json : List Char → Except Fail (List Char)
  py : List Char → Except Fail (List Char)
  parse : List Char → Except Fail Node

/-- `LoadRawStringstreamFromFile` (`xml_file_loader.cc:30-38`). -/
def World.raw (w : World) (f : List Char) : Except Fail (List Char) :=
  match w.file f with
  | none => .error (.err .io)
  | some s => .ok s

/-- The words of `xml_file_loader.cc:42-52`. -/
def wNone : List Char := ['n', 'o', 'n', 'e']
/-- See `wNone`. -/
def wJson : List Char := ['j', 's', 'o', 'n']
/-- See `wNone`. -/
def wPy : List Char := ['p', 'y']

/-- The conversions of `LoadStringstreamFromFile` (`xml_file_loader.cc:48-54`). -/
def World.convert (w : World) (ext format s : List Char) : Except Fail (List Char) :=
  if ext = '.' :: wJson ∨ format = wJson then w.json s
  else if ext = '.' :: wPy ∨ format = wPy then w.py s
  else .ok s

/-- `LoadStringstreamFromFile` and `LoadStringFromFile` (`xml_file_loader.cc:40-61`). -/
def World.load (w : World) (f format : List Char) : Except Fail (List Char) :=
  if format = wNone then
    match w.raw f with
    | .error e => .error e
    | .ok s => w.convert (w.extension f) format s
  else w.convert [] format f

/-! ## Archetypes -/

/-- `/simulation/archetypes/spec` (`xml_file_loader.cc:73`). -/
def specPath : Query := ⟨true, [.named ['s', 'i', 'm', 'u', 'l', 'a', 't', 'i', 'o', 'n'], .named ['a', 'r', 'c', 'h', 'e', 't', 'y', 'p', 'e', 's'], .named ['s', 'p', 'e', 'c']]⟩

/-- `AgentSpec(InfileTree*)` (`dynamic_module.cc:34-39`). -/
def specOf (t : Tree) : Except Fail Spec :=
  match t.getString (.child ['n', 'a', 'm', 'e']) 0 with
  | .error e => .error e
  | .ok agent =>
    match Infile.optionalString t (.child ['l', 'i', 'b']) agent with
    | .error e => .error e
    | .ok lib =>
      match Infile.optionalString t (.child ['p', 'a', 't', 'h']) [] with
      | .error e => .error e
      | .ok path =>
        match Infile.optionalString t (.child ['a', 'l', 'i', 'a', 's']) agent with
        | .error e => .error e
        | .ok nick => .ok ⟨path, lib, agent, nick⟩

/-- Keeps a specification whose string was not seen (`xml_file_loader.cc:77-80`). -/
def keep (acc : List Spec) (s : Spec) : List Spec :=
  if acc.any (fun q => q.str = s.str) then acc else acc ++ [s]

/-- The loop of `ParseSpecs` from index `i` on for `n` turns (`xml_file_loader.cc:75-81`). -/
def specLoop (t : Tree) : ℕ → ℕ → List Spec → Except Fail (List Spec)
  | 0, _, acc => .ok acc
  | n + 1, i, acc =>
    match t.subTree specPath i with
    | .error e => .error e
    | .ok u =>
      match specOf u with
      | .error e => .error e
      | .ok s => specLoop t n (i + 1) (keep acc s)

/-- `ParseSpecs` of a parsed document (`xml_file_loader.cc:68-88`). -/
def parseSpecs (root : Node) : Except Fail (List Spec) :=
  match specLoop (Tree.new root) ((Tree.new root).nMatches specPath) 0 [] with
  | .error e => .error e
  | .ok [] => .error (.err .valid)
  | .ok l => .ok l

/-- `ParseSpecs` (`xml_file_loader.cc:63-88`). -/
def World.parseSpecs (w : World) (f format : List Char) : Except Fail (List Spec) :=
  match w.load f format with
  | .error e => .error e
  | .ok s =>
    match w.parse s with
    | .error e => .error e
    | .ok root => Schema.parseSpecs root

/-- `LoadSpecs` (`xml_file_loader.cc:363-368`): `specs_[alias] = spec`, kept as a list with one entry for
each alias. -/
def loadSpecs (l : List Spec) : List (List Char × Spec) :=
  l.foldl (fun m s => (s.nick, s) :: m.filter (·.1 ≠ s.nick)) []

/-- `specs_[alias]` (`xml_file_loader.cc:387`): an alias that is not there gives an empty
specification. -/
def lookup (m : List (List Char × Spec)) (a : List Char) : Spec :=
  match m.find? (·.1 = a) with
  | none => ⟨[], [], [], []⟩
  | some e => e.2

/-! ## Master schemas -/

/-- `find` and `replace` of the first occurrence of a text that is not empty
(`xml_file_loader.cc:120-123`, `xml_flat_loader.cc:35-38`). -/
def replaceFirst (pat new : List Char) : List Char → List Char
  | [] => []
  | c :: cs =>
    if pat.isPrefixOf (c :: cs) then new ++ (c :: cs).drop pat.length else c :: replaceFirst pat new cs

/-- The text for one archetype (`xml_file_loader.cc:110-112`). -/
def elementText (nick schema : List Char) : List Char :=
  ['<', 'e', 'l', 'e', 'm', 'e', 'n', 't', ' ', 'n', 'a', 'm', 'e', '=', '"'] ++ nick ++ ['"', '>', '\n'] ++ schema ++ ['\n'] ++
    ['<', '/', 'e', 'l', 'e', 'm', 'e', 'n', 't', '>', '\n']

/-- A new key of an ordered map. -/
def addKey (k s : List Char) : List (List Char × List Char) → List (List Char × List Char)
  | [] => [(k, s)]
  | m :: ms => if Convert.nameLt k m.1 then (k, s) :: m :: ms else m :: addKey k s ms

/-- `subschemas[k] += s`. -/
def append (m : List (List Char × List Char)) (k s : List Char) : List (List Char × List Char) :=
  if m.any (·.1 = k) then m.map fun e => if e.1 = k then (k, e.2 ++ s) else e else addKey k s m

/-- The keys that are forced to exist (`xml_file_loader.cc:104-106`). -/
def forced : List (List Char × List Char) :=
  append (append (append [] ['r', 'e', 'g', 'i', 'o', 'n'] []) ['i', 'n', 's', 't'] []) ['f', 'a', 'c', 'i', 'l', 'i', 't', 'y'] []

/-- The loop over the specifications (`xml_file_loader.cc:108-114`). -/
def collect (make : Spec → Except Fail (List Char × List Char)) :
    List Spec → List (List Char × List Char) → Except Fail (List (List Char × List Char))
  | [], m => .ok m
  | s :: ss, m =>
    match make s with
    | .error e => .error e
    | .ok (kind, schema) => collect make ss (append m kind (elementText s.nick schema))

/-- The placeholder of a kind (`xml_file_loader.cc:119`). -/
def placeholder (k : List Char) : List Char := '@' :: k ++ ['_', 'R', 'E', 'F', 'S', '@']

/-- `BuildMasterSchema` from the template and the specifications (`xml_file_loader.cc:90-127`). -/
def masterSchema (make : Spec → Except Fail (List Char × List Char)) (template : List Char)
    (specs : List Spec) : Except Fail (List Char) :=
  match collect make specs forced with
  | .error e => .error e
  | .ok m => .ok (m.foldl (fun t e => replaceFirst (placeholder e.1) e.2 t) template)

/-- `BuildMasterSchema` (`xml_file_loader.cc:90-127`). -/
def World.masterSchema (w : World) (make : Spec → Except Fail (List Char × List Char))
    (schema f format : List Char) : Except Fail (List Char) :=
  match w.load schema wNone with
  | .error e => .error e
  | .ok template =>
    match w.parseSpecs f format with
    | .error e => .error e
    | .ok specs => Schema.masterSchema make template specs

/-- The loop over the specifications (`xml_flat_loader.cc:25-31`). -/
def collectFlat (make : Spec → Except Fail (List Char × List Char)) :
    List Spec → List Char → Except Fail (List Char)
  | [], t => .ok t
  | s :: ss, t =>
    match make s with
    | .error e => .error e
    | .ok (_, schema) => collectFlat make ss (t ++ elementText s.nick schema)

/-- The placeholder of the flat schema (`xml_flat_loader.cc:34`). -/
def flatPlaceholder : List Char := ['@', 'M', 'O', 'D', 'E', 'L', '_', 'S', 'C', 'H', 'E', 'M', 'A', 'S', '@']

/-- `BuildFlatMasterSchema` from the template and the specifications (`xml_flat_loader.cc:14-41`). -/
def flatSchema (make : Spec → Except Fail (List Char × List Char)) (template : List Char)
    (specs : List Spec) : Except Fail (List Char) :=
  match collectFlat make specs [] with
  | .error e => .error e
  | .ok t => .ok (replaceFirst flatPlaceholder t template)

/-- `XMLFlatLoader::master_schema` and `BuildFlatMasterSchema` (`xml_flat_loader.cc:14-45`): the format of
the input is not passed on. -/
def World.flatSchema (w : World) (make : Spec → Except Fail (List Char × List Char))
    (schema f _format : List Char) : Except Fail (List Char) :=
  match w.load schema wNone with
  | .error e => .error e
  | .ok template =>
    match w.parseSpecs f wNone with
    | .error e => .error e
    | .ok specs => Schema.flatSchema make template specs

end Cyclus.Schema
