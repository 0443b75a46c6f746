import Verif.Model.CycppText

/-!
# Model of the third pass of the preprocessor

Models `CodeGenerator`, `CodeGeneratorFilter`, `DefaultPragmaFilter` and `generate_code`
(`/repo/cli/cycpp.py:396-420`, 467-482, 518-531, 921-996, 2006-2160): how the text of a file becomes the text of a new
file, with code in the place of the pragmas of the preprocessor.

* The bodies of the methods are an arbitrary function of the kind of method, the class and the indentation, which may
  fail (C42 to C44 and C113 model some of them).
* Of the result of the second pass only this matters: which classes are known, and which variables have a shape
  (`shaped`; an entry that is the name of another variable counts as one without shape).
* Flags for access, aliases and line markers are left out, since they do not change the text.
* Stacks are kept with the innermost entry first; Python appends at the end.
* Characters are those of ASCII.
-/

namespace Cyclus.CycppGen

open CycppScan (isSpace isWord dropPrefix popAt nsNames join)
open CycppText (Str Token kwPragma kwCyclus kwVar afterWord)

/-- The mode of a directive. -/
inductive Mode where
  | def_
  | decl
  | impl
  deriving DecidableEq

/-- The methods for which code is made. -/
inductive Kind where
  | initFromCopy
  | initFromDb
  | infileToDb
  | clone
  | schema
  | annotations
  | initInv
  | snapshotInv
  | snapshot
  deriving DecidableEq

/-- The order of the filters (`cli/cycpp.py:2048-2056`). -/
def kinds : List Kind :=
  [.initFromCopy, .initFromDb, .infileToDb, .clone, .schema, .annotations, .initInv, .snapshotInv, .snapshot]

/-- `pragmaname` (`cli/cycpp.py:1019`, 1035, 1091, 1157, 1647, 1832, 1863, 1911, 1963). -/
def pragmaName : Kind → Str
  | .initFromCopy => ['i', 'n', 'i', 't', 'f', 'r', 'o', 'm', 'c', 'o', 'p', 'y']
  | .initFromDb => ['i', 'n', 'i', 't', 'f', 'r', 'o', 'm', 'd', 'b']
  | .infileToDb => ['i', 'n', 'f', 'i', 'l', 'e', 't', 'o', 'd', 'b']
  | .clone => ['c', 'l', 'o', 'n', 'e']
  | .schema => ['s', 'c', 'h', 'e', 'm', 'a']
  | .annotations => ['a', 'n', 'n', 'o', 't', 'a', 't', 'i', 'o', 'n', 's']
  | .initInv => ['i', 'n', 'i', 't', 'i', 'n', 'v']
  | .snapshotInv => ['s', 'n', 'a', 'p', 's', 'h', 'o', 't', 'i', 'n', 'v']
  | .snapshot => ['s', 'n', 'a', 'p', 's', 'h', 'o', 't']

/-- `methodname` (`cli/cycpp.py:1018`, 1034, 1090, 1156, 1646, 1831, 1862, 1910, 1962). -/
def methodName : Kind → Str
  | .initFromCopy => "InitFrom".toList
  | .initFromDb => "InitFrom".toList
  | .infileToDb => "InfileToDb".toList
  | .clone => "Clone".toList
  | .schema => "schema".toList
  | .annotations => "annotations".toList
  | .initInv => "InitInv".toList
  | .snapshotInv => "SnapshotInv".toList
  | .snapshot => "Snapshot".toList

/-- `methodrtn` (`cli/cycpp.py:1020`, 1036, 1092, 1158, 1648, 1833, 1864, 1912, 1964). -/
def methodRtn : Kind → Str
  | .clone => "cyclus::Agent*".toList
  | .schema => "std::string".toList
  | .annotations => "Json::Value".toList
  | .snapshotInv => "cyclus::Inventories".toList
  | _ => "void".toList

/-- `methodargs` (`cli/cycpp.py:985-987`, 1038, 1094, 1198, 1866, 1966). -/
def methodArgs (cn : Str) : Kind → Str
  | .initFromCopy => cn ++ "* m".toList
  | .initFromDb => "cyclus::QueryableBackend* b".toList
  | .infileToDb => "cyclus::InfileTree* tree, cyclus::DbInit di".toList
  | .initInv => "cyclus::Inventories& inv".toList
  | .snapshot => "cyclus::DbInit di".toList
  | _ => []

/-- The word for a mode. -/
def modeWord : Mode → Str
  | .def_ => ['d', 'e', 'f']
  | .decl => ['d', 'e', 'c', 'l']
  | .impl => ['i', 'm', 'p', 'l']

/-! ## Recognition -/

/-- What follows `\s*#\s*pragma\s+cyclus`. -/
def afterCyclus (s : Str) : Option Str :=
  match s.dropWhile isSpace with
  | '#' :: r =>
    match afterWord kwPragma (r.dropWhile isSpace) with
    | none => none
    | some r => dropPrefix kwCyclus r
  | _ => none

/-- What follows the word for the mode and white space on both sides (`cli/cycpp.py:923`). -/
def afterMode (m : Mode) : Str → Option Str
  | c :: r => if isSpace c then afterWord (modeWord m) (r.dropWhile isSpace) else none
  | [] => none

/-- The mode, and what follows it without white space (`cli/cycpp.py:922-924`, 944-946). -/
def modeOf (r : Str) : Mode × Str :=
  match afterMode .def_ r with
  | some t => (.def_, t)
  | none =>
  match afterMode .decl r with
  | some t => (.decl, t)
  | none =>
  match afterMode .impl r with
  | some t => (.impl, t)
  | none => (.def_, r.dropWhile isSpace)

/-- `[\w:\.]`. -/
def isClassChar (c : Char) : Bool := isWord c || c = ':' || c = '.'

/-- The regular expression of a code generating filter (`cli/cycpp.py:922-924`): the mode, and the class with `::` for
each dot (953) if the second group is set.  The group has one character of white space and what follows it, which can
be nothing. -/
def directive (k : Kind) (s : Str) : Option (Mode × Option Str) :=
  match afterCyclus s with
  | none => none
  | some r =>
    match dropPrefix (pragmaName k) (modeOf r).2 with
    | none => none
    | some [] => some ((modeOf r).1, none)
    | some (c :: t) =>
      if isSpace c then
        some ((modeOf r).1, some ((t.takeWhile isClassChar).flatMap fun c => if c = '.' then [':', ':'] else [c]))
      else some ((modeOf r).1, none)

/-- The first of the code generating filters that matches. -/
def anyDirective (s : Str) : Option (Kind × Mode × Option Str) :=
  kinds.findSome? fun k => (directive k s).map fun x => (k, x)

/-- `\s*#\s*pragma\s+cyclus(\s+def|\s+decl|\s+impl)?\s*$` (`cli/cycpp.py:2010`). -/
def defaultPragma (s : Str) : Option Mode :=
  match afterCyclus s with
  | none => none
  | some r =>
    if r.all isSpace then some .def_
    else if (r.takeWhile isSpace).isEmpty then none
    else
      [Mode.def_, .decl, .impl].find? fun m =>
        match dropPrefix (modeWord m) (r.dropWhile isSpace) with
        | some t => t.all isSpace
        | none => false

/-- `PragmaCyclusErrorFilter.directives` (`cli/cycpp.py:400`). -/
def goodWords : List Str :=
  [['v', 'a', 'r'], ['n', 'o', 't', 'e'], ['e', 'x', 'e', 'c'], ['d', 'e', 'c', 'l'], ['d', 'e', 'f'],
   ['i', 'm', 'p', 'l']]

/-- `PragmaCyclusErrorFilter.isvalid` (`cli/cycpp.py:402-411`). -/
def badPragma (s : Str) : Bool :=
  match afterCyclus s with
  | none => false
  | some r =>
    match CycppScan.words (r.takeWhile (· ≠ '\n')) with
    | [] => false
    | w :: _ => !goodWords.contains w

/-- What the first filter that matches sees in a statement. -/
inductive Seen where
  | directive (k : Kind) (m : Mode) (given : Option Str)
  | all (m : Mode)
  | cls (n : Str)
  | ns (n : Option Str)
  | var
  | decl (x : Str)
  | bad
  | other
  deriving DecidableEq

/-- The first filter of the third pass that matches (`cli/cycpp.py:2048-2066`). -/
def see (s : Str) : Seen :=
  if s = [] then .other
  else
    match anyDirective s with
    | some (k, m, g) => .directive k m g
    | none =>
    match CycppScan.classHead s with
    | some (n, _) => .cls n
    | none =>
    if CycppText.isAccess s then .other
    else if (CycppText.nsAliasNames s).isSome then .other
    else
      match (CycppScan.nsStmt s : Option (CycppScan.Stmt Unit)) with
      | some (.ns n) => .ns n
      | some _ => .other
      | none =>
      if (CycppText.afterPragma kwVar s).isSome then .var
      else
        match CycppText.declNames s with
        | some (_, x) => .decl x
        | none =>
        if CycppText.isMarker s then .other
        else
          match defaultPragma s with
          | some m => .all m
          | none => if badPragma s then .bad else .other

/-! ## Generation -/

/-- What the third pass gets from outside. -/
structure Cfg where
  /-- `impl` (the body of a method) for a class, with an indentation; `none` is an exception -/
  body : Kind → Str → Str → Option Str
  /-- the classes in `context` or `superclasses` -/
  known : Str → Bool
  /-- the variable has a shape -/
  shaped : Str → Str → Bool

/-- The generator (`cli/cycpp.py:2035-2046`). -/
structure State where
  depth : ℤ
  classes : List (ℤ × Str)
  namespaces : List (ℤ × Option Str)
  ann : Bool
  out : Str

def State.empty : State := ⟨0, [], [], false, []⟩

/-- `str.split("::")`. -/
def colonSplit : Str → List Str
  | [] => [[]]
  | ':' :: ':' :: s => [] :: colonSplit s
  | c :: s =>
    match colonSplit s with
    | [] => [[c]]
    | p :: ps => (c :: p) :: ps

/-- The loop of lines 2080-2084 of `cli/cycpp.py`. -/
def samePrefix : List (Str × Str) → List Str
  | [] => []
  | (s, c) :: l => if s = c then s :: samePrefix l else []

/-- `scoped_classname` (`cli/cycpp.py:2074-2085`). -/
def scopedName (nss classes : List Str) (cn : Str) : Str :=
  let path := colonSplit cn
  let same := samePrefix ((nss ++ classes.dropLast).zip path.dropLast)
  join (path.dropLast.drop same.length ++ [path.getLast?.getD []])

/-- `" " * n`. -/
def spaces (n : ℤ) : Str := List.replicate n.toNat ' '

/-- `CodeGeneratorFilter.transform` (`cli/cycpp.py:940-983`). -/
def code (cfg : Cfg) (st : State) (k : Kind) (m : Mode) (given : Option Str) : Option Str := do
  let nss ← nsNames st.namespaces
  let classes := st.classes.reverse.map (·.2)
  let loc := join (nss ++ classes)
  let cn := given.getD loc
  if cfg.known cn then
    let inClass := 0 < st.classes.length && cn = loc
    let ns := if inClass then [] else scopedName nss classes cn ++ [':', ':']
    let virt := if inClass then "virtual ".toList else []
    let stop := if m = .decl then [';'] else [' ', '{']
    let ind := 2 * (st.depth - st.namespaces.length)
    let definition := '\n' :: (spaces ind ++ virt ++ methodRtn k ++ [' '] ++ ns ++ methodName k ++ ['('] ++
      methodArgs cn k ++ [')'] ++ stop ++ ['\n'])
    let body ← if m = .decl then some [] else cfg.body k cn (spaces (ind + 2))
    let body := if body.getLast? ≠ some '\n' && 0 ≠ body.length then body ++ ['\n'] else body
    let close := if m = .decl then [] else spaces ind ++ ['}', ';', '\n']
    if m = .impl then some body else some (definition ++ body ++ close)
  else none

/-- `DefaultPragmaFilter.transform` (`cli/cycpp.py:2013-2018`). -/
def codes (cfg : Cfg) (st : State) (m : Mode) : List Kind → Option Str
  | [] => some []
  | k :: ks => do
    let a ← code cfg st k m none
    let b ← codes cfg st m ks
    some (a ++ b)

/-- `transform_pass3` (`cli/cycpp.py:518-531`): the new text, if there is one. -/
def onDecl (cfg : Cfg) (st : State) (x : Str) (t : Token) : Option (Option Str) :=
  if st.ann then do
    let nss ← nsNames st.namespaces
    if cfg.shaped (join (nss ++ st.classes.reverse.map (·.2))) x then
      some (some (t.text ++ t.sep ++ "\n  std::vector<int> cycpp_shape_".toList ++ x ++ [';', '\n']))
    else some none
  else some none

/-- The first part of `generate` (`cli/cycpp.py:2123-2132`). -/
def transform (cfg : Cfg) (st : State) (t : Token) : Option State :=
  let keep (st : State) : State := { st with out := st.out ++ (t.text ++ t.sep) }
  match see t.text with
  | .directive k m g => (code cfg st k m g).map fun o => { st with out := st.out ++ o }
  | .all m => (codes cfg st m kinds).map fun o => { st with out := st.out ++ o }
  | .cls n => some (keep { st with classes := (st.depth, n) :: st.classes })
  | .ns n => some (keep { st with namespaces := (st.depth, n) :: st.namespaces })
  | .var => some (keep { st with ann := true })
  | .decl x =>
    match onDecl cfg st x t with
    | none => none
    | some none => some (keep { st with ann := false })
    | some (some o) => some { st with ann := false, out := st.out ++ o }
  | .bad => none
  | .other => some (keep st)

/-- `a in b`. -/
def contains (a : Str) : Str → Bool
  | [] => a = []
  | c :: s => (dropPrefix a (c :: s)).isSome || contains a s

/-- The new depth (`cli/cycpp.py:2134-2140`). -/
def depthAfter (t : Token) (d : ℤ) : ℤ :=
  if t.sep = ['{'] then d + 1
  else if t.sep = ['}'] then d - 1
  else if t.sep = ['\n'] && contains kwPragma t.text then d + t.text.count '{' - t.text.count '}'
  else d

/-- `generate` (`cli/cycpp.py:2115-2145`). -/
def generate (cfg : Cfg) (st : State) (t : Token) : Option State :=
  (transform cfg st t).map fun st =>
    let d := depthAfter t st.depth
    { st with depth := d, classes := popAt d st.classes, namespaces := popAt d st.namespaces }

/-- The loop of `generate_code` (`cli/cycpp.py:2152-2158`). -/
def generateAll (cfg : Cfg) : State → List Token → Option State
  | st, [] => some st
  | st, t :: ts =>
    match generate cfg st t with
    | none => none
    | some st => generateAll cfg st ts

/-- `generate_code` (`cli/cycpp.py:2147-2160`). -/
def generateCode (cfg : Cfg) (s : Str) : Option Str :=
  (generateAll cfg State.empty (CycppText.split s)).map (·.out)

end Cyclus.CycppGen
