import Verif.Model.Cycpp

/-!
# Model of the second pass of the preprocessor

Models `StateAccumulator` and its filters (`/repo/cli/cycpp.py:263-394`, 481-516, 646-735, 876-901): how the
statements of a file become a table of classes with their parents and their state variables.

* A statement is given as what the first matching filter sees in it (`Stmt`), together with the separator
  that ends it.  The regular expressions for the heads of classes and namespaces are modelled apart, on text.
* Stacks are kept with the innermost entry first; Python appends at the end.
* The flags for access are stored and never used, except that a variable outside of all classes fails for
  want of one; this is kept as a test for an empty stack of classes.
* The annotations are an arbitrary value beside the alias, of which the first string matters
  (lines 505-507).  Shapes (C41), tooltips and labels are left out, as are `note`, `exec` and line markers.
* `canonize_type` is an arbitrary function of the namespaces used and the aliases.
* Sets are lists; where Python goes through a set, any order of the list stands for the order of the set.
-/

namespace Cyclus.CycppScan

abbrev Str := List Char

/-- Exceptions: `TypeError`, `KeyError`, `RecursionError`. -/
inductive Err where
  | type
  | key
  | recursion
  deriving DecidableEq

/-- The separators (`cli/cycpp.py:89-91`). -/
inductive Sep where
  | opened
  | closed
  | other
  deriving DecidableEq

/-- The dictionary of a `var` pragma: the first string of its alias, if it has one, and the rest. -/
structure Pragma (α : Type) where
  label : Option Str
  rest : α

/-- What the first filter that matches sees in a statement. -/
inductive Stmt (α : Type) where
  /-- `class name : supers` (349-386) -/
  | cls (name : Str) (supers : List Str)
  /-- `using namespace name` (320-327) -/
  | usingNs (name : Str)
  /-- `namespace alias = name` (339-347) -/
  | nsAlias (al name : Str)
  /-- `namespace name` (300-310) -/
  | ns (name : Option Str)
  /-- `typedef typ names` (275-288) -/
  | typedef (typ : Str) (names : List Str)
  /-- `using name` (290-298) -/
  | usingName (name : Str)
  /-- `#pragma cyclus var dict` (469-484) -/
  | var (a : Pragma α)
  /-- a type and a name (486-516) -/
  | decl (vtype vname : Str)
  /-- a statement for `AccessFilter`, or for no filter that is modelled -/
  | other

/-- An entry of `context[classname]['vars']`: annotations, or the name an alias stands for. -/
inductive Entry (τ α : Type) where
  | var (ty : τ) (index : ℕ) (a : Pragma α)
  | pointer (x : Str)

/-- An entry of `context`, as far as it is modelled. -/
structure Class (τ α : Type) where
  parents : List Str
  all : List Str
  entity : Str
  vars : List (Str × Entry τ α)

/-- The accumulator (`cli/cycpp.py:666-683`). -/
structure State (τ α : Type) where
  depth : ℤ
  classes : List (ℤ × Str)
  namespaces : List (ℤ × Option Str)
  usings : List (ℤ × Str)
  aliases : List (ℤ × Str × Str)
  supers : List (Str × List Str)
  context : List (Str × Class τ α)
  ann : Option (Pragma α)

/-- `"::".join`. -/
def join : List Str → Str
  | [] => []
  | [a] => a
  | a :: b :: r => a ++ ':' :: ':' :: join (b :: r)

/-- `a + "::" + b`. -/
def within (a b : Str) : Str := a ++ ':' :: ':' :: b

/-- Assignment to a key of a dictionary: a new key comes last. -/
def put {β : Type} (k : Str) (v : β) : List (Str × β) → List (Str × β)
  | [] => [(k, v)]
  | p :: l => if p.1 = k then (k, v) :: l else p :: put k v l

/-- Adds an element to a set. -/
def insertNew {β : Type} [DecidableEq β] (x : β) (l : List β) : List β := if x ∈ l then l else l ++ [x]

/-- The names of the namespaces, outermost first, or nothing if one has no name. -/
def nsNames : List (ℤ × Option Str) → Option (List Str)
  | [] => some []
  | (_, none) :: _ => none
  | (_, some n) :: l => (nsNames l).map (· ++ [n])

variable {τ α : Type}

/-- The scope (`cli/cycpp.py:695-696`, 884).  `join` fails with a `TypeError` for `None`. -/
def scopeOf (s : State τ α) : Except Err (List Str) :=
  match nsNames s.namespaces with
  | none => .error .type
  | some l => .ok (l ++ s.classes.reverse.map (·.2))

/-- `classname` (`cli/cycpp.py:693-697`). -/
def className (s : State τ α) : Except Err Str := (scopeOf s).map join

/-- The first that is found; nothing if a call does not return. -/
def firstHit {β : Type} (f : β → Option (Option Str)) : List β → Option (Option Str)
  | [] => some none
  | x :: l =>
    match f x with
    | none => none
    | some (some r) => some (some r)
    | some none => firstHit f l

/-- The names to try for a class in a scope, innermost first (`cli/cycpp.py:886-887`). -/
def tries (scope : List Str) (cls : Str) : List Str :=
  ((List.range scope.length).reverse.map fun i => within (join (scope.take (i + 1))) cls)

/-- `str.startswith`, with what follows. -/
def dropPrefix : Str → Str → Option Str
  | [], s => some s
  | _ :: _, [] => none
  | c :: p, d :: s => if c = d then dropPrefix p s else none

/-- `canonize_class` (`cli/cycpp.py:876-901`), in at most so many nested calls; nothing if they do not
suffice.  The key of the `sorted` in line 897 is the same for all aliases, so that they are in the order of the set. -/
def canonizeClass (known : Str → Bool) (scope : List Str) (usings : List Str) (aliases : List (Str × Str)) :
    ℕ → Bool → Str → Option (Option Str)
  | 0, _, _ => none
  | n + 1, us, cls =>
    if known cls then some (some cls)
    else
      let c := Cycpp.strip (· = ':') cls
      match (tries scope c).find? known with
      | some r => some (some r)
      | none =>
        match (if us then firstHit (fun ns => canonizeClass known scope usings aliases n false (within ns c)) usings
            else some none) with
        | none => none
        | some (some r) => some (some r)
        | some none =>
          firstHit (fun na =>
            match dropPrefix na.2 c with
            | none => some none
            | some rest =>
              match canonizeClass known scope usings aliases n true (na.1 ++ rest) with
              | none => none
              | some none => some none
              | some (some r) => if known r then some (some r) else some none) aliases

/-- The table has the class. -/
def knows (supers : List (Str × List Str)) (c : Str) : Bool := supers.any (·.1 = c)

/-- The loop over the base classes (`cli/cycpp.py:380-386`): what cannot be found is left out. -/
def addSupers (find : Str → Option (Option Str)) : List Str → List Str → Except Err (List Str)
  | sc, [] => .ok sc
  | sc, b :: bs =>
    match find b with
    | none => .error .recursion
    | some none => addSupers find sc bs
    | some (some r) => addSupers find (insertNew r sc) bs

/-- `ClassAndSuperclassFilter.transform` (`cli/cycpp.py:354-358`, 371-386). -/
def onClass (fuel : ℕ) (name : Str) (supers : List Str) (s : State τ α) : Except Err (State τ α) := do
  let s := { s with classes := (s.depth, name) :: s.classes }
  let scope ← scopeOf s
  let cn := join scope
  let old := (s.supers.lookup cn).getD []
  let table := put cn old s.supers
  let sc ← addSupers (canonizeClass (knows table) scope (s.usings.map (·.2)) (s.aliases.map (·.2)) fuel true)
    old supers
  .ok { s with supers := put cn sc table }

/-- The loop of `parent_classes` (`cli/cycpp.py:2300-2302`). -/
def gather (f : Str → Option (List Str)) : List Str → Option (List Str)
  | [] => some []
  | v :: vs =>
    match f v with
    | none => none
    | some l =>
      match gather f vs with
      | none => none
      | some m => some (v :: (l ++ m))

/-- `parent_classes` (`cli/cycpp.py:2297-2303`), in at most so many nested calls; nothing if they do not
suffice.  A class that is not in the table is not added to it. -/
def ancestors (supers : List (Str × List Str)) : ℕ → Str → Option (List Str)
  | 0, _ => none
  | n + 1, c => gather (ancestors supers n) ((supers.lookup c).getD [])

/-- `ENTITIES` (`cli/cycpp.py:121-122`). -/
def entities : List (Str × Str) :=
  [(['c', 'y', 'c', 'l', 'u', 's', ':', ':', 'R', 'e', 'g', 'i', 'o', 'n'], ['r', 'e', 'g', 'i', 'o', 'n']),
   (['c', 'y', 'c', 'l', 'u', 's', ':', ':', 'I', 'n', 's', 't', 'i', 't', 'u', 't', 'i', 'o', 'n'],
    ['i', 'n', 's', 't', 'i', 't', 'u', 't', 'i', 'o', 'n']),
   (['c', 'y', 'c', 'l', 'u', 's', ':', ':', 'F', 'a', 'c', 'i', 'l', 'i', 't', 'y'],
    ['f', 'a', 'c', 'i', 'l', 'i', 't', 'y']),
   (['c', 'y', 'c', 'l', 'u', 's', ':', ':', 'A', 'g', 'e', 'n', 't'],
    ['a', 'r', 'c', 'h', 'e', 't', 'y', 'p', 'e'])]

/-- The loop of lines 706-710 of `cli/cycpp.py`. -/
def entityOf (all : List Str) : Str :=
  match entities.find? (fun p => all.contains p.1) with
  | some p => p.2
  | none => ['u', 'n', 'k', 'n', 'o', 'w', 'n']

/-- `ensure_class_context` (`cli/cycpp.py:699-715`). -/
def ensure (fuel : ℕ) (cn : Str) (supers : List (Str × List Str)) (context : List (Str × Class τ α)) :
    Except Err (Class τ α) :=
  match context.lookup cn with
  | some c => .ok c
  | none =>
    match supers.lookup cn with
    | none => .error .key
    | some ps =>
      match ancestors supers fuel cn with
      | none => .error .recursion
      | some all => .ok ⟨ps, all, entityOf all, []⟩

/-- The entries for a variable (`cli/cycpp.py:501-508`). -/
def addVar (vname : Str) (ty : τ) (a : Pragma α) (vars : List (Str × Entry τ α)) : List (Str × Entry τ α) :=
  let vars' := put vname (.var ty vars.length a) vars
  match a.label with
  | none => vars'
  | some al => put al (.pointer vname) vars'

/-- `VarDeclarationFilter.transform_pass2` (`cli/cycpp.py:490-516`). -/
def onDecl (canon : List (ℤ × Str) → List (ℤ × Str × Str) → Str → Except Err τ) (fuel : ℕ) (vtype vname : Str)
    (s : State τ α) : Except Err (State τ α) :=
  match s.ann with
  | none => .ok s
  | some a => do
    let cn ← className s
    if s.classes.isEmpty then .error .key
    else
      let c ← ensure fuel cn s.supers s.context
      let ty ← canon s.usings s.aliases vtype
      .ok { s with context := put cn { c with vars := addVar vname ty a c.vars } s.context, ann := none }

/-- What follows the last `::`, if there is one (`cli/cycpp.py:297-298`). -/
def lastPart : Str → Option Str
  | [] => none
  | ':' :: ':' :: s =>
    match lastPart (':' :: s) with
    | some r => some r
    | none => some s
  | _ :: s => lastPart s

/-- The transformation by the first filter that matches. -/
def transform (canon : List (ℤ × Str) → List (ℤ × Str × Str) → Str → Except Err τ) (fuel : ℕ) (st : Stmt α)
    (s : State τ α) : Except Err (State τ α) :=
  match st with
  | .cls name supers => onClass fuel name supers s
  | .usingNs name => .ok { s with usings := insertNew (s.depth, name) s.usings }
  | .nsAlias al name => .ok { s with aliases := insertNew (s.depth, name, al) s.aliases }
  | .ns name => .ok { s with namespaces := (s.depth, name) :: s.namespaces }
  | .typedef typ names =>
    .ok { s with aliases := names.foldl (fun l a => insertNew (s.depth, typ, a) l) s.aliases }
  | .usingName name =>
    match lastPart name with
    | some a => .ok { s with aliases := insertNew (s.depth, name, a) s.aliases }
    | none => .ok s
  | .var a => .ok { s with ann := some a }
  | .decl vtype vname => onDecl canon fuel vtype vname s
  | .other => .ok s

/-- The depth after a separator (`cli/cycpp.py:728-731`). -/
def newDepth (sep : Sep) (d : ℤ) : ℤ :=
  match sep with
  | .opened => d + 1
  | .closed => d - 1
  | .other => d

/-- `ClassFilter.revert` (`cli/cycpp.py:360-366`) and `NamespaceFilter.revert` (312-318) on their stacks. -/
def popAt {β : Type} (depth : ℤ) : List (ℤ × β) → List (ℤ × β)
  | [] => []
  | p :: l => if depth = p.1 then l else p :: l

/-- `revert` of all filters (`cli/cycpp.py:733-734`, 266-273, 312-318, 329-337, 360-366). -/
def revert (sep : Sep) (s : State τ α) : State τ α :=
  { s with
    classes := popAt s.depth s.classes
    namespaces := popAt s.depth s.namespaces
    usings := if sep = .closed then s.usings.filter (fun x => x.1 ≤ s.depth) else s.usings
    aliases := if sep = .closed then s.aliases.filter (fun x => x.1 ≤ s.depth) else s.aliases }

/-- `accumulate` (`cli/cycpp.py:717-734`). -/
def accumulate (canon : List (ℤ × Str) → List (ℤ × Str × Str) → Str → Except Err τ) (fuel : ℕ)
    (x : Stmt α × Sep) (s : State τ α) : Except Err (State τ α) :=
  match transform canon fuel x.1 s with
  | .error e => .error e
  | .ok s' => .ok (revert x.2 { s' with depth := newDepth x.2 s'.depth })

/-- The loop of `accumulate_state` (`cli/cycpp.py:908-915`). -/
def run (canon : List (ℤ × Str) → List (ℤ × Str × Str) → Str → Except Err τ) (fuel : ℕ) :
    List (Stmt α × Sep) → State τ α → Except Err (State τ α)
  | [], s => .ok s
  | x :: xs, s =>
    match accumulate canon fuel x s with
    | .error e => .error e
    | .ok s' => run canon fuel xs s'

/-- The accumulator before the first statement (`cli/cycpp.py:666-680`). -/
def State.empty : State τ α := ⟨0, [], [], [], [], [], [], none⟩

/-! ## Heads of classes and namespaces -/

/-- `\w`, for ASCII. -/
def isWord (c : Char) : Bool := c.isAlphanum || c = '_'

/-- `\s`, for ASCII. -/
def isSpace (c : Char) : Bool :=
  c = ' ' || c = '\t' || c = '\n' || c = '\r' || c = Char.ofNat 11 || c = Char.ofNat 12

/-- `[\n\s\w,:]`. -/
def isBaseChar (c : Char) : Bool := isSpace c || isWord c || c = ',' || c = ':'

/-- The optional second group, `(\s*:[\n\s\w,:]+)?`. -/
def baseGroup (s : Str) : Option Str :=
  match s.dropWhile isSpace with
  | ':' :: r =>
    match r.takeWhile isBaseChar with
    | [] => none
    | g => some (s.takeWhile isSpace ++ ':' :: g)
  | _ => none

/-- `\s+(\w+)(\s*:[\n\s\w,:]+)?` -/
def headName (s : Str) : Option (Str × Option Str) :=
  match s with
  | c :: r =>
    if isSpace c then
      let r := r.dropWhile isSpace
      match r.takeWhile isWord with
      | [] => none
      | n => some (n, baseGroup (r.dropWhile isWord))
    else none
  | [] => none

/-- `\s*(?:class|struct)` and the rest. -/
def headAt (s : Str) : Option (Str × Option Str) :=
  let s := s.dropWhile isSpace
  match dropPrefix ['c', 'l', 'a', 's', 's'] s with
  | some r => headName r
  | none =>
    match dropPrefix ['s', 't', 'r', 'u', 'c', 't'] s with
    | some r => headName r
    | none => none

/-- What follows `\s*template\s*<[\s\w,]*>`. -/
def afterTemplate (s : Str) : Option Str :=
  match dropPrefix ['t', 'e', 'm', 'p', 'l', 'a', 't', 'e'] (s.dropWhile isSpace) with
  | none => none
  | some r =>
    match r.dropWhile isSpace with
    | '<' :: r =>
      match r.dropWhile (fun c => isSpace c || isWord c || c = ',') with
      | '>' :: r => some r
      | _ => none
    | _ => none

/-- The regular expression of `ClassFilter` (`cli/cycpp.py:351-352`): its two groups. -/
def classHead (s : Str) : Option (Str × Option Str) :=
  match afterTemplate s with
  | some r =>
    match headAt r with
    | some h => some h
    | none => headAt s
  | none => headAt s

/-- `str.split()`: the words between white space. -/
def words (s : Str) : List Str := (s.splitOnP isSpace).filter (!·.isEmpty)

/-- The names of the base classes (`cli/cycpp.py:379`): the last word of each part.  `none` is an
`IndexError`. -/
def baseNames (g : Str) : Option (List Str) :=
  (Cycpp.pySplit ',' g).mapM fun p => (words p).getLast?

/-- The statement that `ClassFilter` sees; `none` if there is none, or an error. -/
def classStmt (s : Str) : Option (Stmt α) :=
  match classHead s with
  | none => none
  | some (n, none) => some (.cls n [])
  | some (n, some g) =>
    match baseNames g with
    | none => none
    | some bs => some (.cls n bs)

/-- The regular expression of `NamespaceFilter` and its name (`cli/cycpp.py:303-309`), for statements that no
earlier filter takes. -/
def nsStmt (s : Str) : Option (Stmt α) :=
  match dropPrefix ['n', 'a', 'm', 'e', 's', 'p', 'a', 'c', 'e'] (s.dropWhile isSpace) with
  | none => none
  | some [] => some (.ns none)
  | some (c :: r) =>
    if isSpace c then
      match (r.dropWhile isSpace).takeWhile isWord with
      | [] => some (.ns (some "<anonymous>".toList))
      | n => some (.ns (some n))
    else some (.ns none)

end Cyclus.CycppScan
