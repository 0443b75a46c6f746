import Verif.Model.Schema

/-!
# Model of the initial agents of an input file

Models `XMLFileLoader::LoadInitialAgents` and `BuildAgent` (`/repo/src/xml_file_loader.cc:370-448`).

* Making an agent and giving it its state (lines 389 to 409) is an arbitrary function of the specification
  and the element, which may throw; the state is an element of an arbitrary type.
* `AddPrototype` is the part of `/repo/src/context.cc:160-170` that refuses names in use; its rows are
  those of C94.
* `CreateAgent` is `/repo/src/context.h:194-216` for prototypes that can be cloned; the clone has the
  state of the prototype.  Of `Build` and `BuildNotify` only the parent is kept (C25).
* `atoi` is that of glibc: `strtol` converted to `int`.
-/

namespace Cyclus.Initial

open Infile (Node Tree Query Fail Step)
open Load (Spec)

variable {α : Type}

/-- A loop over the matches of a query from index `i` on for `n` turns, as in
`xml_file_loader.cc:383-384`. -/
def forEach {σ : Type} (t : Tree) (q : Query) (body : Tree → σ → Except Fail σ) :
    ℕ → ℕ → σ → Except Fail σ
  | 0, _, s => .ok s
  | n + 1, i, s =>
    match t.subTree q i with
    | .error e => .error e
    | .ok u =>
      match body u s with
      | .error e => .error e
      | .ok s' => forEach t q body n (i + 1) s'

/-- The name of the first element inside of `config` (`xml_file_loader.cc:386`). -/
def aliasOf (t : Tree) : Except Fail (List Char) :=
  match t.subTree (.child ['c', 'o', 'n', 'f', 'i', 'g']) 0 with
  | .error e => .error e
  | .ok c => c.getElementName 0

/-- The body of the loop over definitions (`xml_file_loader.cc:384-410`). -/
def define (init : Spec → Node → Except Fail α) (specs : List (List Char × Spec)) (t : Tree)
    (protos : List (List Char × α)) : Except Fail (List (List Char × α)) :=
  match t.getString (.child ['n', 'a', 'm', 'e']) 0 with
  | .error e => .error e
  | .ok name =>
    match aliasOf t with
    | .error e => .error e
    | .ok nick =>
      match init (Schema.lookup specs nick) t.cur with
      | .error e => .error e
      | .ok a => if protos.any (·.1 = name) then .error (.err .key) else .ok (protos ++ [(name, a)])

/-- The paths of `xml_file_loader.cc:372-374`. -/
def regionPath : Query := ⟨true, [.any, .named ['r', 'e', 'g', 'i', 'o', 'n']]⟩
/-- See `regionPath`. -/
def instPath : Query := ⟨true, [.any, .named ['r', 'e', 'g', 'i', 'o', 'n'], .named ['i', 'n', 's', 't', 'i', 't', 'u', 't', 'i', 'o', 'n']]⟩
/-- See `regionPath`. -/
def facilityPath : Query := ⟨true, [.any, .named ['f', 'a', 'c', 'i', 'l', 'i', 't', 'y']]⟩

/-- The loop over the paths (`xml_file_loader.cc:381-412`): the map is ordered by the keys "Facility",
"Inst" and "Region". -/
def prototypes (init : Spec → Node → Except Fail α) (specs : List (List Char × Spec)) (t : Tree) :
    Except Fail (List (List Char × α)) :=
  match forEach t facilityPath (define init specs) (t.nMatches facilityPath) 0 [] with
  | .error e => .error e
  | .ok p1 =>
    match forEach t instPath (define init specs) (t.nMatches instPath) 0 p1 with
    | .error e => .error e
    | .ok p2 => forEach t regionPath (define init specs) (t.nMatches regionPath) 0 p2

/-- An agent: the name of its prototype, its state and the index of its parent among those built. -/
structure Built (α : Type) where
  proto : List Char
  value : α
  parent : Option ℕ

/-- `BuildAgent` (`xml_file_loader.cc:441-448`). -/
def buildAgent (protos : List (List Char × α)) (proto : List Char) (parent : Option ℕ)
    (built : List (Built α)) : Except Fail (List (Built α)) :=
  match protos.find? (·.1 = proto) with
  | none => .error (.err .key)
  | some p => .ok (built ++ [⟨proto, p.2, parent⟩])

/-- The loop that builds an entry (`xml_file_loader.cc:433-435`). -/
def buildMany (protos : List (List Char × α)) (proto : List Char) (parent : ℕ) :
    ℕ → List (Built α) → Except Fail (List (Built α))
  | 0, built => .ok built
  | n + 1, built =>
    match buildAgent protos proto (some parent) built with
    | .error e => .error e
    | .ok b => buildMany protos proto parent n b

/-- One entry of the list of facilities (`xml_file_loader.cc:429-435`). -/
def buildEntry (protos : List (List Char × α)) (parent : ℕ) (t : Tree) (built : List (Built α)) :
    Except Fail (List (Built α)) :=
  match t.getString (.child ['p', 'r', 'o', 't', 'o', 't', 'y', 'p', 'e']) 0 with
  | .error e => .error e
  | .ok proto =>
    match t.getString (.child ['n', 'u', 'm', 'b', 'e', 'r']) 0 with
    | .error e => .error e
    | .ok s => buildMany protos proto parent (Info.castLong (Info.strtol s)).toNat built

/-- `initialfacilitylist/entry` (`xml_file_loader.cc:427`). -/
def entryPath : Query := ⟨false, [.named ['i', 'n', 'i', 't', 'i', 'a', 'l', 'f', 'a', 'c', 'i', 'l', 'i', 't', 'y', 'l', 'i', 's', 't'], .named ['e', 'n', 't', 'r', 'y']]⟩

/-- One institution (`xml_file_loader.cc:423-436`). -/
def buildInst (protos : List (List Char × α)) (parent : ℕ) (t : Tree) (built : List (Built α)) :
    Except Fail (List (Built α)) :=
  match t.getString (.child ['n', 'a', 'm', 'e']) 0 with
  | .error e => .error e
  | .ok name =>
    match buildAgent protos name (some parent) built with
    | .error e => .error e
    | .ok b => forEach t entryPath (buildEntry protos built.length) (t.nMatches entryPath) 0 b

/-- One region (`xml_file_loader.cc:417-437`). -/
def buildRegion (protos : List (List Char × α)) (t : Tree) (built : List (Built α)) :
    Except Fail (List (Built α)) :=
  match t.getString (.child ['n', 'a', 'm', 'e']) 0 with
  | .error e => .error e
  | .ok name =>
    match buildAgent protos name none built with
    | .error e => .error e
    | .ok b =>
      forEach t (.child ['i', 'n', 's', 't', 'i', 't', 'u', 't', 'i', 'o', 'n']) (buildInst protos built.length) (t.nMatches (.child ['i', 'n', 's', 't', 'i', 't', 'u', 't', 'i', 'o', 'n'])) 0 b

/-- `LoadInitialAgents` (`xml_file_loader.cc:370-439`). -/
def load (init : Spec → Node → Except Fail α) (specs : List (List Char × Spec)) (root : Node) :
    Except Fail (List (List Char × α) × List (Built α)) :=
  match prototypes init specs (Tree.new root) with
  | .error e => .error e
  | .ok protos =>
    match forEach (Tree.new root) regionPath (buildRegion protos)
        ((Tree.new root).nMatches regionPath) 0 [] with
    | .error e => .error e
    | .ok built => .ok (protos, built)

end Cyclus.Initial
