import Verif.Model.Query
import Verif.Model.SimInit
import Verif.Model.Precond

/-!
# Model of loading commodity priorities and agent specifications

Models `LoadSolver` and `ProcessCommodities` of `/repo/src/xml_file_loader.cc`, `LoadPreconditioner` and
`LoadGreedySolver` of `/repo/src/sim_init.cc`, and `AgentSpec` of `/repo/src/dynamic_module.cc`.

* The input file is the list of its commodities, or the texts of the elements that are read.
* Priorities are rational numbers instead of doubles.
* Strings of agent specifications are lists of characters.
-/

namespace Cyclus.Load

open Exchange (Weights processWeights)
open Rec (Vals Datum Queryable QueryResult Cmp)

/-! ## Priorities -/

/-- The loop over the commodities of the input file (`xml_file_loader.cc:216-222`); a commodity without
priority has -1.  `std::map` keeps them sorted by name, a later one replaces an earlier one. -/
def readCommods (l : List (String × Option ℚ)) : Weights :=
  Init.mapOf Prod.fst (l.map fun c => (c.1, c.2.getD (-1)))

/-- Models `XMLFileLoader::ProcessCommodities` (`xml_file_loader.cc:286-306`).  With no commodity at all
`max_element` returns the end, which is dereferenced (`none`). -/
def processCommodities (m : Weights) : Option Weights :=
  match m with
  | [] => none
  | e :: es =>
    let mx := es.foldl (fun b y => if b < y.2 then y.2 else b) e.2
    let mx := if mx < 1 then 0 else mx
    some (m.map fun y => if y.2 < 1 then (y.1, mx + 1) else y)

/-- Values in the tables. -/
inductive Cell
  | uuid (n : ℕ)
  | str (s : String)
  | dbl (x : ℚ)
  | bool (b : Bool)
  deriving DecidableEq, Repr

/-- Types and comparison; only the comparison of ids is used. -/
def cells : Vals Cell where
  ty := fun c => match c with
    | .uuid _ => 0
    | .str _ => 1
    | .dbl _ => 2
    | .bool _ => 3
  cmp := fun o a b => match o with
    | .eq => decide (a = b)
    | .ne => decide (a ≠ b)
    | _ => false

/-- A datum of a simulation; `NewDatum` puts the id of the simulation first (`recorder.cc:67-83`). -/
def datum (sid : ℕ) (title : String) (vals : List (String × Cell)) : Datum Cell :=
  let all := ("SimId", Cell.uuid sid) :: vals
  ⟨title, all.map fun v => (some v.1, v.2), all.map fun _ => [], all.map Prod.fst⟩

/-- The rows of `CommodPriority` that the loader records (`xml_file_loader.cc:225-231`). -/
def commodData (sid : ℕ) (m : Weights) : List (Datum Cell) :=
  m.map fun e => datum sid "CommodPriority" [("Commodity", .str e.1), ("SolutionPriority", .dbl e.2)]

/-- Models `XMLFileLoader::LoadSolver` (`xml_file_loader.cc:207-284`) for the greedy solver with the given
preconditioner: what it records. -/
def loadSolver (sid : ℕ) (l : List (String × Option ℚ)) (precon : String) (exclusive : Bool) :
    Option (List (Datum Cell)) :=
  (processCommodities (readCommods l)).map fun m =>
    commodData sid m ++
    [datum sid "SolverInfo" [("Solver", .str "greedy"), ("ExclusiveOrders", .bool exclusive)],
      datum sid "GreedySolverInfo" [("Preconditioner", .str precon)]]

/-- `GetVal<std::string>` and `GetVal<double>`. -/
def getStr (q : QueryResult Cell) (field : String) (row : ℕ) : Option (Except Err String) :=
  (q.getVal field row).map fun r => match r with
    | .error e => .error e
    | .ok (.str s) => .ok s
    | .ok _ => .error .cast

def getDbl (q : QueryResult Cell) (field : String) (row : ℕ) : Option (Except Err ℚ) :=
  (q.getVal field row).map fun r => match r with
    | .error e => .error e
    | .ok (.dbl x) => .ok x
    | .ok _ => .error .cast

/-- The loop of `LoadPreconditioner` (`sim_init.cc:248-252`) from row `i` on, for `n` rows. -/
def readOrder (q : QueryResult Cell) : ℕ → ℕ → Weights → Option (Except Err Weights)
  | 0, _, w => some (.ok w)
  | n + 1, i, w => match getStr q "Commodity" i with
    | none => none
    | some (.error e) => some (.error e)
    | some (.ok c) => match getDbl q "SolutionOrder" i with
      | none => none
      | some (.error e) => some (.error e)
      | some (.ok x) => readOrder q n (i + 1) (Init.mapInsert Prod.fst (c, x) w)

/-- Models `SimInit::LoadPreconditioner` (`sim_init.cc:241-266`): the weights of the preconditioner, or
`NULL` (the inner `none`); all exceptions of the queries are caught. -/
def loadPreconditioner (b : Queryable Cell) (name : String) : Option (Except Err (Option Weights)) :=
  match b.query "CommodPriority" none with
  | .error _ => some (.ok none)
  | .ok q => match readOrder q q.rows.length 0 [] with
    | none => none
    | some (.error _) => some (.ok none)
    | some (.ok w) =>
      if name = "greedy" then (processWeights true w).map fun w => .ok (some w)
      else some (.error .value)

/-- Models `SimInit::LoadGreedySolver` (`sim_init.cc:268-292`): the weights of the preconditioner of the
solver; that of a solver without given preconditioner has none (`greedy_solver.cc:23-26`). -/
def loadGreedySolver (b : Queryable Cell) (tables : List String) : Option (Except Err Weights) :=
  let name : Option (Except Err String) :=
    if "GreedySolverInfo" ∈ tables then
      match b.query "GreedySolverInfo" none with
      | .error e => some (.error e)
      | .ok q => if q.rows.length > 0 then getStr q "Preconditioner" 0 else some (.ok "greedy")
    else some (.ok "greedy")
  match name with
  | none => none
  | some (.error e) => some (.error e)
  | some (.ok name) => (loadPreconditioner b name).map fun r => r.map fun w => w.getD []

/-- The backend of an initialisation (`sim_init.cc:52-54`). -/
def simBackend (q : Rec.Sqlite Cell) (sid : ℕ) : Queryable Cell :=
  Rec.condInjector (q.queryable cells) [⟨"SimId", .eq, .uuid sid⟩]

/-! ## Agent specifications -/

/-- Members of `AgentSpec` (`dynamic_module.h:38-42`); `nick` is `alias_`. -/
structure Spec where
  path : List Char
  lib : List Char
  agent : List Char
  nick : List Char
  deriving DecidableEq, Repr

/-- `boost::split` by one character: the pieces between its occurrences, empty ones included. -/
def split (c : Char) : List Char → List (List Char)
  | [] => [[]]
  | x :: xs => if x = c then [] :: split c xs
    else match split c xs with
      | [] => [[x]]
      | p :: ps => (x :: p) :: ps

/-- Models `AgentSpec(std::string)` (`dynamic_module.cc:41-51`). -/
def Spec.parse (s : List Char) : Except Err Spec :=
  match split ':' s with
  | [p, l, a] => .ok ⟨p, l, a, a⟩
  | _ => .error .value

/-- Models `AgentSpec(path, lib, agent, alias)` (`dynamic_module.cc:19-32`): `alias = agent_` assigns to
the parameter. -/
def Spec.make (path lib agent nick : List Char) : Spec :=
  ⟨path, if lib = [] then agent else lib, agent, nick⟩

/-- Models `AgentSpec(InfileTree*)` (`dynamic_module.cc:34-39`); the arguments are the texts of the
elements, if there. -/
def Spec.read (name lib path nick : Option (List Char)) : Except Err Spec :=
  match name with
  | none => .error .key
  | some agent => .ok ⟨path.getD [], lib.getD agent, agent, nick.getD agent⟩

/-- Models `AgentSpec::str` (`dynamic_module.cc:66-68`). -/
def Spec.str (s : Spec) : List Char := s.path ++ [':'] ++ s.lib ++ [':'] ++ s.agent

/-- `boost::replace_all` for single characters. -/
def replaceAll (a b : Char) (s : List Char) : List Char := s.map fun c => if c = a then b else c

/-- Models `AgentSpec::Sanitize` (`dynamic_module.cc:53-60`). -/
def Spec.sanitize (s : Spec) : List Char :=
  replaceAll '.' '_' (replaceAll ':' '_' (replaceAll '-' '_' (replaceAll '/' '_' s.str)))

end Cyclus.Load
