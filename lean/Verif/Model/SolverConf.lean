import Verif.Model.Infile

/-!
# Model of the configuration of the solver

Models the second part of `XMLFileLoader::LoadSolver` (`/repo/src/xml_file_loader.cc:233-284`), which
records the solver that the input file asks for, and `SimInit::LoadPreconditioner`,
`LoadGreedySolver`, `LoadCoinSolver` and `LoadSolverInfo` (`/repo/src/sim_init.cc:241-348`), which make
the solver of a simulation from the database.

* A database holds the rows of all simulations that were written to it, each with the number of its
  simulation; a table exists if it has a row, as backends create tables with their first datum.
* The rows of `CommodPriority` are given (C34 proves what they are).  The column `SolutionOrder` that
  `LoadPreconditioner` reads is not a column of that table, so that reading a row of it throws, which
  is caught (`sim_init.cc:248-256`); C34 has this at the level of tables.
* The warning about `allow_exclusive_orders` (`xml_file_loader.cc:249-255`) is dropped.
* Undefined behaviour (the first row of no rows, variables that were not initialised) is `none`.
-/

namespace Cyclus.Conf

open Infile

/-- Row of `SolverInfo` (`xml_file_loader.cc:257-260`). -/
structure Info where
  solver : List Char
  exclusive : Bool
  deriving DecidableEq, Repr

/-- Row of `CoinSolverInfo` (`xml_file_loader.cc:276-280`). -/
structure Coin where
  timeout : ℚ
  verbose : Bool
  mps : Bool
  deriving DecidableEq, Repr

/-- The tables `SolverInfo`, `GreedySolverInfo` (`xml_file_loader.cc:266-268`), `CoinSolverInfo` and
`CommodPriority` (`xml_file_loader.cc:227-230`) with the rows of all simulations. -/
structure Db where
  info : List (ℕ × Info)
  greedy : List (ℕ × List Char)
  coin : List (ℕ × Coin)
  commod : List (ℕ × List Char × ℚ)
  deriving DecidableEq, Repr

/-- `"greedy"` (`xml_file_loader.cc:235`). -/
def greedyName : List Char := ['g', 'r', 'e', 'e', 'd', 'y']

/-- `"coin-or"` (`xml_file_loader.cc:236`). -/
def coinName : List Char := ['c', 'o', 'i', 'n', '-', 'o', 'r']

/-- `/*/control/solver` (`xml_file_loader.cc:239`). -/
def solverPath : List Step :=
  [.any, .named ['c', 'o', 'n', 't', 'r', 'o', 'l'], .named ['s', 'o', 'l', 'v', 'e', 'r']]

/-- `"allow_exclusive_orders"` (`xml_file_loader.cc:244`). -/
def exclName : List Char :=
  ['a', 'l', 'l', 'o', 'w', '_', 'e', 'x', 'c', 'l', 'u', 's', 'i', 'v', 'e', '_', 'o', 'r', 'd', 'e', 'r', 's']

/-- `"preconditioner"` (`xml_file_loader.cc:264`). -/
def preconName : List Char :=
  ['p', 'r', 'e', 'c', 'o', 'n', 'd', 'i', 't', 'i', 'o', 'n', 'e', 'r']

/-- The name of the solver and whether exclusive orders are allowed (`xml_file_loader.cc:237-247`);
`kDefaultExclusive` is true (`exchange_solver.h:18`). -/
def readInfo (t : Tree) : Except Fail Info :=
  if t.nMatches ⟨true, solverPath⟩ = 1 then
    match t.subTree ⟨true, solverPath⟩ 0 with
    | .error e => .error e
    | .ok qe =>
      let name : Except Fail (List Char) :=
        if qe.nMatches (.child ['c', 'o', 'n', 'f', 'i', 'g']) = 1 then
          match qe.subTree (.child ['c', 'o', 'n', 'f', 'i', 'g']) 0 with
          | .error e => .error e
          | .ok c => c.getElementName 0
        else .ok greedyName
      match name with
      | .error e => .error e
      | .ok n =>
        match optionalBool qe (.child exclName) true with
        | .error e => .error e
        | .ok x => .ok ⟨n, x⟩
  else .ok ⟨greedyName, true⟩

/-- `/*/control/solver/config/` and two more steps. -/
def configPath (solver leaf : List Char) : Query :=
  ⟨true, solverPath ++ [.named ['c', 'o', 'n', 'f', 'i', 'g'], .named solver, .named leaf]⟩

/-- The settings of the COIN solver (`xml_file_loader.cc:270-275`). -/
def readCoin (dbl : List Char → Option ℚ) (t : Tree) : Except Fail Coin :=
  match optionalDouble dbl t (configPath coinName ['t', 'i', 'm', 'e', 'o', 'u', 't']) (-1) with
  | .error e => .error e
  | .ok x =>
    match optionalBool t (configPath coinName ['v', 'e', 'r', 'b', 'o', 's', 'e']) false with
    | .error e => .error e
    | .ok v =>
      match optionalBool t (configPath coinName ['m', 'p', 's']) false with
      | .error e => .error e
      | .ok m => .ok ⟨x, v, m⟩

/-- The end of `LoadSolver` (`xml_file_loader.cc:226-284`), for the simulation `sim` with the
commodities `commods`. -/
def record (dbl : List Char → Option ℚ) (sim : ℕ) (commods : List (List Char × ℚ)) (t : Tree)
    (db : Db) : Except Fail Db :=
  match readInfo t with
  | .error e => .error e
  | .ok i =>
    let db := { db with commod := db.commod ++ commods.map (sim, ·), info := db.info ++ [(sim, i)] }
    if i.solver = greedyName then
      match optionalString t (configPath greedyName preconName) greedyName with
      | .error e => .error e
      | .ok p => .ok { db with greedy := db.greedy ++ [(sim, p)] }
    else if i.solver = coinName then
      match readCoin dbl t with
      | .error e => .error e
      | .ok c => .ok { db with coin := db.coin ++ [(sim, c)] }
    else .error (.err .value)

/-- What a query for the rows of a simulation yields (`sim_init.cc:52-54`). -/
def rows {α : Type} (table : List (ℕ × α)) (sim : ℕ) : List α :=
  (table.filter (·.1 = sim)).map Prod.snd

/-- A solver: `GreedySolver(exclusive, preconditioner without weights)` or
`ProgSolver("cbc", timeout, exclusive, verbose, mps)`.  `GreedySolver(exclusive)` makes the same
preconditioner itself (`greedy_solver.cc:22-26`). -/
inductive Solver where
  | greedy (exclusive : Bool)
  | prog (timeout : ℚ) (exclusive verbose mps : Bool)
  deriving DecidableEq, Repr

/-- `LoadPreconditioner` (`sim_init.cc:241-266`): whether it is accepted. -/
def loadPreconditioner (db : Db) (sim : ℕ) (name : List Char) : Except Err Unit :=
  if db.commod.isEmpty then .ok ()
  else match rows db.commod sim with
    | _ :: _ => .ok ()
    | [] => if name = greedyName then .ok () else .error .value

/-- `LoadGreedySolver` (`sim_init.cc:268-292`). -/
def loadGreedy (db : Db) (sim : ℕ) (exclusive : Bool) : Except Err Solver :=
  let name := if db.greedy.isEmpty then greedyName
    else match rows db.greedy sim with
      | p :: _ => p
      | [] => greedyName
  match loadPreconditioner db sim name with
  | .error e => .error e
  | .ok () => .ok (.greedy exclusive)

/-- `LoadCoinSolver` (`sim_init.cc:294-316`); `hasCoin` is `CYCLUS_HAS_COIN`. -/
def loadCoin (hasCoin : Bool) (db : Db) (sim : ℕ) (exclusive : Bool) :
    Option (Except Err Solver) :=
  if hasCoin then
    if db.coin.isEmpty then none
    else match rows db.coin sim with
      | [] => none
      | c :: _ =>
        some (.ok (.prog (if c.timeout ≤ 0 then 300 else c.timeout) exclusive c.verbose c.mps))
  else some (.error .generic)

/-- `LoadSolverInfo` (`sim_init.cc:318-348`).  Without a row the name of the solver is empty. -/
def load (hasCoin : Bool) (db : Db) (sim : ℕ) : Option (Except Err Solver) :=
  let info : Option Info := if db.info.isEmpty then none else (rows db.info sim).head?
  match info with
  | none => some (.error .value)
  | some i =>
    if i.solver = greedyName then some (loadGreedy db sim i.exclusive)
    else if i.solver = coinName then loadCoin hasCoin db sim i.exclusive
    else some (.error .value)

/-- The solver of a simulation that `SimInit::Restart` (`sim_init.cc:44-50`) makes from the rows of
the simulation `old`, and the database after it: the restarted simulation records no rows of these
tables. -/
def restart (hasCoin : Bool) (db : Db) (old : ℕ) : Option (Except Err (Solver × Db)) :=
  (load hasCoin db old).map fun r => r.map fun s => (s, db)

end Cyclus.Conf
