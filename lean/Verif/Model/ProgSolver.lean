import Verif.Model.ProgTranslator
import Verif.Model.Precond

/-!
# Model of the mathematical programming solver

Models `ProgSolver::SolveGraph` (`/repo/src/prog_solver.cc:55-95`), `SolverFactory::get`
(`/repo/src/solver_factory.cc:84-92`), `SolveProg` and `HasInt` (`solver_factory.cc:122-173`).

* The libraries for linear and for mixed integer programs are arbitrary functions from programs to
  solutions.  `bestSolution()` may be a null pointer, which `setColSolution` reads: `none`.
* `getObjValue()` is part of the library.
* The greedy solver that runs first uses a default `GreedyPreconditioner`.  Its objective value goes to an
  event handler of the library which only takes times for a report; it is dropped, as are the reports
  and the MPS files.
* The greedy solver reads the maps of unit capacities with `operator[]` and so adds empty entries;
  `touched` tells for which ends of arcs.
* The time limit, which is set on the linear solver only, is not modelled.
-/

namespace Cyclus.Prog

open Cyclus.Exchange

/-- The libraries: solutions of linear programs (`initialSolve`, which ignores integrality), of mixed
integer programs (`branchAndBound`), and the value `getObjValue`. -/
structure Lib where
  lp : Program → Option (ℕ → ℚ)
  mip : Program → Option (ℕ → ℚ)
  value : Program → (ℕ → ℚ) → ℚ

/-- How `SolveGraph` ends other than normally. -/
inductive Fault where
  /-- `ValueError`. -/
  | value
  /-- What stops the greedy solver. -/
  | greedy (e : Stop)
  /-- A write past the end of a vector in the translator. -/
  | overrun
  /-- The null pointer of a missing solution. -/
  | null
  deriving DecidableEq

/-- The constants and the contents of the maps of unit capacities. -/
structure Setup where
  gp : Exchange.Params
  excl : Bool
  inf : ℚ
  big : ℚ
  present : ℕ → Arc → Bool
  touched : ℕ → Arc → Bool

/-- The graph as the greedy solver leaves it: the preconditioner reorders request groups and their nodes
(`greedy_preconditioner.cc:45-79`), and `GreedilySatisfySet` sorts the nodes of every request group
(`greedy_solver.cc:143-145`). -/
def afterGreedy (g : Graph) : Graph :=
  { condition [] g with
    group := fun r =>
      if r ∈ g.reqs then
        { (condition [] g).group r with
          nodes := stableSort (avgPrefComp g) ((condition [] g).group r).nodes }
      else (condition [] g).group r }

/-- `HasInt` (`solver_factory.cc:165-173`). -/
def hasInt (P : Program) : Bool := (List.range P.n).any fun i => decide (i ∈ P.ints)

/-- `SolveProg` (`solver_factory.cc:122-151`): the solution that the interface then holds. -/
def solveProg (lib : Lib) (P : Program) : Option (ℕ → ℚ) :=
  if hasInt P then lib.mip P else lib.lp P

/-- The parameters of the translator (`prog_solver.cc:65-66`). -/
def Setup.params (q : Setup) (g : Graph) : Params :=
  ⟨q.excl, pseudoCost q.excl g, q.inf, q.big, fun n a => q.present n a || q.touched n a⟩

/-- `ProgSolver::SolveGraph` (`prog_solver.cc:55-95`): the matches on the graph afterwards, and what is
returned.  `old` are the matches before. -/
def solveGraph (lib : Lib) (q : Setup) (type : String) (g : Graph) (old : List (Arc × ℚ)) :
    List (Arc × ℚ) × Except Fault ℚ :=
  if type = "clp" ∨ type = "cbc" then
    match Exchange.solveGraph q.gp q.excl (condition []) g (fun _ => []) old with
    | (s, .error e) => (s.matches_, .error (.greedy e))
    | (_, .ok _) =>
      match toProg (q.params (afterGreedy g)) (afterGreedy g) with
      | none => ([], .error .overrun)
      | some (.error _) => ([], .error .value)
      | some (.ok P) =>
        match solveProg lib P with
        | none => ([], .error .null)
        | some x => (fromProg q.excl q.gp.eps (afterGreedy g) x, .ok (lib.value P x))
  else (old, .error .value)

end Cyclus.Prog
