import Verif.Model.ExchangeGraph

/-!
# Model of the greedy solver

Models `/repo/src/greedy_solver.h`, `/repo/src/greedy_solver.cc` and the parts of
`/repo/src/exchange_solver.cc` it uses.

* `double` is ℚ, except for the results of the division `grp_cap / u_cap`, which are modelled
  with infinities and NaN (`Dbl`), because unit capacities of zero occur in practice.
* `dmax` stands for `std::numeric_limits<double>::max()`, `eps` for `cyclus::eps()`, `dist` for
  `boost::math::float_distance`.
* Logging is dropped.
* `GreedilySatisfySet` sorts the nodes of a group in place; nothing reads that order later, so the
  sorted vector is a local value of the model.
-/

namespace Cyclus.Exchange

/-- A `double` that may be infinite or NaN. -/
inductive Dbl where
  | fin (q : ℚ)
  | pinf
  | ninf
  | nan
  deriving DecidableEq, Repr

namespace Dbl

/-- IEEE division of finite values (a zero divisor counts as `+0`). -/
def div (p q : ℚ) : Dbl :=
  if q ≠ 0 then fin (p / q) else if 0 < p then pinf else if p < 0 then ninf else nan

/-- IEEE `<`: false as soon as NaN is involved. -/
def lt : Dbl → Dbl → Bool
  | fin a, fin b => decide (a < b)
  | fin _, pinf => true
  | ninf, fin _ => true
  | ninf, pinf => true
  | _, _ => false

/-- `std::min(a, b)`: `b < a ? b : a`. -/
def min (a b : Dbl) : Dbl := if lt b a then b else a

/-- `*std::min_element(first, last)` for the nonempty range `x :: xs`. -/
def minElem (x : Dbl) (xs : List Dbl) : Dbl := xs.foldl (fun best y => if lt y best then y else best) x

/-- `*std::max_element(first, last)` for the nonempty range `x :: xs`. -/
def maxElem (x : Dbl) (xs : List Dbl) : Dbl := xs.foldl (fun best y => if lt best y then y else best) x

end Dbl

/-- The constants the solver depends on. -/
structure Params where
  eps : ℚ
  dmax : ℚ
  dist : ℚ → ℚ → ℚ

/-- The state of the solver: `grp_caps_`, `n_qty_`, the matches of the graph, `obj_`,
`unmatched_` (`greedy_solver.h:151-154`, `exchange_graph.h:285`). -/
structure St where
  caps : ℕ → List ℚ
  nq : ℕ → ℚ
  matches_ : List (Arc × ℚ)
  obj : ℚ
  unmatched : ℚ

/-- How a call ends other than normally: with an exception, or with a failed assertion or
undefined behaviour. -/
inductive Stop where
  | exc (e : Err)
  | abort
  deriving DecidableEq, Repr

/-- Result of a call: the state reached when control leaves it, and how. -/
abbrev Res (α : Type) := St × Except Stop α

/-- `AvgPrefComp` (`greedy_solver.h:40-46`). -/
def avgPrefComp (g : Graph) (l r : ℕ) : Bool :=
  let lp := (g.node l).avgPref
  let rp := (g.node r).avgPref
  if lp ≠ rp then decide (rp < lp) else decide ((g.node r).agent < (g.node l).agent)

/-- `ReqPrefComp` (`greedy_solver.h:27-35`). -/
def reqPrefComp (g : Graph) (l r : Arc) : Bool :=
  let lu := (g.node l.u).agent
  let lv := (g.node l.v).agent
  let ru := (g.node r.u).agent
  let rv := (g.node r.v).agent
  let lp := (g.node l.u).pref l.key
  let rp := (g.node r.u).pref r.key
  if lp ≠ rp then decide (rp < lp)
  else decide (ru < lu) || (decide (lu = ru) && decide (rv < lv))

/-- One entry of the vector `caps` in `Capacity` (`greedy_solver.cc:111-126`). -/
def capEntry (p : Params) (grpCap uCap : ℚ) : Dbl :=
  if grpCap = p.dmax then .fin p.dmax else Dbl.div grpCap uCap

/-- Models `GreedySolver::Capacity(ExchangeNode::Ptr, const Arc&, bool, double)`
(`greedy_solver.cc:96-134`).  Reading past the end of `group_caps` is undefined behaviour. -/
def nodeCap (p : Params) (g : Graph) (s : St) (n : ℕ) (a : Arc) (minCap : Bool) (curr : ℚ) :
    Except Stop Dbl :=
  match (g.node n).group with
  | none => .error (.exc .state)
  | some grp =>
    let uc := (g.node n).unitCaps a.key
    if uc.length = 0 then .ok (.fin ((g.node n).qty - curr))
    else if (s.caps grp).length < uc.length then .error .abort
    else
      match List.zipWith (capEntry p) (s.caps grp) uc with
      | [] => .error .abort
      | x :: xs =>
        .ok (Dbl.min (if minCap then Dbl.minElem x xs else Dbl.maxElem x xs)
          (.fin ((g.node n).qty - curr)))

/-- Models `GreedySolver::Capacity(const Arc&, double, double)` (`greedy_solver.cc:82-94`). -/
def arcCap (p : Params) (g : Graph) (s : St) (a : Arc) : Except Stop Dbl :=
  match nodeCap p g s a.u a false (s.nq a.u) with
  | .error e => .error e
  | .ok ucap =>
    match nodeCap p g s a.v a true (s.nq a.v) with
    | .error e => .error e
    | .ok vcap => .ok (Dbl.min ucap vcap)

/-- One component of the loop in `UpdateCapacity` (`greedy_solver.cc:226-236`). -/
def capUpdate (p : Params) (qty prev uCap : ℚ) : ℚ :=
  if prev = p.dmax then p.dmax else prev - qty * uCap

/-- Models `GreedySolver::UpdateCapacity` (`greedy_solver.cc:218-246`).  The assertion on the
vector sizes (which guards reads past the end of `unit_caps`) aborts. -/
def updateCapacity (p : Params) (g : Graph) (s : St) (n : ℕ) (a : Arc) (qty : ℚ) : Res Unit :=
  match (g.node n).group with
  | none => (s, .error .abort)
  | some grp =>
    let uc := (g.node n).unitCaps a.key
    if uc.length ≠ (s.caps grp).length then (s, .error .abort)
    else
      let new := List.zipWith (capUpdate p qty) (s.caps grp) uc
      let s' := { s with caps := Function.update s.caps grp new }
      if (g.node n).qty - qty < -p.eps then (s', .error (.exc .value)) else (s', .ok ())

/-- The amount to match before the test `tomatch > eps()` (`greedy_solver.cc:174-189`).
`float_distance` throws `std::domain_error` on an infinite argument. -/
def toMatch (p : Params) (a : Arc) (remain : ℚ) (cap : Dbl) : Except Stop Dbl :=
  let t := Dbl.min (.fin remain) cap
  if a.exclusive then
    match t with
    | .fin q => .ok (.fin (if floatUlpEq ≤ p.dist q a.exclVal then 0 else a.exclVal))
    | _ => .error (.exc .generic)
  else .ok t

/-- `tomatch > eps()` together with the value of `tomatch`. -/
def above (p : Params) : Dbl → Option ℚ
  | .fin q => if p.eps < q then some q else none
  | .pinf => none   -- `std::min(remain, _)` is never `+inf`
  | .ninf => none
  | .nan => none

/-- The body of `if (tomatch > eps())` (`greedy_solver.cc:191-202`), including `UpdateObj`
(`greedy_solver.cc:212-216`).  The value is the increment of `match`. -/
def addMatch (p : Params) (g : Graph) (s : St) (a : Arc) (q : ℚ) : Res ℚ :=
  match updateCapacity p g s a.u a q with
  | (s, .error e) => (s, .error e)
  | (s, .ok ()) =>
    match updateCapacity p g s a.v a q with
    | (s, .error e) => (s, .error e)
    | (s, .ok ()) =>
      let nq1 := Function.update s.nq a.u (s.nq a.u + q)
      let nq2 := Function.update nq1 a.v (nq1 a.v + q)
      ({ s with
         nq := nq2
         matches_ := s.matches_ ++ [(a, q)]
         obj := s.obj + q / (g.node a.u).pref a.key }, .ok q)

/-- The body of the inner loop of `GreedilySatisfySet` (`greedy_solver.cc:170-203`).  The value is
the increment of `match`. -/
def arcStep (p : Params) (g : Graph) (s : St) (a : Arc) (remain : ℚ) : Res ℚ :=
  match arcCap p g s a with
  | .error e => (s, .error e)
  | .ok cap =>
    match toMatch p a remain cap with
    | .error e => (s, .error e)
    | .ok t =>
      match above p t with
      | none => (s, .ok 0)
      | some q => addMatch p g s a q

/-- The inner loop of `GreedilySatisfySet` (`greedy_solver.cc:169-204`); the value is `match`. -/
def arcLoop (p : Params) (g : Graph) (target : ℚ) : St → ℚ → List Arc → Res ℚ
  | s, m, [] => (s, .ok m)
  | s, m, a :: as =>
    if m ≤ target then
      match arcStep p g s a (target - m) with
      | (s, .error e) => (s, .error e)
      | (s, .ok q) => arcLoop p g target s (m + q) as
    else (s, .ok m)

/-- The outer loop of `GreedilySatisfySet` (`greedy_solver.cc:159-207`). -/
def nodeLoop (p : Params) (g : Graph) (target : ℚ) : St → ℚ → List ℕ → Res ℚ
  | s, m, [] => (s, .ok m)
  | s, m, n :: ns =>
    if m ≤ target then
      match arcLoop p g target s m (stableSort (reqPrefComp g) (g.nodeArcs n)) with
      | (s, .error e) => (s, .error e)
      | (s, .ok m) => nodeLoop p g target s m ns
    else (s, .ok m)

/-- Models `GreedySolver::GreedilySatisfySet` (`greedy_solver.cc:143-210`). -/
def satisfySet (p : Params) (g : Graph) (s : St) (r : ℕ) : Res Unit :=
  let grp := g.group r
  match nodeLoop p g grp.qty s 0 (stableSort (avgPrefComp g) grp.nodes) with
  | (s, .error e) => (s, .error e)
  | (s, .ok m) => ({ s with unmatched := s.unmatched + (grp.qty - m) }, .ok ())

/-- The loop over the request groups in `SolveGraph` (`greedy_solver.cc:71-76`). -/
def groupLoop (p : Params) (g : Graph) : St → List ℕ → Res Unit
  | s, [] => (s, .ok ())
  | s, r :: rs =>
    match satisfySet p g s r with
    | (s, .error e) => (s, .error e)
    | (s, .ok ()) => groupLoop p g s rs

/-- Models `GreedySolver::Init` and `GetCaps` (`greedy_solver.cc:46-60, 136-141`) on the state
that `SolveGraph` has set up (`greedy_solver.cc:65-67`).  `prev` is what `grp_caps_` holds from
earlier calls of the solver (it is never cleared); `old` are the matches already on the graph. -/
def initSt (g : Graph) (prev : ℕ → List ℚ) (old : List (Arc × ℚ)) : St where
  caps := fun r => if r ∈ g.reqs ∨ r ∈ g.sups then (g.group r).caps else prev r
  nq := fun _ => 0
  matches_ := old
  obj := 0
  unmatched := 0

/-- Models `ExchangeSolver::Cost` with `exclusive_orders` (`exchange_solver.cc:11-14`). -/
def arcCost (exclOrders : Bool) (a : Arc) : ℚ :=
  if exclOrders && a.exclusive then a.exclVal / a.pref else 1 / a.pref

/-- Models `ExchangeSolver::PseudoCostByPref` (`exchange_solver.cc:86-97`). -/
def pseudoCostByPref (exclOrders : Bool) (costFactor : ℚ) (g : Graph) : ℚ :=
  (g.arcs.foldl (fun mx a =>
    max mx (arcCost exclOrders a *
      (if a.exclusive && decide (a.exclVal < 1) then 1 / a.exclVal else 1))) 0) * (1 + costFactor)

/-- Models `ExchangeSolver::PseudoCost()` (`exchange_solver.cc:16-22`). -/
def pseudoCost (exclOrders : Bool) (g : Graph) : ℚ := pseudoCostByPref exclOrders (1 / 10) g

/-- Models `GreedySolver::SolveGraph` (`greedy_solver.cc:62-80`).  `cond` is the graph
transformation done by the conditioner (`Verif.Model.Precond`, or the identity if there is
none). -/
def solveGraph (p : Params) (exclOrders : Bool) (cond : Graph → Graph) (g : Graph)
    (prev : ℕ → List ℚ) (old : List (Arc × ℚ)) : Res ℚ :=
  let pc := pseudoCost exclOrders g
  let g' := cond g
  match groupLoop p g' (initSt g' prev old) g'.reqs with
  | (s, .error e) => (s, .error e)
  | (s, .ok ()) =>
    let obj := s.obj + s.unmatched * pc
    ({ s with obj := obj }, .ok obj)

end Cyclus.Exchange
