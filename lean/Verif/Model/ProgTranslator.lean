import Verif.Model.Greedy

/-!
# Model of the translation of an exchange graph to a mixed integer program

Models `/repo/src/prog_translator.cc`.  The program is kept as a list of columns, a list of rows
and a list of integer columns, which is what `OsiSolverInterface::loadProblem` and `setInteger`
receive.  What COIN does with it is not modelled: the theorems speak about every feasible point,
and about optimal points.

`getInfinity()` is the parameter `inf`; a bound that is `inf` or more is no bound, which is how
COIN reads it, and is written `none`.  `1e15` is the parameter `big`.
-/

namespace Cyclus.Prog

open Cyclus.Exchange

/-- A row: the coefficients, the lower bound and the upper bound
(`row_lbs`, `row_ubs` and `m` of `ProgTranslatorContext`, `prog_translator.h:18-25`). -/
structure Row where
  coeffs : List (ℕ × ℚ)
  lb : ℚ
  ub : Option ℚ
  deriving DecidableEq, Repr

/-- A column: objective coefficient, lower bound and upper bound (`obj_coeffs`, `col_lbs`,
`col_ubs` of `ProgTranslatorContext`, `prog_translator.h:18-25`). -/
structure Col where
  obj : ℚ
  lb : ℚ
  ub : Option ℚ
  deriving DecidableEq, Repr

/-- The loaded problem (`prog_translator.cc:104-122`): `n` is the number of columns, `ints` are the
columns given to `setInteger`.  `cols` may be longer than `n`, as the vectors of the code are. -/
structure Program where
  n : ℕ
  cols : List Col
  rows : List Row
  ints : List ℕ
  deriving DecidableEq, Repr

/-- The parameters of the translator: `excl_`, `pseudo_cost_` (`prog_translator.cc:16-49`),
`getInfinity()` and the literal `1e15` (`prog_translator.cc:186`).  `present n a` tells whether the
map `unit_capacities` of node `n` has an entry for arc `a`; only arcs that end in `n` are
looked up. -/
structure Params where
  excl : Bool
  pseudo : ℚ
  inf : ℚ
  big : ℚ
  present : ℕ → Arc → Bool

/-- `arc_ids()[a]`: the position at which `ExchangeGraph::AddArc` (`exchange_graph.cc:127-134`)
inserted the arc. -/
def arcId (g : Graph) (a : Arc) : ℕ := g.arcs.findIdx fun b => decide (b.key = a.key)

/-- Models `ExchangeNodeGroup::HasArcs` (`exchange_graph.h:153-161`). -/
def hasArcs (g : Graph) (grp : Group) : Bool := grp.nodes.any fun n => !(g.node n).prefs.isEmpty

/-- The pairs of a node of the group and an arc in its map `unit_capacities`
(`prog_translator.cc:142-149`).  The arcs of one node are visited in insertion order in place of
the order of the map; the order has no influence on the program beyond the order of
coefficients. -/
def entries (p : Params) (g : Graph) (grp : Group) : List (ℕ × Arc) :=
  grp.nodes.flatMap fun n =>
    (g.arcs.filter fun a => (decide (a.u = n) || decide (a.v = n)) && p.present n a).map
      fun a => (n, a)

/-- Bound of a column or row that `getInfinity()` makes unbounded. -/
def bound (inf q : ℚ) : Option ℚ := if q < inf then some q else none

/-- The coefficients of `cap_rows[j]` (`prog_translator.cc:153-161`). -/
def capCoeffs (p : Params) (g : Graph) (es : List (ℕ × Arc)) (j : ℕ) : List (ℕ × ℚ) :=
  es.filterMap fun e =>
    (((g.node e.1).unitCaps e.2.key)[j]?).map fun c =>
      (arcId g e.2, if p.excl && e.2.exclusive then c * e.2.exclVal else c)

/-- The column of an arc of a request node (`prog_translator.cc:163-169`). -/
def arcCol (p : Params) (g : Graph) (e : ℕ × Arc) : Col :=
  ⟨arcCost p.excl e.2, 0,
    if p.excl && e.2.exclusive then some 1 else bound p.inf (g.node e.1).qty⟩

/-- The rows for the exclusive node groups (`prog_translator.cc:192-216`).  CoinPackedVector's
complaint about an arc that is inserted twice is not modelled. -/
def exclRows (g : Graph) (grp : Group) : List Row :=
  grp.exclGroups.filterMap fun ns =>
    let r := ns.flatMap fun n => (g.nodeArcs n).map fun a => (arcId g a, (1 : ℚ))
    if r.isEmpty then none else some ⟨r, 0, some 1⟩

/-- What `Translate` changes: `row_lbs`, `row_ubs` and `m`; `obj_coeffs`, `col_lbs` and `col_ubs`;
`arc_offset_`. -/
structure St where
  rows : List Row
  cols : List Col
  off : ℕ

/-- Models `XlateGrp_` (`prog_translator.cc:129-217`).  `none` is the write behind the end of
`cap_rows` when an arc has more unit capacities than its group has capacities. -/
def xlateGrp (p : Params) (g : Graph) (request : Bool) (grp : Group) (s : St) :
    Option (Except Err St) :=
  if request && !hasArcs g grp then some (.ok s)
  else
    let es := entries p g grp
    if es.any fun e => decide (grp.caps.length < ((g.node e.1).unitCaps e.2.key).length) then none
    else if request && es.any fun e => decide (e.2.pref ≤ 0) then some (.error .value)
    else
      let cols :=
        if request then es.foldl (fun c e => c.set (arcId g e.2) (arcCol p g e)) s.cols
        else s.cols
      let capRows := grp.caps.zipIdx.map fun c =>
        if request then
          (⟨capCoeffs p g es c.2 ++ [(s.off, 1)], min c.1 p.big, none⟩ : Row)
        else ⟨capCoeffs p g es c.2, 0, bound p.inf c.1⟩
      some (.ok {
        rows := s.rows ++ capRows ++ (if p.excl then exclRows g grp else [])
        cols := cols
        off := if request then s.off + 1 else s.off })

/-- The loops over the groups (`prog_translator.cc:81-91`). -/
def xlateGrps (p : Params) (g : Graph) (request : Bool) : List ℕ → St → Option (Except Err St)
  | [], s => some (.ok s)
  | r :: rs, s =>
    match xlateGrp p g request (g.group r) s with
    | none => none
    | some (.error e) => some (.error e)
    | some (.ok s') => xlateGrps p g request rs s'

/-- Models `ProgTranslator::ToProg` for a fresh translator: `Init`, `Translate` and `Populate`
(`prog_translator.cc:51-58, 72-127`). -/
def toProg (p : Params) (g : Graph) : Option (Except Err Program) :=
  let s : St := ⟨[], List.replicate (g.arcs.length + g.reqs.length) ⟨0, 0, some 0⟩, g.arcs.length⟩
  match xlateGrps p g false g.sups s with
  | none => none
  | some (.error e) => some (.error e)
  | some (.ok s) =>
    match xlateGrps p g true g.reqs s with
    | none => none
    | some (.error e) => some (.error e)
    | some (.ok s) =>
      some (.ok {
        n := g.arcs.length + (g.reqs.filter fun r => hasArcs g (g.group r)).length
        cols := s.cols.zipIdx.map fun c =>
          if g.arcs.length ≤ c.2 ∧ c.2 < s.off then ⟨p.pseudo, 0, none⟩ else c.1
        rows := s.rows
        ints := if p.excl then (g.arcs.filter fun a => a.exclusive).map (arcId g) else [] })

/-- Models `FromProg` (`prog_translator.cc:219-231`): the matches added for the solution `x`. -/
def fromProg (excl : Bool) (eps : ℚ) (g : Graph) (x : ℕ → ℚ) : List (Arc × ℚ) :=
  g.arcs.zipIdx.filterMap fun a =>
    let flow := if excl && a.1.exclusive then x a.2 * a.1.exclVal else x a.2
    if eps < flow then some (a.1, flow) else none

end Cyclus.Prog
