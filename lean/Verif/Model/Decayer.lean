import Verif.Model.UniformTaylor

/-!
# Model of `Decayer`

Models `/repo/src/decayer.{h,cc}` on the model of the solver.  The nuclear data of pyne are arbitrary
functions.  A map is an association list in the order of insertion; the order in which a loop visits
it is an arbitrary rearrangement `ord`.
-/

namespace Cyclus.Decayer

open Cyclus.LMat Real

/-- `pyne::decay_const`, `pyne::decay_children` and `pyne::branch_ratio`. -/
structure Data where
  lam : ℕ → ℝ
  kids : ℕ → List ℕ
  br : ℕ → ℕ → ℝ

/-- An entry of `ParentMap`: nuclide, column and decay constant. -/
abbrev Entry := ℕ × ℕ × ℝ

/-- The static members.  Models `/repo/src/decayer.h:64-71, 77-78`. -/
structure Static where
  parent : List Entry
  daughters : List (ℕ × List (ℕ × ℝ))
  tracked : List ℕ
  matrix : LMatrix ℝ

/-- The initial values.  Models `/repo/src/decayer.cc:13-16`. -/
noncomputable def Static.init : Static := ⟨[], [], [], zeros 1 1⟩

/-- The members of an instance.  Models `/repo/src/decayer.h:73-75`. -/
structure Inst where
  pre : LMatrix ℝ
  post : LMatrix ℝ

/-- `m[k] = v`. -/
def put {β : Type} (l : List (ℕ × β)) (k : ℕ) (v : β) : List (ℕ × β) :=
  l.filter (fun e => e.1 ≠ k) ++ [(k, v)]

/-- `parent_[nuc] = make_pair(col, decay_const(nuc))` and `AddNucToList(nuc)`.
Models `/repo/src/decayer.cc:63-65, 86-90`. -/
def addParent (d : Data) (s : Static) (nuc : ℕ) : Static :=
  ⟨put s.parent nuc (s.parent.length + 1, d.lam nuc), s.daughters, s.tracked ++ [nuc], s.matrix⟩

/-- `daughters_[col] = dvec`.  Models `/repo/src/decayer.cc:67-76`. -/
def addDaughters (d : Data) (s : Static) (col nuc : ℕ) : Static :=
  ⟨s.parent, put s.daughters col ((d.kids nuc).map fun k => (k, d.br nuc k)), s.tracked, s.matrix⟩

/-- `AddNucToMaps`; out of fuel is `none`.  Models `/repo/src/decayer.cc:53-83`. -/
def addNuc (d : Data) : ℕ → Static → ℕ → Option Static
  | 0, _, _ => none
  | fuel + 1, s, nuc =>
    if nuc ∈ s.tracked then some s
    else
      match (d.kids nuc).foldlM (addNuc d fuel) (addParent d s nuc) with
      | none => none
      | some s' => some (addDaughters d s' (s.parent.length + 1) nuc)

/-- The decay constant that is used: zero if `exp(-2903040000 λ)` is represented as zero.
Models `/repo/src/decayer.cc:127-130`. -/
noncomputable def effective (z : ℝ → Bool) (lam : ℝ) : ℝ :=
  if z (exp (-2903040000 * lam)) then 0 else lam

/-- One daughter: `decay_matrix_(irow, jcol) = branch_ratio * decay_const`.
Models `/repo/src/decayer.cc:141-148`. -/
noncomputable def buildCell (s : Static) (jcol : ℕ) (lam : ℝ) (M : LMatrix ℝ) (k : ℕ × ℝ) :
    Option (LMatrix ℝ) :=
  match s.parent.lookup k.1 with
  | none => none
  | some e => M.setElement e.1 jcol (k.2 * lam)

/-- One parent.  Models `/repo/src/decayer.cc:126-150`. -/
noncomputable def buildCol (z : ℝ → Bool) (s : Static) (M : LMatrix ℝ) (e : Entry) :
    Option (LMatrix ℝ) :=
  match M.setElement e.2.1 e.2.1 (-1 * effective z e.2.2) with
  | none => none
  | some M' =>
    match s.daughters.lookup e.2.1 with
    | none => none
    | some ds => ds.foldlM (buildCell s e.2.1 (effective z e.2.2)) M'

/-- `BuildDecayMatrix`.  Models `/repo/src/decayer.cc:116-152`. -/
noncomputable def build (z : ℝ → Bool) (ord : List Entry → List Entry) (s : Static) :
    Option Static :=
  match (ord s.parent).foldlM (buildCol z s) (zeros s.parent.length s.parent.length) with
  | none => none
  | some M => some { s with matrix := M }

/-- The first loop of the constructor: the state and `needs_build`.
Models `/repo/src/decayer.cc:28-36`. -/
def addAll (d : Data) (fuel : ℕ) : List (ℕ × ℝ) → Static × Bool → Option (Static × Bool)
  | [], s => some s
  | (nuc, _) :: comp, (s, b) =>
    if nuc ∈ s.tracked then addAll d fuel comp (s, b)
    else
      match addNuc d fuel s nuc with
      | none => none
      | some s' => addAll d fuel comp (s', true)

/-- `pre_vect_(col, 1) = atom_count`.  Models `/repo/src/decayer.cc:42-47`. -/
noncomputable def fillCell (s : Static) (V : LMatrix ℝ) (e : ℕ × ℝ) : Option (LMatrix ℝ) :=
  match s.parent.lookup e.1 with
  | none => none
  | some p => V.setElement p.1 1 e.2

/-- The constructor.  Models `/repo/src/decayer.cc:19-48`. -/
noncomputable def construct (d : Data) (z : ℝ → Bool) (ord : List Entry → List Entry) (fuel : ℕ)
    (s : Static) (comp : List (ℕ × ℝ)) : Option (Static × Inst) :=
  match addAll d fuel comp (s, false) with
  | none => none
  | some (s', b) =>
    match (if b then build z ord s' else some s') with
    | none => none
    | some s'' =>
      match comp.foldlM (fillCell s'') (zeros s''.parent.length 1) with
      | none => none
      | some V => some (s'', ⟨V, zeros 1 1⟩)

/-- `Decay`.  Models `/repo/src/decayer.cc:155-160`. -/
noncomputable def decay (lim : Limits) (fuel : ℕ) (s : Static) (i : Inst) (secs : ℝ) :
    Option (Except Err Inst) :=
  match matrixExpSolver lim fuel s.matrix i.pre secs with
  | none => none
  | some (.error e) => some (.error e)
  | some (.ok V) => some (.ok { i with post := V })

/-- One nuclide of `GetResult`.  Models `/repo/src/decayer.cc:97-111`. -/
noncomputable def resultStep (i : Inst) (comp : ℕ → Option ℝ) (e : Entry) :
    Option (ℕ → Option ℝ) :=
  if e.2.1 ≤ i.post.rows then
    match i.post.get e.2.1 1 with
    | none => none
    | some v => some (if v > 0 then Function.update comp e.1 (some v) else comp)
  else some comp

/-- `GetResult`.  Models `/repo/src/decayer.cc:93-113`. -/
noncomputable def getResult (ord : List Entry → List Entry) (s : Static) (i : Inst)
    (comp : ℕ → Option ℝ) : Option (ℕ → Option ℝ) :=
  (ord s.parent).foldlM (resultStep i) comp

end Cyclus.Decayer
