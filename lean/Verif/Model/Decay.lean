import Verif.Model.CompMath

/-!
# Model of radioactive decay: `Composition::Decay` and `Material::Decay`

Models `/repo/src/composition.cc:17-39, 67-163` and
`/repo/src/material.cc:68-125, 127-141, 186-236, 251-275`.

Compositions are identified by their ids, lines of decay (`ChainPtr`) by numbers.  A composition is
represented by the value of `atom()`, which is computed at most once and never changes
(`composition.cc:45-65`).  The solver of pyne (`pyne_cram_expm_multiply14` with the built-in decay
matrix), its table of nuclides and the decay constants are arbitrary parameters.  Quantities are
exact.  Recording is modelled in `Model/Tracker.lean`, packages in `Model/Resource.lean`.
-/

namespace Cyclus.Decay

open Cyclus.CompMath

/-- What comes from pyne: the nuclides of the solver (`pyne_cram_transmute_info.nucids`, without
repetitions), the solver as a function of the time in seconds and of the vector of quantities
(`composition.cc:143-152`), and `1 - exp(-decay_const(nuc) * secs)` (`material.cc:221-222`). -/
structure Tables where
  nucids : List ℕ
  expm : ℤ → List ℚ → List ℚ
  change : ℕ → ℤ → ℚ

/-- A composition: the value of `atom()`, `prev_decay_` and `decay_line_`.
Models `/repo/src/composition.h:90, 101-107`. -/
structure Comp where
  atom : CompMap
  prev : ℤ
  line : ℕ
  deriving DecidableEq, Repr

/-- All compositions and lines of decay: ids below `next` (`next_id_`) and lines below `nlines` are
in use; a line maps total times to ids (`std::map<int, Ptr>`, `/repo/src/composition.h:84`). -/
structure Comps where
  comp : ℕ → Comp
  next : ℕ
  line : ℕ → ℤ → Option ℕ
  nlines : ℕ

/-- No compositions.  Models `/repo/src/composition.cc:15`. -/
def Comps.init : Comps where
  comp := fun _ => ⟨[], 0, 0⟩
  next := 1
  line := fun _ _ => none
  nlines := 0

/-- `CreateFromAtom(v)` and `CreateFromMass(v)` of a map that passes the checks (`createFrom` in
`Model/CompMath.lean`), with the constructor; `v` is the value of `atom()`.
Models `/repo/src/composition.cc:24-26, 36-38, 105-109`. -/
def create (s : Comps) (v : CompMap) : Comps × ℕ :=
  ({ s with
      comp := fun k => if k = s.next then ⟨v, 0, s.nlines⟩ else s.comp k
      next := s.next + 1
      nlines := s.nlines + 1 }, s.next)

/-- The atoms that `NewDecay` computes: the entries of nuclides known to the solver, its result, and
of that the entries above zero.  Models `/repo/src/composition.cc:127-161`. -/
def decayAtoms (T : Tables) (secs : ℤ) (v : CompMap) : CompMap :=
  if v = [] then []
  else
    let n0 := T.nucids.map (get v)
    let n1 := T.expm secs n0
    (T.nucids.zip n1).filter fun e => decide (0 < e.2)

/-- `NewDecay(delta, secs)`.  Models `/repo/src/composition.cc:111-117, 119-163`. -/
def newDecay (T : Tables) (s : Comps) (c : ℕ) (delta secs : ℤ) : Comps × ℕ :=
  let x := s.comp c
  ({ s with
      comp := fun k =>
        if k = s.next then ⟨decayAtoms T (secs * delta) x.atom, x.prev + delta, x.line⟩
        else s.comp k
      next := s.next + 1 }, s.next)

/-- `Decay(delta, secs)`.  Models `/repo/src/composition.cc:67-81`. -/
def decay (T : Tables) (s : Comps) (c : ℕ) (delta secs : ℤ) : Comps × ℕ :=
  let x := s.comp c
  match s.line x.line (x.prev + delta) with
  | some d => (s, d)
  | none =>
    let r := newDecay T s c delta secs
    ({ r.1 with line := fun l t =>
        if l = x.line ∧ t = x.prev + delta then some r.2 else r.1.line l t }, r.2)

/-! ### Recording -/

/-- `recorded_` of each composition and the rows (`QualId`, `NucId`, `MassFrac`) of the table
Compositions.  Models `/repo/src/composition.h:102`. -/
structure Table where
  recorded : ℕ → Bool
  rows : List (ℕ × ℕ × ℚ)

/-- `Record(ctx)`; `am` gives atomic masses.  Models `/repo/src/composition.cc:87-103`. -/
def record (am : ℕ → ℚ) (s : Comps) (R : Table) (c : ℕ) : Table :=
  if R.recorded c then R
  else
    { recorded := fun k => if k = c then true else R.recorded k
      rows := R.rows ++
        (normalize (massOfAtom am (s.comp c).atom) 1).map fun e => (c, e.1, e.2) }

/-! ### Materials -/

/-- The decay mode of the simulation (`SimInfo::decay`, `/repo/src/context.h:83-85`). -/
inductive Mode where
  | never
  | manual
  | lazy
  deriving DecidableEq, Repr

/-- What a material sees of its context: the mode, the seconds of a time step and the time.
A material without context has `none`. -/
structure Sim where
  mode : Mode
  secs : ℤ
  time : ℤ
  deriving DecidableEq, Repr

/-- A material: quantity, composition, `prev_decay_time_` and whether it has a context.
Models `/repo/src/material.h:173-178`. -/
structure Mat where
  qty : ℚ
  comp : ℕ
  prev : ℤ
  ctx : Bool
  deriving DecidableEq, Repr

/-- `Transmute(c)`.  Models `/repo/src/material.cc:127-141`. -/
def transmute (sim : Sim) (m : Mat) (c : ℕ) : Mat :=
  let m := { m with comp := c }
  if m.ctx = true ∧ sim.time > m.prev then { m with prev := sim.time } else m

/-- `kDefaultTimeStepDur`, 1/12 of a year.  Models `/repo/src/context.h:23`. -/
def defaultDur : ℤ := 2629846

/-- Whether the decay is worth computing.  Models `/repo/src/material.cc:202-231`. -/
def significant (T : Tables) (secs dt : ℤ) (v : CompMap) : Bool :=
  decide (v.length > 100) || v.any fun e => decide (T.change e.1 (secs * dt) ≥ 1 / 1000)

/-- The rest of `Decay`, when the time is known.  Models `/repo/src/material.cc:197-235`. -/
def decayTo (T : Tables) (sim : Sim) (s : Comps) (m : Mat) (t : ℤ) : Comps × Mat :=
  let dt := t - m.prev
  let secs := if m.ctx then sim.secs else defaultDur
  if dt = 0 then (s, m)
  else if significant T secs dt (s.comp m.comp).atom then
    let r := decay T s m.comp dt secs
    (r.1, transmute sim { m with prev := t } r.2)
  else (s, m)

/-- `Material::Decay(curr_time)`.  Models `/repo/src/material.cc:186-236`. -/
def matDecay (T : Tables) (sim : Sim) (s : Comps) (m : Mat) (t : ℤ) :
    Except Err (Comps × Mat) :=
  if m.ctx = true ∧ sim.mode = .never then .ok (s, m)
  else if t < 0 ∧ m.ctx = false then .error .value
  else .ok (decayTo T sim s m (if t < 0 then sim.time else t))

/-- `comp()`: the material afterwards; the composition is its `comp`.
Models `/repo/src/material.cc:256-261`. -/
def matComp (T : Tables) (sim : Sim) (s : Comps) (m : Mat) : Except Err (Comps × Mat) :=
  if m.ctx = true ∧ sim.mode = .lazy then matDecay T sim s m (-1) else .ok (s, m)

/-- A new material.  Models `/repo/src/material.cc:17-28, 263-275`. -/
def newMat (sim : Sim) (ctx : Bool) (qty : ℚ) (c : ℕ) : Mat :=
  ⟨qty, c, if ctx then sim.time else 0, ctx⟩

/-- `ExtractQty(qty)`: what remains and what is taken out.
Models `/repo/src/material.cc:68-99` for the material's own composition (line 79 false). -/
def extractQty (m : Mat) (q : ℚ) : Except Err (Mat × Mat) :=
  if m.qty < q then .error .value
  else .ok ({ m with qty := m.qty - q }, ⟨q, m.comp, m.prev, m.ctx⟩)

/-- `Absorb(mat)` of another material; `am` gives atomic masses.  The composition of the mixture is
created from masses.  Models `/repo/src/material.cc:101-125`; both results are given. -/
def absorb (T : Tables) (am : ℕ → ℚ) (sim : Sim) (s : Comps) (m o : Mat) :
    Except Err (Comps × Mat × Mat) :=
  match matComp T sim s m with
  | .error e => .error e
  | .ok (s, m) =>
    match matComp T sim s o with
    | .error e => .error e
    | .ok (s, o) =>
      let mix : Comps × ℕ :=
        if m.comp ≠ o.comp then
          create s (atomOfMass am (add
            (normalize (massOfAtom am (s.comp m.comp).atom) m.qty)
            (normalize (massOfAtom am (s.comp o.comp).atom) o.qty)))
        else (s, m.comp)
      .ok (mix.1, ⟨m.qty + o.qty, mix.2, if m.qty < o.qty then o.prev else m.prev, m.ctx⟩,
        { o with qty := 0 })

end Cyclus.Decay
