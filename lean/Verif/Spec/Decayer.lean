import Verif.Model.Decayer

/-!
# What the tables of `Decayer` say
-/

namespace Cyclus.Decayer

open Cyclus.LMat

/-- The column of a nuclide: its place in the list of the tracked nuclides, counted from one. -/
def column (s : Static) (nuc : ℕ) : ℕ := s.tracked.idxOf nuc + 1

/-- The tables of the tracked nuclides, except for the daughters of the nuclides in `P`. -/
structure Tables (d : Data) (P : List ℕ) (s : Static) : Prop where
  nodup : s.tracked.Nodup
  size : s.parent.length = s.tracked.length
  keys : s.parent.map Prod.fst = s.tracked
  parent : ∀ nuc ∈ s.tracked, s.parent.lookup nuc = some (column s nuc, d.lam nuc)
  closed : ∀ nuc ∈ s.tracked, nuc ∉ P → ∀ k ∈ d.kids nuc, k ∈ s.tracked
  daughters : ∀ nuc ∈ s.tracked, nuc ∉ P →
    s.daughters.lookup (column s nuc) = some ((d.kids nuc).map fun k => (k, d.br nuc k))

/-- The entry of the decay matrix for the daughter `a` of the parent `b`. -/
noncomputable def rate (d : Data) (z : ℝ → Bool) (a b : ℕ) : ℝ :=
  if a = b then - effective z (d.lam b)
  else if a ∈ d.kids b then d.br b a * effective z (d.lam b) else 0

/-- The decay matrix of the tracked nuclides. -/
noncomputable def decayMatrix (d : Data) (z : ℝ → Bool) (s : Static) :
    Matrix (Fin s.tracked.length) (Fin s.tracked.length) ℝ :=
  fun i j => rate d z (s.tracked[i]) (s.tracked[j])

end Cyclus.Decayer
