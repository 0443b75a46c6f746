import Verif.Model.Decay

/-!
# Vocabulary of the properties about decay
-/

namespace Cyclus.Decay

open Cyclus.CompMath

/-- The quantities of the nuclides known to the solver, in its order. -/
def vec (T : Tables) (v : CompMap) : List ℚ := T.nucids.map (get v)

/-- What is left of nuclide `n` when a composition has decayed for `t` seconds: what the solver
says, and nothing if it does not know the nuclide. -/
def after (T : Tables) (t : ℤ) (v : CompMap) (n : ℕ) : ℚ :=
  get (T.nucids.zip (T.expm t (vec T v))) n

/-- No negative quantities. -/
def NonNeg (v : CompMap) : Prop := ∀ e ∈ v, 0 ≤ e.2

/-- The solver behaves like decay: quantities stay nonnegative, nothing comes of nothing, and
decaying for `s` seconds and then for `t` seconds is decaying for `s + t` seconds. -/
structure Physical (T : Tables) : Prop where
  nodup : T.nucids.Nodup
  len : ∀ t l, l.length = T.nucids.length → (T.expm t l).length = T.nucids.length
  nonneg : ∀ t, 0 ≤ t → ∀ l, l.length = T.nucids.length → (∀ x ∈ l, 0 ≤ x) →
    ∀ x ∈ T.expm t l, 0 ≤ x
  zero : ∀ t, T.expm t (T.nucids.map fun _ => 0) = T.nucids.map fun _ => 0
  add : ∀ s t, 0 ≤ s → 0 ≤ t → ∀ l, l.length = T.nucids.length →
    T.expm (s + t) l = T.expm t (T.expm s l)

/-- A history of calls that create compositions and decay them (for nonnegative numbers of time
steps of `secs` seconds).  The log says which composition was returned, which created composition it
goes back to, and for how many time steps it has decayed since. -/
inductive Run (T : Tables) (secs : ℤ) : Comps → List (ℕ × ℕ × ℤ) → Prop
  | init : Run T secs .init []
  | create {s L} (v : CompMap) : Run T secs s L → NonNeg v →
      Run T secs (create s v).1 (((create s v).2, (create s v).2, 0) :: L)
  | decay {s L} (c r : ℕ) (k δ : ℤ) : Run T secs s L → (c, r, k) ∈ L → 0 ≤ δ →
      Run T secs (decay T s c δ secs).1 (((decay T s c δ secs).2, r, k + δ) :: L)

/-- The life of a material that is created at time `t0` with composition `c0` in a simulation with
decay mode `mode` and time steps of `secs` seconds: time goes on, other compositions are created and
decayed, the material is decayed (`Decay()`) and looked at (`comp()`).  `a0` is what the composition
contained at the creation, the last argument the current time. -/
inductive Life (T : Tables) (mode : Mode) (secs : ℤ) (c0 : ℕ) (a0 : CompMap) (t0 : ℤ) :
    Comps → Mat → ℤ → Prop
  | born {s L r k} (q : ℚ) : Run T secs s L → (c0, r, k) ∈ L → a0 = (s.comp c0).atom →
      Life T mode secs c0 a0 t0 s (newMat ⟨mode, secs, t0⟩ true q c0) t0
  | create {s m t} (v : CompMap) : Life T mode secs c0 a0 t0 s m t → NonNeg v →
      Life T mode secs c0 a0 t0 (create s v).1 m t
  | decayOther {s m t} (c : ℕ) (δ : ℤ) : Life T mode secs c0 a0 t0 s m t → 1 ≤ c → c < s.next →
      0 ≤ δ → Life T mode secs c0 a0 t0 (decay T s c δ secs).1 m t
  | tick {s m t} : Life T mode secs c0 a0 t0 s m t → Life T mode secs c0 a0 t0 s m (t + 1)
  | decay {s m t s' m'} : Life T mode secs c0 a0 t0 s m t →
      matDecay T ⟨mode, secs, t⟩ s m (-1) = .ok (s', m') → Life T mode secs c0 a0 t0 s' m' t
  | look {s m t s' m'} : Life T mode secs c0 a0 t0 s m t →
      matComp T ⟨mode, secs, t⟩ s m = .ok (s', m') → Life T mode secs c0 a0 t0 s' m' t

end Cyclus.Decay
