import Verif.Lemmas.Decay
import Mathlib.Tactic.NormNum
import Mathlib.Tactic.Linarith
import Mathlib.Tactic.FieldSimp

/-!
# Properties C76, C77, C78: radioactive decay and the table of compositions
-/

namespace Cyclus.Decay

open Cyclus.CompMath

/-! ### A concrete solver -/

/-- Nuclide 2 turns into nuclide 1 with a half-life of one second. -/
def halves : Tables where
  nucids := [1, 2]
  expm := fun t l =>
    match l with
    | [a, b] => [a + b - b * (1 / 2) ^ t.toNat, b * (1 / 2) ^ t.toNat]
    | _ => l
  change := fun n t => if n = 2 then 1 - (1 / 2) ^ t.toNat else 0

theorem halves_physical : Physical halves := by
  have two : ∀ l : List ℚ, l.length = halves.nucids.length → ∃ a b, l = [a, b] := by
    intro l hl
    match l, hl with
    | [a, b], _ => exact ⟨a, b, rfl⟩
  have pw : ∀ n : ℕ, 0 < ((1 : ℚ) / 2) ^ n ∧ ((1 : ℚ) / 2) ^ n ≤ 1 := fun n =>
    ⟨by positivity, pow_le_one₀ (by norm_num) (by norm_num)⟩
  constructor
  · simp [halves]
  · intro t l hl
    obtain ⟨a, b, rfl⟩ := two l hl
    rfl
  · intro t _ l hl h
    obtain ⟨a, b, rfl⟩ := two l hl
    have ha := h a (by simp)
    have hb := h b (by simp)
    obtain ⟨h1, h2⟩ := pw t.toNat
    intro x hx
    simp only [halves, List.mem_cons, List.not_mem_nil, or_false] at hx
    rcases hx with rfl | rfl
    · nlinarith
    · positivity
  · intro t
    simp [halves]
  · intro s t hs ht l hl
    obtain ⟨a, b, rfl⟩ := two l hl
    simp only [halves, Int.toNat_add hs ht, pow_add, List.cons.injEq, and_true]
    constructor <;> ring

/-! ### Compositions -/

/-- **C76 (partial).**  Whatever was decayed before: a composition that goes back to a created one by `k` time
steps of decay, in however many calls, contains exactly what the solver says is left after
`k * secs` seconds.  Missing: time steps of different lengths (`C76_fails_secs`). -/
theorem C76_value_partial {T : Tables} (hT : Physical T) {secs : ℤ} (hs : 0 ≤ secs) {s : Comps}
    {L : List (ℕ × ℕ × ℤ)} (h : Run T secs s L) {c r : ℕ} {k : ℤ} (hm : (c, r, k) ∈ L)
    (hc : c ≠ r) (n : ℕ) :
    get (s.comp c).atom n = after T (secs * k) (s.comp r).atom n :=
  (h.inv hT hs).val c r k hm hc n

/-- **C76.**  Two results that go back to the same created composition by the same total time are one
composition (one id, recorded once), and results that differ in origin or total time are different
compositions. -/
theorem C76_shared {T : Tables} (hT : Physical T) {secs : ℤ} (hs : 0 ≤ secs) {s : Comps}
    {L : List (ℕ × ℕ × ℤ)} (h : Run T secs s L) {c c' r r' : ℕ} {k k' : ℤ}
    (hm : (c, r, k) ∈ L) (hm' : (c', r', k') ∈ L) (hc : c ≠ r) (hc' : c' ≠ r') :
    c = c' ↔ r = r' ∧ k = k' := by
  have hi := h.inv hT hs
  obtain ⟨-, -, h3, h4, -, -, h7⟩ := hi.mem _ _ _ hm
  obtain ⟨-, -, g3, g4, -, -, g7⟩ := hi.mem _ _ _ hm'
  constructor
  · rintro rfl
    exact ⟨hi.root _ _ h7 g7 (h4.symm.trans g4), h3.symm.trans g3⟩
  · rintro ⟨rfl, rfl⟩
    have e1 := hi.line_of _ _ _ hm hc
    have e2 := hi.line_of _ _ _ hm' hc'
    rw [h4] at e1
    rw [g4] at e2
    exact Option.some.inj (e1.symm.trans e2)

/-- **C76.**  Compositions are immutable: neither creating nor decaying changes one that exists. -/
theorem C76_immutable (T : Tables) (s : Comps) (v : CompMap) (c : ℕ) (δ secs : ℤ) {a : ℕ}
    (ha : a < s.next) : (create s v).1.comp a = s.comp a ∧
      (decay T s c δ secs).1.comp a = s.comp a :=
  ⟨if_neg (by omega), (decay_old T s c δ secs ha).1⟩

/-- Ids given out are new, and creation returns what it was given. -/
theorem C76_create (s : Comps) (v : CompMap) :
    (create s v).2 = s.next ∧ (create s v).1.next = s.next + 1 ∧
    ((create s v).1.comp (create s v).2).atom = v := by
  simp [create]

/-- A history: one composition, decayed for 2 and 3 and then 1 step, and for 3 steps at once. -/
def history : Comps × List (ℕ × ℕ × ℤ) :=
  let s0 := (create .init [(2, 8)]).1
  let s1 := decay halves s0 1 2 1
  let s2 := decay halves s1.1 s1.2 1 1
  let s3 := decay halves s2.1 1 3 1
  (s3.1, [(s3.2, 1, 0 + 3), (s2.2, 1, 0 + 2 + 1), (s1.2, 1, 0 + 2), (1, 1, 0)])

theorem history_run : Run halves 1 history.1 history.2 := by
  have h0 : Run halves 1 (create .init [(2, 8)]).1 [(1, 1, 0)] :=
    Run.create [(2, 8)] Run.init (by intro e he; simp at he; simp [he])
  have h1 := Run.decay 1 1 0 2 h0 (by simp) (by norm_num)
  have h2 := Run.decay (decay halves (create .init [(2, 8)]).1 1 2 1).2 1 (0 + 2) 1 h1 (by simp)
    (by norm_num)
  exact Run.decay 1 1 0 3 h2 (by simp) (by norm_num)

example : ∃ s L c c', Run halves 1 s L ∧ (c, 1, 3) ∈ L ∧ (c', 1, 2) ∈ L ∧ c ≠ 1 ∧ c' ≠ 1 :=
  ⟨history.1, history.2, 3, 2, history_run, by decide +kernel, by decide +kernel, by decide,
    by decide⟩

example : (history.1.comp 3).atom = [(1, 7), (2, 1)] := by decide +kernel

/-- The code contradicts C76 when time steps of different lengths are used
(`composition.h:72-74` lets the caller choose): the cache ignores the length, so that the result for
the first length is returned for every other. -/
theorem C76_fails_secs : ¬ ∀ (T : Tables), Physical T → ∀ (s : Comps) (L : List (ℕ × ℕ × ℤ)),
    Run T 1 s L → ∀ r, (r, r, 0) ∈ L → ∀ (secs δ : ℤ), 0 ≤ secs → 0 ≤ δ → ∀ n,
      get ((decay T s r δ secs).1.comp (decay T s r δ secs).2).atom n
        = after T (secs * δ) (s.comp r).atom n := by
  intro h
  have := h halves halves_physical _ _ history_run 1 (by decide +kernel) 2 3 (by norm_num)
    (by norm_num) 2
  revert this
  decide +kernel

/-- The code contradicts C76 for nuclides that the solver does not know: they disappear, whatever
their half-life and however short the time, even for 0 steps. -/
theorem C76_fails_unknown (T : Tables) (t : ℤ) (v : CompMap) {n : ℕ} (hn : n ∉ T.nucids) :
    get (decayAtoms T t v) n = 0 := by
  unfold decayAtoms
  split
  · rfl
  · refine get_not_mem fun h => hn ?_
    obtain ⟨e, he, rfl⟩ := List.mem_map.1 h
    exact (List.of_mem_zip (List.mem_of_mem_filter he)).1

example : ∃ v : CompMap, get v 3 = 5 ∧ get (decayAtoms halves 0 v) 3 = 0 :=
  ⟨[(1, 2), (3, 5)], by decide +kernel, C76_fails_unknown halves 0 _ (by decide)⟩

/-! ### Materials -/

theorem decayTo_stay {T : Tables} {sim : Sim} {s : Comps} {m : Mat} {t : ℤ} (hc : m.ctx = true)
    (h : t - m.prev = 0 ∨ significant T sim.secs (t - m.prev) (s.comp m.comp).atom = false) :
    decayTo T sim s m t = (s, m) := by
  unfold decayTo
  simp only [hc, if_true]
  by_cases h0 : t - m.prev = 0
  · rw [if_pos h0]
  · rw [if_neg h0]
    rcases h with h | h
    · exact absurd h h0
    · rw [h]; rfl

theorem decayTo_go {T : Tables} {sim : Sim} {s : Comps} {m : Mat} {t : ℤ} (hc : m.ctx = true)
    (h0 : t - m.prev ≠ 0)
    (h : significant T sim.secs (t - m.prev) (s.comp m.comp).atom = true) :
    decayTo T sim s m t = ((decay T s m.comp (t - m.prev) sim.secs).1,
      ⟨m.qty, (decay T s m.comp (t - m.prev) sim.secs).2,
        if sim.time > t then sim.time else t, true⟩) := by
  obtain ⟨q, c, p, x⟩ := m
  simp only at hc h0 h
  subst hc
  unfold decayTo
  simp only [if_true]
  rw [if_neg h0, if_pos h]
  simp only [transmute, true_and, Prod.mk.injEq]
  split <;> simp

/-- What holds during the life of a material. -/
def LifeInv (T : Tables) (secs : ℤ) (c0 : ℕ) (a0 : CompMap) (t0 : ℤ) (s : Comps) (m : Mat)
    (t : ℤ) : Prop :=
  m.ctx = true ∧ t0 ≤ m.prev ∧ m.prev ≤ t ∧ (m.prev = t0 → m.comp = c0) ∧
  (s.comp c0).atom = a0 ∧ ∃ L r k, Run T secs s L ∧ (c0, r, k) ∈ L ∧
    (m.comp, r, k + (m.prev - t0)) ∈ L

theorem LifeInv.decayTo {T : Tables} (hT : Physical T) {secs : ℤ} (hs : 0 ≤ secs) {mode : Mode}
    {c0 : ℕ} {a0 : CompMap} {t0 : ℤ} {s : Comps} {m : Mat} {t : ℤ}
    (h : LifeInv T secs c0 a0 t0 s m t) :
    LifeInv T secs c0 a0 t0 (decayTo T ⟨mode, secs, t⟩ s m t).1
      (decayTo T ⟨mode, secs, t⟩ s m t).2 t := by
  obtain ⟨h1, h2, h3, h4, h5, L, r, k, h6, h7, h8⟩ := h
  by_cases hg : t - m.prev = 0 ∨ significant T secs (t - m.prev) (s.comp m.comp).atom = false
  · rw [decayTo_stay (sim := ⟨mode, secs, t⟩) h1 hg]
    exact ⟨h1, h2, h3, h4, h5, L, r, k, h6, h7, h8⟩
  · push Not at hg
    rw [decayTo_go (sim := ⟨mode, secs, t⟩) h1 hg.1 (by simpa using hg.2)]
    have hdt := hg.1
    have hinv := h6.inv hT hs
    simp only [gt_iff_lt, lt_self_iff_false, if_false]
    refine ⟨rfl, by simp only; omega, le_refl _, by simp only; omega, ?_, _, r, k,
      Run.decay m.comp r _ (t - m.prev) h6 h8 (by omega), List.mem_cons_of_mem _ h7, ?_⟩
    · rw [(decay_old T s m.comp _ secs (hinv.mem _ _ _ h7).2.1).1]
      exact h5
    · simp only [List.mem_cons, Prod.mk.injEq, true_and]
      left; omega

theorem LifeInv.matDecay {T : Tables} (hT : Physical T) {secs : ℤ} (hs : 0 ≤ secs) {mode : Mode}
    {c0 : ℕ} {a0 : CompMap} {t0 : ℤ} {s : Comps} {m : Mat} {t : ℤ}
    (h : LifeInv T secs c0 a0 t0 s m t) {s' m'}
    (e : matDecay T ⟨mode, secs, t⟩ s m (-1) = .ok (s', m')) :
    LifeInv T secs c0 a0 t0 s' m' t := by
  unfold Cyclus.Decay.matDecay at e
  split at e
  · simp only [Except.ok.injEq, Prod.mk.injEq] at e
    rw [← e.1, ← e.2]; exact h
  · split at e
    · exact absurd e (by simp)
    · simp only [Except.ok.injEq] at e
      have := h.decayTo (mode := mode) hT hs
      have e' : Cyclus.Decay.decayTo T ⟨mode, secs, t⟩ s m t = (s', m') := by simpa using e
      rw [e'] at this
      exact this

theorem Life.inv {T : Tables} (hT : Physical T) {secs : ℤ} (hs : 0 ≤ secs) {mode : Mode}
    {c0 : ℕ} {a0 : CompMap} {t0 : ℤ} {s : Comps} {m : Mat} {t : ℤ}
    (h : Life T mode secs c0 a0 t0 s m t) : LifeInv T secs c0 a0 t0 s m t := by
  induction h with
  | born q hr hm ha =>
    exact ⟨rfl, le_refl _, le_refl _, fun _ => rfl, ha.symm, _, _, _, hr, hm, by
      simpa [newMat] using hm⟩
  | create v _ hv ih =>
    obtain ⟨h1, h2, h3, h4, h5, L, r, k, h6, h7, h8⟩ := ih
    refine ⟨h1, h2, h3, h4, ?_, _, r, k, Run.create v h6 hv, List.mem_cons_of_mem _ h7,
      List.mem_cons_of_mem _ h8⟩
    have := ((h6.inv hT hs).mem _ _ _ h7).2.1
    rw [(C76_immutable T _ v 0 0 0 this).1]
    exact h5
  | decayOther c δ _ hc1 hc2 hδ ih =>
    obtain ⟨h1, h2, h3, h4, h5, L, r, k, h6, h7, h8⟩ := ih
    obtain ⟨r', k', hm⟩ := (h6.inv hT hs).all c hc1 hc2
    refine ⟨h1, h2, h3, h4, ?_, _, r, k, Run.decay c r' k' δ h6 hm hδ, List.mem_cons_of_mem _ h7,
      List.mem_cons_of_mem _ h8⟩
    rw [(decay_old T _ c δ secs ((h6.inv hT hs).mem _ _ _ h7).2.1).1]
    exact h5
  | tick _ ih =>
    obtain ⟨h1, h2, h3, h4, h5, h6⟩ := ih
    exact ⟨h1, h2, by omega, h4, h5, h6⟩
  | decay _ e ih => exact ih.matDecay hT hs e
  | look _ e ih =>
    unfold matComp at e
    split at e
    · exact ih.matDecay hT hs e
    · simp only [Except.ok.injEq, Prod.mk.injEq] at e
      rw [← e.1, ← e.2]; exact ih

/-- **C77 (partial).**  At every moment of its life in a simulation, a material that is only decayed contains
exactly what its initial composition has become by the time `prev_decay_time()`, which lies between
its creation and now; what happens to other compositions does not matter.
Missing: decaying to a time other than now (`C77_fails_early`, `C77_fails_back`) and combining
(`C77_fails_absorb`). -/
theorem C77_content_partial {T : Tables} (hT : Physical T) {secs : ℤ} (hs : 0 ≤ secs) {mode : Mode}
    {c0 : ℕ} {a0 : CompMap} {t0 : ℤ} {s : Comps} {m : Mat} {t : ℤ}
    (h : Life T mode secs c0 a0 t0 s m t) :
    t0 ≤ m.prev ∧ m.prev ≤ t ∧
    (m.prev = t0 → m.comp = c0 ∧ (s.comp m.comp).atom = a0) ∧
    (t0 < m.prev → ∀ n, get (s.comp m.comp).atom n = after T (secs * (m.prev - t0)) a0 n) := by
  obtain ⟨h1, h2, h3, h4, h5, L, r, k, h6, h7, h8⟩ := h.inv hT hs
  refine ⟨h2, h3, fun e => ⟨h4 e, (h4 e).symm ▸ h5⟩, fun hlt n => ?_⟩
  have hi := h6.inv hT hs
  obtain ⟨-, -, -, -, hk, hroot, -⟩ := hi.mem _ _ _ h7
  have hne : m.comp ≠ r := fun e => by
    have := (hi.mem _ _ _ h8).2.2.2.2.2.1 e
    omega
  rw [hi.val _ _ _ h8 hne n]
  have hΔ : 0 ≤ secs * (m.prev - t0) := mul_nonneg hs (by omega)
  by_cases hc : c0 = r
  · rw [hroot hc, ← h5, hc, zero_add]
  · rw [← h5, after_after hT (mul_nonneg hs hk) hΔ (hi.val _ _ _ h7 hc), ← mul_add]

/-- **C77.**  What `Decay()` does to a material with a context, when decay is not switched off: if
there are at most 100 nuclides and none would change by 0.1% or more since `prev_decay_time()`,
nothing at all happens, so the time counts for the next call; otherwise the material is decayed up to
now.  The quantity never changes. -/
theorem C77_call (T : Tables) (sim : Sim) (s : Comps) (m : Mat) (hc : m.ctx = true)
    (hm : sim.mode ≠ .never) :
    ((m.prev = sim.time ∨ ((s.comp m.comp).atom.length ≤ 100 ∧
        ∀ e ∈ (s.comp m.comp).atom, T.change e.1 (sim.secs * (sim.time - m.prev)) < 1 / 1000)) →
      matDecay T sim s m (-1) = .ok (s, m)) ∧
    (¬ (m.prev = sim.time ∨ ((s.comp m.comp).atom.length ≤ 100 ∧
        ∀ e ∈ (s.comp m.comp).atom, T.change e.1 (sim.secs * (sim.time - m.prev)) < 1 / 1000)) →
      ∃ s' c', decay T s m.comp (sim.time - m.prev) sim.secs = (s', c') ∧
        matDecay T sim s m (-1) = .ok (s', ⟨m.qty, c', sim.time, true⟩)) := by
  have e : matDecay T sim s m (-1) = .ok (decayTo T sim s m sim.time) := by
    unfold matDecay
    rw [if_neg (by simp [hm]), if_neg (by simp [hc])]
    simp
  have hsig : significant T sim.secs (sim.time - m.prev) (s.comp m.comp).atom = false ↔
      ((s.comp m.comp).atom.length ≤ 100 ∧
        ∀ e ∈ (s.comp m.comp).atom, T.change e.1 (sim.secs * (sim.time - m.prev)) < 1 / 1000) := by
    simp [significant]
  constructor
  · intro h
    rw [e, decayTo_stay hc]
    rcases h with h | h
    · left; omega
    · exact Or.inr (hsig.2 h)
  · intro h
    push Not at h
    refine ⟨(decay T s m.comp (sim.time - m.prev) sim.secs).1,
      (decay T s m.comp (sim.time - m.prev) sim.secs).2, rfl, ?_⟩
    have h2 : significant T sim.secs (sim.time - m.prev) (s.comp m.comp).atom = true := by
      by_contra hn
      rw [Bool.not_eq_true] at hn
      obtain ⟨g1, g2⟩ := hsig.1 hn
      obtain ⟨e, he, hx⟩ := h.2 g1
      exact absurd (g2 e he) (not_lt.2 hx)
    rw [e, decayTo_go hc (by omega) h2]
    simp

/-- **C77.**  With decay mode "never" nothing changes, in whatever way `Decay` is called. -/
theorem C77_never (T : Tables) (sim : Sim) (s : Comps) (m : Mat) (t : ℤ) (hc : m.ctx = true)
    (hm : sim.mode = .never) : matDecay T sim s m t = .ok (s, m) ∧ matComp T sim s m = .ok (s, m) :=
  ⟨if_pos ⟨hc, hm⟩, if_neg (by simp [hm])⟩

/-- **C77.**  Splitting keeps composition and time of the last decay in both parts, so that both go
on to decay alike. -/
theorem C77_extract {m rest part : Mat} {q : ℚ} (h : extractQty m q = .ok (rest, part)) :
    rest.comp = m.comp ∧ part.comp = m.comp ∧ rest.prev = m.prev ∧ part.prev = m.prev ∧
    rest.qty + part.qty = m.qty := by
  unfold extractQty at h
  split at h
  · exact absurd h (by simp)
  · simp only [Except.ok.injEq, Prod.mk.injEq] at h
    obtain ⟨rfl, rfl⟩ := h
    simp

/-- A material of two seconds of age. -/
def aged : Comps × Mat :=
  let s := (create .init [(2, 8)]).1
  match matDecay halves ⟨.manual, 1, 2⟩ s (newMat ⟨.manual, 1, 0⟩ true 5 1) (-1) with
  | .ok x => x
  | .error _ => (s, newMat ⟨.manual, 1, 0⟩ true 5 1)

example : Life halves .manual 1 1 [(2, 8)] 0 aged.1 aged.2 2 ∧ 0 < aged.2.prev := by
  refine ⟨?_, by decide +kernel⟩
  have h0 : Run halves 1 (create .init [(2, 8)]).1 [(1, 1, 0)] :=
    Run.create [(2, 8)] Run.init (by intro e he; simp at he; simp [he])
  have h1 : Life halves .manual 1 1 [(2, 8)] 0 (create .init [(2, 8)]).1
      (newMat ⟨.manual, 1, 0⟩ true 5 1) 0 := Life.born (r := 1) (k := 0) 5 h0 (by simp) rfl
  have h2 := Life.tick (Life.tick h1)
  refine Life.decay h2 ?_
  simp only [aged]
  rfl

example : (aged.1.comp aged.2.comp).atom = [(1, 6), (2, 2)] := by decide +kernel

/-- The code contradicts C77 when a material is decayed to a time before the current one
(`material.h:140` allows a time to be given): the time between that and the current time is lost,
because `Transmute` moves `prev_decay_time()` on to now. -/
theorem C77_fails_early : ¬ ∀ (T : Tables), Physical T → ∀ (sim : Sim) (s : Comps) (m : Mat)
    (t : ℤ) (s' : Comps) (m' : Mat), sim.mode ≠ .never → m.ctx = true → m.prev ≤ t → t ≤ sim.time →
      matDecay T sim s m t = .ok (s', m') → m'.prev ≤ t := by
  intro h
  have h' := h halves halves_physical ⟨.manual, 1, 5⟩ (create .init [(2, 8)]).1
    (newMat ⟨.manual, 1, 0⟩ true 5 1) 2 _ _ (by simp) rfl (by decide) (by decide) rfl
  exact absurd h' (by decide +kernel)

/-- The code contradicts C77 when the time given is before the last decay and there are more than
100 nuclides: the material is decayed backwards, with a negative number of seconds. -/
theorem C77_fails_back (T : Tables) (sim : Sim) (s : Comps) (m : Mat) (t : ℤ) (hc : m.ctx = true)
    (hm : sim.mode ≠ .never) (ht : 0 ≤ t) (hp : t < m.prev)
    (hn : 100 < (s.comp m.comp).atom.length)
    (hl : s.line (s.comp m.comp).line ((s.comp m.comp).prev + (t - m.prev)) = none) :
    ∃ s' m', matDecay T sim s m t = .ok (s', m') ∧
      (s'.comp m'.comp).atom = decayAtoms T (sim.secs * (t - m.prev)) (s.comp m.comp).atom := by
  have hsig : significant T sim.secs (t - m.prev) (s.comp m.comp).atom = true := by
    simp [significant, hn]
  have e : matDecay T sim s m t = .ok (decayTo T sim s m t) := by
    unfold matDecay
    rw [if_neg (by simp [hm]), if_neg (by simp [hc]), if_neg (by omega)]
  rw [decayTo_go hc (by omega) hsig] at e
  refine ⟨_, _, e, ?_⟩
  rw [decay_miss hl]
  simp [newDecay]

example : ∃ (s : Comps) (m : Mat), m.ctx = true ∧ 0 < m.prev ∧
    100 < (s.comp m.comp).atom.length ∧
    s.line (s.comp m.comp).line ((s.comp m.comp).prev + (0 - m.prev)) = none :=
  ⟨(create .init ((List.range 101).map fun n => (n, 1))).1, ⟨1, 1, 4, true⟩, rfl, by decide, by
    simp [create, Comps.init], rfl⟩

/-- The code contradicts C77 when materials that were decayed up to different times are combined:
the result counts as decayed up to the time of the larger one, so that the smaller one loses (or
gains) time.  Here two materials of the same composition are combined at time 2, one created at time
0 and one at time 2; decayed before, the older one would have lost three quarters of its
nuclide 2. -/
theorem C77_fails_absorb : ∃ (T : Tables) (am : ℕ → ℚ) (sim : Sim) (s : Comps) (m o m' o' : Mat)
    (s' : Comps), Physical T ∧ sim.mode = .manual ∧ m.prev < sim.time ∧ o.prev = sim.time ∧
      absorb T am sim s m o = .ok (s', m', o') ∧ m'.prev = sim.time ∧ m'.comp = m.comp ∧
      (s'.comp m'.comp).atom = (s.comp m.comp).atom ∧ matDecay T sim s' m' (-1) = .ok (s', m') ∧
      ∃ n, after T (sim.secs * (sim.time - m.prev)) (s.comp m.comp).atom n
        < get (s.comp m.comp).atom n := by
  refine ⟨halves, fun _ => 1, ⟨.manual, 1, 2⟩, (create .init [(2, 8)]).1,
    newMat ⟨.manual, 1, 0⟩ true 5 1, newMat ⟨.manual, 1, 2⟩ true 6 1, _, _, _, halves_physical, rfl,
    by decide, rfl, rfl, by decide +kernel, rfl, rfl, ?_, 2, by decide +kernel⟩
  exact (C77_call halves _ _ _ rfl (by simp)).1 (Or.inl (by decide +kernel))

/-! ### The table of compositions -/

/-- **C78.**  Whatever compositions are recorded, and however often: the rows of a composition are
those of its first recording, and there are none if it never was recorded. -/
theorem C78_once (am : ℕ → ℚ) (s : Comps) (cs : List ℕ) (c : ℕ) :
    ((cs.foldl (record am s) ⟨fun _ => false, []⟩).rows.filter fun e => e.1 == c)
      = if c ∈ cs then (normalize (massOfAtom am (s.comp c).atom) 1).map fun e => (c, e.1, e.2)
        else [] := by
  have aux : ∀ (d : ℕ) (v : CompMap), ((v.map fun e => (d, e.1, e.2)).filter
      fun e : ℕ × ℕ × ℚ => e.1 == c) = if d = c then v.map fun e => (d, e.1, e.2) else [] := by
    intro d v
    split
    · rename_i h
      rw [List.filter_eq_self]
      intro e he
      obtain ⟨x, -, rfl⟩ := List.mem_map.1 he
      simp [h]
    · rename_i h
      rw [List.filter_eq_nil_iff]
      intro e he
      obtain ⟨x, -, rfl⟩ := List.mem_map.1 he
      simp [h]
  have gen : ∀ (cs : List ℕ) (R : Table),
      ((cs.foldl (record am s) R).rows.filter fun e => e.1 == c)
        = (R.rows.filter fun e => e.1 == c) ++
          if c ∈ cs ∧ R.recorded c = false then
            (normalize (massOfAtom am (s.comp c).atom) 1).map fun e => (c, e.1, e.2)
          else [] := by
    intro cs
    induction cs with
    | nil => simp
    | cons d cs ih =>
      intro R
      rw [List.foldl_cons, ih]
      by_cases hd : R.recorded d = true
      · have : record am s R d = R := by simp [record, hd]
        rw [this]
        by_cases hcd : c = d
        · subst hcd
          simp [hd]
        · simp [hcd]
      · rw [Bool.not_eq_true] at hd
        simp only [record, hd, Bool.false_eq_true, if_false, List.filter_append, aux]
        by_cases hcd : d = c
        · subst hcd
          simp [hd]
        · have hcd' : c ≠ d := fun e => hcd e.symm
          simp [hcd, hcd']
  rw [gen]
  simp

/-- **C78 (partial).**  The rows of a composition that contains anything are its mass fractions: they sum to 1
and are in the proportions of `mass()`.  Missing: compositions of no mass (`C78_fails_blank`). -/
theorem C78_fractions_partial (am : ℕ → ℚ) (s : Comps) (c : ℕ)
    (h : ((massOfAtom am (s.comp c).atom).map Prod.snd).sum ≠ 0) :
    let rows := (record am s ⟨fun _ => false, []⟩ c).rows
    (rows.map fun e => e.2.2).sum = 1 ∧
    rows.map (fun e => e.2.1) = (s.comp c).atom.map Prod.fst ∧
    ∀ (i j : ℕ) (e e' : ℕ × ℕ × ℚ) (x x' : ℕ × ℚ), rows[i]? = some e → rows[j]? = some e' →
      (s.comp c).atom[i]? = some x → (s.comp c).atom[j]? = some x' →
      e.2.2 * (x'.2 * am x'.1) = e'.2.2 * (x.2 * am x.1) := by
  rw [← sum_eq] at h
  have hn : ∃ f : ℚ, normalize (massOfAtom am (s.comp c).atom) 1
      = (massOfAtom am (s.comp c).atom).map fun e => (e.1, e.2 * f) := by
    unfold normalize
    split
    · exact ⟨_, rfl⟩
    · exact ⟨1, by simp⟩
  have hs := sum_normalize (x := 1) h
  obtain ⟨f, hf⟩ := hn
  rw [hf, sum_eq] at hs
  simp only [record, Bool.false_eq_true, if_false, List.nil_append, hf]
  refine ⟨?_, ?_, ?_⟩
  · rw [List.map_map]
    exact hs
  · simp [massOfAtom, List.map_map, Function.comp_def]
  · intro i j e e' x x' hi hj gi gj
    simp only [massOfAtom, List.map_map, List.getElem?_map, gi, gj, Option.map_some,
      Function.comp, Option.some.injEq] at hi hj
    subst hi hj
    ring

example : ((massOfAtom (fun n => n) ((create .init [(1, 3), (2, 4)]).1.comp 1).atom).map
    Prod.snd).sum ≠ 0 := by decide +kernel

example : (record (fun n => n) (create .init [(1, 3), (2, 4)]).1 ⟨fun _ => false, []⟩ 1).rows
    = [(1, 1, 3 / 11), (1, 2, 8 / 11)] := by decide +kernel

/-- The code contradicts C78 for compositions of no mass: they leave no trace in the table if they
are empty, and otherwise fractions that sum to 0. -/
theorem C78_fails_blank (am : ℕ → ℚ) (s : Comps) (c : ℕ)
    (h : ((massOfAtom am (s.comp c).atom).map Prod.snd).sum = 0) :
    ((record am s ⟨fun _ => false, []⟩ c).rows.map fun e => e.2.2).sum = 0 := by
  rw [← sum_eq] at h
  simp only [record, Bool.false_eq_true, if_false, List.nil_append, normalize_blank h]
  rw [List.map_map, ← h, sum_eq]
  rfl

example : ((massOfAtom (fun n => n) ((create .init []).1.comp 1).atom).map Prod.snd).sum = 0 := by
  decide +kernel

end Cyclus.Decay
