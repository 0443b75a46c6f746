import Verif.Lemmas.Decayer
import Verif.Props.UniformTaylor
import Mathlib.Algebra.BigOperators.Fin
import Mathlib.Algebra.BigOperators.Group.Finset.Basic

/-!
# C92: the decay calculation
-/

namespace Cyclus.Decayer

open Cyclus.LMat Real

/-- The states of the static members: compositions are given to the constructor one after the
other. -/
inductive Reaches (d : Data) (z : ℝ → Bool) (ord : List Entry → List Entry) : Static → Prop
  | init : Reaches d z ord Static.init
  | step {s s' : Static} {i : Inst} {fuel : ℕ} {comp : List (ℕ × ℝ)} : Reaches d z ord s →
      (comp.map Prod.fst).Nodup → construct d z ord fuel s comp = some (s', i) →
      Reaches d z ord s'

/-- No nuclide decays into itself, and loops visit every entry of a table once. -/
structure Sane (d : Data) (ord : List Entry → List Entry) : Prop where
  self : ∀ a, a ∉ d.kids a
  ord : ∀ l, (ord l).Perm l

/-- The amount of a nuclide in a composition. -/
noncomputable def amount (comp : ℕ → Option ℝ) (a : ℕ) : ℝ := (comp a).getD 0

/-- The tables and the matrix fit together. -/
def Good (d : Data) (z : ℝ → Bool) (s : Static) : Prop :=
  Tables d [] s ∧ (s.tracked ≠ [] → Denotes s.matrix (decayMatrix d z s))

/-- What the constructor does in a good state. -/
theorem construct_spec {d : Data} {z : ℝ → Bool} {ord : List Entry → List Entry}
    (hS : Sane d ord) {s s' : Static} {i : Inst} {fuel : ℕ} {comp : List (ℕ × ℝ)}
    (hG : Good d z s) (hn : (comp.map Prod.fst).Nodup)
    (h : construct d z ord fuel s comp = some (s', i)) :
    Good d z s' ∧ (∃ e, s'.tracked = s.tracked ++ e ∧
        ∀ a ∈ e, ∃ b ∈ comp.map Prod.fst, Reach d b a) ∧
      (∀ e ∈ comp, e.1 ∈ s'.tracked) ∧
      NucVec s' i.pre (fun a => (comp.lookup a).getD 0) := by
  unfold construct at h
  cases h1 : addAll d fuel comp (s, false) with
  | none => rw [h1] at h; cases h
  | some r =>
    obtain ⟨u, b⟩ := r
    rw [h1] at h
    simp only at h
    obtain ⟨t1, g1, m1, e1⟩ := addAll_spec d fuel comp s u false b hG.1 h1
    have key : ∀ w : Static, w.parent = u.parent → w.tracked = u.tracked →
        w.daughters = u.daughters → (w.tracked ≠ [] → Denotes w.matrix (decayMatrix d z w)) →
        (match comp.foldlM (fillCell w) (zeros w.parent.length 1) with
          | none => none
          | some V => some (w, (⟨V, zeros 1 1⟩ : Inst))) = some (s', i) →
        Good d z s' ∧ (∃ e, s'.tracked = s.tracked ++ e ∧
          ∀ a ∈ e, ∃ b ∈ comp.map Prod.fst, Reach d b a) ∧
        (∀ e ∈ comp, e.1 ∈ s'.tracked) ∧
        NucVec s' i.pre (fun a => (comp.lookup a).getD 0) := by
      intro w w1 w2 w3 w4 hw
      have tw : Tables d [] w := by
        obtain ⟨a1, a2, a3, a4, a5, a6⟩ := t1
        have hc : ∀ a, column w a = column u a := fun a => by unfold column; rw [w2]
        refine ⟨by rw [w2]; exact a1, by rw [w1, w2]; exact a2, by rw [w1, w2]; exact a3, ?_, ?_, ?_⟩
        · intro a ha
          rw [w1, hc]
          exact a4 a (by rw [← w2]; exact ha)
        · intro a ha hp k hk
          rw [w2]
          exact a5 a (by rw [← w2]; exact ha) hp k hk
        · intro a ha hp
          rw [w3, hc]
          exact a6 a (by rw [← w2]; exact ha) hp
      obtain ⟨V, h2, n2⟩ := fill_spec tw comp hn (fun e he => by rw [w2]; exact m1 e he)
        (zeros w.tracked.length 1) (fun _ => 0) (nucVec_zeros w)
      rw [tw.size, h2] at hw
      simp only [Option.some.injEq, Prod.mk.injEq] at hw
      obtain ⟨rfl, rfl⟩ := hw
      refine ⟨⟨tw, w4⟩, ?_, fun e he => by rw [w2]; exact m1 e he, n2⟩
      rw [w2]
      exact g1.ext
    cases b with
    | false =>
      simp only [Bool.false_eq_true, if_false] at h
      obtain ⟨rfl, _⟩ := e1 rfl
      exact key u rfl rfl rfl hG.2 h
    | true =>
      obtain ⟨M, h2, d2⟩ := build_spec (z := z) t1 hS.self hS.ord
      simp only [if_true, h2] at h
      exact key { u with matrix := M } rfl rfl rfl (fun _ => d2) h

theorem good_of_reaches {d : Data} {z : ℝ → Bool} {ord : List Entry → List Entry}
    (hS : Sane d ord) {s : Static} (h : Reaches d z ord s) : Good d z s := by
  induction h with
  | init => exact ⟨tables_init d [], fun h => absurd rfl h⟩
  | step _ hn hc ih => exact (construct_spec hS ih hn hc).1

/-- C92: in every history the tracked nuclides are different, closed under decay, and have the
columns `1, 2, …, n` of the matrix; the tables hold their decay constants and branching ratios. -/
theorem C92_tables {d : Data} {z : ℝ → Bool} {ord : List Entry → List Entry} (hS : Sane d ord)
    {s : Static} (h : Reaches d z ord s) :
    s.tracked.Nodup ∧ s.parent.length = s.tracked.length ∧
    (∀ nuc ∈ s.tracked, ∀ k ∈ d.kids nuc, k ∈ s.tracked) ∧
    ∀ (i : ℕ) (nuc : ℕ), s.tracked[i]? = some nuc →
      s.parent.lookup nuc = some (i + 1, d.lam nuc) ∧
      s.daughters.lookup (i + 1) = some ((d.kids nuc).map fun k => (k, d.br nuc k)) := by
  obtain ⟨hT, _⟩ := good_of_reaches hS h
  refine ⟨hT.nodup, hT.size, fun a ha => hT.closed a ha (by simp), fun i nuc hi => ?_⟩
  obtain ⟨hlt, e⟩ := List.getElem?_eq_some_iff.mp hi
  have hmem : nuc ∈ s.tracked := e ▸ List.getElem_mem hlt
  have hcol : column s nuc = i + 1 := by
    unfold column
    rw [← e, hT.nodup.idxOf_getElem i hlt]
  rw [← hcol]
  exact ⟨hT.parent nuc hmem, hT.daughters nuc hmem (by simp)⟩

/-- C92: the constructor adds the nuclides of the composition and those they decay into at the end of
the list, and no others; the matrix is the decay matrix of all tracked nuclides and the vector holds
the composition. -/
theorem C92_construct {d : Data} {z : ℝ → Bool} {ord : List Entry → List Entry} (hS : Sane d ord)
    {s s' : Static} {i : Inst} {fuel : ℕ} {comp : List (ℕ × ℝ)} (h : Reaches d z ord s)
    (hn : (comp.map Prod.fst).Nodup) (hc : construct d z ord fuel s comp = some (s', i)) :
    (∃ e, s'.tracked = s.tracked ++ e ∧ ∀ a ∈ e, ∃ b ∈ comp.map Prod.fst, Reach d b a) ∧
    (∀ e ∈ comp, e.1 ∈ s'.tracked) ∧
    (s'.tracked ≠ [] → Denotes s'.matrix (fun a b : Fin s'.tracked.length =>
      if s'.tracked[a] = s'.tracked[b] then - effective z (d.lam s'.tracked[b])
      else if s'.tracked[a] ∈ d.kids s'.tracked[b] then
        d.br s'.tracked[b] s'.tracked[a] * effective z (d.lam s'.tracked[b])
      else 0)) ∧
    IsVec i.pre (fun a : Fin s'.tracked.length => (comp.lookup s'.tracked[a]).getD 0) := by
  obtain ⟨g, e, m, v⟩ := construct_spec hS (good_of_reaches hS h) hn hc
  exact ⟨e, m, g.2, v⟩

/-- C92: the constructor ends if the nuclides decay into finitely many others. -/
theorem C92_ends {d : Data} {z : ℝ → Bool} {ord : List Entry → List Entry} (hS : Sane d ord)
    {s : Static} (h : Reaches d z ord s) (U : List ℕ) (hU : ∀ a ∈ U, ∀ k ∈ d.kids a, k ∈ U)
    (comp : List (ℕ × ℝ)) (hn : (comp.map Prod.fst).Nodup) (hc : ∀ e ∈ comp, e.1 ∈ U) (fuel : ℕ)
    (hf : U.length < fuel) : ∃ s' i, construct d z ord fuel s comp = some (s', i) := by
  have hG := good_of_reaches hS h
  obtain ⟨⟨u, b⟩, h1⟩ := addAll_total d U hU comp s false hG.1 hc fuel hf
  obtain ⟨t1, g1, m1, e1⟩ := addAll_spec d fuel comp s u false b hG.1 h1
  unfold construct
  rw [h1]
  simp only
  cases b with
  | false =>
    obtain ⟨V, h2, _⟩ := fill_spec t1 comp hn m1 _ _ (nucVec_zeros u)
    simp only [Bool.false_eq_true, if_false, t1.size, h2]
    exact ⟨_, _, rfl⟩
  | true =>
    obtain ⟨M, h3, _⟩ := build_spec (z := z) t1 hS.self hS.ord
    have t2 : Tables d [] { u with matrix := M } :=
      ⟨t1.nodup, t1.size, t1.keys, t1.parent, t1.closed, t1.daughters⟩
    obtain ⟨V, h2, _⟩ := fill_spec t2 comp hn m1 _ _ (nucVec_zeros { u with matrix := M })
    simp only [if_true, h3, t1.size]
    simp only at h2
    rw [h2]
    exact ⟨_, _, rfl⟩

/-- A nuclide 1 that decays into the stable nuclide 2. -/
noncomputable def twoData : Data where
  lam a := if a = 1 then 1 else 0
  kids a := if a = 1 then [2] else []
  br _ _ := 1

theorem twoSane : Sane twoData id where
  self a := by
    unfold twoData
    by_cases h : a = 1 <;> simp [h]
  ord l := List.Perm.refl l

example : ∃ s i, construct twoData (fun _ => false) id 3 Static.init [(1, 5)] = some (s, i) :=
  C92_ends twoSane .init [1, 2]
    (by
      intro a _ k hk
      unfold twoData at hk
      by_cases h : a = 1
      · simp [h] at hk
        simp [hk]
      · simp [h] at hk)
    [(1, 5)] (by simp) (by simp) 3 (by simp)

/-- C92: `GetResult` writes the positive amounts of the tracked nuclides and nothing else. -/
theorem C92_result {d : Data} {z : ℝ → Bool} {ord : List Entry → List Entry} (hS : Sane d ord)
    {s : Static} (h : Reaches d z ord s) {i : Inst} {y : ℕ → ℝ}
    (hi : IsVec i.post (fun a : Fin s.tracked.length => y s.tracked[a])) (comp : ℕ → Option ℝ) :
    ∃ out, getResult ord s i comp = some out ∧
      ∀ a, out a = if a ∈ s.tracked ∧ 0 < y a then some (y a) else comp a := by
  obtain ⟨hT, _⟩ := good_of_reaches hS h
  obtain ⟨L, hL, e⟩ := ord_eq hT hS.ord
  obtain ⟨out, h1, h2⟩ := result_fold hT hi L (fun b hb => hL.mem_iff.mp hb) comp
  refine ⟨out, ?_, fun a => ?_⟩
  · unfold getResult
    rw [e]
    exact h1
  · rw [h2 a]
    simp only [hL.mem_iff]

/-- The decay equations of the tracked nuclides on `[0, T]`, with the initial amounts `N0`. -/
structure Bateman (d : Data) (tracked : List ℕ) (N0 : ℕ → ℝ) (T : ℝ) (N : ℝ → ℕ → ℝ) : Prop where
  start : ∀ a ∈ tracked, N 0 a = N0 a
  cont : ∀ a ∈ tracked, ContinuousOn (fun t => N t a) (Set.Icc 0 T)
  deriv : ∀ t, 0 ≤ t → t < T → ∀ a ∈ tracked,
    HasDerivWithinAt (fun t => N t a)
      (-(d.lam a * N t a) + ∑ b ∈ tracked.toFinset with a ∈ d.kids b, d.br b a * d.lam b * N t b)
      (Set.Ici t) t

/-- Decay constants and branching ratios are not negative, and the branching ratios of a nuclide sum
up to at most one. -/
structure Physical (d : Data) : Prop where
  lam : ∀ a, 0 ≤ d.lam a
  br : ∀ a b, 0 ≤ d.br a b
  sum : ∀ a, ∑ k ∈ (d.kids a).toFinset, d.br a k ≤ 1

theorem sum_tracked {l : List ℕ} (hl : l.Nodup) (f : ℕ → ℝ) :
    ∑ i : Fin l.length, f l[i] = ∑ a ∈ l.toFinset, f a := by
  rw [List.sum_toFinset f hl, ← List.sum_ofFn]
  congr 1
  apply List.ext_getElem
  · simp
  · intro k hk hk'
    simp

theorem effective_eq {z : ℝ → Bool} {lam : ℝ} (h : z (exp (-2903040000 * lam)) = false) :
    effective z lam = lam := by
  unfold effective
  rw [h]
  rfl

theorem effective_nonneg {z : ℝ → Bool} {lam : ℝ} (h : 0 ≤ lam) : 0 ≤ effective z lam := by
  unfold effective
  split
  · exact le_refl 0
  · exact h

theorem decayLike {d : Data} (hP : Physical d) (hself : ∀ a, a ∉ d.kids a) (z : ℝ → Bool)
    {s : Static} (hT : Tables d [] s) : DecayLike (decayMatrix d z s) := by
  constructor
  · intro i j hij
    unfold decayMatrix rate
    have hne : s.tracked[i] ≠ s.tracked[j] := by
      intro h
      apply hij
      apply Fin.ext
      exact (hT.nodup.getElem_inj_iff).mp h
    rw [if_neg hne]
    split
    · exact mul_nonneg (hP.br _ _) (effective_nonneg (hP.lam _))
    · exact le_refl 0
  · intro j
    unfold decayMatrix
    rw [sum_tracked hT.nodup (fun a => rate d z a s.tracked[j])]
    have hb : s.tracked[j] ∈ s.tracked := List.getElem_mem _
    generalize s.tracked[j] = b at hb
    have hsplit : ∀ a ∈ s.tracked.toFinset, rate d z a b =
        (if a = b then - effective z (d.lam b) else 0) +
          (if a ∈ (d.kids b).toFinset then d.br b a * effective z (d.lam b) else 0) := by
      intro a _
      unfold rate
      simp only [List.mem_toFinset]
      by_cases hab : a = b
      · subst hab
        simp [hself]
      · simp [hab]
    rw [Finset.sum_congr rfl hsplit, Finset.sum_add_distrib, Finset.sum_ite_eq',
      if_pos (List.mem_toFinset.mpr hb), ← Finset.sum_filter]
    have hfil : s.tracked.toFinset.filter (fun a => a ∈ (d.kids b).toFinset) =
        (d.kids b).toFinset := by
      ext a
      simp only [Finset.mem_filter, List.mem_toFinset]
      exact ⟨fun h => h.2, fun h => ⟨hT.closed b hb (by simp) a h, h⟩⟩
    rw [hfil, ← Finset.sum_mul]
    have := mul_le_mul_of_nonneg_right (hP.sum b) (effective_nonneg (z := z) (hP.lam b))
    linarith

theorem solves_of_bateman {d : Data} {z : ℝ → Bool} (hself : ∀ a, a ∉ d.kids a)
    {s : Static} (hT : Tables d [] s)
    (hz : ∀ a ∈ s.tracked, z (exp (-2903040000 * d.lam a)) = false) {N0 : ℕ → ℝ} {T : ℝ}
    {N : ℝ → ℕ → ℝ} (hN : Bateman d s.tracked N0 T N) :
    Solves (decayMatrix d z s) (fun i : Fin s.tracked.length => N0 s.tracked[i]) T
      (fun t i => N t s.tracked[i]) := by
  refine ⟨?_, fun i => hN.cont _ (List.getElem_mem _), ?_⟩
  · funext i
    exact hN.start _ (List.getElem_mem _)
  · intro t h0 hT' i
    refine (hN.deriv t h0 hT' s.tracked[i] (List.getElem_mem _)).congr_deriv ?_
    unfold decayMatrix
    rw [sum_tracked hT.nodup (fun b => rate d z s.tracked[i] b * N t b)]
    have ha : s.tracked[i] ∈ s.tracked := List.getElem_mem _
    generalize s.tracked[i] = a at ha
    have hsplit : ∀ b ∈ s.tracked.toFinset, rate d z a b * N t b =
        (if a = b then -(d.lam b * N t b) else 0) +
          (if a ∈ d.kids b then d.br b a * d.lam b * N t b else 0) := by
      intro b hb
      unfold rate
      rw [effective_eq (hz b (List.mem_toFinset.mp hb))]
      by_cases hab : a = b
      · subst hab
        simp [hself]
      · by_cases hk : a ∈ d.kids b <;> simp [hab, hk]
    rw [Finset.sum_congr rfl hsplit, Finset.sum_add_distrib, Finset.sum_ite_eq,
      if_pos (List.mem_toFinset.mpr ha), ← Finset.sum_filter]

theorem isVec_inj {n : ℕ} {V : LMatrix ℝ} {x y : Fin n → ℝ} (hx : IsVec V x) (hy : IsVec V y) :
    x = y := by
  funext i
  have h1 := denotes_get hx i (0 : Fin 1)
  have h2 := denotes_get hy i (0 : Fin 1)
  rw [h1] at h2
  simpa [colOf] using h2

theorem returns_both {n : ℕ} {A X : LMatrix ℝ} {F : Matrix (Fin n) (Fin n) ℝ} {t : ℝ}
    {P Q : (Fin n → ℝ) → Prop} (hP : Returns A X F t P) (hQ : Returns A X F t Q) :
    Returns A X F t fun y => P y ∧ Q y := by
  obtain ⟨N, hN⟩ := hP
  obtain ⟨M, hM⟩ := hQ
  refine ⟨max N M, fun fuel hf lim => ?_⟩
  rcases hN fuel (le_trans (le_max_left _ _) hf) lim with h1 | ⟨h1, Y, y, e1, v1, p1⟩
  · exact Or.inl h1
  · rcases hM fuel (le_trans (le_max_right _ _) hf) lim with h2 | ⟨_, Y', y', e2, v2, p2⟩
    · exact absurd h2.1 h1
    · rw [e1] at e2
      simp only [Option.some.injEq, Except.ok.injEq] at e2
      subst e2
      rw [← isVec_inj v1 v2] at p2
      exact Or.inr ⟨h1, Y, y, e1, v1, p1, p2⟩

/-- What `Decay` and `GetResult` do with a result of the solver. -/
theorem decay_of_returns {d : Data} {z : ℝ → Bool} {ord : List Entry → List Entry}
    (hS : Sane d ord) {s : Static} (h : Reaches d z ord s) {i : Inst} {secs : ℝ}
    {P : (Fin s.tracked.length → ℝ) → Prop}
    (hR : Returns s.matrix i.pre (decayMatrix d z s) secs P) :
    ∃ N0, ∀ fuel ≥ N0, ∀ lim,
      (OutOfRange lim (decayMatrix d z s) secs ∧ decay lim fuel s i secs = some (.error .value)) ∨
      (¬ OutOfRange lim (decayMatrix d z s) secs ∧
        ∃ (i' : Inst) (y : ℕ → ℝ), decay lim fuel s i secs = some (.ok i') ∧
          P (fun a : Fin s.tracked.length => y s.tracked[a]) ∧
          ∀ comp, ∃ out, getResult ord s i' comp = some out ∧
            ∀ a, out a = if a ∈ s.tracked ∧ 0 < y a then some (y a) else comp a) := by
  obtain ⟨N0, hN0⟩ := hR
  have hnd := (good_of_reaches hS h).1.nodup
  refine ⟨N0, fun fuel hf lim => ?_⟩
  rcases hN0 fuel hf lim with ⟨h1, h2⟩ | ⟨h1, Y, y, h2, h3, h4⟩
  · left
    refine ⟨h1, ?_⟩
    unfold decay
    rw [h2]
  · right
    have hy : (fun a : Fin s.tracked.length =>
        (if hm : s.tracked[a] ∈ s.tracked then
          y ⟨s.tracked.idxOf s.tracked[a], List.idxOf_lt_length_iff.mpr hm⟩ else 0)) = y := by
      funext a
      have hm : s.tracked[a] ∈ s.tracked := List.getElem_mem _
      rw [dif_pos hm]
      congr 1
      exact ((idx_iff hnd (List.getElem_mem _) a).mpr rfl).symm
    refine ⟨h1, { i with post := Y }, fun x => if hm : x ∈ s.tracked then
      y ⟨s.tracked.idxOf x, List.idxOf_lt_length_iff.mpr hm⟩ else 0, ?_, ?_, fun comp => ?_⟩
    · unfold decay
      rw [h2]
    · rw [hy]
      exact h4
    · apply C92_result hS h
      rw [hy]
      exact h3

/-- C92, in part: construct, decay, read.  If no decay constant is so large that the heuristic
takes it for zero, the result is (up to the range of the exponentials) within `10⁻³` of the solution
of the decay equations, not negative and never above it.  Missing: nuclides that decay fast
(`C92_fails_short`), and other instances in between (`C92_fails_shared`). -/
theorem C92_decay_partial {d : Data} {z : ℝ → Bool} {ord : List Entry → List Entry}
    (hS : Sane d ord) (hP : Physical d) {s s' : Static} {i : Inst} {fuel0 : ℕ}
    {comp : List (ℕ × ℝ)} (h : Reaches d z ord s) (hn : (comp.map Prod.fst).Nodup)
    (hne : comp ≠ []) (hpos : ∀ e ∈ comp, 0 ≤ e.2)
    (hc : construct d z ord fuel0 s comp = some (s', i))
    (hz : ∀ a ∈ s'.tracked, z (exp (-2903040000 * d.lam a)) = false) {secs : ℝ} (hs : 0 ≤ secs)
    {N : ℝ → ℕ → ℝ} (hN : Bateman d s'.tracked (fun a => (comp.lookup a).getD 0) secs N) :
    ∃ N0, ∀ fuel ≥ N0, ∀ lim,
      (OutOfRange lim (decayMatrix d z s') secs ∧
        decay lim fuel s' i secs = some (.error .value)) ∨
      (¬ OutOfRange lim (decayMatrix d z s') secs ∧
        ∃ i' out, decay lim fuel s' i secs = some (.ok i') ∧
          getResult ord s' i' (fun _ => none) = some out ∧
          (∀ a, a ∉ s'.tracked → out a = none) ∧
          (∀ a ∈ s'.tracked, 0 ≤ amount out a ∧ amount out a ≤ N secs a) ∧
          ∑ a ∈ s'.tracked.toFinset, |amount out a - N secs a| ≤
            1 / 1000 * ∑ a ∈ s'.tracked.toFinset, (comp.lookup a).getD 0) := by
  obtain ⟨g, _, m, v⟩ := construct_spec hS (good_of_reaches hS h) hn hc
  have h' : Reaches d z ord s' := .step h hn hc
  obtain ⟨e0, he0⟩ := List.exists_mem_of_ne_nil comp hne
  have hmem := m e0 he0
  have hnt : s'.tracked ≠ [] := List.ne_nil_of_mem hmem
  have hlen : 0 < s'.tracked.length := List.length_pos_of_mem hmem
  have hDL := decayLike hP hS.self z g.1
  have hsol := solves_of_bateman hS.self g.1 hz hN
  have hx0 : ∀ a, 0 ≤ (comp.lookup a).getD 0 := by
    intro a
    cases hl : comp.lookup a with
    | none => simp
    | some w =>
      obtain ⟨l1, l2, rfl, _⟩ := List.lookup_eq_some_iff.mp hl
      simpa using hpos (a, w) (by simp)
  have hR := returns_both (C91_accuracy_partial (g.2 hnt) v hlen hDL hs hsol)
    (C91_sign_partial (g.2 hnt) v hlen hDL hs (fun i => hx0 _) hsol)
  obtain ⟨N0, hN0⟩ := decay_of_returns hS h' hR
  refine ⟨N0, fun fuel hf lim => ?_⟩
  rcases hN0 fuel hf lim with h1 | ⟨h1, i', y, h2, ⟨h3, h4⟩, h5⟩
  · exact Or.inl h1
  · right
    obtain ⟨out, h6, h7⟩ := h5 (fun _ => none)
    have hle : ∀ a ∈ s'.tracked, 0 ≤ y a ∧ y a ≤ N secs a := by
      intro a ha
      have := h4 ⟨s'.tracked.idxOf a, List.idxOf_lt_length_iff.mpr ha⟩
      simpa using this
    have hamt : ∀ a ∈ s'.tracked, amount out a = y a := by
      intro a ha
      unfold amount
      rw [h7 a]
      by_cases hy : 0 < y a
      · simp [ha, hy]
      · have : y a = 0 := le_antisymm (not_lt.mp hy) (hle a ha).1
        simp [this]
    refine ⟨h1, i', out, h2, h6, ?_, ?_, ?_⟩
    · intro a ha
      rw [h7 a, if_neg (fun e => ha e.1)]
    · intro a ha
      rw [hamt a ha]
      exact hle a ha
    · rw [sum_tracked g.1.nodup (fun a => |y a - N secs a|),
        sum_tracked g.1.nodup (fun a => |(comp.lookup a).getD 0|)] at h3
      have e1 : ∑ a ∈ s'.tracked.toFinset, |amount out a - N secs a| =
          ∑ a ∈ s'.tracked.toFinset, |y a - N secs a| :=
        Finset.sum_congr rfl fun a ha => by rw [hamt a (List.mem_toFinset.mp ha)]
      have e2 : ∑ a ∈ s'.tracked.toFinset, |(comp.lookup a).getD 0| =
          ∑ a ∈ s'.tracked.toFinset, (comp.lookup a).getD 0 :=
        Finset.sum_congr rfl fun a _ => abs_of_nonneg (hx0 a)
      rw [e1, ← e2]
      exact h3

/-- The hypotheses are met by a nuclide that decays into a stable one. -/
example : Sane twoData id ∧ Physical twoData ∧
    Bateman twoData [1, 2] (fun a => (([(1, 5)] : List (ℕ × ℝ)).lookup a).getD 0) 7
      (fun t a => if a = 1 then 5 * exp (-t) else 5 - 5 * exp (-t)) := by
  have hd : ∀ s : ℝ, HasDerivAt (fun s => 5 * exp (-s)) (5 * -exp (-s)) s := by
    intro s
    have : HasDerivAt (fun s => exp (-s)) (-exp (-s)) s := by
      simpa using (hasDerivAt_neg s).exp
    exact this.const_mul 5
  refine ⟨twoSane, ⟨?_, ?_, ?_⟩, ⟨?_, ?_, ?_⟩⟩
  · intro a
    unfold twoData
    by_cases h : a = 1 <;> simp [h]
  · intro a b
    simp [twoData]
  · intro a
    unfold twoData
    by_cases h : a = 1 <;> simp [h]
  · intro a ha
    simp only [List.mem_cons, List.not_mem_nil, or_false] at ha
    rcases ha with rfl | rfl <;> simp [List.lookup_cons]
  · intro a ha
    have hc : Continuous fun t : ℝ => 5 * exp (-t) :=
      continuous_const.mul (Real.continuous_exp.comp continuous_neg)
    simp only [List.mem_cons, List.not_mem_nil, or_false] at ha
    rcases ha with rfl | rfl
    · simpa using hc.continuousOn
    · have hc' : Continuous fun t : ℝ => 5 - 5 * exp (-t) := continuous_const.sub hc
      simpa using hc'.continuousOn
  · intro t _ _ a ha
    simp only [List.mem_cons, List.not_mem_nil, or_false] at ha
    rcases ha with rfl | rfl
    · have hf : (([1, 2] : List ℕ).toFinset.filter fun b => 1 ∈ twoData.kids b) = ∅ := by
        ext b
        unfold twoData
        by_cases h : b = 1 <;> simp [h]
      rw [hf]
      simpa [twoData] using (hd t).hasDerivWithinAt
    · have hf : (([1, 2] : List ℕ).toFinset.filter fun b => 2 ∈ twoData.kids b) = {1} := by
        ext b
        unfold twoData
        by_cases h : b = 1 <;> simp [h]
      rw [hf]
      simpa [twoData] using ((hd t).const_sub 5).hasDerivWithinAt

/-- C92 fails: whatever positive number the smallest representable one is, a nuclide that decays fast
enough is taken for a stable one: 5 atoms stay 5 atoms, where `5 exp(-λ)` of them should be left. -/
theorem C92_fails_short (δ : ℝ) (hδ : 0 < δ) :
    ∃ L, 1 ≤ L ∧ ∃ (d : Data) (s : Static) (i : Inst) (N : ℝ → ℕ → ℝ),
      d.lam 1 = L ∧
      construct d (fun v => decide (v ≤ δ)) id 2 Static.init [(1, 5)] = some (s, i) ∧
      Bateman d s.tracked (fun a => (([(1, 5)] : List (ℕ × ℝ)).lookup a).getD 0) 1 N ∧
      N 1 1 = 5 * exp (-L) ∧
      ∃ N0, ∀ fuel ≥ N0, ∃ i' out,
        decay ⟨fun _ => false, fun _ => false⟩ fuel s i 1 = some (.ok i') ∧
        getResult id s i' (fun _ => none) = some out ∧ out 1 = some 5 := by
  obtain ⟨L, hL1, hL⟩ : ∃ L : ℝ, 1 ≤ L ∧ exp (-2903040000 * L) ≤ δ := by
    refine ⟨max 1 (-log δ), le_max_left _ _, ?_⟩
    rw [← Real.exp_log hδ]
    apply Real.exp_le_exp.mpr
    rw [Real.log_exp]
    have h1 := le_max_right 1 (-log δ)
    have h2 := le_max_left 1 (-log δ)
    nlinarith
  let d : Data := ⟨fun _ => L, fun _ => [], fun _ _ => 0⟩
  have hS : Sane d id := ⟨fun a => by simp [d], fun l => List.Perm.refl l⟩
  obtain ⟨s, i, hc⟩ := C92_ends (z := fun v => decide (v ≤ δ)) hS .init [1] (by simp [d])
    [(1, 5)] (by simp) (by simp) 2 (by simp)
  obtain ⟨g, ⟨e, he, hr⟩, m, v⟩ := construct_spec hS
    (good_of_reaches (z := fun v => decide (v ≤ δ)) hS .init) (by simp) hc
  have hmem : 1 ∈ s.tracked := m (1, 5) (by simp)
  have hlen : 0 < s.tracked.length := List.length_pos_of_mem hmem
  have hall : ∀ a ∈ s.tracked, a = 1 := by
    intro a ha
    rw [he] at ha
    have ha : a ∈ e := by simpa [Static.init] using ha
    obtain ⟨b, hb, hrb⟩ := hr a ha
    have hb : b = 1 := by simpa using hb
    subst hb
    cases hrb with
    | self => rfl
    | step _ hk => simp [d] at hk
  have hmat : decayMatrix d (fun v => decide (v ≤ δ)) s = 0 := by
    funext a b
    have hef : effective (fun v => decide (v ≤ δ)) L = 0 := by
      unfold effective
      have : decide (exp (-2903040000 * L) ≤ δ) = true := decide_eq_true hL
      rw [if_pos this]
    simp [decayMatrix, rate, d, hef]
  have hR := returns_of (P := fun y => ∀ a, y a = (([(1, 5)] : List (ℕ × ℝ)).lookup s.tracked[a]).getD 0)
    (g.2 (List.ne_nil_of_mem hmem)) v hlen 1 (by
    intro a p ha hp h1 h2
    have ha0 : a = 0 := by
      obtain ⟨j, hj⟩ := ha.1
      rw [← hj, hmat]
      simp
    subst ha0
    have hp1 : p = 1 := by
      by_contra hne
      have := h2 1 (le_refl 1) (by omega)
      simp [expSum] at this
      norm_num at this
    subst hp1
    intro a
    simp [partialSum])
  obtain ⟨N0, hN0⟩ := decay_of_returns hS (.step .init (by simp) hc) hR
  refine ⟨L, hL1, d, s, i, fun t _ => 5 * exp (-(L * t)), rfl, hc, ⟨?_, ?_, ?_⟩, by simp, N0, ?_⟩
  · intro a ha
    rw [hall a ha]
    simp
  · intro a _
    exact (continuous_const.mul
      (Real.continuous_exp.comp (continuous_const.mul continuous_id).neg)).continuousOn
  · intro t _ _ a _
    have h3 : HasDerivAt (fun u : ℝ => exp (-(L * u))) (exp (-(L * t)) * (-(L * 1))) t :=
      (((hasDerivAt_id t).const_mul L).neg).exp
    have h4 := (h3.const_mul 5).hasDerivWithinAt (s := Set.Ici t)
    refine h4.congr_deriv ?_
    simp only [d, List.not_mem_nil, Finset.filter_false, Finset.sum_empty]
    ring
  · intro fuel hf
    rcases hN0 fuel hf ⟨fun _ => false, fun _ => false⟩ with h1 | ⟨_, i', y, h2, h3, h4⟩
    · obtain ⟨⟨_, _, h | h⟩, _⟩ := h1 <;> simp at h
    · obtain ⟨out, h5, h6⟩ := h4 (fun _ => none)
      refine ⟨i', out, h2, h5, ?_⟩
      have hy : y 1 = 5 := by
        have := h3 ⟨s.tracked.idxOf 1, List.idxOf_lt_length_iff.mpr hmem⟩
        simpa using this
      rw [h6 1, if_pos ⟨hmem, by rw [hy]; norm_num⟩, hy]

/-- C92 fails: after the construction of a second instance with a new nuclide the first one cannot
decay any more. -/
theorem C92_fails_shared {d : Data} {z : ℝ → Bool} {ord : List Entry → List Entry}
    (hS : Sane d ord) {s s1 s2 : Static} {i1 i2 : Inst} {f1 f2 : ℕ} {c1 c2 : List (ℕ × ℝ)}
    (h : Reaches d z ord s) (hn1 : (c1.map Prod.fst).Nodup) (hn2 : (c2.map Prod.fst).Nodup)
    (h1 : construct d z ord f1 s c1 = some (s1, i1))
    (h2 : construct d z ord f2 s1 c2 = some (s2, i2)) (hnew : ∃ e ∈ c2, e.1 ∉ s1.tracked)
    (lim : Limits) (fuel : ℕ) (secs : ℝ) :
    decay lim fuel s2 i1 secs = some (.error .value) := by
  obtain ⟨g1, _, _, v1⟩ := construct_spec hS (good_of_reaches hS h) hn1 h1
  obtain ⟨g2, ⟨e, he, _⟩, m2, _⟩ := construct_spec hS g1 hn2 h2
  obtain ⟨x, hx, hx'⟩ := hnew
  have hmem := m2 x hx
  have hlen : s1.tracked.length ≠ s2.tracked.length := by
    rw [he, List.length_append]
    have : e ≠ [] := by
      rintro rfl
      rw [he, List.append_nil] at hmem
      exact hx' hmem
    have := List.length_pos_iff.mpr this
    omega
  unfold decay
  rw [C91_size]
  rw [v1.1, (g2.2 (List.ne_nil_of_mem hmem)).1]
  exact hlen

/-- Two instances of stable nuclides. -/
example : ∃ s1 i1 s2 i2,
    construct ⟨fun _ => 0, fun _ => [], fun _ _ => 0⟩ (fun _ => false) id 3 Static.init [(1, 5)] =
      some (s1, i1) ∧
    construct ⟨fun _ => 0, fun _ => [], fun _ _ => 0⟩ (fun _ => false) id 3 s1 [(2, 5)] =
      some (s2, i2) := by
  have hS : Sane ⟨fun _ => 0, fun _ => [], fun _ _ => 0⟩ id :=
    ⟨fun a => by simp, fun l => List.Perm.refl l⟩
  obtain ⟨s1, i1, h1⟩ := C92_ends (z := fun _ => false) hS .init [1] (by simp) [(1, 5)] (by simp)
    (by simp) 3 (by simp)
  obtain ⟨s2, i2, h2⟩ := C92_ends (z := fun _ => false) hS (.step .init (by simp) h1) [2] (by simp)
    [(2, 5)] (by simp) (by simp) 3 (by simp)
  exact ⟨s1, i1, s2, i2, h1, h2⟩

/-- C92 fails: `GetResult` does not clear the composition: a nuclide of which nothing is left keeps
the amount that was there before. -/
theorem C92_fails_stale {d : Data} {z : ℝ → Bool} {ord : List Entry → List Entry} (hS : Sane d ord)
    {s : Static} (h : Reaches d z ord s) {i : Inst} {y : ℕ → ℝ}
    (hi : IsVec i.post (fun a : Fin s.tracked.length => y s.tracked[a])) (comp : ℕ → Option ℝ)
    (a : ℕ) (v : ℝ) (hy : y a = 0) (hv : comp a = some v) :
    ∃ out, getResult ord s i comp = some out ∧ out a = some v := by
  obtain ⟨out, h1, h2⟩ := C92_result hS h hi comp
  exact ⟨out, h1, by rw [h2 a, if_neg (by simp [hy]), hv]⟩

end Cyclus.Decayer
