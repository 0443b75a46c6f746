import Verif.Model.Functions
import Mathlib.Analysis.SpecialFunctions.Exp
import Mathlib.Topology.Order.OrderClosed
import Mathlib.Tactic.Linarith
import Mathlib.Tactic.NormNum

/-!
# Piecewise functions (C45) and the function factory (C72)
-/

namespace Cyclus.Fn

namespace Spec

/-- Segments that were added: function, start, and whether to be continuous. -/
structure Piece where
  f : ℝ → ℝ
  start : ℝ
  cont : Bool

/-- The factory after adding the pieces, if all were accepted. -/
noncomputable def build (ps : List Piece) : Option (List Seg) :=
  ps.foldl (fun o p => o.bind fun ss =>
    match add ss p.f p.start p.cont with
    | (ss', .ok ()) => some ss'
    | _ => none) (some [])

/-- What the pieces describe, last piece first: the last piece that has started, raised to where
the pieces before it end if it is to be continuous. -/
noncomputable def meaning : List Piece → ℝ → ℝ
  | [], _ => 0
  | p :: ps, x =>
    if x < p.start then meaning ps x
    else p.f (x - p.start) + (if p.cont then meaning ps p.start - p.f 0 else 0)

end Spec

open Spec

theorem find_append (x : ℝ) (g : Seg) : ∀ (ss : List Seg) (cur : Seg), cur.x < g.x →
    (∀ s ∈ ss, s.x < g.x) → cur.x ≤ x → List.Pairwise (fun a b => a.x < b.x) (cur :: ss) →
    find x cur (ss ++ [g]) = if x < g.x then find x cur ss else g := by
  intro ss
  induction ss with
  | nil =>
    intro cur _ _ _ _
    simp only [List.nil_append, find]
    by_cases h : x < g.x
    · rw [if_pos h, if_neg (not_le.2 h)]
    · rw [if_neg h, if_pos (not_lt.1 h)]
  | cons s ss ih =>
    intro cur hc hs hx hp
    simp only [List.cons_append, find]
    by_cases h : x ≥ s.x
    · rw [if_pos h, if_pos h]
      exact ih s (hs s (by simp)) (fun a ha => hs a (by simp [ha])) h (List.pairwise_cons.1 hp).2
    · rw [if_neg h, if_neg h]
      have := hs s (by simp)
      rw [if_pos (lt_trans (not_le.1 h) this)]

/-- Adding a segment changes the function from its start on. -/
theorem value_append {ss : List Seg} {g : Seg} (hp : List.Pairwise (fun a b => a.x < b.x) ss)
    (hg : ∀ s ∈ ss, s.x < g.x) (x : ℝ) :
    value (ss ++ [g]) x = if x < g.x then value ss x else g.f (x - g.x) + g.y := by
  cases ss with
  | nil => simp [value, find]
  | cons s ss =>
    simp only [List.cons_append, value]
    by_cases hx : x < s.x
    · rw [if_pos hx, if_pos hx, if_pos (lt_trans hx (hg s (by simp)))]
    · rw [if_neg hx, if_neg hx, find_append x g ss s (hg s (by simp))
        (fun a ha => hg a (by simp [ha])) (not_lt.1 hx) hp]
      split <;> rfl

/-- What `build` yields. -/
theorem build_spec (ps : List Piece) (ss : List Seg) (h : build ps = some ss) :
    List.Pairwise (fun a b => a.x < b.x) ss ∧ ss.map Seg.x = ps.map Piece.start ∧
      ∀ x, value ss x = meaning ps.reverse x := by
  induction ps using List.reverseRecOn generalizing ss with
  | nil =>
    simp only [build, List.foldl_nil, Option.some.injEq] at h
    subst h
    simp [value, meaning]
  | append_singleton ps p ih =>
    simp only [build, List.foldl_append, List.foldl_cons, List.foldl_nil] at h
    change Option.bind (build ps) _ = _ at h
    rcases hb : build ps with _ | ss0
    · rw [hb] at h; cases h
    · rw [hb] at h
      simp only [Option.bind_some] at h
      obtain ⟨i1, i2, i3⟩ := ih ss0 hb
      have hok : ∃ y, y = (if p.cont then value ss0 p.start - p.f 0 else 0) ∧
          ss = ss0 ++ [⟨p.f, p.start, y⟩] ∧ ∀ s ∈ ss0, s.x < p.start := by
        refine ⟨_, rfl, ?_⟩
        unfold add at h
        simp only at h
        cases hl : ss0.getLast? with
        | none =>
          simp only [hl] at h
          have : ss0 = [] := List.getLast?_eq_none_iff.1 hl
          injection h with h
          refine ⟨h.symm, ?_⟩
          subst this; simp
        | some last =>
          simp only [hl] at h
          by_cases hs : p.start ≤ last.x
          · simp [hs] at h
          · simp only [hs, if_false] at h
            injection h with h
            refine ⟨h.symm, ?_⟩
            obtain ⟨ini, rfl⟩ := List.getLast?_eq_some_iff.1 hl
            intro s hs'
            rcases List.mem_append.1 hs' with hs' | hs'
            · exact lt_trans ((List.pairwise_append.1 i1).2.2 s hs' last (by simp)) (not_le.1 hs)
            · have : s = last := by simpa using hs'
              rw [this]; exact not_le.1 hs
      obtain ⟨y, hy, rfl, hlt⟩ := hok
      refine ⟨?_, ?_, ?_⟩
      · rw [List.pairwise_append]
        exact ⟨i1, by simp, fun a ha b hb => by
          rw [List.mem_singleton.1 hb]; exact hlt a ha⟩
      · simp [i2]
      · intro x
        rw [value_append i1 hlt]
        simp only [List.reverse_append, List.reverse_cons, List.reverse_nil, List.nil_append,
          List.cons_append, meaning]
        rw [i3 x, hy, i3 p.start]

/-- **C45, values**: the function that is built is what the pieces describe. -/
theorem C45_value {ps : List Piece} {ss : List Seg} (h : build ps = some ss) (x : ℝ) :
    value ss x = meaning ps.reverse x := (build_spec ps ss h).2.2 x

/-- **C45, zero before the first start**. -/
theorem C45_zero {ps : List Piece} {ss : List Seg} (h : build ps = some ss) {x : ℝ}
    (hx : ∀ p ∈ ps, x < p.start) : value ss x = 0 := by
  rw [C45_value h]
  have : ∀ p ∈ ps.reverse, x < p.start := fun p hp => hx p (List.mem_reverse.1 hp)
  generalize ps.reverse = qs at this
  induction qs with
  | nil => rfl
  | cons q qs ih =>
    simp only [meaning]
    rw [if_pos (this q (by simp))]
    exact ih fun p hp => this p (by simp [hp])

theorem meaning_continuous : ∀ ps : List Piece, (∀ p ∈ ps, p.cont = true) →
    (∀ p ∈ ps, Continuous p.f) → Continuous (meaning ps) := by
  intro ps
  induction ps with
  | nil => intro _ _; exact continuous_const
  | cons p ps ih =>
    intro hc hf
    have h1 := ih (fun q hq => hc q (by simp [hq])) (fun q hq => hf q (by simp [hq]))
    have h2 : Continuous fun x => p.f (x - p.start) + (meaning ps p.start - p.f 0) :=
      ((hf p (by simp)).comp (continuous_id.sub continuous_const)).add continuous_const
    have : meaning (p :: ps) = fun x => if p.start ≤ x then
        p.f (x - p.start) + (meaning ps p.start - p.f 0) else meaning ps x := by
      funext x
      simp only [meaning, hc p (by simp), if_true]
      by_cases hx : x < p.start
      · rw [if_pos hx, if_neg (not_le.2 hx)]
      · rw [if_neg hx, if_pos (not_lt.1 hx)]
    rw [this]
    exact Continuous.if_le h2 h1 continuous_const continuous_id (fun x hx => by
      rw [← hx]; simp)

/-- **C45, continuity**: a function that is built from continuous functions with the default is
continuous everywhere, also at the start of the first segment. -/
theorem C45_continuous {ps : List Piece} {ss : List Seg} (h : build ps = some ss)
    (hc : ∀ p ∈ ps, p.cont = true) (hf : ∀ p ∈ ps, Continuous p.f) : Continuous (value ss) := by
  have : value ss = meaning ps.reverse := funext fun x => C45_value h x
  rw [this]
  exact meaning_continuous _ (fun p hp => hc p (List.mem_reverse.1 hp))
    (fun p hp => hf p (List.mem_reverse.1 hp))

/-- **C45, joints**: at its start a segment that is to be continuous has the value that the function
had there before it was added, whatever the functions are. -/
theorem C45_joint {ps : List Piece} {p : Piece} {ss ss' : List Seg} (h : build ps = some ss)
    (h' : build (ps ++ [p]) = some ss') (hc : p.cont = true) :
    value ss' p.start = value ss p.start ∧ ∀ x, x < p.start → value ss' x = value ss x := by
  have e := C45_value h
  have e' := C45_value h'
  simp only [List.reverse_append, List.reverse_cons, List.reverse_nil, List.nil_append,
    List.cons_append, meaning] at e'
  constructor
  · rw [e', e, if_neg (lt_irrefl _), hc]; simp
  · intro x hx
    rw [e', e, if_pos hx]

/-- **C45, acceptance**: a list of pieces is accepted exactly if the starts increase. -/
theorem C45_accepted (ps : List Piece) :
    (∃ ss, build ps = some ss) ↔ List.Pairwise (fun a b => a.start < b.start) ps := by
  constructor
  · rintro ⟨ss, h⟩
    obtain ⟨h1, h2, -⟩ := build_spec ps ss h
    have : List.Pairwise (· < ·) (ss.map Seg.x) := List.pairwise_map.2 h1
    rw [h2] at this
    exact List.pairwise_map.1 this
  · induction ps using List.reverseRecOn with
    | nil => intro _; exact ⟨[], rfl⟩
    | append_singleton ps p ih =>
      intro hp
      rw [List.pairwise_append] at hp
      obtain ⟨ss, hss⟩ := ih hp.1
      obtain ⟨-, h2, -⟩ := build_spec ps ss hss
      have hb : build (ps ++ [p]) = (build ps).bind fun ss =>
          match add ss p.f p.start p.cont with
          | (ss', .ok ()) => some ss'
          | _ => none := by
        simp [build, List.foldl_append]
      rw [hb, hss]
      simp only [Option.bind_some]
      unfold add
      simp only
      cases hl : ss.getLast? with
      | none => exact ⟨_, rfl⟩
      | some last =>
        have hm : last.x ∈ ss.map Seg.x := List.mem_map.2 ⟨last, List.mem_of_getLast? hl, rfl⟩
        rw [h2] at hm
        obtain ⟨q, hq, hqx⟩ := List.mem_map.1 hm
        have := hp.2.2 q hq p (by simp)
        rw [hqx] at this
        simp only [not_le.2 this, if_false]
        exact ⟨_, rfl⟩

/-- A line followed by an exponential: the hypotheses hold. -/
example : ∃ ps : List Piece, ps.length = 2 ∧ (∃ ss, build ps = some ss) ∧
    (∀ p ∈ ps, p.cont = true) ∧ (∀ p ∈ ps, Continuous p.f) := by
  refine ⟨[⟨linear 2 1, 0, true⟩, ⟨exponential 1 2 0, 3, true⟩], rfl, ?_, ?_, ?_⟩
  · rw [C45_accepted]
    simp
  · simp
  · intro p hp
    have : p = ⟨linear 2 1, 0, true⟩ ∨ p = ⟨exponential 1 2 0, 3, true⟩ := by simpa using hp
    rcases this with rfl | rfl
    · exact (continuous_const.mul continuous_id).add continuous_const
    · exact (continuous_const.mul
        (Real.continuous_exp.comp (continuous_const.mul continuous_id))).add continuous_const

/-- The first segment does not start at its own value: with the default, `AddFunction` moves it so
that it starts at 0. -/
theorem C45_first {p : Piece} {ss : List Seg} (h : build [p] = some ss) (hc : p.cont = true) :
    value ss p.start = 0 := by
  rw [C45_value h]
  simp [meaning, hc]

/-- The line `2 x + 1` as only segment, starting at 0, is 0 at 0 and not 1. -/
theorem C45_shift : ∃ ss, build [⟨linear 2 1, 0, true⟩] = some ss ∧
    value ss 0 ≠ linear 2 1 0 := by
  refine ⟨_, rfl, ?_⟩
  simp [value, find, linear]

/-! ## C72 -/

/-- **C72**: the factory returns the function that name and parameters describe, if there are enough
numbers, and rejects unknown names. -/
theorem C72_factory (m b c e i : ℝ) (rest : List (Option ℝ)) :
    (∀ n ∈ ["lin", "linear"], ∃ f, getFunction n (some m :: some b :: rest) = .ok (some f) ∧
      ∀ x, f x = m * x + b) ∧
    (∀ n ∈ ["exp", "exponential"], ∃ f, getFunction n [some c, some e] = .ok (some f) ∧
      ∀ x, f x = c * Real.exp (e * x)) ∧
    (∀ n ∈ ["exp", "exponential"], ∃ f,
      getFunction n (some c :: some e :: some i :: rest) = .ok (some f) ∧
      ∀ x, f x = c * Real.exp (e * x) + i) ∧
    (∀ n params, n ∉ ["lin", "linear", "exp", "exponential"] →
      getFunction n params = .error .generic) := by
  refine ⟨?_, ?_, ?_, ?_⟩
  · intro n hn
    have hk : kindOf n = some .lin := by
      have : n = "lin" ∨ n = "linear" := by simpa using hn
      simp [kindOf, this]
    exact ⟨linear m b, by simp [getFunction, hk, getLin, read], fun x => rfl⟩
  · intro n hn
    have hk : kindOf n = some .exp := by
      have : n = "exp" ∨ n = "exponential" := by simpa using hn
      rcases this with rfl | rfl <;> decide
    exact ⟨exponential c e 0, by simp [getFunction, hk, getExp, read],
      fun x => by simp [exponential]⟩
  · intro n hn
    have hk : kindOf n = some .exp := by
      have : n = "exp" ∨ n = "exponential" := by simpa using hn
      rcases this with rfl | rfl <;> decide
    exact ⟨exponential c e i, by simp [getFunction, hk, getExp, read], fun x => rfl⟩
  · intro n params hn
    have hk : kindOf n = none := by
      simp only [List.mem_cons, List.not_mem_nil, or_false, not_or] at hn
      simp [kindOf, hn.1, hn.2.1, hn.2.2.1, hn.2.2.2]
    simp [getFunction, hk]

/-- The names of the theorem, and another one. -/
example : kindOf "lin" = some .lin ∧ kindOf "exponential" = some .exp ∧ kindOf "sin" = none := by
  decide

/-- With too few parameters the factory does not fail: the function has a coefficient that was never
initialised.  This includes a line without intercept, which the function itself defaults to 0. -/
theorem C72_fails_short : ∃ params : List (Option ℝ), params.length = 1 ∧
    getFunction "lin" params = .ok none := by
  refine ⟨[some 2], rfl, ?_⟩
  have hk : kindOf "lin" = some .lin := by decide
  simp [getFunction, hk, getLin, read]

/-- A parameter that is no number is read as 0, or leaves the parameters after it uninitialised; the
factory does not fail. -/
theorem C72_fails_word : ∃ f, getFunction "lin" [some 2, none] = .ok (some f) ∧ ∀ x, f x = 2 * x := by
  have hk : kindOf "lin" = some .lin := by decide
  refine ⟨linear 2 0, by simp [getFunction, hk, getLin, read], fun x => by simp [linear]⟩

end Cyclus.Fn
