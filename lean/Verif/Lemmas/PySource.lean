import Verif.Spec.PySource
import Mathlib.Data.List.TakeWhile

/-!
# Lemmas about input files in Python
-/

namespace Cyclus.PySource

theorem strPyToCpp_eq {t : Txt} (h : NoNul t) : strPyToCpp t = t := by
  unfold strPyToCpp
  rw [List.takeWhile_eq_self_iff]
  intro c hc
  simp only [bne_iff_ne]
  rintro rfl
  exact h hc

theorem closed_iff (s src : Txt) : closed s = src ↔
    (src = s ∨ src = s ++ ['\n']) ∧ src.getLast? = some '\n' ∧ (s.getLast? = some '\n' → src = s) := by
  unfold closed
  by_cases h : s.getLast? = some '\n'
  · rw [if_pos h]
    constructor
    · rintro rfl
      exact ⟨Or.inl rfl, h, fun _ => rfl⟩
    · rintro ⟨_, _, h3⟩
      exact (h3 h).symm
  · rw [if_neg h]
    constructor
    · rintro rfl
      exact ⟨Or.inr rfl, by simp, fun hc => absurd hc h⟩
    · rintro ⟨rfl | rfl, h2, _⟩
      · exact absurd h2 h
      · rfl

theorem lookup_iff {V : Type} (ctx : Txt → Option V) (u : V) : lookup ctx names = .ok u ↔
    (ctx "simulation".toList = some u ∨
      (ctx "simulation".toList = none ∧ ctx "SIMULATION".toList = some u) ∨
      (ctx "simulation".toList = none ∧ ctx "SIMULATION".toList = none ∧ ctx "Simulation".toList = some u)) := by
  simp only [names, lookup]
  cases ctx "simulation".toList with
  | some v => simp
  | none =>
    cases ctx "SIMULATION".toList with
    | some v => simp
    | none =>
      cases ctx "Simulation".toList with
      | some v => simp
      | none => simp

theorem textOf_iff {V : Type} (P : Py V) (v : V) (t : Txt) : textOf P v = .ok t ↔ JsonOf P v t := by
  unfold textOf JsonOf
  cases P.str v with
  | some a => simp
  | none =>
    cases P.bytes v with
    | some a => simp
    | none =>
      cases P.mapping v with
      | some a => simp
      | none => simp

theorem called_iff {V : Type} (P : Py V) (u v : V) :
    called P u = .ok v ↔ ((P.call u = none ∧ v = u) ∨ P.call u = some (.ok v)) := by
  unfold called
  cases P.call u with
  | none =>
    simp only [reduceCtorEq, or_false, true_and, Except.ok.injEq]
    exact eq_comm
  | some r => simp

theorem pyToJson_iff {V : Type} (P : Py V) (s r : Txt) : pyToJson P s = .ok r ↔ ∃ t, Gives P s t ∧ r = strPyToCpp t := by
  unfold pyToJson
  constructor
  · intro h
    cases he : P.exec (closed s) with
    | error e => rw [he] at h; cases h
    | ok ctx =>
      rw [he] at h
      dsimp only at h
      cases hl : lookup ctx names with
      | error e => rw [hl] at h; cases h
      | ok u =>
        rw [hl] at h
        dsimp only at h
        cases hc : called P u with
        | error e => rw [hc] at h; cases h
        | ok v =>
          rw [hc] at h
          dsimp only at h
          cases ht : textOf P v with
          | error e => rw [ht] at h; cases h
          | ok t =>
            rw [ht] at h
            cases h
            obtain ⟨h1, h2, h3⟩ := (closed_iff s _).mp rfl
            exact ⟨t, ⟨_, ctx, v, h1, h2, h3, he, ⟨u, (lookup_iff ctx u).mp hl, (called_iff P u v).mp hc⟩,
              (textOf_iff P v t).mp ht⟩, rfl⟩
  · rintro ⟨t, ⟨src, ctx, v, h1, h2, h3, he, ⟨u, hu, hc⟩, ht⟩, rfl⟩
    rw [(closed_iff s src).mpr ⟨h1, h2, h3⟩, he]
    dsimp only
    rw [(lookup_iff ctx u).mpr hu]
    dsimp only
    rw [(called_iff P u v).mpr hc]
    dsimp only
    rw [(textOf_iff P v t).mpr ht]

end Cyclus.PySource
