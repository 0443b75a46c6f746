import Verif.Spec.Validator
import Mathlib.Data.List.Induction

/-!
# Lemmas about validation
-/

namespace Cyclus.Validator

/-- What holds between calls. -/
structure Inv {S : Type} (v : Val S) : Prop where
  nodup : v.freed.Nodup
  same : ∀ n c, v.context = some (n, c) → ∃ m, v.schema = some (m, c)
  ids : ∀ n, n < v.next ↔ n ∈ v.freed ∨ (∃ s, v.schema = some (n, s)) ∨ ∃ s, v.context = some (n, s)
  apart1 : ∀ n s, v.schema = some (n, s) → n ∉ v.freed
  apart2 : ∀ n s, v.context = some (n, s) → n ∉ v.freed
  apart3 : ∀ n s c, v.schema = some (n, s) → v.context ≠ some (n, c)

theorem inv_new {S : Type} : Inv (.new : Val S) := by
  constructor <;> simp [Val.new]

theorem release_schema {S : Type} (v : Val S) : (release v).schema = none ∧ (release v).context = none ∧ (release v).next = v.next ∧
    (release v).parsers = v.parsers ∧ (release v).parsersFreed = v.parsersFreed := by
  obtain ⟨s, c, n, f, p, q⟩ := v
  unfold release
  cases s <;> cases c <;> exact ⟨rfl, rfl, rfl, rfl, rfl⟩

theorem release_all {S : Type} {v : Val S} (h : Inv v) : AllFreed (release v) := by
  obtain ⟨s, c, n, f, p, q⟩ := v
  obtain ⟨h1, h2, h3, h4, h5, h6⟩ := h
  dsimp only at h1 h2 h3 h4 h5 h6
  unfold AllFreed release
  cases c with
  | none =>
    cases s with
    | none =>
      refine ⟨h1, fun m => ?_⟩
      rw [h3 m]
      simp
    | some x =>
      obtain ⟨k, x⟩ := x
      refine ⟨List.nodup_cons.mpr ⟨h4 k x rfl, h1⟩, fun m => ?_⟩
      dsimp only
      rw [h3 m]
      simp only [List.mem_cons, Option.some.injEq, Prod.mk.injEq, exists_and_left, exists_eq', and_true, reduceCtorEq, exists_false, or_false]
      rw [or_comm, eq_comm]
  | some y =>
    obtain ⟨j, y⟩ := y
    obtain ⟨k, rfl⟩ := h2 j y rfl
    have hkj : k ≠ j := by
      rintro rfl
      exact h6 k y y rfl rfl
    refine ⟨List.nodup_cons.mpr ⟨?_, List.nodup_cons.mpr ⟨h5 j y rfl, h1⟩⟩, fun m => ?_⟩
    · simp only [List.mem_cons, not_or]
      exact ⟨hkj, h4 k y rfl⟩
    · dsimp only
      rw [h3 m]
      simp only [List.mem_cons, Option.some.injEq, Prod.mk.injEq, exists_and_left, exists_eq', and_true]
      constructor
      · rintro (rfl | rfl | h)
        · exact Or.inr (Or.inl rfl)
        · exact Or.inr (Or.inr rfl)
        · exact Or.inl h
      · rintro (h | rfl | rfl)
        · exact Or.inr (Or.inr h)
        · exact Or.inl rfl
        · exact Or.inr (Or.inl rfl)

theorem inv_parse {S D : Type} (L : Lib S D) {v : Val S} (h : Inv v) (t : Txt) : Inv (parse L v t).1 := by
  have h' : Inv { v with parsers := v.parsers + 1 } := ⟨h.nodup, h.same, h.ids, h.apart1, h.apart2, h.apart3⟩
  have hr := release_all h'
  obtain ⟨r1, r2, r3, _⟩ := release_schema { v with parsers := v.parsers + 1 }
  unfold parse
  dsimp only
  generalize hv : release { v with parsers := v.parsers + 1 } = u at hr r1 r2 r3
  cases L.schema t with
  | none =>
    refine ⟨hr.1, ?_, ?_, ?_, ?_, ?_⟩
    · intro n c hc
      dsimp only at hc
      rw [r2] at hc
      cases hc
    · intro n
      dsimp only
      rw [r1, r2]
      simpa using (hr.2 n).symm
    · intro n s hs
      dsimp only at hs
      rw [r1] at hs
      cases hs
    · intro n s hs
      dsimp only at hs
      rw [r2] at hs
      cases hs
    · intro n s c hs
      dsimp only at hs
      rw [r1] at hs
      cases hs
  | some s =>
    refine ⟨hr.1, ?_, ?_, ?_, ?_, ?_⟩
    · intro n c hc
      dsimp only at hc
      rw [r2] at hc
      cases hc
    · intro n
      dsimp only
      rw [r2, hr.2 n]
      simp only [Option.some.injEq, Prod.mk.injEq, exists_and_left, exists_eq', and_true, reduceCtorEq, exists_false, or_false]
      omega
    · intro n x hs
      cases hs
      dsimp only
      rw [hr.2]
      exact Nat.lt_irrefl _
    · intro n x hs
      dsimp only at hs
      rw [r2] at hs
      cases hs
    · intro n x c _
      dsimp only
      rw [r2]
      simp

theorem ensure_schema {S D : Type} (L : Lib S D) (v : Val S) (s : S) : (ensure L v s).schema = v.schema ∧ (ensure L v s).freed = v.freed ∧
    (ensure L v s).parsers = v.parsers ∧ (ensure L v s).parsersFreed = v.parsersFreed := by
  unfold ensure
  cases v.context with
  | some _ => exact ⟨rfl, rfl, rfl, rfl⟩
  | none =>
    dsimp only
    split <;> exact ⟨rfl, rfl, rfl, rfl⟩

theorem inv_ensure {S D : Type} (L : Lib S D) {v : Val S} (h : Inv v) (m : ℕ) (s : S) (hs : v.schema = some (m, s)) : Inv (ensure L v s) := by
  unfold ensure
  cases hc : v.context with
  | some _ => exact h
  | none =>
    dsimp only
    split
    · refine ⟨h.nodup, ?_, ?_, h.apart1, ?_, ?_⟩
      · intro n c hn
        cases hn
        exact ⟨m, hs⟩
      · intro n
        have := h.ids n
        rw [hc] at this
        simp only [reduceCtorEq, exists_false, or_false] at this
        simp only [Option.some.injEq, Prod.mk.injEq, exists_and_left, exists_eq', and_true]
        rw [← or_assoc, ← this]
        omega
      · intro n x hn
        cases hn
        intro hf
        exact absurd ((h.ids v.next).mpr (Or.inl hf)) (Nat.lt_irrefl _)
      · intro n x c hn hx
        cases hx
        exact absurd ((h.ids v.next).mpr (Or.inr (Or.inl ⟨x, hn⟩))) (Nat.lt_irrefl _)
    · exact h

/-- The state after validating. -/
theorem validate_state {S D : Type} (L : Lib S D) (v : Val S) (d : Option D) :
    (validate L v d).1 = v ∨ ∃ m s, v.schema = some (m, s) ∧ (validate L v d).1 = ensure L v s := by
  unfold validate
  cases d with
  | none => exact Or.inl rfl
  | some d =>
    dsimp only
    cases hs : v.schema with
    | none => exact Or.inl rfl
    | some x =>
      obtain ⟨m, s⟩ := x
      refine Or.inr ⟨m, s, rfl, ?_⟩
      dsimp only
      cases (ensure L v s).context with
      | none => rfl
      | some y =>
        dsimp only
        split <;> rfl

theorem inv_run {S D : Type} (L : Lib S D) (l : List (Op D)) : Inv (run L l) := by
  induction l using List.reverseRecOn with
  | nil => exact inv_new
  | append_singleton l o ih =>
    rw [run, List.foldl_append]
    change Inv (Op.run L (run L l) o)
    cases o with
    | parse t => exact inv_parse L ih t
    | validate d =>
      rcases validate_state L (run L l) d with h | ⟨m, s, hs, h⟩
      · change Inv (validate L (run L l) d).1
        rw [h]
        exact ih
      · change Inv (validate L (run L l) d).1
        rw [h]
        exact inv_ensure L ih m s hs

theorem run_concat {S D : Type} (L : Lib S D) (l : List (Op D)) (o : Op D) : run L (l ++ [o]) = Op.run L (run L l) o := by
  rw [run, List.foldl_append]
  rfl

theorem parse_schema {S D : Type} (L : Lib S D) (v : Val S) (t : Txt) (s : S) : (∃ m, (parse L v t).1.schema = some (m, s)) ↔ L.schema t = some s := by
  unfold parse
  dsimp only
  cases L.schema t with
  | none => simp [(release_schema { v with parsers := v.parsers + 1 }).1]
  | some x => simp

theorem validate_schema {S D : Type} (L : Lib S D) (v : Val S) (d : Option D) : (validate L v d).1.schema = v.schema := by
  rcases validate_state L v d with h | ⟨m, s, _, h⟩
  · rw [h]
  · rw [h]
    exact (ensure_schema L v s).1

/-- The schema that is kept is the one that counts. -/
theorem current_iff {S D : Type} (L : Lib S D) (l : List (Op D)) (s : S) : (∃ m, (run L l).schema = some (m, s)) ↔ Current L l s := by
  induction l using List.reverseRecOn with
  | nil =>
    constructor
    · rintro ⟨m, h⟩
      cases h
    · rintro ⟨a, t, b, h, _⟩
      simp at h
  | append_singleton l o ih =>
    rw [run_concat]
    cases o with
    | parse t =>
      change (∃ m, (parse L (run L l) t).1.schema = some (m, s)) ↔ _
      rw [parse_schema]
      constructor
      · intro h
        exact ⟨l, t, [], rfl, by simp, h⟩
      · rintro ⟨a, u, b, h, hb, hs⟩
        rcases List.eq_nil_or_concat b with rfl | ⟨b', o, rfl⟩
        · have := List.append_inj_right' h rfl
          cases this
          exact hs
        · obtain ⟨d, rfl⟩ := hb o (by simp)
          have h' : l ++ [Op.parse t] = (a ++ .parse u :: b') ++ [.validate d] := by rw [h]; simp
          have := List.append_inj_right' h' rfl
          cases this
    | validate d =>
      change (∃ m, (validate L (run L l) d).1.schema = some (m, s)) ↔ _
      rw [validate_schema, ih]
      constructor
      · rintro ⟨a, u, b, rfl, hb, hs⟩
        refine ⟨a, u, b ++ [.validate d], by simp, fun o ho => ?_, hs⟩
        rcases List.mem_append.mp ho with ho | ho
        · exact hb o ho
        · exact ⟨d, List.mem_singleton.mp ho⟩
      · rintro ⟨a, u, b, h, hb, hs⟩
        rcases List.eq_nil_or_concat b with rfl | ⟨b', o, rfl⟩
        · have := List.append_inj_right' h rfl
          cases this
        · have h' : l ++ [Op.validate d] = (a ++ .parse u :: b') ++ [o] := by rw [h]; simp
          have h1 := List.append_inj_left' h' rfl
          exact ⟨a, u, b', h1, fun o ho => hb o (by simp [ho]), hs⟩

end Cyclus.Validator
