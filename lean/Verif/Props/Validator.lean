import Verif.Lemmas.Validator

/-!
# C138: validation of inputs

A document is accepted exactly if the last schema that was parsed accepts it (`C138_accept`), whatever was done with the validator before; schemas and contexts are freed
once (`C138_freed`); a parser accepts its document exactly if its text and the schema can be parsed and it is valid
(`C138_check`), and rejects in no other way than with an error for validation if the files to include can be read (`C138_kind_partial`).

The code violates the rest: what `Validate` returns is false for every valid document (`C138_fails_result`), the contexts in
which schemas are parsed are never freed (`C138_fails_leak`), a parser whose text could not be parsed dereferences a null pointer
(`C138_fails_null`), and errors of included files are no errors for validation (`C138_fails_kind`).
-/

namespace Cyclus.Validator

/-- **C138**: after any calls a document is accepted exactly if the last text parsed is a schema that accepts it. -/
theorem C138_accept {S D : Type} (L : Lib S D) (hc : ∀ s, L.context s = true) (l : List (Op D)) (d : D) :
    (∃ b, (validate L (run L l) (some d)).2 = .ok b) ↔ ∃ s, Current L l s ∧ L.validate s d = 0 := by
  have hi := inv_run L l
  have hcur := current_iff L l
  unfold validate
  dsimp only
  cases hs : (run L l).schema with
  | none =>
    constructor
    · rintro ⟨b, h⟩
      cases h
    · rintro ⟨s, h, _⟩
      obtain ⟨m, h⟩ := (hcur s).mpr h
      rw [hs] at h
      cases h
  | some x =>
    obtain ⟨m, s⟩ := x
    dsimp only
    have he : ∃ n, (ensure L (run L l) s).context = some (n, s) := by
      unfold ensure
      cases hx : (run L l).context with
      | none => exact ⟨_, by dsimp only; rw [if_pos (hc s)]⟩
      | some y =>
        obtain ⟨n, y⟩ := y
        obtain ⟨m', h'⟩ := hi.same n y hx
        rw [hs] at h'
        cases h'
        exact ⟨n, hx⟩
    obtain ⟨n, he⟩ := he
    rw [he]
    dsimp only
    constructor
    · rintro ⟨b, h⟩
      refine ⟨s, (hcur s).mp ⟨m, hs⟩, ?_⟩
      by_contra hne
      rw [if_pos hne] at h
      cases h
    · rintro ⟨s', h, hz⟩
      obtain ⟨m', h⟩ := (hcur s').mpr h
      rw [hs] at h
      cases h
      exact ⟨_, by rw [if_neg (fun h => h hz)]⟩

/-- A library in which documents and schemas are texts, equal ones are valid, and files to include are missing in "!". -/
def small : Lib Txt Txt := ⟨fun t => if t = [] then none else some t, fun _ => true, fun s d => if s = d then 0 else 1,
  fun t => if t = [] then none else some t, fun d => if d = ['!'] then none else some d⟩

example : (∀ s, small.context s = true) ∧ Current small [.parse ['a'], .validate none, .parse ['b'], .validate (some ['a'])] ['b'] ∧
    (validate small (run small [.parse ['a'], .validate none, .parse ['b'], .validate (some ['a'])]) (some ['b'])).2 = .ok false :=
  ⟨fun _ => rfl, ⟨[.parse ['a'], .validate none], ['b'], [.validate (some ['a'])], rfl, by simp, rfl⟩, by decide⟩

/-- Everything else is an error for validation. -/
theorem C138_reject {S D : Type} (L : Lib S D) (v : Val S) (d : Option D) :
    (validate L v d).2 = .invalid ∨ ∃ b, (validate L v d).2 = .ok b := by
  unfold validate
  cases d with
  | none => exact Or.inl rfl
  | some d =>
    dsimp only
    cases v.schema with
    | none => exact Or.inl rfl
    | some x =>
      dsimp only
      cases (ensure L v x.2).context with
      | none => exact Or.inl rfl
      | some y =>
        dsimp only
        split
        · exact Or.inl rfl
        · exact Or.inr ⟨_, rfl⟩

example : (validate small .new (some ['a'])).2 = .invalid := by decide

/-- **C138**: when a validator is destroyed, all schemas and contexts it made are freed, and none was freed twice. -/
theorem C138_freed {S D : Type} (L : Lib S D) (l : List (Op D)) : AllFreed (release (run L l)) := release_all (inv_run L l)

example : (release (run small [.parse ['a'], .validate (some ['a']), .parse ['b']])).freed = [2, 0, 1] := by decide

/-- **C138 fails**: the result of `Validate` is false for every valid document. -/
theorem C138_fails_result {S D : Type} (L : Lib S D) (v : Val S) (d : Option D) (b : Bool) (h : (validate L v d).2 = .ok b) : b = false := by
  unfold validate at h
  cases d with
  | none => cases h
  | some d =>
    dsimp only at h
    cases hs : v.schema with
    | none =>
      rw [hs] at h
      cases h
    | some x =>
      rw [hs] at h
      dsimp only at h
      cases hc : (ensure L v x.2).context with
      | none =>
        rw [hc] at h
        cases h
      | some y =>
        rw [hc] at h
        dsimp only at h
        split at h
        · cases h
        · rename_i hz
          cases h
          simpa using hz

/-- **C138 fails**: every schema that is parsed leaves the context of its parser behind. -/
theorem C138_fails_leak {S D : Type} (L : Lib S D) (l : List (Op D)) (t : Txt) :
    (release (run L (l ++ [.parse t]))).parsersFreed = 0 ∧ 0 < (release (run L (l ++ [.parse t]))).parsers := by
  have hf : ∀ l : List (Op D), (run L l).parsersFreed = 0 := by
    intro l
    induction l using List.reverseRecOn with
    | nil => rfl
    | append_singleton l o ih =>
      rw [run_concat]
      cases o with
      | parse t =>
        change (parse L (run L l) t).1.parsersFreed = 0
        have := (release_schema { run L l with parsers := (run L l).parsers + 1 }).2.2.2.2
        unfold parse
        dsimp only
        cases L.schema t with
        | none => exact this.trans ih
        | some s => exact this.trans ih
      | validate d =>
        change (validate L (run L l) d).1.parsersFreed = 0
        rcases validate_state L (run L l) d with h | ⟨m, s, _, h⟩
        · rw [h]
          exact ih
        · rw [h]
          exact (ensure_schema L _ s).2.2.2.trans ih
  obtain ⟨_, _, _, h4, h5⟩ := release_schema (run L (l ++ [.parse t]))
  rw [h4, h5]
  refine ⟨hf _, ?_⟩
  rw [run_concat]
  change 0 < (parse L (run L l) t).1.parsers
  have := (release_schema { run L l with parsers := (run L l).parsers + 1 }).2.2.2.1
  unfold parse
  dsimp only
  cases L.schema t with
  | none =>
    dsimp only
    rw [this]
    exact Nat.succ_pos _
  | some s =>
    dsimp only
    rw [this]
    exact Nat.succ_pos _

/-- The outcome of checking a text, by cases. -/
theorem check_eq {S D : Type} (L : Lib S D) (hc : ∀ s, L.context s = true) (p : Option D) (schema : Txt) :
    (check L p schema).2 = match L.schema schema with
      | none => .invalid
      | some s => match p with
        | none => .crash
        | some d => match L.include d with
          | none => .xmlpp
          | some e => if L.validate s e = 0 then .ok () else .invalid := by
  unfold check parse
  dsimp only
  cases L.schema schema with
  | none => rfl
  | some s =>
    dsimp only
    cases p with
    | none => rfl
    | some d =>
      simp only [document]
      cases L.include d with
      | none => rfl
      | some e =>
        simp only [validate, ensure, release, Val.new, hc s, if_true]
        by_cases hz : L.validate s e = 0
        · simp [hz]
        · simp [hz]

/-- **C138**: an input is accepted exactly if its text is a document, the schema is one, the files to include can be read, and the result is valid. -/
theorem C138_check {S D : Type} (L : Lib S D) (hc : ∀ s, L.context s = true) (t schema : Txt) :
    (check L (init L t).1 schema).2 = .ok () ↔
      ∃ d e s, L.document t = some d ∧ L.include d = some e ∧ L.schema schema = some s ∧ L.validate s e = 0 := by
  rw [check_eq L hc]
  unfold init
  cases L.schema schema with
  | none => simp
  | some s =>
    cases L.document t with
    | none => simp
    | some d =>
      dsimp only
      cases hi : L.include d with
      | none => simp [hi]
      | some e =>
        dsimp only
        by_cases hz : L.validate s e = 0 <;> simp [hz, hi]

example : (check small (init small ['a']).1 ['a']).2 = .ok () ∧ (check small (init small ['a']).1 ['b']).2 = .invalid := by decide

/-- The text of a parser decides: a text that is no document is an error for validation. -/
theorem C138_text {S D : Type} (L : Lib S D) (t : Txt) : (init L t).2 = .ok () ↔ ∃ d, L.document t = some d ∧ (init L t).1 = some d := by
  unfold init
  cases L.document t with
  | none => simp
  | some d => simp

example : (init small []).2 = .invalid ∧ (init small ['a']).2 = .ok () := by decide

/-- The full statement: an input is accepted, or there is an error for validation. -/
def C138 (S D : Type) : Prop := ∀ (L : Lib S D), (∀ s, L.context s = true) → ∀ t schema,
  (check L (init L t).1 schema).2 = .ok () ∨ (check L (init L t).1 schema).2 = .invalid

/-- **C138**: if the text is a document and the files to include can be read, an input is accepted or there is an error for validation. -/
theorem C138_kind_partial {S D : Type} (L : Lib S D) (hc : ∀ s, L.context s = true) (t schema : Txt) (d e : D) (hd : L.document t = some d)
    (hi : L.include d = some e) : (check L (init L t).1 schema).2 = .ok () ∨ (check L (init L t).1 schema).2 = .invalid := by
  rw [check_eq L hc]
  unfold init
  rw [hd]
  dsimp only
  rw [hi]
  cases L.schema schema with
  | none => exact Or.inr rfl
  | some s =>
    dsimp only
    by_cases hz : L.validate s e = 0
    · rw [if_pos hz]
      exact Or.inl rfl
    · rw [if_neg hz]
      exact Or.inr rfl

example : small.document ['a'] = some ['a'] ∧ small.include ['a'] = some ['a'] := by decide

/-- **C138 fails**: a file to include that cannot be read is not an error for validation. -/
theorem C138_fails_kind : ¬ C138 Txt Txt := by
  intro h
  have := h small (fun _ => rfl) ['!'] ['a']
  exact absurd this (by decide)

/-- **C138 fails**: a parser that is used after its text could not be parsed dereferences a null pointer, as does one that has had no
text. -/
theorem C138_fails_null {S D : Type} (L : Lib S D) (t : Txt) (h : L.document t = none) :
    (init L t).2 = .invalid ∧ (document L (init L t).1).2 = .crash ∧ (document L none).2 = .crash := by
  unfold init
  rw [h]
  exact ⟨rfl, rfl, rfl⟩

example : small.document [] = none := by decide

end Cyclus.Validator
