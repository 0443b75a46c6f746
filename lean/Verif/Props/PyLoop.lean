import Verif.Lemmas.PyLoop

/-!
# C136: repeating actions from Python, and the life of the interpreter

Each repeating action that brings its parameters is put once in each step, in order and after a flush (`C136_pairs_partial`,
`C136_flush`, `C136_steps_partial`); which parameters each call gets is `C136_params`, and what comes after the first action that cannot be done is
left out (`C136_stop`).  With nested starts and stops the interpreter is initialised once, stays alive until the exit, and is
finalised there exactly if every start was stopped (`C136_interp_partial`).

The code violates the rest: a plain callable fails if it comes first (`C136_fails_unbound`), and otherwise gets the parameters of another action
(`C136_fails_params`); actions by name alone always fail (`C136_fails_text`); actions for monitors are not found
(`C136_fails_monitor`); one bad action stops those after it (`C136_fails_rest`); a command that returns early never finalises
the interpreter (`C136_fails_return`), and one stop too many finalises it while it is used (`C136_fails_stop`, `C136_fails_again`).
-/

namespace Cyclus.PyLoop

/-- The full statement: in each step the recorder is flushed and the task of each repeating action is put. -/
def C136 (F P C : Type) : Prop := ∀ (w : World F P C) (empty : P) (l : List (Act F P)) (cs : List C),
  List.Forall₂ (Task w empty) l cs → loop w (some l) = (.flush :: cs.map .put, none)

/-- **C136**: actions that bring their parameters are all put once, in their order, with their parameters, after a flush. -/
theorem C136_pairs_partial {F P C : Type} (w : World F P C) (empty : P) (l : List (Act F P)) (cs : List C)
    (ho : ∀ a ∈ l, (own a).isSome) (h : List.Forall₂ (Task w empty) l cs) : loop w (some l) = (.flush :: cs.map .put, none) := by
  have : List.Forall₂ (fun a c => (own a).isSome ∧ Task w empty a c) l cs := by
    induction h with
    | nil => exact .nil
    | cons hx _ ih => exact .cons ⟨ho _ (List.mem_cons_self), hx⟩ (ih fun a ha => ho a (List.mem_cons_of_mem _ ha))
  unfold loop
  dsimp only
  rw [acts_pairs w empty l cs none this]

/-- Functions and parameters are numbers, tasks are both. -/
def toy : World ℕ ℕ (ℕ × ℕ) := ⟨fun n => n.length, fun f p => if f = 99 then .error (.other 0) else .ok (f, p), fun _ => 0⟩

example : List.Forall₂ (Task toy 0) [.pair (.name "echo".toList) 5, .pair (.fn 7) 6] [(4, 5), (7, 6)] ∧
    loop toy (some [.pair (.name "echo".toList) 5, .pair (.fn 7) 6]) = ([.flush, .put (4, 5), .put (7, 6)], none) :=
  ⟨.cons ⟨_, .name _ _ (by unfold Known; simp), rfl⟩ (.cons ⟨_, .pair _ _, rfl⟩ .nil), by decide⟩

/-- **C136**: every step repeats this. -/
theorem C136_steps_partial {F P C : Type} (w : World F P C) (empty : P) (l : List (Act F P)) (cs : List C)
    (ho : ∀ a ∈ l, (own a).isSome) (h : List.Forall₂ (Task w empty) l cs) (n : ℕ) :
    steps w (some l) n = (List.replicate n (Ev.flush :: cs.map .put)).flatten := by
  induction n with
  | zero => rfl
  | succ n ih =>
    rw [steps, ih, C136_pairs_partial w empty l cs ho h, List.replicate_succ']
    simp

example : steps toy (some [.pair (.fn 7) 6]) 2 = [.flush, .put (7, 6), .flush, .put (7, 6)] := by decide

/-- **C136**: what is put is flushed before: in any step with a state, there is one flush and it comes first; without a state nothing
happens. -/
theorem C136_flush {F P C : Type} (w : World F P C) (l : List (Act F P)) :
    (∃ cs : List C, (loop w (some l)).1 = .flush :: cs.map .put) ∧ loop w none = ([], none) := ⟨⟨_, rfl⟩, rfl⟩

/-- **C136**: the call for each action gets the parameters of the last action, up to itself, that brings some. -/
theorem C136_params {F P C : Type} (w : World F P C) (l : List (Act F P)) (i : ℕ) (c : C) (h : (loop w (some l)).1[i + 1]? = some (.put c)) :
    ∃ a f p, l[i]? = some a ∧ Target w a f ∧ LastParams (l.take (i + 1)) p ∧ w.call f p = .ok c := by
  simp only [loop, List.getElem?_cons_succ, List.getElem?_map, Option.map_eq_some_iff, Ev.put.injEq] at h
  obtain ⟨d, hd, rfl⟩ := h
  obtain ⟨a, f, p, ha, ht, hb, hc⟩ := acts_get w l none i d hd
  exact ⟨a, f, p, ha, ht, (bound_iff p _).mp hb, hc⟩

example : (loop toy (some [.pair (.fn 7) 6, .fn 8])).1[2]? = some (.put (8, 6)) := by decide

/-- **C136**: the loop ends without an exception exactly if every action was put, and otherwise the first that was not put has no function, or
no parameters, or its call fails. -/
theorem C136_stop {F P C : Type} (w : World F P C) (l : List (Act F P)) :
    ((loop w (some l)).2 = none ↔ (loop w (some l)).1.length = l.length + 1) ∧
    ∀ i a, (loop w (some l)).1.length = i + 1 → l[i]? = some a →
      ¬ ∃ f p c, Target w a f ∧ LastParams (l.take (i + 1)) p ∧ w.call f p = .ok c := by
  constructor
  · simp only [loop, List.length_cons, List.length_map, Nat.add_right_cancel_iff]
    exact (acts_length w l none).2
  · rintro i a hl ha ⟨f, p, c, ht, hp, hc⟩
    simp only [loop, List.length_cons, List.length_map, Nat.add_right_cancel_iff] at hl
    exact acts_end w l none i a f p c hl ha ht ((bound_iff p _).mpr hp) hc

example : loop toy (some [.pair (.fn 7) 6, .pair (.fn 99) 0, .pair (.fn 8) 1]) = ([.flush, .put (7, 6)], some (.other 0)) := by decide

/-- **C136 fails**: a callable that comes first is not called: its parameters are not bound. -/
theorem C136_fails_unbound : ¬ C136 ℕ ℕ (ℕ × ℕ) ∧ ∀ (f : ℕ) (r : List (Act ℕ ℕ)), loop toy (some (.fn f :: r)) = ([.flush], some .unbound) := by
  refine ⟨fun h => ?_, fun _ _ => rfl⟩
  have := h toy 0 [.fn 7] [(7, 0)] (.cons ⟨7, .fn 7, rfl⟩ .nil)
  exact absurd this (by decide)

/-- **C136 fails**: a later callable gets the parameters of the action before it. -/
theorem C136_fails_params : List.Forall₂ (Task toy 0) [.pair (.fn 7) 6, .fn 8] [(7, 6), (8, 0)] ∧
    loop toy (some [.pair (.fn 7) 6, .fn 8]) = ([.flush, .put (7, 6), .put (8, 6)], none) :=
  ⟨.cons ⟨_, .pair _ _, rfl⟩ (.cons ⟨_, .fn _, rfl⟩ .nil), by decide⟩

/-- **C136 fails**: an action that is given by its name alone always fails: the name is taken apart into its characters. -/
theorem C136_fails_text {F P C : Type} (w : World F P C) (s : Txt) (r : List (Act F P)) :
    (loop w (some (.text s :: r))).1 = [.flush] ∧ (loop w (some (.text s :: r))).2 ≠ none := by
  have := acts_stop w none (.text s) r (fun f p c ht => nomatch ht)
  simp only [loop, this.1, List.map_nil, true_and]
  exact this.2

/-- **C136 fails**: the actions for monitors cannot be repeated. -/
theorem C136_fails_monitor {F P C : Type} (w : World F P C) (p : P) :
    loop w (some [.pair (.name "unpause".toList) p]) = ([.flush], some .key) ∧
    loop w (some [.pair (.name "shutdown".toList) p]) = ([.flush], some .key) := ⟨rfl, rfl⟩

/-- **C136 fails**: in every step, one action that cannot be done keeps those after it from being done. -/
theorem C136_fails_rest : List.Forall₂ (Task toy 0) [.pair (.fn 7) 6] [(7, 6)] ∧
    ∀ n, Ev.put (7, 6) ∉ steps toy (some [.short, .pair (.fn 7) 6]) n := by
  refine ⟨.cons ⟨_, .pair _ _, rfl⟩ .nil, fun n => ?_⟩
  induction n with
  | zero => simp [steps]
  | succ n ih =>
    rw [steps, List.mem_append, not_or]
    exact ⟨ih, by decide⟩

/-- The full statement: a process that uses Python initialises and finalises it once. -/
def C136_interp : Prop := ∀ l : List Op, 0 < starts l → (run l).fins = 0 ∧ (exit (run l)).inits = 1 ∧ (exit (run l)).fins = 1

/-- **C136**: if there are never more stops than starts, the interpreter is initialised once if it is used, is not finalised before the exit, and is
finalised at the exit exactly if there were as many stops as starts. -/
theorem C136_interp_partial (l : List Op) (h : Nested l) (h0 : 0 < starts l) :
    (run l).fins = 0 ∧ (run l).init = true ∧ (exit (run l)).inits = 1 ∧ (exit (run l)).fins = if stops l = starts l then 1 else 0 := by
  have hs := nested_self h
  rw [run_nested l h]
  simp only [h0, if_true, decide_true, exit, Function.iterate_one, pyStop, true_and]
  by_cases he : stops l = starts l
  · rw [if_pos (by omega), if_pos he]
    exact ⟨rfl, rfl⟩
  · rw [if_neg (by omega), if_neg he]
    exact ⟨rfl, rfl⟩

example : Nested [.start, .start, .stop, .stop, .start, .stop] ∧ exit (run [.start, .start, .stop, .stop, .start, .stop]) = ⟨-1, true, 1, 1, 1⟩ := by
  refine ⟨fun n => ?_, by decide⟩
  rcases Nat.lt_or_ge n 6 with h | h
  · revert n
    decide
  · rw [List.take_of_length_le h]
    decide

/-- A process that never starts Python does nothing at its exit. -/
theorem C136_unused (l : List Op) (h : starts l = 0) : (exit (run l)).fins = 0 ∧ (exit (run l)).inits = 0 := by
  have : ∀ l : List Op, starts l = 0 → (run l).init = false ∧ (run l).fins = 0 ∧ (run l).inits = 0 ∧ (run l).exits = 0 := by
    intro l
    induction l using List.reverseRecOn with
    | nil => exact fun _ => ⟨rfl, rfl, rfl, rfl⟩
    | append_singleton l o ih =>
      intro h
      cases o with
      | start => simp [starts, List.count_append] at h
      | stop =>
        obtain ⟨h1, h2, h3, h4⟩ := ih (by simpa [starts, List.count_append] using h)
        rw [run_concat]
        simp only [Op.run, pyStop, h1, Bool.false_eq_true, false_and, if_false]
        exact ⟨trivial, h2, h3, h4⟩
  obtain ⟨h1, h2, h3, h4⟩ := this l h
  simp only [exit, h4, Function.iterate_zero, id_eq]
  exact ⟨h2, h3⟩

example : starts [.stop, .stop] = 0 := by decide

/-- **C136 fails**: a command that returns before its stop, as for every error and every option that prints, never finalises the
interpreter. -/
theorem C136_fails_return : ¬ C136_interp ∧ Nested [.start] ∧ (exit (run [.start])).fins = 0 := by
  refine ⟨fun h => absurd (h [.start] (by decide)) (by decide), fun n => ?_, by decide⟩
  cases n with
  | zero => decide
  | succ n => simp [stops, starts]

/-- **C136 fails**: one stop too many finalises the interpreter before the exit, and again there. -/
theorem C136_fails_stop : (run [.start, .stop, .stop]).fins = 1 ∧ (exit (run [.start, .stop, .stop])).fins = 2 ∧
    (run [.stop, .start, .stop]).fins = 1 := by decide

/-- **C136 fails**: after that it is not initialised again, however often it is started. -/
theorem C136_fails_again (n : ℕ) : (run ([.start, .stop, .stop] ++ List.replicate n .start)).fins = 1 ∧
    (run ([.start, .stop, .stop] ++ List.replicate n .start)).inits = 1 := by
  have : ∀ n : ℕ, run ([.start, .stop, .stop] ++ List.replicate n .start) = ⟨n - 1, true, 1, 1, 1⟩ := by
    intro n
    induction n with
    | zero => decide
    | succ n ih =>
      rw [List.replicate_succ', ← List.append_assoc, run_concat, ih]
      simp only [Op.run, pyStart, if_true]
      congr 1
      push_cast
      ring
  rw [this n]
  exact ⟨rfl, rfl⟩

end Cyclus.PyLoop
