import Verif.Lemmas.AnyHold

/-!
# C129: the container for values of any type (`src/any.hpp`)
-/

namespace Cyclus.AnyHold.Props

open Cyclus.AnyHold Spec

variable {V : Type}

/-- The numbers of bytes of some types: the type of the empty container, `int`, `std::string`, a vector. -/
def sizes : ℕ → ℕ
  | 0 => 1
  | 1 => 4
  | 2 => 32
  | _ => 24

/-- Containers are made, copied, assigned, exchanged, emptied and destroyed. -/
def demo : List (Op ℕ) :=
  [.make 0 2 10, .make 1 1 20, .copy 2 0, .setAny 0 1, .setAny 1 2, .set 0 3 30, .empty 3, .setRef 3 0, .swap 0 2,
    .reset 1, .drop 3]

/-- **C129.**  Every program that treats its containers as variables runs without a value destroyed twice, a
block of memory freed twice or a destroyed value read; and a cast of a container to a type gives the value last
put into it when it is of that type and refuses otherwise. -/
theorem C129_values (size : ℕ → ℕ) (h0 : size 0 ≤ 8) (str : ℕ) (os : List (Op V)) (A : Vars V)
    (h : Spec.run (fun _ => none) os = some A) :
    ∃ s, run size str start os = some s ∧ ∀ i, (A i = none ↔ s.anys i = none) ∧
      ∀ c, A i = some c → ∃ x, s.anys i = some x ∧ (x.ty = 0 ↔ c = none) ∧
        ∀ t, t ≠ 0 → cast size s.mem x t = some (c.bind fun d => if d.1 = t then some d.2 else none) := by
  obtain ⟨s, l, hs, -, hI⟩ := run_spec h0 str os start_inv h
  refine ⟨s, hs, fun i => ⟨⟨hI.dom i, fun hi => ?_⟩, fun c hc => ?_⟩⟩
  · cases hA : A i with
    | none => rfl
    | some c =>
      obtain ⟨x, hx, -⟩ := hI.shows i c hA
      rw [hi] at hx
      cases hx
  · obtain ⟨x, hx, hsh⟩ := hI.shows i c hc
    refine ⟨x, hx, ?_, fun t ht => cast_spec hsh ht⟩
    cases c with
    | none => rw [hsh]; simp
    | some c => simp [hsh.2.1, hsh.1]

/-- The demonstration is a program on variables, and its variables have the expected values. -/
example : ∃ A, Spec.run (fun _ => none) demo = some A ∧ sizes 0 ≤ 8 ∧
    [A 0, A 1, A 2, A 3] = [some (some (2, 10)), some none, some (some (3, 30)), none] := by
  refine ⟨_, rfl, by decide, by decide⟩

/-- The memory that is in use after a program: the blocks of the containers, each with its own, and the blocks
that were given up without being freed, of which there is one for every assignment of a value of
the same type, or of a small one, over a big value. -/
theorem C129_memory (size : ℕ → ℕ) (h0 : size 0 ≤ 8) (str : ℕ) (os : List (Op V)) (A : Vars V)
    (h : Spec.run (fun _ => none) os = some A) :
    ∃ s, run size str start os = some s ∧ ∃ gone : List ℕ, ∃ block : ℕ → Option ℕ,
      gone.Nodup ∧ gone.length = losses size (fun _ => none) os ∧
      (∀ i, (block i).isSome ↔ ∃ c, A i = some (some c) ∧ 8 < size c.1) ∧
      (∀ i j a, block i = some a → block j = some a → i = j) ∧
      (∀ i a, block i = some a → a ∉ gone ∧ ∃ c, A i = some (some c) ∧ s.mem.heap a = some (c.1, some c.2)) ∧
      ∀ a, s.mem.heap a ≠ none ↔ a ∈ gone ∨ ∃ i, block i = some a := by
  obtain ⟨s, gone, hs, hl, hI⟩ := run_spec h0 str os start_inv h
  let block : ℕ → Option ℕ := fun i =>
    match s.anys i with
    | some ⟨_, .ptr a⟩ => some a
    | _ => none
  have hblock : ∀ i a, block i = some a ↔ ∃ x, s.anys i = some x ∧ x.w = .ptr a := by
    intro i a
    simp only [block]
    constructor
    · intro hb
      split at hb
      · rename_i heq
        cases hb
        exact ⟨_, heq, rfl⟩
      · cases hb
    · rintro ⟨⟨t, w⟩, hx, hw⟩
      simp only at hw
      subst hw
      rw [hx]
  refine ⟨s, hs, gone, block, hI.nodup, by simpa using hl, ?_, ?_, ?_, ?_⟩
  · intro i
    rw [Option.isSome_iff_exists]
    constructor
    · rintro ⟨a, ha⟩
      obtain ⟨x, hx, hw⟩ := (hblock i a).1 ha
      obtain ⟨c, hc, hsh⟩ := hI.get hx
      obtain ⟨t, v, rfl, hb, -⟩ := hsh.ptr hw
      exact ⟨_, hc, by simpa [small] using hb⟩
    · rintro ⟨⟨t, v⟩, hc, hb⟩
      obtain ⟨x, hx, -, -, hsh⟩ := hI.shows i _ hc
      have hs' : small size t = false := by simpa [small] using hb
      rw [hs', if_neg (by simp)] at hsh
      obtain ⟨a, ha, -⟩ := hsh
      exact ⟨a, (hblock i a).2 ⟨x, hx, ha⟩⟩
  · intro i j a hi hj
    obtain ⟨x, hx, hxw⟩ := (hblock i a).1 hi
    obtain ⟨y, hy, hyw⟩ := (hblock j a).1 hj
    exact hI.sep i j x y a hx hy hxw hyw
  · intro i a hi
    obtain ⟨x, hx, hxw⟩ := (hblock i a).1 hi
    refine ⟨fun hm => (hI.apart a hm).2 i x hx hxw, ?_⟩
    obtain ⟨c, hc, hsh⟩ := hI.get hx
    obtain ⟨t, v, rfl, -, hm⟩ := hsh.ptr hxw
    exact ⟨_, hc, hm⟩
  · intro a
    constructor
    · intro ha
      rcases hI.owned a ha with h1 | ⟨i, x, hx, hxw⟩
      · exact .inl h1
      · exact .inr ⟨i, (hblock i a).2 ⟨x, hx, hxw⟩⟩
    · rintro (h1 | ⟨i, hi⟩)
      · exact (hI.apart a h1).1
      · obtain ⟨x, hx, hxw⟩ := (hblock i a).1 hi
        obtain ⟨c, hc, hsh⟩ := hI.get hx
        obtain ⟨t, v, rfl, -, hm⟩ := hsh.ptr hxw
        rw [hm]
        simp

/-- The demonstration gives up nothing; with a further assignment of text over text it gives up one block. -/
example : losses sizes (fun _ => none) demo = 0 ∧
    losses sizes (fun _ => none) (demo ++ [.set 0 2 11]) = 1 ∧
    (Spec.run (fun _ => none) (demo ++ [.set 0 2 11])).isSome := by
  refine ⟨by rfl, by rfl, by rfl⟩

/-- The full statement would be that a program that destroys all its containers frees all the memory.  It does
when no value is assigned over a big value except a big one of another type; containers may be assigned to
containers as one likes. -/
theorem C129_freed_partial (size : ℕ → ℕ) (h0 : size 0 ≤ 8) (str : ℕ) (os : List (Op V))
    (h : Spec.run (fun _ => none) os = some fun _ => none) (hl : losses size (fun _ => none) os = 0) :
    ∃ s, run size str start os = some s ∧ ∀ a, s.mem.heap a = none := by
  obtain ⟨s, hs, gone, block, -, hg, hb, -, -, hm⟩ := C129_memory size h0 str os _ h
  refine ⟨s, hs, fun a => ?_⟩
  by_contra ha
  rcases (hm a).1 ha with h1 | ⟨i, hi⟩
  · rw [hl, List.length_eq_zero_iff] at hg
    rw [hg] at h1
    cases h1
  · obtain ⟨c, hc, -⟩ := (hb i).1 (by rw [hi]; rfl)
    cases hc

/-- The demonstration with all containers destroyed. -/
example : Spec.run (fun _ => none) (demo ++ [.drop 0, .drop 1, .drop 2]) = some (fun _ => none) ∧
    losses sizes (fun _ => none) (demo ++ [.drop 0, .drop 1, .drop 2]) = 0 := by
  refine ⟨?_, by rfl⟩
  refine congrArg some (funext fun i => ?_)
  match i with
  | 0 => rfl
  | 1 => rfl
  | 2 => rfl
  | 3 => rfl
  | i + 4 => simp [Function.update]

/-- Memory is lost for good when a value is assigned over a big one of the same type ("we can avoid
deallocating and re-use memory", but the memory is not reused), and when a small value is assigned over a
big one. -/
theorem C129_fails_leak : ∀ os ∈ [[Op.make 0 2 10, .set 0 2 11, .drop 0], [Op.make 0 2 10, .set 0 1 11, .drop 0]],
    Spec.run (fun _ => none) os = some (fun _ => none) ∧
    ∃ s, run sizes 2 start os = some s ∧ ∃ a, s.mem.heap a = some (2, none) := by
  intro os hos
  have hrun : ∀ t, t ≠ 0 → Spec.run (fun _ => none) [Op.make 0 2 10, .set 0 t 11, .drop 0] = some (fun _ => none) := by
    intro t ht
    simp only [Spec.run, Spec.step, Function.update_self, ht, if_false]
    refine congrArg some (funext fun i => ?_)
    cases i <;> simp [Function.update]
  simp only [List.mem_cons, List.not_mem_nil, or_false] at hos
  rcases hos with rfl | rfl
  · exact ⟨hrun 2 (by decide), _, rfl, 0, rfl⟩
  · exact ⟨hrun 1 (by decide), _, rfl, 0, rfl⟩

/-- Where a `std::string` is larger than a pointer, the constructor from `const char*` writes it over the memory
behind the container, in every state.  (Nothing in the repository uses this constructor.) -/
theorem C129_fails_chars (size : ℕ → ℕ) (str : ℕ) (s : St V) (i : ℕ) (v : V) :
    step size str s (.chars i v) = none ↔ 8 < size str := by
  simp only [step, small]
  split_ifs with h
  · simp only [decide_eq_true_eq] at h
    simp_all
  · simp only [decide_eq_true_eq] at h
    simp_all

/-- `std::string` has 32 bytes. -/
example : 8 < sizes 2 := by decide

/-- Assignment of a container's own value, `a = a.cast<T>()`, reads the value after it was destroyed, whatever the
type is (of types without a destructor, such as `int`, the value is in fact still there). -/
theorem C129_fails_alias (size : ℕ → ℕ) (h0 : size 0 ≤ 8) (str : ℕ) (os : List (Op V)) (A : Vars V)
    (h : Spec.run (fun _ => none) os = some A) (i : ℕ) (c : ℕ × V) (hi : A i = some (some c)) :
    run size str start (os ++ [.setRef i i]) = none := by
  obtain ⟨s, l, hs, -, hI⟩ := run_spec h0 str os start_inv h
  have happ : ∀ (os : List (Op V)) (s0 : St V), run size str s0 os = some s →
      run size str s0 (os ++ [.setRef i i]) = step size str s (.setRef i i) := by
    intro os
    induction os with
    | nil =>
      intro s0 h
      cases h
      simp only [List.nil_append, run]
      split <;> simp_all
    | cons o os ih =>
      intro s0 h
      rw [List.cons_append, run]
      rw [run] at h
      cases h1 : step size str s0 o with
      | none => rw [h1] at h; cases h
      | some s1 =>
        rw [h1] at h
        exact ih s1 h
  rw [happ os start hs]
  obtain ⟨t, v⟩ := c
  obtain ⟨x, hx, ht, hxt, hsh⟩ := hI.shows i _ hi
  cases hb : small size t with
  | true =>
    rw [hb, if_pos rfl] at hsh
    simp [step, hx, hxt, assignVal, destruct, destroySmall, hb, hsh, cast]
  | false =>
    rw [hb, if_neg (by simp)] at hsh
    obtain ⟨a, ha, hm⟩ := hsh
    simp [step, hx, hxt, assignVal, destruct, hb, ha, hm, cast]

/-- Container 0 of the demonstration has a value. -/
example : ∃ A, Spec.run (fun _ => none) demo = some A ∧ A 0 = some (some (2, 10)) := ⟨_, rfl, rfl⟩

end Cyclus.AnyHold.Props
