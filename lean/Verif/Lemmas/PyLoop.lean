import Verif.Spec.PyLoop
import Mathlib.Data.List.Induction
import Mathlib.Tactic.Ring
import Mathlib.Tactic.SplitIfs

/-!
# Lemmas about repeating actions and the interpreter
-/

namespace Cyclus.PyLoop

theorem known_iff (n : Txt) : n ∈ eventNames ↔ Known n := by
  unfold eventNames Known
  simp only [List.mem_cons, List.not_mem_nil, or_false]

theorem not_known_char (c : Char) : ¬ Known [c] := by
  unfold Known
  rintro (h | h | h | h | h | h | h | h | h | h) <;> exact absurd (congrArg List.length h) (by simp only [List.length_singleton]; decide)

theorem resolve_text {F P C : Type} (w : World F P C) (q : Option P) (s : Txt) : ∃ e, resolve w q (.text s) = .error e := by
  match s with
  | [] => exact ⟨.index, rfl⟩
  | [_] => exact ⟨.index, rfl⟩
  | a :: b :: r =>
    refine ⟨.key, ?_⟩
    simp only [resolve, find, if_neg (fun h => not_known_char a ((known_iff _).mp h))]

theorem resolve_iff {F P C : Type} (w : World F P C) (q : Option P) (a : Act F P) (f : F) (p : Option P) :
    resolve w q a = .ok (f, p) ↔ Target w a f ∧ p = (own a).or q := by
  constructor
  · intro h
    cases a with
    | fn g =>
      cases h
      exact ⟨.fn f, rfl⟩
    | short => cases h
    | text s =>
      obtain ⟨e, he⟩ := resolve_text w q s
      rw [he] at h
      cases h
    | pair hd r =>
      cases hd with
      | fn g =>
        cases h
        exact ⟨.pair f r, rfl⟩
      | value => cases h
      | name n =>
        simp only [resolve, find] at h
        by_cases hn : n ∈ eventNames
        · rw [if_pos hn] at h
          cases h
          exact ⟨.name n r ((known_iff n).mp hn), rfl⟩
        · rw [if_neg hn] at h
          cases h
  · rintro ⟨ht, rfl⟩
    cases ht with
    | fn => rfl
    | pair => rfl
    | name n r hn =>
      simp only [resolve, find, if_pos ((known_iff n).mpr hn)]
      rfl

/-- One action, with the parameters that are bound before it. -/
theorem acts_cons {F P C : Type} (w : World F P C) (q : Option P) (a : Act F P) (r : List (Act F P)) (f : F) (p : P) (c : C)
    (ht : Target w a f) (hp : (own a).or q = some p) (hc : w.call f p = .ok c) :
    acts w q (a :: r) = (c :: (acts w (some p) r).1, (acts w (some p) r).2) := by
  have := (resolve_iff w q a f (some p)).mpr ⟨ht, hp.symm⟩
  rw [acts, this]
  dsimp only
  rw [hc]

theorem acts_stop {F P C : Type} (w : World F P C) (q : Option P) (a : Act F P) (r : List (Act F P))
    (h : ∀ f p c, Target w a f → (own a).or q = some p → w.call f p ≠ .ok c) : (acts w q (a :: r)).1 = [] ∧ (acts w q (a :: r)).2 ≠ none := by
  rw [acts]
  cases hr : resolve w q a with
  | error e => exact ⟨rfl, by simp⟩
  | ok x =>
    obtain ⟨f, p⟩ := x
    obtain ⟨ht, hp⟩ := (resolve_iff w q a f p).mp hr
    cases p with
    | none => exact ⟨rfl, by simp⟩
    | some p =>
      dsimp only
      cases hc : w.call f p with
      | error e => exact ⟨rfl, by simp⟩
      | ok c => exact absurd hc (h f p c ht hp.symm)

/-- The parameters bound after a list. -/
def bound {F P : Type} (q : Option P) (l : List (Act F P)) : Option P := l.foldl (fun q a => (own a).or q) q

/-- What is put, for each position. -/
theorem acts_get {F P C : Type} (w : World F P C) : ∀ (l : List (Act F P)) (q : Option P) (i : ℕ) (c : C),
    (acts w q l).1[i]? = some c → ∃ a f p, l[i]? = some a ∧ Target w a f ∧ bound q (l.take (i + 1)) = some p ∧ w.call f p = .ok c
  | [], q, i, c, h => by simp [acts] at h
  | a :: r, q, i, c, h => by
    by_cases hs : ∃ f p c, Target w a f ∧ (own a).or q = some p ∧ w.call f p = .ok c
    · obtain ⟨f, p, d, ht, hp, hc⟩ := hs
      rw [acts_cons w q a r f p d ht hp hc] at h
      cases i with
      | zero =>
        simp only [List.getElem?_cons_zero, Option.some.injEq] at h
        subst h
        exact ⟨a, f, p, rfl, ht, hp, hc⟩
      | succ i =>
        simp only [List.getElem?_cons_succ] at h
        obtain ⟨b, g, p', hb, hg, hq, hd⟩ := acts_get w r (some p) i c h
        refine ⟨b, g, p', by simpa using hb, hg, ?_, hd⟩
        rw [List.take_succ_cons]
        simp only [bound, List.foldl_cons, hp]
        exact hq
    · rw [(acts_stop w q a r fun f p c h1 h2 h3 => hs ⟨f, p, c, h1, h2, h3⟩).1] at h
      simp at h

theorem acts_length {F P C : Type} (w : World F P C) : ∀ (l : List (Act F P)) (q : Option P),
    (acts w q l).1.length ≤ l.length ∧ ((acts w q l).2 = none ↔ (acts w q l).1.length = l.length)
  | [], q => by simp [acts]
  | a :: r, q => by
    by_cases hs : ∃ f p c, Target w a f ∧ (own a).or q = some p ∧ w.call f p = .ok c
    · obtain ⟨f, p, d, ht, hp, hc⟩ := hs
      rw [acts_cons w q a r f p d ht hp hc]
      have := acts_length w r (some p)
      simp only [List.length_cons, Nat.add_le_add_iff_right, Nat.add_right_cancel_iff]
      exact this
    · have := acts_stop w q a r fun f p c h1 h2 h3 => hs ⟨f, p, c, h1, h2, h3⟩
      rw [this.1]
      simp [this.2]

/-- The loop stops at the first action that cannot be done. -/
theorem acts_end {F P C : Type} (w : World F P C) : ∀ (l : List (Act F P)) (q : Option P) (i : ℕ) (a : Act F P) (f : F) (p : P) (c : C),
    (acts w q l).1.length = i → l[i]? = some a → Target w a f → bound q (l.take (i + 1)) = some p → w.call f p ≠ .ok c
  | [], q, i, a, f, p, c, h, ha, _, _ => by simp at ha
  | b :: r, q, i, a, f, p, c, h, ha, ht, hb => by
    intro hc
    by_cases hs : ∃ f p c, Target w b f ∧ (own b).or q = some p ∧ w.call f p = .ok c
    · obtain ⟨g, p', d, htg, hp, hd⟩ := hs
      rw [acts_cons w q b r g p' d htg hp hd] at h
      cases i with
      | zero => simp at h
      | succ i =>
        refine acts_end w r (some p') i a f p c (by simpa using h) (by simpa using ha) ht ?_ hc
        rw [List.take_succ_cons] at hb
        simp only [bound, List.foldl_cons, hp] at hb
        exact hb
    · rw [(acts_stop w q b r fun f p c h1 h2 h3 => hs ⟨f, p, c, h1, h2, h3⟩).1] at h
      subst h
      simp only [List.length_nil, List.getElem?_cons_zero, Option.some.injEq] at ha
      subst ha
      exact hs ⟨f, p, c, ht, hb, hc⟩

theorem bound_append {F P : Type} (q : Option P) (l r : List (Act F P)) : bound q (l ++ r) = bound (bound q l) r := by
  simp [bound, List.foldl_append]

/-- The bound parameters are those of the last action that brings some. -/
theorem bound_iff {F P : Type} (p : P) (l : List (Act F P)) : bound none l = some p ↔ LastParams l p := by
  induction l using List.reverseRecOn with
  | nil => simp [bound, LastParams]
  | append_singleton l a ih =>
    rw [bound_append]
    have hb : bound (bound none l) [a] = (own a).or (bound none l) := rfl
    rw [hb]
    cases ho : own a with
    | some x =>
      simp only [Option.some_or, Option.some.injEq]
      constructor
      · rintro rfl
        refine ⟨l.length, a, by simp, ho, fun j b hj h => ?_⟩
        rw [List.getElem?_eq_none (by simp; omega)] at h
        cases h
      · rintro ⟨i, b, hi, hb, hl⟩
        rcases Nat.lt_trichotomy i l.length with h | h | h
        · have := hl l.length a h (by simp)
          rw [ho] at this
          cases this
        · subst h
          simp only [List.getElem?_concat_length, Option.some.injEq] at hi
          subst hi
          rw [ho] at hb
          exact Option.some.inj hb
        · rw [List.getElem?_eq_none (by simp; omega)] at hi
          cases hi
    | none =>
      rw [Option.none_or, ih]
      constructor
      · rintro ⟨i, b, hi, hb, hl⟩
        have hlt : i < l.length := (List.getElem?_eq_some_iff.mp hi).1
        refine ⟨i, b, by rw [List.getElem?_append_left hlt]; exact hi, hb, fun j d hj hd => ?_⟩
        rcases Nat.lt_trichotomy j l.length with h | h | h
        · rw [List.getElem?_append_left h] at hd
          exact hl j d hj hd
        · subst h
          simp only [List.getElem?_concat_length, Option.some.injEq] at hd
          subst hd
          exact ho
        · rw [List.getElem?_eq_none (by simp; omega)] at hd
          cases hd
      · rintro ⟨i, b, hi, hb, hl⟩
        rcases Nat.lt_trichotomy i l.length with h | h | h
        · rw [List.getElem?_append_left h] at hi
          refine ⟨i, b, hi, hb, fun j d hj hd => ?_⟩
          have hjl : j < l.length := (List.getElem?_eq_some_iff.mp hd).1
          exact hl j d hj (by rw [List.getElem?_append_left hjl]; exact hd)
        · subst h
          simp only [List.getElem?_concat_length, Option.some.injEq] at hi
          subst hi
          rw [ho] at hb
          cases hb
        · rw [List.getElem?_eq_none (by simp; omega)] at hi
          cases hi

/-- Pairs do not depend on what is bound before. -/
theorem acts_pairs {F P C : Type} (w : World F P C) (empty : P) : ∀ (l : List (Act F P)) (cs : List C) (q : Option P),
    List.Forall₂ (fun a c => (own a).isSome ∧ Task w empty a c) l cs → acts w q l = (cs, none)
  | [], _, q, .nil => rfl
  | a :: r, _, q, .cons (b := c) ⟨ho, f, ht, hc⟩ h => by
    obtain ⟨p, hp⟩ := Option.isSome_iff_exists.mp ho
    rw [hp, Option.getD_some] at hc
    rw [acts_cons w q a r f p c ht (by rw [hp]; rfl) hc, acts_pairs w empty r _ (some p) h]

theorem run_concat (l : List Op) (o : Op) : run (l ++ [o]) = o.run (run l) := by
  simp [run, List.foldl_append]

theorem nested_left {l : List Op} {o : Op} (h : Nested (l ++ [o])) : Nested l := by
  intro n
  rcases Nat.lt_or_ge n l.length with hn | hn
  · have := h n
    rwa [List.take_append_of_le_length (Nat.le_of_lt hn)] at this
  · rw [List.take_of_length_le hn]
    have := h l.length
    rwa [List.take_append_of_le_length (Nat.le_refl _), List.take_length] at this

theorem nested_self {l : List Op} (h : Nested l) : stops l ≤ starts l := by
  have := h l.length
  rwa [List.take_length] at this

/-- The state after any nested calls. -/
theorem run_nested (l : List Op) (h : Nested l) :
    run l = ⟨(starts l : ℤ) - stops l, decide (0 < starts l), if 0 < starts l then 1 else 0, 0, if 0 < starts l then 1 else 0⟩ := by
  induction l using List.reverseRecOn with
  | nil => rfl
  | append_singleton l o ih =>
    rw [run_concat, ih (nested_left h)]
    have hs := nested_self h
    have hl := nested_self (nested_left h)
    cases o with
    | start =>
      have h1 : starts (l ++ [Op.start]) = starts l + 1 := by simp [starts, List.count_append]
      have h2 : stops (l ++ [Op.start]) = stops l := by simp [stops, List.count_append]
      rw [h1, h2]
      simp only [Op.run, pyStart, decide_eq_true_eq]
      by_cases h0 : 0 < starts l
      · simp only [h0, if_true, Nat.succ_pos]
        congr 1
        push_cast
        ring
      · simp only [h0, if_false, Nat.succ_pos, if_true, decide_true]
        congr 1
        push_cast
        ring
    | stop =>
      have h1 : starts (l ++ [Op.stop]) = starts l := by simp [starts, List.count_append]
      have h2 : stops (l ++ [Op.stop]) = stops l + 1 := by simp [stops, List.count_append]
      rw [h1, h2] at hs
      rw [h1, h2]
      simp only [Op.run, pyStop, decide_eq_true_eq]
      rw [if_neg (by rintro ⟨_, hc⟩; omega)]
      congr 1
      push_cast
      ring

end Cyclus.PyLoop
