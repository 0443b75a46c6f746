import Verif.Model.SimInit
import Verif.Lemmas.Timer
import Mathlib.Data.List.Basic
import Mathlib.Data.List.Nodup
import Mathlib.Data.List.Perm.Basic

/-!
# C32, C33: restarting and loading agents
-/

namespace Cyclus.Init

open Timing (Timer Op Ev Sim World qget)

/-! ## Specification -/

/-- The chain of parents of the agent with this key ends, within the list, at one without parent. -/
inductive Rooted {A K : Type} (key : A → K) (parent : A → Option K) (l : List A) : K → Prop
  | root {x : A} : x ∈ l → parent x = none → Rooted key parent l (key x)
  | child {x : A} {p : K} : x ∈ l → parent x = some p → Rooted key parent l p →
      Rooted key parent l (key x)

/-- Every parent comes before its children. -/
def ParentsFirst {A K : Type} (key : A → K) (parent : A → Option K) (l : List A) : Prop :=
  ∀ (i : ℕ) x p, l[i]? = some x → parent x = some p → ∃ (j : ℕ) (y : A), j < i ∧ l[j]? = some y ∧ key y = p

/-- The agents alive at the snapshot of time `t`: entered before (for 0, at 0), not left before. -/
def Alive (db : Db) (t : ℤ) (e : Entry) : Prop :=
  e ∈ db.entries ∧ (e.enter < t ∨ e.enter = 0 ∧ t = 0) ∧ ∀ x, (e.id, x) ∈ db.exits → t ≤ x

/-- The rows that a run of the timer has written to `BuildSchedule`. -/
def buildRows (tr : List Ev) : List BuildRow :=
  tr.filterMap fun e => match e with
    | .op now (.schedBuild proto parent t) true =>
      some ⟨parent, proto, now, if t = -1 then now + 1 else t⟩
    | _ => none

/-- The rows that a run of the timer has written to `DecomSchedule`. -/
def decomRows (tr : List Ev) : List DecomRow :=
  tr.filterMap fun e => match e with
    | .op now (.schedDecom m t) true => some ⟨m, now, if t = -1 then now else t⟩
    | _ => none

/-! ## The hierarchy -/

section hier

variable {A K : Type} [DecidableEq K] {key : A → K} {parent : A → Option K}

/-- One pass over the unbuilt agents. -/
def pass (key : A → K) (parent : A → Option K) : List A → List A → List A × List A
  | [], built => (built, [])
  | x :: xs, built =>
    if ready key parent built x then pass key parent xs (built ++ [x])
    else ((pass key parent xs built).1, x :: (pass key parent xs built).2)

theorem hier_nil (fuel : ℕ) (bef built : List A) : hier key parent fuel bef [] built = some built := by
  cases fuel <;> rfl

theorem hier_pass (fuel : ℕ) (aft : List A) (hne : aft ≠ []) : ∀ (bef built : List A),
    hier key parent (fuel + aft.length) bef aft built =
      hier key parent fuel [] (bef ++ (pass key parent aft built).2) (pass key parent aft built).1 := by
  induction aft with
  | nil => exact absurd rfl hne
  | cons x xs ih =>
    intro bef built
    rw [List.length_cons, ← Nat.add_assoc]
    simp only [hier, pass]
    cases hr : ready key parent built x with
    | true =>
      simp only [if_true]
      cases xs with
      | nil => simp [pass]
      | cons y ys => exact ih (by simp) bef (built ++ [x])
    | false =>
      simp only [Bool.false_eq_true, if_false]
      cases xs with
      | nil => simp [pass]
      | cons y ys =>
        have := ih (by simp) (bef ++ [x]) built
        simpa using this

theorem pass_perm (aft : List A) : ∀ built : List A,
    ((pass key parent aft built).1 ++ (pass key parent aft built).2).Perm (built ++ aft) := by
  induction aft with
  | nil => intro built; simp [pass]
  | cons x xs ih =>
    intro built
    simp only [pass]
    split_ifs
    · simpa using ih (built ++ [x])
    · have h1 := ih built
      have h2 : ((pass key parent xs built).1 ++ x :: (pass key parent xs built).2).Perm
          (x :: ((pass key parent xs built).1 ++ (pass key parent xs built).2)) := List.perm_middle
      exact h2.trans ((h1.cons x).trans List.perm_middle.symm)

theorem pass_le (aft : List A) : ∀ built : List A,
    (pass key parent aft built).2.length ≤ aft.length := by
  induction aft with
  | nil => intro built; simp [pass]
  | cons x xs ih =>
    intro built
    simp only [pass]
    split_ifs
    · have := ih (built ++ [x]); simp; omega
    · have := ih built; simp; omega

theorem ready_mono {built built' : List A} (h : ∀ x ∈ built, x ∈ built') {x : A}
    (hr : ready key parent built x = true) : ready key parent built' x = true := by
  unfold ready at *
  cases hp : parent x with
  | none => rfl
  | some p =>
    simp only [hp, decide_eq_true_eq, List.mem_map] at hr ⊢
    obtain ⟨y, hy, e⟩ := hr
    exact ⟨y, h y hy, e⟩

theorem pass_lt (aft : List A) : ∀ built : List A, (∃ x ∈ aft, ready key parent built x = true) →
    (pass key parent aft built).2.length < aft.length := by
  induction aft with
  | nil => rintro built ⟨x, hx, _⟩; cases hx
  | cons y ys ih =>
    rintro built ⟨x, hx, hr⟩
    simp only [pass]
    split_ifs with hy
    · have := pass_le (key := key) (parent := parent) ys (built ++ [y]); simp; omega
    · rcases List.mem_cons.1 hx with rfl | hx
      · exact absurd hr hy
      · have := ih built ⟨x, hx, hr⟩; simp; omega

/-- If a rooted agent is not built, some unbuilt agent can be built. -/
theorem rooted_ready {l aft built : List A} (hp : (built ++ aft).Perm l) {k : K}
    (h : Rooted key parent l k) : (∃ x ∈ built, key x = k) ∨
      ∃ x ∈ aft, ready key parent built x = true := by
  induction h with
  | @root x hx hn =>
    rcases List.mem_append.1 (hp.mem_iff.2 hx) with h | h
    · exact Or.inl ⟨x, h, rfl⟩
    · exact Or.inr ⟨x, h, by simp [ready, hn]⟩
  | @child x p hx hn _ ih =>
    rcases ih with ⟨y, hy, e⟩ | h
    · rcases List.mem_append.1 (hp.mem_iff.2 hx) with h | h
      · exact Or.inl ⟨x, h, rfl⟩
      · refine Or.inr ⟨x, h, ?_⟩
        simp only [ready, hn, decide_eq_true_eq, List.mem_map]
        exact ⟨y, hy, e⟩
    · exact Or.inr h

theorem hier_terminates {l : List A} (hnd : (l.map key).Nodup) (hl : ∀ x ∈ l, Rooted key parent l (key x)) :
    ∀ (n : ℕ) (aft built : List A), aft.length ≤ n → (built ++ aft).Perm l →
      ∃ fuel r, hier key parent fuel [] aft built = some r := by
  intro n
  induction n with
  | zero =>
    intro aft built hn _
    have : aft = [] := List.length_eq_zero_iff.1 (by omega)
    subst this
    exact ⟨0, _, hier_nil _ _ _⟩
  | succ n ih =>
    intro aft built hn hp
    by_cases he : aft = []
    · subst he; exact ⟨0, _, hier_nil _ _ _⟩
    · have hready : ∃ x ∈ aft, ready key parent built x = true := by
        obtain ⟨x, hx⟩ := List.exists_mem_of_ne_nil aft he
        have hxl : x ∈ l := hp.mem_iff.1 (List.mem_append_right _ hx)
        have hroot := hl x hxl
        rcases rooted_ready hp hroot with ⟨y, hy, hk⟩ | h
        · have hd := (hp.map key).nodup_iff.2 hnd
          rw [List.map_append, List.nodup_append] at hd
          exact absurd hk (hd.2.2 (key y) (List.mem_map_of_mem hy) (key x) (List.mem_map_of_mem hx))
        · exact h
      obtain ⟨fuel, r, hr⟩ := ih (pass key parent aft built).2 (pass key parent aft built).1
        (by have := pass_lt aft built hready; omega) ((pass_perm aft built).trans hp)
      refine ⟨fuel + aft.length, r, ?_⟩
      rw [hier_pass fuel aft he, List.nil_append, hr]

/-- Soundness of the loop. -/
theorem hier_sound : ∀ (fuel : ℕ) (bef aft built r : List A), (aft = [] → bef = []) →
    ParentsFirst key parent built → hier key parent fuel bef aft built = some r →
    r.Perm (built ++ (bef ++ aft)) ∧ ParentsFirst key parent r := by
  have snoc : ∀ (built : List A) (x : A), ParentsFirst key parent built →
      ready key parent built x = true → ParentsFirst key parent (built ++ [x]) := by
    intro built x hb hr i y p hi hp
    by_cases hlt : i < built.length
    · rw [List.getElem?_append_left hlt] at hi
      obtain ⟨j, z, hj, hz, e⟩ := hb i y p hi hp
      exact ⟨j, z, hj, by rw [List.getElem?_append_left (by omega)]; exact hz, e⟩
    · have hie : i = built.length := by
        have := (List.getElem?_eq_some_iff.1 hi).1
        simp at this; omega
      subst hie
      simp only [List.getElem?_concat_length, Option.some.injEq] at hi
      subst hi
      simp only [ready, hp, decide_eq_true_eq, List.mem_map] at hr
      obtain ⟨z, hz, e⟩ := hr
      obtain ⟨j, hj, hje⟩ := List.mem_iff_getElem.1 hz
      exact ⟨j, z, hj, by rw [List.getElem?_append_left hj, List.getElem?_eq_getElem hj, hje], e⟩
  intro fuel
  induction fuel with
  | zero =>
    intro bef aft built r hba hb h
    cases aft with
    | nil =>
      rw [hier_nil] at h
      simp only [Option.some.injEq] at h
      subst h
      rw [hba rfl]; exact ⟨by simp, hb⟩
    | cons x xs => simp [hier] at h
  | succ fuel ih =>
    intro bef aft built r hba hb h
    cases aft with
    | nil =>
      rw [hier_nil] at h
      simp only [Option.some.injEq] at h
      subst h
      rw [hba rfl]; exact ⟨by simp, hb⟩
    | cons x xs =>
      have mid : ∀ l m : List A, (built ++ [x] ++ (l ++ m)).Perm (built ++ (l ++ x :: m)) := by
        intro l m
        rw [List.append_assoc]
        refine List.Perm.append_left built ?_
        simpa using (List.perm_middle (l₁ := l) (l₂ := m) (a := x)).symm
      simp only [hier] at h
      by_cases hr : ready key parent built x = true
      · rw [if_pos hr] at h
        cases xs with
        | nil =>
          obtain ⟨h1, h2⟩ := ih [] bef (built ++ [x]) r (fun _ => rfl) (snoc built x hb hr) h
          refine ⟨h1.trans ?_, h2⟩
          simpa using mid bef []
        | cons y ys =>
          obtain ⟨h1, h2⟩ := ih bef (y :: ys) (built ++ [x]) r (by simp) (snoc built x hb hr) h
          exact ⟨h1.trans (mid bef (y :: ys)), h2⟩
      · rw [if_neg hr] at h
        cases xs with
        | nil =>
          obtain ⟨h1, h2⟩ := ih [] (bef ++ [x]) built r (fun _ => rfl) hb h
          exact ⟨by simpa using h1, h2⟩
        | cons y ys =>
          obtain ⟨h1, h2⟩ := ih (bef ++ [x]) (y :: ys) built r (by simp) hb h
          exact ⟨by simpa using h1, h2⟩

theorem ParentsFirst.rooted {l : List A} (h : ParentsFirst key parent l) :
    ∀ (i : ℕ) (x : A), l[i]? = some x → Rooted key parent l (key x) := by
  intro i
  induction i using Nat.strong_induction_on with
  | _ i ih =>
    intro x hx
    have hm : x ∈ l := List.mem_of_getElem? hx
    cases hp : parent x with
    | none => exact .root hm hp
    | some p =>
      obtain ⟨j, y, hj, hy, rfl⟩ := h i x p hx hp
      exact .child hm hp (ih j hj y hy)

theorem Rooted.perm {l l' : List A} (hp : l.Perm l') {k : K} (h : Rooted key parent l k) :
    Rooted key parent l' k := by
  induction h with
  | root hx hn => exact .root (hp.mem_iff.1 hx) hn
  | child hx hn _ ih => exact .child (hp.mem_iff.1 hx) hn ih

/-- The loop ends iff all agents are rooted; then it has built each agent once, parents first. -/
theorem hier_iff {l : List A} (hnd : (l.map key).Nodup) :
    ((∃ fuel r, hier key parent fuel [] l [] = some r) ↔ ∀ x ∈ l, Rooted key parent l (key x)) ∧
    ∀ fuel r, hier key parent fuel [] l [] = some r → r.Perm l ∧ ParentsFirst key parent r := by
  have sound : ∀ fuel r, hier key parent fuel [] l [] = some r →
      r.Perm l ∧ ParentsFirst key parent r := by
    intro fuel r h
    have := hier_sound fuel [] l [] r (fun _ => rfl) (by intro i x p hi; simp at hi) h
    simpa using this
  refine ⟨⟨?_, fun h => hier_terminates hnd h l.length l [] le_rfl (by simp)⟩, sound⟩
  rintro ⟨fuel, r, h⟩ x hx
  obtain ⟨h1, h2⟩ := sound fuel r h
  obtain ⟨i, hi, he⟩ := List.mem_iff_getElem.1 (h1.mem_iff.2 hx)
  exact (h2.rooted i x (by rw [List.getElem?_eq_getElem hi, he])).perm h1

end hier

section map

variable {A K : Type} [LinearOrder K] {key : A → K}

theorem mapInsert_perm {x : A} {m : List A} (h : key x ∉ m.map key) :
    (mapInsert key x m).Perm (x :: m) := by
  induction m with
  | nil => exact .refl _
  | cons y ys ih =>
    simp only [List.map_cons, List.mem_cons, not_or] at h
    unfold mapInsert
    rw [if_neg h.1]
    split_ifs
    · exact .refl _
    · exact ((ih h.2).cons y).trans (List.Perm.swap x y ys)

theorem mapOf_perm {l : List A} (h : (l.map key).Nodup) : (mapOf key l).Perm l := by
  have gen : ∀ (l m : List A), ((m ++ l).map key).Nodup →
      (l.foldl (fun m x => mapInsert key x m) m).Perm (m ++ l) := by
    intro l
    induction l with
    | nil => intro m _; simp
    | cons x xs ih =>
      intro m hm
      simp only [List.foldl_cons]
      have hx : key x ∉ m.map key := by
        rw [List.map_append, List.nodup_append] at hm
        intro hc
        exact hm.2.2 _ hc (key x) (by simp) rfl
      have hp := mapInsert_perm hx
      have hp' : (mapInsert key x m ++ xs).Perm (m ++ x :: xs) :=
        (hp.append_right xs).trans List.perm_middle.symm
      exact (ih _ ((hp'.map key).nodup_iff.2 hm)).trans hp'
  have := gen l [] (by simpa using h)
  simpa [mapOf] using this

/-- The keys of a map are sorted, and are those of the list. -/
theorem mapInsert_sorted {x : A} {m : List A} (h : (m.map key).Pairwise (· < ·)) :
    ((mapInsert key x m).map key).Pairwise (· < ·) ∧
      ∀ k, k ∈ (mapInsert key x m).map key ↔ k = key x ∨ k ∈ m.map key := by
  induction m with
  | nil => simp [mapInsert]
  | cons y ys ih =>
    have h0 := h
    rw [List.map_cons, List.pairwise_cons] at h
    unfold mapInsert
    split_ifs with h1 h2
    · refine ⟨?_, by simp⟩
      rw [List.map_cons, List.pairwise_cons]
      refine ⟨?_, h0⟩
      intro k hk
      rw [List.map_cons, List.mem_cons] at hk
      rcases hk with rfl | hk
      · exact h1
      · exact h1.trans (h.1 k hk)
    · refine ⟨?_, by simp [h2]⟩
      rw [List.map_cons, List.pairwise_cons, h2]
      exact h
    · obtain ⟨i1, i2⟩ := ih h.2
      refine ⟨?_, ?_⟩
      · rw [List.map_cons, List.pairwise_cons]
        refine ⟨?_, i1⟩
        intro k hk
        rcases (i2 k).1 hk with rfl | hk
        · exact lt_of_le_of_ne (not_lt.1 h1) (Ne.symm h2)
        · exact h.1 k hk
      · intro k
        rw [List.map_cons, List.mem_cons, i2, List.map_cons, List.mem_cons]
        tauto

theorem mapOf_sorted (l : List A) : ((mapOf key l).map key).Pairwise (· < ·) ∧
    ∀ k, k ∈ (mapOf key l).map key ↔ k ∈ l.map key := by
  have gen : ∀ (l m : List A), (m.map key).Pairwise (· < ·) →
      ((l.foldl (fun m x => mapInsert key x m) m).map key).Pairwise (· < ·) ∧
      ∀ k, k ∈ (l.foldl (fun m x => mapInsert key x m) m).map key ↔ k ∈ m.map key ∨ k ∈ l.map key := by
    intro l
    induction l with
    | nil => intro m hm; exact ⟨hm, by simp⟩
    | cons x xs ih =>
      intro m hm
      obtain ⟨h1, h2⟩ := mapInsert_sorted (x := x) hm
      obtain ⟨h3, h4⟩ := ih _ h1
      refine ⟨h3, fun k => ?_⟩
      rw [List.foldl_cons, h4, h2, List.map_cons, List.mem_cons]
      tauto
  obtain ⟨h1, h2⟩ := gen l [] (by simp)
  exact ⟨h1, fun k => by simpa [mapOf] using h2 k⟩

end map


/-! ## C33 -/

/-- **C33** for agents with different names: loading ends iff the chain of parents of every agent ends
at an agent without parent; then every agent has been built once, parents first. -/
theorem C33_flat_partial {l : List Listed} (hn : (l.map Listed.name).Nodup) :
    ((∃ fuel r, flatLoad fuel l = some r) ↔
      ∀ x ∈ l, Rooted Listed.name Listed.parent l x.name) ∧
    ∀ fuel r, flatLoad fuel l = some r → r.Perm l ∧ ParentsFirst Listed.name Listed.parent r := by
  have hp := mapOf_perm hn
  obtain ⟨h1, h2⟩ := hier_iff (key := Listed.name) (parent := Listed.parent)
    ((hp.map _).nodup_iff.2 hn)
  refine ⟨?_, fun fuel r h => ?_⟩
  · unfold flatLoad
    rw [h1]
    exact ⟨fun h x hx => (h x (hp.mem_iff.2 hx)).perm hp,
      fun h x hx => (h x (hp.mem_iff.1 hx)).perm hp.symm⟩
  · obtain ⟨h3, h4⟩ := h2 fuel r h
    exact ⟨h3.trans hp, h4⟩

theorem not_rooted {A K : Type} {key : A → K} {parent : A → Option K} {l : List A} {p : K}
    (hp : p ∉ l.map key) : ¬ Rooted key parent l p := by
  intro h
  cases h with
  | root hx _ => exact hp (List.mem_map_of_mem hx)
  | child hx _ _ => exact hp (List.mem_map_of_mem hx)

/-- A list of agents in no particular order that meets the hypothesis and is loaded. -/
example : ([⟨"z", "p", none⟩, ⟨"a", "q", some "m"⟩, ⟨"m", "p", some "z"⟩].map Listed.name).Nodup ∧
    flatLoad 9 [⟨"z", "p", none⟩, ⟨"a", "q", some "m"⟩, ⟨"m", "p", some "z"⟩] =
      some [⟨"z", "p", none⟩, ⟨"m", "p", some "z"⟩, ⟨"a", "q", some "m"⟩] := by decide +kernel

/-- If an agent's parent does not exist there is no error: loading never ends. -/
theorem C33_fails_missing {l : List Listed} (hn : (l.map Listed.name).Nodup) {x : Listed} {p : String}
    (hx : x ∈ l) (hp : x.parent = some p) (hm : p ∉ l.map Listed.name) (fuel : ℕ) :
    flatLoad fuel l = none := by
  cases h : flatLoad fuel l with
  | none => rfl
  | some r =>
    exfalso
    obtain ⟨h1, h2⟩ := (C33_flat_partial hn).2 fuel r h
    obtain ⟨i, hi, he⟩ := List.mem_iff_getElem.1 (h1.mem_iff.2 hx)
    obtain ⟨j, y, _, hy, hk⟩ := h2 i x p (by rw [List.getElem?_eq_getElem hi, he]) hp
    exact hm (hk ▸ List.mem_map_of_mem (h1.mem_iff.1 (List.mem_of_getElem? hy)))

/-- Nor does it end if an agent is its own parent. -/
theorem C33_fails_cycle (fuel : ℕ) : flatLoad fuel [⟨"a", "p", some "a"⟩] = none := by
  cases h : flatLoad fuel [⟨"a", "p", some "a"⟩] with
  | none => rfl
  | some r =>
    exfalso
    obtain ⟨h1, h2⟩ := (C33_flat_partial (l := [⟨"a", "p", some "a"⟩]) (by simp)).2 fuel r h
    rw [List.perm_singleton] at h1
    subst h1
    obtain ⟨j, _, hj, _⟩ := h2 0 _ "a" rfl rfl
    omega

/-- Of two agents with the same name only the second is built. -/
theorem C33_fails_duplicate : flatLoad 5 [⟨"a", "p", none⟩, ⟨"a", "q", none⟩] =
    some [⟨"a", "q", none⟩] := by decide +kernel

/-! ## C32: agents -/

theorem mem_aliveRows {db : Db} {t : ℤ} (ht : 0 ≤ t) (h0 : ∀ e ∈ db.entries, 0 ≤ e.enter) {e : Entry} :
    e ∈ aliveRows db t ↔ Alive db t e := by
  unfold aliveRows Alive
  simp only [List.mem_filter, decide_eq_true_eq, List.isEmpty_iff, List.filter_eq_nil_iff, not_and,
    not_lt, Prod.forall]
  constructor
  · rintro ⟨⟨⟨h1, h2⟩, h3⟩, h4⟩
    refine ⟨h1, ?_, fun x hx => by simpa using h4 e.id x hx⟩
    have := h0 e h1
    by_cases hlt : e.enter < t
    · exact Or.inl hlt
    · right
      by_cases hz : 0 < t
      · exact absurd (by omega) (h3 hz)
      · omega
  · rintro ⟨h1, h2, h3⟩
    refine ⟨⟨⟨h1, by omega⟩, by omega⟩, fun i x hx => ?_⟩
    by_cases hi : i = e.id
    · subst hi; simpa using h3 x hx
    · simp [hi]

/-- The agent restored for an entry. -/
def Restores (db : Db) (t : ℤ) (e : Entry) (a : Ag) : Prop :=
  a.id = e.id ∧ a.parent = e.parent ∧ a.enter = e.enter ∧
    ⟨a.id, t, a.proto, a.lifetime⟩ ∈ db.states

theorem readAll_spec {db : Db} {t : ℤ} {es : List Entry} :
    (∀ as, readAll db t es = .ok as → List.Forall₂ (Restores db t) es as) ∧
    ((∀ e ∈ es, ∃ s ∈ db.states, s.id = e.id ∧ s.time = t) → ∃ as, readAll db t es = .ok as) := by
  induction es with
  | nil =>
    refine ⟨fun as h => ?_, fun _ => ⟨[], rfl⟩⟩
    simp only [readAll, Except.ok.injEq] at h
    subst h; exact .nil
  | cons e es ih =>
    have one : ∀ a, readState db t e = .ok a → Restores db t e a := by
      intro a h
      unfold readState at h
      cases hf : db.states.find? (fun s => decide (s.id = e.id ∧ s.time = t)) with
      | none => simp only [hf] at h; cases h
      | some s =>
        simp only [hf, Except.ok.injEq] at h
        subst h
        have h1 := List.find?_some hf
        have h2 := List.mem_of_find?_eq_some hf
        simp only [decide_eq_true_eq] at h1
        refine ⟨h1.1, rfl, rfl, ?_⟩
        rw [← h1.2]; exact h2
    constructor
    · intro as h
      unfold readAll at h
      cases h1 : readState db t e with
      | error r => simp [h1] at h
      | ok a =>
        cases h2 : readAll db t es with
        | error r => simp [h1, h2] at h
        | ok bs =>
          simp only [h1, h2, Except.ok.injEq] at h
          subst h
          exact .cons (one a h1) (ih.1 bs h2)
    · intro h
      obtain ⟨bs, hb⟩ := ih.2 fun e' he' => h e' (List.mem_cons_of_mem _ he')
      obtain ⟨s, hs, hs1, hs2⟩ := h e List.mem_cons_self
      have : ∃ a, readState db t e = .ok a := by
        unfold readState
        cases hf : db.states.find? (fun s => decide (s.id = e.id ∧ s.time = t)) with
        | none =>
          rw [List.find?_eq_none] at hf
          have := hf s hs
          simp [hs1, hs2] at this
        | some s' => exact ⟨_, rfl⟩
      obtain ⟨a, ha⟩ := this
      exact ⟨a :: bs, by simp only [readAll, ha, hb]⟩

theorem restores_ids {db : Db} {t : ℤ} {es : List Entry} {as : List Ag}
    (h : List.Forall₂ (Restores db t) es as) : as.map Ag.id = es.map Entry.id := by
  induction h with
  | nil => rfl
  | cons h _ ih => simp [ih, h.1]

/-- **C32**, agents: a restart at `t` from a database with one entry for each agent and a state at `t` for
each agent alive then never fails, ends iff the chain of parents of each agent alive ends at one without
parent, and makes exactly the agents alive, each once, parents first, with the parent and enter time of
its entry and the prototype and lifetime of its state. -/
theorem C32_agents {db : Db} {t : ℤ} (ht : 0 ≤ t) (hid : (db.entries.map Entry.id).Nodup)
    (h0 : ∀ e ∈ db.entries, 0 ≤ e.enter)
    (hst : ∀ e, Alive db t e → ∃ s ∈ db.states, s.id = e.id ∧ s.time = t) :
    ((∃ fuel r, loadAgents fuel db t = some r) ↔
      ∀ e, Alive db t e → Rooted Entry.id Entry.parent (aliveRows db t) e.id) ∧
    ∀ fuel r, loadAgents fuel db t = some r → ∃ as, r = .ok as ∧ (as.map Ag.id).Nodup ∧
      (∀ a ∈ as, ∃ e, Alive db t e ∧ Restores db t e a) ∧
      (∀ e, Alive db t e → ∃ a ∈ as, Restores db t e a) ∧ ParentsFirst Ag.id Ag.parent as := by
  have hal := fun e => mem_aliveRows (db := db) ht h0 (e := e)
  obtain ⟨as, has⟩ := readAll_spec.2 fun e he => hst e ((hal e).1 he)
  have hf := readAll_spec.1 as has
  have hids := restores_ids hf
  have hnd : (as.map Ag.id).Nodup := by
    rw [hids]
    refine List.Nodup.sublist (List.Sublist.map _ ?_) hid
    exact (List.filter_sublist.trans List.filter_sublist).trans List.filter_sublist
  have hp := mapOf_perm hnd
  obtain ⟨h1, h2⟩ := hier_iff (key := Ag.id) (parent := Ag.parent) ((hp.map _).nodup_iff.2 hnd)
  have left : ∀ {es : List Entry} {as : List Ag}, List.Forall₂ (Restores db t) es as →
      ∀ e ∈ es, ∃ a ∈ as, Restores db t e a := by
    intro es as h
    induction h with
    | nil => intro e he; cases he
    | cons h _ ih =>
      intro e he
      rcases List.mem_cons.1 he with rfl | he
      · exact ⟨_, List.mem_cons_self, h⟩
      · obtain ⟨a, ha, hr⟩ := ih e he; exact ⟨a, List.mem_cons_of_mem _ ha, hr⟩
  have right : ∀ {es : List Entry} {as : List Ag}, List.Forall₂ (Restores db t) es as →
      ∀ a ∈ as, ∃ e ∈ es, Restores db t e a := by
    intro es as h
    induction h with
    | nil => intro e he; cases he
    | cons h _ ih =>
      intro e he
      rcases List.mem_cons.1 he with rfl | he
      · exact ⟨_, List.mem_cons_self, h⟩
      · obtain ⟨a, ha, hr⟩ := ih e he; exact ⟨a, List.mem_cons_of_mem _ ha, hr⟩
  constructor
  · have e1 : (∃ fuel r, loadAgents fuel db t = some r) ↔
        ∃ fuel r, hier Ag.id Ag.parent fuel [] (mapOf Ag.id as) [] = some r := by
      simp only [loadAgents, has, Option.map_eq_some_iff]
      constructor
      · rintro ⟨fuel, r, x, hx, _⟩; exact ⟨fuel, x, hx⟩
      · rintro ⟨fuel, r, hx⟩; exact ⟨fuel, _, r, hx, rfl⟩
    rw [e1, h1]
    have ra : ∀ k, Rooted Ag.id Ag.parent (mapOf Ag.id as) k →
        Rooted Entry.id Entry.parent (aliveRows db t) k := by
      intro k hk
      induction hk with
      | root hx hn =>
        obtain ⟨e, he, hr⟩ := right hf _ (hp.mem_iff.1 hx)
        rw [hr.1]; exact .root he (hr.2.1 ▸ hn)
      | child hx hn _ ih =>
        obtain ⟨e, he, hr⟩ := right hf _ (hp.mem_iff.1 hx)
        rw [hr.1]; exact .child he (hr.2.1 ▸ hn) ih
    have rb : ∀ k, Rooted Entry.id Entry.parent (aliveRows db t) k →
        Rooted Ag.id Ag.parent (mapOf Ag.id as) k := by
      intro k hk
      induction hk with
      | root hx hn =>
        obtain ⟨a, ha, hr⟩ := left hf _ hx
        rw [← hr.1]; exact .root (hp.mem_iff.2 ha) (hr.2.1.trans hn)
      | child hx hn _ ih =>
        obtain ⟨a, ha, hr⟩ := left hf _ hx
        rw [← hr.1]; exact .child (hp.mem_iff.2 ha) (hr.2.1.trans hn) ih
    constructor
    · intro h e he
      obtain ⟨a, ha, hr⟩ := left hf e ((hal e).2 he)
      rw [← hr.1]; exact ra _ (h a (hp.mem_iff.2 ha))
    · intro h a ha
      obtain ⟨e, he, hr⟩ := right hf a (hp.mem_iff.1 ha)
      rw [hr.1]; exact rb _ (h e ((hal e).1 he))
  · intro fuel r h
    simp only [loadAgents, has, Option.map_eq_some_iff] at h
    obtain ⟨x, hx, rfl⟩ := h
    obtain ⟨h3, h4⟩ := h2 fuel x hx
    have hxa := h3.trans hp
    refine ⟨x, rfl, (hxa.map _).nodup_iff.2 hnd, ?_, ?_, h4⟩
    · intro a ha
      obtain ⟨e, he, hr⟩ := right hf a (hxa.mem_iff.1 ha)
      exact ⟨e, (hal e).1 he, hr⟩
    · intro e he
      obtain ⟨a, ha, hr⟩ := left hf e ((hal e).2 he)
      exact ⟨a, hxa.mem_iff.2 ha, hr⟩

/-! ## C32: counters -/

theorem setIds_append (c : Counters) (a b : List (ℤ × String × ℤ)) :
    setIds c (a ++ b) = match setIds c a with | .error e => .error e | .ok c' => setIds c' b := by
  induction a generalizing c with
  | nil => rfl
  | cons r rs ih =>
    simp only [List.cons_append, setIds]
    cases setId c r.2.1 r.2.2 with
    | error e => rfl
    | ok c' => exact ih c'

/-- The rows of any number of snapshots. -/
def snaps (l : List (ℤ × Counters)) : List (ℤ × String × ℤ) := l.flatMap fun p => snapIds p.1 p.2

theorem setIds_snap (c c' : Counters) (t : ℤ) : setIds c (snapIds t c') = .ok c' := by
  simp [setIds, snapIds, setId]

/-- **C32**, counters: all counters are restored to the values they had at the last snapshot of the time of
the restart. -/
theorem C32_counters {db : Db} {t : ℤ} {before after : List (ℤ × Counters)} {c c0 : Counters}
    (h : db.nextIds = snaps before ++ snapIds t c ++ snaps after) (ha : ∀ p ∈ after, p.1 ≠ t) :
    loadNextIds db t c0 = .ok c := by
  unfold loadNextIds
  rw [h, List.filter_append, List.filter_append]
  have e1 : (snaps after).filter (fun r => decide (r.1 = t)) = [] := by
    rw [List.filter_eq_nil_iff]
    intro r hr
    obtain ⟨p, hp, hr⟩ := List.mem_flatMap.1 hr
    have : r.1 = p.1 := by
      simp only [snapIds, List.mem_cons, List.not_mem_nil, or_false] at hr
      rcases hr with rfl | rfl | rfl | rfl | rfl | rfl <;> rfl
    simpa [this] using ha p hp
  have e2 : (snapIds t c).filter (fun r => decide (r.1 = t)) = snapIds t c := by simp [snapIds]
  have e3 : ∀ (l : List (ℤ × Counters)) (c0 : Counters),
      ∃ c1, setIds c0 ((snaps l).filter fun r => decide (r.1 = t)) = .ok c1 := by
    intro l
    induction l with
    | nil => intro c0; exact ⟨c0, rfl⟩
    | cons p l ih =>
      intro c0
      have : snaps (p :: l) = snapIds p.1 p.2 ++ snaps l := rfl
      rw [this, List.filter_append]
      by_cases hp : p.1 = t
      · have : (snapIds p.1 p.2).filter (fun r => decide (r.1 = t)) = snapIds p.1 p.2 := by
          simp [snapIds, hp]
        rw [this, setIds_append, setIds_snap]
        exact ih _
      · have : (snapIds p.1 p.2).filter (fun r => decide (r.1 = t)) = [] := by
          simp [snapIds, hp]
        rw [this]
        exact ih c0
  obtain ⟨c1, h1⟩ := e3 before c0
  rw [e1, e2, List.append_nil, setIds_append, h1]
  exact setIds_snap c1 c t

/-! ## C32: schedules -/

open Timing (runLoop)
open Timing.Spec (agenda agendaStep pending schedFor accepts)

theorem call_fst_time (shim : ℕ → Bool) (s : Timer) (o : Op) :
    (s.call shim o).1.time = s.time ∧ (s.call shim o).2 = accepts s.time o := by
  cases o with
  | schedBuild p q t =>
    simp only [Timing.Timer.call, Timing.buildTime, accepts]
    split_ifs with h1 h2 h2 <;> simp <;> omega
  | schedDecom m t =>
    simp only [Timing.Timer.call, Timing.decomTime, accepts]
    split_ifs with h1 h2 h2 <;> simp <;> omega
  | register a =>
    simp only [Timing.Timer.call, accepts]
    split_ifs <;> simp
  | unregister a =>
    simp only [Timing.Timer.call, accepts]
    split_ifs <;> simp
  | _ => simp [Timing.Timer.call, accepts]

theorem fold_call {σ : Type} (W : World σ) (ops : List Op) : ∀ s : Sim σ,
    (ops.foldl (Sim.call W) s).t = ops.foldl (fun q o => (q.call W.shim o).1) s.t ∧
    (ops.foldl (Sim.call W) s).trace =
      s.trace ++ ops.map fun o => Ev.op s.t.time o (accepts s.t.time o) := by
  induction ops with
  | nil => intro s; simp
  | cons o ops ih =>
    intro s
    obtain ⟨h1, h2⟩ := ih (s.call W o)
    obtain ⟨h3, h4⟩ := call_fst_time W.shim s.t o
    simp only [List.foldl_cons, h1, h2]
    refine ⟨rfl, ?_⟩
    simp only [Timing.Sim.call, h3, h4, List.append_assoc, List.map_cons, List.singleton_append]

/-- The calls made by a restart. -/
def buildOps (ags : List Ag) (rows : List BuildRow) : List Op :=
  rows.map fun r => .schedBuild r.proto (r.parent.filter fun p => p ∈ ags.map Ag.id) r.build

def decomOps (rows : List DecomRow) : List Op := rows.map fun r => .schedDecom r.id r.decom

theorem loadBuilds_eq (db : Db) (t : ℤ) (ags : List Ag) (s : Timer) :
    loadBuilds db t ags s = (buildOps ags (db.builds.filter fun r => r.build > t)).foldl
      (fun q o => (q.call (fun _ => false) o).1) s := by
  simp [loadBuilds, buildOps, List.foldl_map]

theorem loadDecoms_eq {ags : List Ag} {rows : List DecomRow} : ∀ s : Timer,
    ((∀ r ∈ rows, r.id ∈ ags.map Ag.id) → loadDecoms ags rows s =
      some ((decomOps rows).foldl (fun q o => (q.call (fun _ => false) o).1) s)) ∧
    ((∃ r ∈ rows, r.id ∉ ags.map Ag.id) → loadDecoms ags rows s = none) := by
  induction rows with
  | nil => intro s; simp [loadDecoms, decomOps]
  | cons r rs ih =>
    intro s
    refine ⟨fun h => ?_, fun h => ?_⟩
    · simp only [loadDecoms, if_pos (h r List.mem_cons_self)]
      exact (ih _).1 fun r' h' => h r' (List.mem_cons_of_mem _ h')
    · unfold loadDecoms
      split_ifs with hr
      · obtain ⟨r', h1, h2⟩ := h
        rcases List.mem_cons.1 h1 with rfl | h1
        · exact absurd hr h2
        · exact (ih _).2 ⟨r', h1, h2⟩
      · rfl

theorem schedFor_rows (tr : List Ev) (bt : ℤ) :
    schedFor tr bt = ((buildRows tr).filter fun r => r.build = bt).map fun r => (r.proto, r.parent) := by
  induction tr with
  | nil => rfl
  | cons e tr ih =>
    have h1 : schedFor (e :: tr) bt = schedFor [e] bt ++ schedFor tr bt :=
      Timing.schedFor_append [e] tr bt
    have h2 : buildRows (e :: tr) = buildRows [e] ++ buildRows tr :=
      List.filterMap_append (l := [e]) (l' := tr) (f := _)
    rw [h1, h2, List.filter_append, List.map_append, ih]
    congr 1
    unfold schedFor buildRows
    rcases e with _ | _ | _ | _ | _ | _ | _ | _ | _ | ⟨now, o, ok⟩ | _ <;> try rfl
    rcases o with ⟨pr, pa, t'⟩ | _ | _ | _ | _ | _ <;> cases ok <;> try rfl
    simp only [List.filterMap_cons, List.filterMap_nil]
    by_cases h : (if t' = -1 then now + 1 else t') = bt
    · rw [if_pos h]; simp [h]
    · rw [if_neg h]; simp [h]

/-- The last row of each agent, in order. -/
def lastOnly : List (ℕ × ℤ) → List (ℕ × ℤ)
  | [] => []
  | r :: rs => if r.1 ∈ rs.map Prod.fst then lastOnly rs else r :: lastOnly rs

/-- Replacing the earlier request of an agent. -/
def replaceStep (l : List (ℕ × ℤ)) (r : ℕ × ℤ) : List (ℕ × ℤ) := l.filter (fun x => x.1 ≠ r.1) ++ [r]

theorem lastOnly_fst (rs : List (ℕ × ℤ)) (m : ℕ) :
    m ∈ (lastOnly rs).map Prod.fst ↔ m ∈ rs.map Prod.fst := by
  induction rs with
  | nil => rfl
  | cons r rs ih =>
    simp only [lastOnly, List.map_cons, List.mem_cons]
    split_ifs with h
    · rw [ih]
      constructor
      · exact Or.inr
      · rintro (rfl | h')
        · exact h
        · exact h'
    · simp only [List.map_cons, List.mem_cons, ih]

theorem replace_fold (rs : List (ℕ × ℤ)) : ∀ l : List (ℕ × ℤ),
    rs.foldl replaceStep l = l.filter (fun x => x.1 ∉ rs.map Prod.fst) ++ lastOnly rs := by
  induction rs with
  | nil => intro l; simp [lastOnly]
  | cons r rs ih =>
    intro l
    rw [List.foldl_cons, ih]
    simp only [replaceStep, List.filter_append, List.filter_filter, lastOnly]
    have e : l.filter (fun x => decide (x.1 ∉ rs.map Prod.fst) && decide (x.1 ≠ r.1)) =
        l.filter (fun x => decide (x.1 ∉ (r :: rs).map Prod.fst)) := by
      apply List.filter_congr
      intro x _
      simp only [List.map_cons, List.mem_cons, not_or, Bool.decide_and, Bool.and_comm]
    rw [e, List.append_assoc]
    congr 1
    by_cases h : r.1 ∈ rs.map Prod.fst
    · simp [h]
    · simp [h]

theorem agenda_rows (tr : List Ev) : agenda tr = lastOnly ((decomRows tr).map fun r => (r.id, r.decom)) := by
  have gen : ∀ (tr : List Ev) (l : List (ℕ × ℤ)), tr.foldl agendaStep l =
      ((decomRows tr).map fun r => (r.id, r.decom)).foldl replaceStep l := by
    intro tr
    induction tr with
    | nil => intro l; rfl
    | cons e tr ih =>
      intro l
      have h2 : decomRows (e :: tr) = decomRows [e] ++ decomRows tr :=
        List.filterMap_append (l := [e]) (l' := tr) (f := _)
      rw [List.foldl_cons, ih, h2, List.map_append, List.foldl_append]
      congr 1
      rcases e with _ | _ | _ | _ | _ | _ | _ | _ | _ | ⟨now, o, ok⟩ | _ <;> try rfl
      rcases o with _ | ⟨m, t'⟩ | _ | _ | _ | _ <;> cases ok <;> rfl
  rw [agenda, gen, replace_fold]
  simp

theorem lastOnly_filter {t : ℤ} {rs : List (ℕ × ℤ)}
    (h : ∀ r ∈ rs, t ≤ r.2 → ∀ dt, (r.1, dt) ∈ lastOnly rs → t ≤ dt) :
    lastOnly (rs.filter fun r => t ≤ r.2) = (lastOnly rs).filter fun r => t ≤ r.2 := by
  induction rs with
  | nil => rfl
  | cons r rs ih =>
    have hmem : ∀ x ∈ lastOnly rs, x ∈ lastOnly (r :: rs) := by
      intro x hx
      simp only [lastOnly]
      split_ifs
      · exact hx
      · exact List.mem_cons_of_mem _ hx
    have ih' := ih fun r' hr' ht dt hd => h r' (List.mem_cons_of_mem _ hr') ht dt (hmem _ hd)
    by_cases hr : t ≤ r.2
    · rw [List.filter_cons_of_pos (by simpa using hr)]
      by_cases hm : r.1 ∈ rs.map Prod.fst
      · have hm' : r.1 ∈ (rs.filter fun r => decide (t ≤ r.2)).map Prod.fst := by
          rw [← lastOnly_fst, ih']
          rw [← lastOnly_fst] at hm
          obtain ⟨x, hx, e⟩ := List.mem_map.1 hm
          have := h r List.mem_cons_self hr x.2 (hmem _ (by rw [← e]; exact hx))
          exact List.mem_map.2 ⟨x, List.mem_filter.2 ⟨hx, by simpa using this⟩, e⟩
        simp only [lastOnly, if_pos hm, if_pos hm', ih']
      · have hm' : r.1 ∉ (rs.filter fun r => decide (t ≤ r.2)).map Prod.fst := fun hc => by
          obtain ⟨x, hx, e⟩ := List.mem_map.1 hc
          exact hm (List.mem_map.2 ⟨x, (List.mem_filter.1 hx).1, e⟩)
        simp only [lastOnly, if_neg hm, if_neg hm', ih']
        rw [List.filter_cons_of_pos (by simpa using hr)]
    · rw [List.filter_cons_of_neg (by simpa using hr), ih']
      simp only [lastOnly]
      split_ifs
      · rfl
      · rw [List.filter_cons_of_neg (by simpa using hr)]

/-- The timer of a restart, in terms of the rows. -/
theorem restored_timer (db : Db) {t dur : ℤ} (ht : 0 ≤ t) {ags : List Ag}
    (hd : ∀ r ∈ db.decoms, t ≤ r.decom → r.id ∈ ags.map Ag.id) :
    ∃ q, loadDecoms ags (db.decoms.filter fun r => r.decom ≥ t) (loadBuilds db t ags (timer0 dur)) =
        some q ∧
      (∀ bt, q.builds bt = ((db.builds.filter fun r => r.build > t).filter fun r => r.build = bt).map
        fun r => (r.proto, r.parent.filter fun p => p ∈ ags.map Ag.id)) ∧
      ∀ dt, qget q.decoms dt = ((lastOnly ((db.decoms.filter fun r => r.decom ≥ t).map
        fun r => (r.id, r.decom))).filter fun x => x.2 = dt).map Prod.fst := by
  let W : World Unit := ⟨fun _ => false, fun w _ _ => (w, [])⟩
  let B := db.builds.filter fun r => r.build > t
  let D := db.decoms.filter fun r => r.decom ≥ t
  let ops := buildOps ags B ++ decomOps D
  have hB : ∀ r ∈ B, r.build > t := fun r hr => by simpa using (List.mem_filter.1 hr).2
  have hD : ∀ r ∈ D, t ≤ r.decom := fun r hr => by simpa using (List.mem_filter.1 hr).2
  obtain ⟨g, -, -⟩ := Timing.Good.start W () 0 dur ops
  obtain ⟨h1, h2⟩ := fold_call W ops ⟨timer0 dur, (), []⟩
  have hst : Timing.start W () 0 dur ops = ops.foldl (Sim.call W) ⟨timer0 dur, (), []⟩ := rfl
  have htr : (Timing.start W () 0 dur ops).trace = ops.map fun o => Ev.op 0 o (accepts 0 o) := by
    rw [hst, h2]; rfl
  have hrowsB : buildRows (ops.map fun o => Ev.op 0 o (accepts 0 o)) =
      B.map fun r => ⟨r.parent.filter fun p => p ∈ ags.map Ag.id, r.proto, 0, r.build⟩ := by
    have a1 : ∀ B' : List BuildRow, (∀ r ∈ B', r.build > t) →
        buildRows ((buildOps ags B').map fun o => Ev.op 0 o (accepts 0 o)) =
          B'.map fun r => ⟨r.parent.filter fun p => p ∈ ags.map Ag.id, r.proto, 0, r.build⟩ := by
      intro B' hB'
      induction B' with
      | nil => rfl
      | cons r rs ih =>
        have hr := hB' r List.mem_cons_self
        have ih' := ih fun r' h' => hB' r' (List.mem_cons_of_mem _ h')
        have hacc : accepts 0 (.schedBuild r.proto (r.parent.filter fun p => p ∈ ags.map Ag.id)
            r.build) = true := by simp [accepts]; omega
        simp only [buildOps, buildRows, List.map_cons, List.filterMap_cons] at ih' ⊢
        rw [hacc]
        simp only [ih', if_neg (show r.build ≠ -1 by omega)]
    have a2 : ∀ D' : List DecomRow, buildRows ((decomOps D').map fun o => Ev.op 0 o (accepts 0 o)) = [] := by
      intro D'
      induction D' with
      | nil => rfl
      | cons r rs ih =>
        simp only [decomOps, buildRows, List.map_cons, List.filterMap_cons] at ih ⊢
        exact ih
    have : buildRows (ops.map fun o => Ev.op 0 o (accepts 0 o)) =
        buildRows ((buildOps ags B).map fun o => Ev.op 0 o (accepts 0 o)) ++
        buildRows ((decomOps D).map fun o => Ev.op 0 o (accepts 0 o)) := by
      simp only [ops, List.map_append]
      exact List.filterMap_append
    rw [this, a1 B hB, a2, List.append_nil]
  have hrowsD : (decomRows (ops.map fun o => Ev.op 0 o (accepts 0 o))).map (fun r => (r.id, r.decom)) =
      D.map fun r => (r.id, r.decom) := by
    have a1 : ∀ B' : List BuildRow,
        decomRows ((buildOps ags B').map fun o => Ev.op 0 o (accepts 0 o)) = [] := by
      intro B'
      induction B' with
      | nil => rfl
      | cons r rs ih =>
        simp only [buildOps, decomRows, List.map_cons, List.filterMap_cons] at ih ⊢
        exact ih
    have a2 : ∀ D' : List DecomRow, (∀ r ∈ D', t ≤ r.decom) →
        (decomRows ((decomOps D').map fun o => Ev.op 0 o (accepts 0 o))).map (fun r => (r.id, r.decom)) =
          D'.map fun r => (r.id, r.decom) := by
      intro D' hD'
      induction D' with
      | nil => rfl
      | cons r rs ih =>
        have hr := hD' r List.mem_cons_self
        have ih' := ih fun r' h' => hD' r' (List.mem_cons_of_mem _ h')
        have hacc : accepts 0 (.schedDecom r.id r.decom) = true := by simp [accepts]; omega
        simp only [decomOps, decomRows, List.map_cons, List.filterMap_cons] at ih' ⊢
        rw [hacc]
        simp only [List.map_cons, ih', if_neg (show r.decom ≠ -1 by omega)]
    have : decomRows (ops.map fun o => Ev.op 0 o (accepts 0 o)) =
        decomRows ((buildOps ags B).map fun o => Ev.op 0 o (accepts 0 o)) ++
        decomRows ((decomOps D).map fun o => Ev.op 0 o (accepts 0 o)) := by
      simp only [ops, List.map_append]
      exact List.filterMap_append
    rw [this, a1, List.nil_append, a2 D hD]
  refine ⟨(Timing.start W () 0 dur ops).t, ?_, ?_, ?_⟩
  · rw [(loadDecoms_eq _).1, loadBuilds_eq, hst, h1]
    · simp only [ops, List.foldl_append]; rfl
    · intro r hr
      exact hd r (List.mem_filter.1 hr).1 (hD r hr)
  · intro bt
    rw [g.inv.builds, htr, schedFor_rows, hrowsB, List.filter_map, List.map_map]
    rfl
  · intro dt
    rw [g.inv.decoms, htr, pending, agenda_rows, hrowsD]

/-- **C32**, schedules: if a run is at the beginning of step `t` (where snapshots are taken) and the
database contains exactly what has been scheduled so far, a restart at `t` with agents that include those
in the schedules gives a timer with the same builds for later steps and the same decommissionings for this
and later steps, provided that no agent in the schedules has missed its decommissioning. -/
theorem C32_schedules_partial {σ : Type} {W : World σ} {w : σ} {t0 dur dur' : ℤ} {setup : List Op}
    {fuel n : ℕ} {s : Sim σ} (h : runLoop W fuel n (Timing.start W w t0 dur setup) = some s)
    (ht0 : 0 ≤ t0) {db : Db} (hb : db.builds = buildRows s.trace) (hd : db.decoms = decomRows s.trace)
    {ags : List Ag}
    (hpar : ∀ r ∈ db.builds, r.build > s.t.time → ∀ p, r.parent = some p → p ∈ ags.map Ag.id)
    (hdec : ∀ r ∈ db.decoms, s.t.time ≤ r.decom → r.id ∈ ags.map Ag.id ∧
      ∀ dt, r.id ∈ qget s.t.decoms dt → s.t.time ≤ dt) :
    ∃ q, loadDecoms ags (db.decoms.filter fun r => r.decom ≥ s.t.time)
        (loadBuilds db s.t.time ags (timer0 dur')) = some q ∧
      (∀ bt, s.t.time < bt → q.builds bt = s.t.builds bt) ∧
      ∀ dt, s.t.time ≤ dt → qget q.decoms dt = qget s.t.decoms dt := by
  obtain ⟨g, -⟩ := Timing.Good.loop (Timing.Good.start W w t0 dur setup).1 h
  have ht : 0 ≤ s.t.time := le_trans ht0 g.le
  obtain ⟨q, h1, h2, h3⟩ := restored_timer db ht (dur := dur') (ags := ags)
    fun r hr hle => (hdec r hr hle).1
  refine ⟨q, h1, ?_, ?_⟩
  · intro bt hbt
    rw [h2, g.inv.builds, schedFor_rows, ← hb, List.filter_filter]
    have e : db.builds.filter (fun r => decide (r.build = bt) && decide (r.build > s.t.time)) =
        db.builds.filter fun r => decide (r.build = bt) := by
      apply List.filter_congr
      intro r _
      by_cases hr : r.build = bt
      · simp only [hr, decide_true, Bool.true_and, decide_eq_true_eq]; exact hbt
      · simp [hr]
    rw [e]
    apply List.map_congr_left
    intro r hr
    obtain ⟨hr1, hr2⟩ := List.mem_filter.1 hr
    have hr2 : r.build = bt := by simpa using hr2
    cases hp : r.parent with
    | none => rfl
    | some p =>
      have := hpar r hr1 (by omega) p hp
      simp only [Option.filter, decide_eq_true this, if_true]
  · intro dt hdt
    rw [h3, g.inv.decoms, pending, agenda_rows, ← hd]
    have e : (db.decoms.filter fun r => decide (r.decom ≥ s.t.time)).map (fun r => (r.id, r.decom)) =
        (db.decoms.map fun r => (r.id, r.decom)).filter fun x => decide (s.t.time ≤ x.2) := by
      rw [List.filter_map]; rfl
    rw [e, lastOnly_filter, List.filter_filter]
    · congr 1
      apply List.filter_congr
      intro x _
      by_cases hx : x.2 = dt
      · simp only [hx, decide_true, Bool.true_and, decide_eq_true_eq]; exact hdt
      · simp [hx]
    · intro r hr hle dt' hm
      obtain ⟨r', hr', rfl⟩ := List.mem_map.1 hr
      refine (hdec r' hr' hle).2 dt' ?_
      rw [g.inv.decoms, Timing.mem_pending, agenda_rows, ← hd]
      exact hm

/-- **C32**, the restart as a whole: under these conditions, and those under which the agents and counters
are there (`C32_agents`, `C32_counters`), the restart ends with those agents and counters, at step `t`,
with the schedules that the run had then. -/
theorem C32_restart_partial {σ : Type} {W : World σ} {w : σ} {t0 dur dur' : ℤ} {setup : List Op}
    {fuel n : ℕ} {s : Sim σ} (h : runLoop W fuel n (Timing.start W w t0 dur setup) = some s)
    (ht0 : 0 ≤ t0) {db : Db} (hb : db.builds = buildRows s.trace) (hd : db.decoms = decomRows s.trace)
    {ags : List Ag} {fuel' : ℕ} (hags : loadAgents fuel' db s.t.time = some (.ok ags)) {c c' : Counters}
    (hc : loadNextIds db s.t.time c = .ok c')
    (hpar : ∀ r ∈ db.builds, r.build > s.t.time → ∀ p, r.parent = some p → p ∈ ags.map Ag.id)
    (hdec : ∀ r ∈ db.decoms, s.t.time ≤ r.decom → r.id ∈ ags.map Ag.id ∧
      ∀ dt, r.id ∈ qget s.t.decoms dt → s.t.time ≤ dt) :
    ∃ r, restart fuel' db dur' s.t.time c = some (.ok r) ∧ r.ags = ags ∧ r.ids = c' ∧
      r.timer.time = s.t.time ∧ (∀ bt, s.t.time < bt → r.timer.builds bt = s.t.builds bt) ∧
      ∀ dt, s.t.time ≤ dt → qget r.timer.decoms dt = qget s.t.decoms dt := by
  obtain ⟨q, h1, h2, h3⟩ := C32_schedules_partial (dur' := dur') h ht0 hb hd hpar hdec
  have ht : 0 ≤ s.t.time :=
    le_trans ht0 (Timing.Good.loop (Timing.Good.start W w t0 dur setup).1 h).1.le
  refine ⟨⟨ags, { q with time := if s.t.time > -1 then s.t.time else 0 }, c'⟩, ?_, rfl, rfl, ?_, h2, h3⟩
  · simp only [restart, hags, h1, hc]
  · show (if s.t.time > -1 then s.t.time else 0) = s.t.time
    rw [if_pos (by omega)]

/-- A world in which agents do nothing. -/
def quiet : World Unit := ⟨fun _ => false, fun w _ _ => (w, [])⟩

/-- The hypotheses of `C32_schedules_partial` can be met by a run with builds and a decommissioning that
was moved. -/
def exSetup : List Op := [.schedBuild "p" none 2, .schedDecom 7 4, .schedBuild "q" (some 7) 5,
  .schedDecom 7 6, .schedBuild "r" none (-1)]

def exSim : Sim Unit := (runLoop quiet 9 3 (Timing.start quiet () 0 10 exSetup)).getD ⟨timer0 0, (), []⟩

def exDb : Db := ⟨[⟨7, "f", none, 0⟩, ⟨8, "p", none, 2⟩, ⟨9, "g", some 7, 1⟩, ⟨10, "g", none, 0⟩], [(10, 2)],
  [⟨7, 3, "f", 9⟩, ⟨8, 3, "p", -1⟩, ⟨9, 3, "g", 4⟩, ⟨9, 4, "g", 5⟩], buildRows exSim.trace,
  decomRows exSim.trace, snapIds 3 ⟨11, 2, 3, 4, 5, 6⟩⟩

example : runLoop quiet 9 3 (Timing.start quiet () 0 10 exSetup) = some exSim ∧ exSim.t.time = 3 ∧
    exDb.builds = [⟨none, "p", 0, 2⟩, ⟨some 7, "q", 0, 5⟩, ⟨none, "r", 0, 1⟩] ∧
    exDb.decoms = [⟨7, 0, 4⟩, ⟨7, 0, 6⟩] ∧ exSim.t.decoms = [(4, []), (6, [7])] ∧
    exSim.t.builds 5 = [("q", some 7)] := by
  refine ⟨rfl, ?_⟩
  decide +kernel

example : ((loadAgents 20 exDb 3).map fun r => r.toOption) = some (some
    [⟨7, "f", none, 0, 9⟩, ⟨8, "p", none, 2, -1⟩, ⟨9, "g", some 7, 1, 4⟩]) ∧
    ((restart 20 exDb 10 3 ⟨0, 0, 0, 0, 0, 0⟩).map fun r => r.toOption.map fun r =>
      (r.timer.decoms, r.timer.builds 5, r.timer.time, r.ids)) =
      some (some ([(4, []), (6, [7])], [("q", some 7)], 3, ⟨11, 2, 3, 4, 5, 6⟩)) :=
  ⟨rfl, rfl⟩

/-- **C32** fails: a build scheduled for the step of the snapshot is lost; the entry of the agent is
skipped because it is taken to be in the schedule, and the schedule is read for later steps only. -/
theorem C32_fails_now : ∃ (s : Sim Unit) (db : Db),
    runLoop quiet 9 3 (Timing.start quiet () 0 10 [.schedBuild "p" none 3]) = some s ∧ s.t.time = 3 ∧
    db.builds = buildRows s.trace ∧ db.entries = [⟨0, "p", none, 3⟩] ∧
    s.t.builds 3 = [("p", none)] ∧
    ∃ r, restart 9 db 10 3 ⟨0, 0, 0, 0, 0, 0⟩ = some (.ok r) ∧ r.ags = [] ∧ ∀ bt, r.timer.builds bt = [] := by
  refine ⟨(runLoop quiet 9 3 (Timing.start quiet () 0 10 [.schedBuild "p" none 3])).getD
    ⟨timer0 0, (), []⟩, ⟨[⟨0, "p", none, 3⟩], [], [], [⟨none, "p", 0, 3⟩], [], []⟩, rfl,
    by decide +kernel, by decide +kernel, rfl, by decide +kernel, ⟨[], { timer0 10 with time := 3 },
      ⟨0, 0, 0, 0, 0, 0⟩⟩, ?_, rfl, fun _ => rfl⟩
  rfl

/-- **C32** fails: builds scheduled only after the snapshot are put into the restored schedule as well
(`SchedTime` is not looked at), so whoever schedules them again gets two agents. -/
theorem C32_fails_later : ∃ (db : Db) (r : Restarted),
    restart 9 db 10 3 ⟨0, 0, 0, 0, 0, 0⟩ = some (.ok r) ∧ (∀ b ∈ db.builds, b.sched > 3) ∧
    r.timer.builds 7 = [("p", none)] := by
  refine ⟨⟨[], [], [], [⟨none, "p", 5, 7⟩], [], []⟩, ⟨[], _, _⟩, rfl, by decide, rfl⟩

/-- **C32** fails: any request to decommission an agent at or after `t` that is not alive at `t` crashes
the restart.  Such requests are there when the simulation went on after the snapshot and built agents, and
when a request was later replaced by an earlier one. -/
theorem C32_fails_decom {db : Db} {t dur : ℤ} {c : Counters} {fuel : ℕ} {ags : List Ag}
    (h : loadAgents fuel db t = some (.ok ags)) {r : DecomRow} (hr : r ∈ db.decoms) (ht : t ≤ r.decom)
    (hid : r.id ∉ ags.map Ag.id) : restart fuel db dur t c = none := by
  unfold restart
  simp only [h]
  rw [(loadDecoms_eq _).2 ⟨r, List.mem_filter.2 ⟨hr, by simpa using ht⟩, hid⟩]

/-- The second kind: agent 4 was to leave at 10, this was moved to 3, and it left at 3. -/
example : ∃ s, runLoop quiet 9 5 (Timing.start quiet () 0 20 [.schedDecom 4 10, .schedDecom 4 3]) = some s ∧
    decomRows s.trace = [⟨4, 0, 10⟩, ⟨4, 0, 3⟩] ∧
    restart 9 ⟨[⟨4, "p", none, 0⟩], [(4, 3)], [], [], [⟨4, 0, 10⟩, ⟨4, 0, 3⟩], []⟩ 20 5
      ⟨0, 0, 0, 0, 0, 0⟩ = none := by
  refine ⟨_, rfl, by decide +kernel, ?_⟩
  exact C32_fails_decom (ags := []) rfl (r := ⟨4, 0, 10⟩) (by decide) (by decide) (by decide)

/-- **C32** fails: a build whose parent is not alive loses its parent without notice. -/
theorem C32_fails_parent : ∃ (db : Db) (r : Restarted),
    restart 9 db 10 3 ⟨0, 0, 0, 0, 0, 0⟩ = some (.ok r) ∧ db.builds = [⟨some 4, "p", 1, 7⟩] ∧
    r.timer.builds 7 = [("p", none)] := by
  refine ⟨⟨[], [], [], [⟨some 4, "p", 1, 7⟩], [], []⟩, ⟨[], _, _⟩, rfl, rfl, rfl⟩

/-- **C32** fails: if the parent of an agent alive at `t` left before `t`, the restart never ends. -/
theorem C32_fails_orphan {db : Db} {t dur : ℤ} {c : Counters} (ht : 0 ≤ t)
    (hid : (db.entries.map Entry.id).Nodup) (h0 : ∀ e ∈ db.entries, 0 ≤ e.enter)
    (hst : ∀ e, Alive db t e → ∃ s ∈ db.states, s.id = e.id ∧ s.time = t) {e : Entry} {p : ℕ}
    (he : Alive db t e) (hp : e.parent = some p) (hgone : ∀ e', Alive db t e' → e'.id ≠ p) (fuel : ℕ) :
    restart fuel db dur t c = none := by
  have hn : loadAgents fuel db t = none := by
    by_contra hc
    obtain ⟨r, hr⟩ := Option.ne_none_iff_exists'.1 hc
    have hroot := (C32_agents ht hid h0 hst).1.1 ⟨fuel, r, hr⟩ e he
    have he' := (mem_aliveRows (db := db) ht h0 (e := e)).2 he
    have hpn : ∀ x ∈ aliveRows db t, x.id ≠ p := fun x hx =>
      hgone x ((mem_aliveRows (db := db) ht h0).1 hx)
    have key : ∀ k, Rooted Entry.id Entry.parent (aliveRows db t) k → k ≠ e.id := by
      intro k hk
      induction hk with
      | @root x hx hx' =>
        intro hk
        have : x = e := by
          have hsub : (aliveRows db t).Sublist db.entries :=
            (List.filter_sublist.trans List.filter_sublist).trans List.filter_sublist
          exact List.inj_on_of_nodup_map hid (hsub.subset hx) (hsub.subset he') hk
        rw [this, hp] at hx'; cases hx'
      | @child x q hx hx' hq ih =>
        intro hk
        have : x = e := by
          have hsub : (aliveRows db t).Sublist db.entries :=
            (List.filter_sublist.trans List.filter_sublist).trans List.filter_sublist
          exact List.inj_on_of_nodup_map hid (hsub.subset hx) (hsub.subset he') hk
        rw [this, hp] at hx'
        injection hx' with hx'
        subst hx'
        cases hq with
        | root h _ => exact hpn _ h rfl
        | child h _ _ => exact hpn _ h rfl
    exact key _ hroot rfl
  unfold restart
  simp only [hn]

example : Alive ⟨[⟨1, "p", none, 0⟩, ⟨2, "q", some 1, 1⟩], [(1, 3)], [⟨2, 5, "q", 7⟩], [], [], []⟩ 5
    ⟨2, "q", some 1, 1⟩ := by
  refine ⟨by decide, Or.inl (by decide), ?_⟩
  intro x hx
  simp at hx

end Cyclus.Init
