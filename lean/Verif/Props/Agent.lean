import Verif.Model.Agent
import Mathlib.Data.List.Nodup
import Mathlib.Logic.Relation
import Mathlib.Tactic

/-!
# C25, C27, C28, C67: agents
-/

namespace Cyclus.Agents

/-! ## Specification -/

/-- Parents and children agree, and the list of the context has exactly the existing agents. -/
structure Consistent (c : Ctx) : Prop where
  parent : ∀ {a A p}, c.mem a = some A → A.parent = some p → ∃ P, c.mem p = some P ∧ a ∈ P.children
  child : ∀ {a A k}, c.mem a = some A → k ∈ A.children → ∃ K, c.mem k = some K ∧ K.parent = some a
  once : ∀ {a A}, c.mem a = some A → A.children.Nodup
  list : ∀ {a}, a ∈ c.list ↔ ∃ A, c.mem a = some A
  listOnce : c.list.Nodup
  pid : ∀ {a A}, c.mem a = some A → A.parentId = (match A.parent with | none => -1 | some p => (p : ℤ))
  self : ∀ {a A}, c.mem a = some A → A.parent ≠ some a

/-- What callers must respect: agents that are used exist, and an agent is built once. -/
def ValidArgs (c : Ctx) : Op → Prop
  | .build a p => (∃ A, c.mem a = some A ∧ A.enter = -1) ∧ ∀ q, p = some q → ∃ Q, c.mem q = some Q
  | .decommission a _ => ∃ A, c.mem a = some A
  | .setLifetime a _ => ∃ A, c.mem a = some A
  | .lifetimeForce a _ => ∃ A, c.mem a = some A
  | _ => True

/-- A sequence of calls in which each call respects `V`. -/
def Program (V : Ctx → Op → Prop) : Ctx → List Op → Prop
  | _, [] => True
  | c, o :: os => V c o ∧ ∀ c' r, exec c o = some (c', r) → Program V c' os

/-- `p` is the parent of `x`. -/
def ParentOf (c : Ctx) (p x : ℕ) : Prop := ∃ X, c.mem x = some X ∧ X.parent = some p

/-- `a` is a proper ancestor of `x`. -/
def Anc (c : Ctx) : ℕ → ℕ → Prop := Relation.TransGen (ParentOf c)

/-! ## Proofs -/

theorem mem_insertSet {l : List ℕ} {a x : ℕ} : x ∈ insertSet l a ↔ x ∈ l ∨ x = a := by
  unfold insertSet
  split_ifs with h
  · constructor
    · exact Or.inl
    · rintro (h' | rfl)
      · exact h'
      · exact h
  · simp

theorem nodup_insertSet {l : List ℕ} (h : l.Nodup) (a : ℕ) : (insertSet l a).Nodup := by
  unfold insertSet
  split_ifs with h'
  · exact h
  · rw [List.nodup_append']
    exact ⟨h, by simp, by simpa using h'⟩

/-- What is left of an agent after `a` is deleted. -/
def cut (a : ℕ) (X : Agent) : Agent :=
  { X with
    parent := if X.parent = some a then none else X.parent
    parentId := if X.parent = some a then -1 else X.parentId
    children := X.children.filter (· ≠ a) }

theorem orphan_spec : ∀ (ks : List ℕ) (c : Ctx), ks.Nodup → (∀ k ∈ ks, ∃ K, c.mem k = some K) →
    orphan c ks = some { c with
      mem := fun x => if x ∈ ks then (c.mem x).map fun X => { X with parent := none, parentId := -1 }
        else c.mem x } := by
  intro ks
  induction ks with
  | nil => intro c _ _; simp [orphan]
  | cons k ks ih =>
    intro c hn hk
    obtain ⟨K, hK⟩ := hk k List.mem_cons_self
    rw [List.nodup_cons] at hn
    unfold orphan
    simp only [hK]
    rw [ih _ hn.2]
    · congr 1
      unfold Ctx.put
      simp only [Ctx.mk.injEq, true_and, and_true]
      funext x
      by_cases hx : x = k
      · subst hx
        simp [hn.1, hK]
      · simp [Function.update_of_ne hx, hx]
    · intro x hx
      by_cases h : x = k
      · subst h; exact absurd hx hn.1
      · obtain ⟨X, hX⟩ := hk x (List.mem_cons_of_mem _ hx)
        exact ⟨X, by simp [Ctx.put, Function.update_of_ne h, hX]⟩

theorem destroy_spec {c : Ctx} (h : Consistent c) {a : ℕ} {A : Agent} (ha : c.mem a = some A)
    (l : List ℕ) : destroy { c with list := l } a = some { c with
      list := l.filter (· ≠ a)
      mem := fun x => if x = a then none else (c.mem x).map (cut a) } := by
  have hself := h.self ha
  have hkid : a ∉ A.children := fun hm => by
    obtain ⟨K, h1, h2⟩ := h.child ha hm
    rw [ha] at h1; cases h1; exact hself h2
  unfold destroy
  simp only [ha]
  -- unchanged agents
  have hother : ∀ x X, x ≠ a → c.mem x = some X → x ∉ A.children → A.parent ≠ some x → cut a X = X := by
    intro x X hx hX hk hp
    have h1 : X.parent ≠ some a := fun hpar => by
      obtain ⟨P, q1, q2⟩ := h.parent hX hpar
      rw [ha] at q1; cases q1; exact hk q2
    have h2 : a ∉ X.children := fun hm => by
      obtain ⟨K, q1, q2⟩ := h.child hX hm
      rw [ha] at q1; cases q1; exact hp q2
    unfold cut
    rw [if_neg h1, if_neg h1]
    have : X.children.filter (· ≠ a) = X.children := by
      rw [List.filter_eq_self]
      intro y hy
      simp only [decide_eq_true_eq]
      rintro rfl; exact h2 hy
    rw [this]
  have hkids : ∀ x X, c.mem x = some X → x ∈ A.children → A.parent ≠ some x →
      cut a X = { X with parent := none, parentId := -1 } := by
    intro x X hX hk hp
    obtain ⟨K, q1, q2⟩ := h.child ha hk
    rw [hX] at q1; cases q1
    have h2 : a ∉ X.children := fun hm => by
      obtain ⟨K, q1, q2⟩ := h.child hX hm
      rw [ha] at q1; cases q1; exact hp q2
    unfold cut
    rw [if_pos q2, if_pos q2]
    have : X.children.filter (· ≠ a) = X.children := by
      rw [List.filter_eq_self]
      intro y hy
      simp only [decide_eq_true_eq]
      rintro rfl; exact h2 hy
    rw [this]
  cases hp : A.parent with
  | none =>
    simp only
    rw [orphan_spec _ _ (h.once ha)
      (by intro k hk; obtain ⟨K, q, _⟩ := h.child ha hk; exact ⟨K, q⟩)]
    simp only [Option.map_some, Option.some.injEq, Ctx.mk.injEq, true_and, and_true]
    funext x
    by_cases hx : x = a
    · subst hx; simp
    · rw [Function.update_of_ne hx, if_neg hx]
      cases hX : c.mem x with
      | none => simp
      | some X =>
        by_cases hk : x ∈ A.children
        · simp [hk, hkids x X hX hk (by simp [hp])]
        · simp [hk, hother x X hx hX hk (by simp [hp])]
  | some p =>
    obtain ⟨P, hP, hPc⟩ := h.parent ha hp
    simp only [hP]
    have hpa : p ≠ a := by rintro rfl; exact hself hp
    rw [orphan_spec _ _ (h.once ha)]
    · simp only [Option.map_some, Option.some.injEq, Ctx.put, Ctx.mk.injEq, true_and, and_true]
      funext x
      by_cases hx : x = a
      · subst hx; simp
      · rw [Function.update_of_ne hx, if_neg hx]
        by_cases hxp : x = p
        · subst hxp
          rw [Function.update_self, hP]
          by_cases hk : x ∈ A.children
          · obtain ⟨K, q1, q2⟩ := h.child ha hk
            rw [hP] at q1; cases q1
            simp [hk, cut, q2]
          · have h1 : P.parent ≠ some a := fun hpar => by
              obtain ⟨P', q1, q2⟩ := h.parent hP hpar
              rw [ha] at q1; cases q1; exact hk q2
            simp [hk, cut, h1]
        · rw [Function.update_of_ne hxp]
          have hp' : A.parent ≠ some x := by rw [hp]; simpa using Ne.symm hxp
          cases hX : c.mem x with
          | none => simp
          | some X =>
            by_cases hk : x ∈ A.children
            · simp [hk, hkids x X hX hk hp']
            · simp [hk, hother x X hx hX hk hp']
    · intro k hk
      obtain ⟨K, q1, q2⟩ := h.child ha hk
      by_cases hkp : k = p
      · subst hkp; exact ⟨_, by simp [Ctx.put]; rfl⟩
      · exact ⟨K, by simp [Ctx.put, Function.update_of_ne hkp, q1]⟩

theorem delAgent_spec {c : Ctx} (h : Consistent c) {a : ℕ} {A : Agent} (ha : c.mem a = some A) :
    delAgent c a = some { c with
      list := c.list.filter (· ≠ a)
      mem := fun x => if x = a then none else (c.mem x).map (cut a) } := by
  unfold delAgent
  rw [if_pos (h.list.2 ⟨A, ha⟩), destroy_spec h ha]
  simp only [List.filter_filter, Bool.and_self]

theorem delAgent_dead {c : Ctx} (h : Consistent c) {a : ℕ} (ha : c.mem a = none) :
    delAgent c a = some c := by
  unfold delAgent
  rw [if_neg]
  intro hm
  obtain ⟨A, hA⟩ := h.list.1 hm
  rw [ha] at hA; cases hA

theorem Consistent.delete {c : Ctx} (h : Consistent c) (a : ℕ) : Consistent { c with
      list := c.list.filter (· ≠ a)
      mem := fun x => if x = a then none else (c.mem x).map (cut a) } := by
  have hm : ∀ {x X'}, (if x = a then none else (c.mem x).map (cut a)) = some X' →
      x ≠ a ∧ ∃ X, c.mem x = some X ∧ X' = cut a X := by
    intro x X' hx
    split_ifs at hx with h1
    refine ⟨h1, ?_⟩
    cases hX : c.mem x with
    | none => rw [hX] at hx; cases hx
    | some X => rw [hX] at hx; exact ⟨X, rfl, by simpa using hx.symm⟩
  constructor
  · intro x X' p hx hp
    obtain ⟨h1, X, hX, rfl⟩ := hm hx
    simp only [cut] at hp
    split_ifs at hp with h2
    obtain ⟨P, hP, hc⟩ := h.parent hX hp
    have hpa : p ≠ a := by rintro rfl; exact h2 hp
    refine ⟨cut a P, by simp [hpa, hP], ?_⟩
    simp only [cut, List.mem_filter, decide_eq_true_eq]
    exact ⟨hc, h1⟩
  · intro x X' k hx hk
    obtain ⟨h1, X, hX, rfl⟩ := hm hx
    simp only [cut, List.mem_filter, decide_eq_true_eq] at hk
    obtain ⟨K, hK, hp⟩ := h.child hX hk.1
    refine ⟨cut a K, by simp [hk.2, hK], ?_⟩
    simp only [cut]
    rw [if_neg]
    · exact hp
    · rw [hp]; simpa using h1
  · intro x X' hx
    obtain ⟨h1, X, hX, rfl⟩ := hm hx
    exact (h.once hX).filter _
  · intro x
    simp only [List.mem_filter, decide_eq_true_eq]
    constructor
    · rintro ⟨h1, h2⟩
      obtain ⟨X, hX⟩ := h.list.1 h1
      exact ⟨cut a X, by simp [h2, hX]⟩
    · rintro ⟨X', hX'⟩
      obtain ⟨h1, X, hX, _⟩ := hm hX'
      exact ⟨h.list.2 ⟨X, hX⟩, h1⟩
  · exact h.listOnce.filter _
  · intro x X' hx
    obtain ⟨h1, X, hX, rfl⟩ := hm hx
    have := h.pid hX
    by_cases h2 : X.parent = some a
    · simp [cut, h2]
    · simp only [cut, if_neg h2]; exact this
  · intro x X' hx
    obtain ⟨h1, X, hX, rfl⟩ := hm hx
    simp only [cut]
    split_ifs with h2
    · simp
    · exact h.self hX

/-- `Consistent` depends only on the memory and the list. -/
theorem Consistent.congr {c c' : Ctx} (h : Consistent c) (hm : c'.mem = c.mem)
    (hl : c'.list = c.list) : Consistent c' := by
  constructor
  · intro a A p; rw [hm]; exact h.parent
  · intro a A k; rw [hm]; exact h.child
  · intro a A; rw [hm]; exact h.once
  · intro a; rw [hm, hl]; exact h.list
  · rw [hl]; exact h.listOnce
  · intro a A; rw [hm]; exact h.pid
  · intro a A; rw [hm]; exact h.self

/-- Changing other members of an agent. -/
theorem Consistent.put {c : Ctx} (h : Consistent c) {a : ℕ} {A A' : Agent} (ha : c.mem a = some A)
    (h1 : A'.parent = A.parent) (h2 : A'.parentId = A.parentId) (h3 : A'.children = A.children) :
    Consistent (c.put a A') := by
  have hm : ∀ {x X'}, (c.put a A').mem x = some X' → ∃ X, c.mem x = some X ∧
      X'.parent = X.parent ∧ X'.parentId = X.parentId ∧ X'.children = X.children := by
    intro x X' hx
    by_cases hxa : x = a
    · subst hxa
      simp only [Ctx.put, Function.update_self, Option.some.injEq] at hx
      subst hx; exact ⟨A, ha, h1, h2, h3⟩
    · simp only [Ctx.put, Function.update_of_ne hxa] at hx
      exact ⟨X', hx, rfl, rfl, rfl⟩
  have hm' : ∀ {x X}, c.mem x = some X → ∃ X', (c.put a A').mem x = some X' ∧
      X'.parent = X.parent ∧ X'.children = X.children := by
    intro x X hx
    by_cases hxa : x = a
    · subst hxa
      rw [ha] at hx; cases hx
      exact ⟨A', by simp [Ctx.put], h1, h3⟩
    · exact ⟨X, by simp [Ctx.put, Function.update_of_ne hxa, hx], rfl, rfl⟩
  constructor
  · intro x X' p hx hp
    obtain ⟨X, q1, q2, q3, q4⟩ := hm hx
    obtain ⟨P, r1, r2⟩ := h.parent q1 (q2 ▸ hp)
    obtain ⟨P', s1, s2, s3⟩ := hm' r1
    exact ⟨P', s1, s3 ▸ r2⟩
  · intro x X' k hx hk
    obtain ⟨X, q1, q2, q3, q4⟩ := hm hx
    obtain ⟨K, r1, r2⟩ := h.child q1 (q4 ▸ hk)
    obtain ⟨K', s1, s2, s3⟩ := hm' r1
    exact ⟨K', s1, s2.trans r2⟩
  · intro x X' hx
    obtain ⟨X, q1, q2, q3, q4⟩ := hm hx
    rw [q4]; exact h.once q1
  · intro x
    constructor
    · intro hx
      obtain ⟨X, hX⟩ := h.list.1 hx
      obtain ⟨X', s1, _⟩ := hm' hX
      exact ⟨X', s1⟩
    · rintro ⟨X', hX'⟩
      obtain ⟨X, q1, _⟩ := hm hX'
      exact h.list.2 ⟨X, q1⟩
  · exact h.listOnce
  · intro x X' hx
    obtain ⟨X, q1, q2, q3, q4⟩ := hm hx
    rw [q3, q2]; exact h.pid q1
  · intro x X' hx
    obtain ⟨X, q1, q2, q3, q4⟩ := hm hx
    rw [q2]; exact h.self q1

/-- The invariant of programs. -/
structure Inv (c : Ctx) : Prop where
  cons : Consistent c
  time : 0 ≤ c.time
  ids : ∀ {a A}, c.mem a = some A → a < c.nextId
  fresh : ∀ {a A}, c.mem a = some A → A.enter = -1 → A.parent = none

theorem Consistent.connect {c : Ctx} (h : Consistent c) {a p : ℕ} {A P : Agent}
    (ha : c.mem a = some A) (hpar : A.parent = none) (hp : c.mem p = some P) (hne : p ≠ a) :
    Consistent ((c.put a { A with parent := some p, parentId := p }).put p
      { P with children := insertSet P.children a }) := by
  set c' := (c.put a { A with parent := some p, parentId := p }).put p
      { P with children := insertSet P.children a } with hc'
  have e1 : c'.mem a = some { A with parent := some p, parentId := p } := by
    simp [hc', Ctx.put, Function.update_of_ne (Ne.symm hne)]
  have e2 : c'.mem p = some { P with children := insertSet P.children a } := by
    simp [hc', Ctx.put]
  have e3 : ∀ x, x ≠ a → x ≠ p → c'.mem x = c.mem x := by
    intro x h1 h2
    simp [hc', Ctx.put, Function.update_of_ne h1, Function.update_of_ne h2]
  have hno : ∀ x X, c.mem x = some X → a ∉ X.children := by
    intro x X hX hm
    obtain ⟨K, q1, q2⟩ := h.child hX hm
    rw [ha] at q1; cases q1; rw [hpar] at q2; cases q2
  constructor
  · intro x X q hx hq
    by_cases hxa : x = a
    · subst hxa
      rw [e1] at hx; cases hx
      cases hq
      exact ⟨_, e2, mem_insertSet.2 (Or.inr rfl)⟩
    · have : ∃ X0, c.mem x = some X0 ∧ X0.parent = some q := by
        by_cases hxp : x = p
        · subst hxp
          rw [e2] at hx; cases hx
          exact ⟨P, hp, hq⟩
        · rw [e3 x hxa hxp] at hx
          exact ⟨X, hx, hq⟩
      obtain ⟨X0, h1, h2⟩ := this
      obtain ⟨Q, h3, h4⟩ := h.parent h1 h2
      by_cases hqp : q = p
      · subst hqp
        rw [hp] at h3; cases h3
        exact ⟨_, e2, mem_insertSet.2 (Or.inl h4)⟩
      · by_cases hqa : q = a
        · subst hqa
          rw [ha] at h3; cases h3
          exact ⟨_, e1, h4⟩
        · exact ⟨Q, by rw [e3 q hqa hqp, h3], h4⟩
  · intro x X k hx hk
    have key : ∀ k, k ≠ a → (∃ K, c.mem k = some K ∧ K.parent = some x) →
        ∃ K, c'.mem k = some K ∧ K.parent = some x := by
      rintro k hka ⟨K, h1, h2⟩
      by_cases hkp : k = p
      · subst hkp
        rw [hp] at h1; cases h1
        exact ⟨_, e2, h2⟩
      · exact ⟨K, by rw [e3 k hka hkp, h1], h2⟩
    by_cases hxp : x = p
    · subst hxp
      rw [e2] at hx; cases hx
      by_cases hka : k = a
      · subst hka
        exact ⟨_, e1, rfl⟩
      · rcases mem_insertSet.1 hk with hk | hk
        · exact key k hka (h.child hp hk)
        · exact absurd hk hka
    · have : ∃ X0, c.mem x = some X0 ∧ k ∈ X0.children := by
        by_cases hxa : x = a
        · subst hxa
          rw [e1] at hx; cases hx
          exact ⟨A, ha, hk⟩
        · rw [e3 x hxa hxp] at hx
          exact ⟨X, hx, hk⟩
      obtain ⟨X0, h1, h2⟩ := this
      exact key k (by rintro rfl; exact hno x X0 h1 h2) (h.child h1 h2)
  · intro x X hx
    by_cases hxp : x = p
    · subst hxp
      rw [e2] at hx; cases hx
      exact nodup_insertSet (h.once hp) a
    · by_cases hxa : x = a
      · subst hxa
        rw [e1] at hx; cases hx
        have := h.once ha; exact this
      · rw [e3 x hxa hxp] at hx; exact h.once hx
  · intro x
    have : c'.list = c.list := rfl
    rw [this, h.list]
    by_cases hxp : x = p
    · subst hxp; simp [e2, hp]
    · by_cases hxa : x = a
      · subst hxa; simp [e1, ha]
      · rw [e3 x hxa hxp]
  · exact h.listOnce
  · intro x X hx
    by_cases hxp : x = p
    · subst hxp
      rw [e2] at hx; cases hx
      have := h.pid hp; exact this
    · by_cases hxa : x = a
      · subst hxa
        rw [e1] at hx; cases hx
        rfl
      · rw [e3 x hxa hxp] at hx; exact h.pid hx
  · intro x X hx
    by_cases hxp : x = p
    · subst hxp
      rw [e2] at hx; cases hx
      have := h.self hp; exact this
    · by_cases hxa : x = a
      · subst hxa
        rw [e1] at hx; cases hx
        simpa using hne
      · rw [e3 x hxa hxp] at hx; exact h.self hx

/-- `enterNotify` leaves memory, list, time, ids and rows alone. -/
theorem enterNotify_frame (c : Ctx) (a : ℕ) (A : Agent) : (enterNotify c a A).mem = c.mem ∧
    (enterNotify c a A).list = c.list ∧ (enterNotify c a A).time = c.time ∧
    (enterNotify c a A).nextId = c.nextId ∧ (enterNotify c a A).rows = c.rows := by
  unfold enterNotify
  cases A.kind <;> simp [registerAgent]

theorem Inv.create {c : Ctx} (h : Inv c) (proto spec : String) (kind : Kind) (life : ℤ) :
    Inv (create c proto spec kind life) := by
  have hn : c.mem c.nextId = none := by
    cases hm : c.mem c.nextId with
    | none => rfl
    | some A => exact absurd (h.ids hm) (lt_irrefl _)
  have e1 : (Agents.create c proto spec kind life).mem c.nextId =
      some ⟨proto, spec, kind, life, -1, none, -1, []⟩ := by simp [Agents.create, Ctx.put]
  have e2 : ∀ x, x ≠ c.nextId → (Agents.create c proto spec kind life).mem x = c.mem x := by
    intro x hx; simp [Agents.create, Ctx.put, Function.update_of_ne hx]
  have e3 : ∀ {x X}, c.mem x = some X → x ≠ c.nextId := by
    rintro x X hx rfl; rw [hn] at hx; cases hx
  have hdis : ∀ {x X}, (Agents.create c proto spec kind life).mem x = some X →
      (x = c.nextId ∧ X = ⟨proto, spec, kind, life, -1, none, -1, []⟩) ∨ c.mem x = some X := by
    intro x X hx
    by_cases hxn : x = c.nextId
    · subst hxn
      rw [e1] at hx; cases hx; exact Or.inl ⟨rfl, rfl⟩
    · right; rwa [e2 x hxn] at hx
  refine ⟨⟨?_, ?_, ?_, ?_, ?_, ?_, ?_⟩, h.time, ?_, ?_⟩
  · intro x X p hx hp
    rcases hdis hx with ⟨rfl, rfl⟩ | hx
    · cases hp
    · obtain ⟨P, h1, h2⟩ := h.cons.parent hx hp
      exact ⟨P, by rw [e2 p (e3 h1), h1], h2⟩
  · intro x X k hx hk
    rcases hdis hx with ⟨rfl, rfl⟩ | hx
    · cases hk
    · obtain ⟨P, h1, h2⟩ := h.cons.child hx hk
      exact ⟨P, by rw [e2 k (e3 h1), h1], h2⟩
  · intro x X hx
    rcases hdis hx with ⟨rfl, rfl⟩ | hx
    · exact List.nodup_nil
    · exact h.cons.once hx
  · intro x
    have : (Agents.create c proto spec kind life).list = insertSet c.list c.nextId := rfl
    rw [this, mem_insertSet, h.cons.list]
    constructor
    · rintro (⟨X, hX⟩ | rfl)
      · exact ⟨X, by rw [e2 x (e3 hX), hX]⟩
      · exact ⟨_, e1⟩
    · rintro ⟨X, hX⟩
      rcases hdis hX with ⟨rfl, rfl⟩ | hX
      · exact Or.inr rfl
      · exact Or.inl ⟨X, hX⟩
  · exact nodup_insertSet h.cons.listOnce _
  · intro x X hx
    rcases hdis hx with ⟨rfl, rfl⟩ | hx
    · rfl
    · exact h.cons.pid hx
  · intro x X hx
    rcases hdis hx with ⟨rfl, rfl⟩ | hx
    · simp
    · exact h.cons.self hx
  · intro x X hx
    have : (Agents.create c proto spec kind life).nextId = c.nextId + 1 := rfl
    rcases hdis hx with ⟨rfl, rfl⟩ | hx
    · omega
    · have := h.ids hx; omega
  · intro x X hx
    rcases hdis hx with ⟨rfl, rfl⟩ | hx
    · intro _; rfl
    · exact h.fresh hx

/-- The state after `Connect`. -/
def connected (c : Ctx) (a : ℕ) (A : Agent) : Option ℕ → Ctx
  | none => c
  | some p => match c.mem p with
    | none => c
    | some P => (c.put a { A with parent := some p, parentId := p }).put p
        { P with children := insertSet P.children a }

/-- The agent after `Build`. -/
def built (c : Ctx) (A : Agent) : Option ℕ → Agent
  | none => { A with enter := c.time }
  | some p => { A with enter := c.time, parent := some p, parentId := p }

theorem build_spec {c : Ctx} (h : Inv c) {a : ℕ} {A : Agent} (ha : c.mem a = some A)
    {p : Option ℕ} (hp : ∀ q, p = some q → ∃ Q, c.mem q = some Q) (hne : p ≠ some a) :
    build c a p = some ({ enterNotify ((connected c a A p).put a (built c A p)) a (built c A p) with
      rows := c.rows ++ [.entry a A.kind A.spec A.proto (built c A p).parentId A.lifetime c.time] },
      .ok ()) := by
  have h' := h
  unfold build connect
  simp only [ha, if_neg hne]
  cases p with
  | none =>
    simp only [enterSim, ha, connected, built]
    congr 3
    rw [(enterNotify_frame _ _ _).2.2.2.2]
    rfl
  | some q =>
    obtain ⟨Q, hQ⟩ := hp q rfl
    have hqa : q ≠ a := by rintro rfl; exact hne rfl
    simp only [hQ]
    have e1 : ((c.put a { A with parent := some q, parentId := q }).put q
        { Q with children := insertSet Q.children a }).mem a =
        some { A with parent := some q, parentId := q } := by
      simp [Ctx.put, Function.update_of_ne (Ne.symm hqa)]
    simp only [enterSim, e1, connected, hQ, built]
    congr 3
    rw [(enterNotify_frame _ _ _).2.2.2.2]
    rfl

theorem connected_mem {c : Ctx} {a : ℕ} {A : Agent} (ha : c.mem a = some A) {p : Option ℕ}
    (hp : ∀ q, p = some q → ∃ Q, c.mem q = some Q) (hne : p ≠ some a) {x : ℕ} {X : Agent}
    (hx : ((connected c a A p).put a (built c A p)).mem x = some X) :
    (x = a ∧ X = built c A p) ∨ x ≠ a ∧ ∃ X0, c.mem x = some X0 ∧ X = { X0 with
      children := if p = some x then insertSet X0.children a else X0.children } := by
  by_cases hxa : x = a
  · subst hxa
    simp only [Ctx.put, Function.update_self, Option.some.injEq] at hx
    exact Or.inl ⟨rfl, hx.symm⟩
  · right
    refine ⟨hxa, ?_⟩
    simp only [Ctx.put, Function.update_of_ne hxa] at hx
    cases p with
    | none => exact ⟨X, hx, by simp⟩
    | some q =>
      obtain ⟨Q, hQ⟩ := hp q rfl
      simp only [connected, hQ] at hx
      by_cases hxq : x = q
      · subst hxq
        simp only [Ctx.put, Function.update_self, Option.some.injEq] at hx
        exact ⟨Q, hQ, by rw [← hx]; simp⟩
      · simp only [Ctx.put, Function.update_of_ne hxq, Function.update_of_ne hxa] at hx
        exact ⟨X, hx, by simp [Ne.symm hxq]⟩

theorem Inv.connectedPut {c : Ctx} (h : Inv c) {a : ℕ} {A : Agent} (ha : c.mem a = some A)
    (hf : A.enter = -1) {p : Option ℕ} (hp : ∀ q, p = some q → ∃ Q, c.mem q = some Q)
    (hne : p ≠ some a) : Inv ((connected c a A p).put a (built c A p)) := by
  have hpar := h.fresh ha hf
  have hframe : ((connected c a A p).put a (built c A p)).time = c.time ∧
      ((connected c a A p).put a (built c A p)).nextId = c.nextId := by
    cases p with
    | none => exact ⟨rfl, rfl⟩
    | some q => obtain ⟨Q, hQ⟩ := hp q rfl; simp [connected, hQ, Ctx.put]
  refine ⟨?_, by rw [hframe.1]; exact h.time, ?_, ?_⟩
  · cases p with
    | none => exact h.cons.put ha rfl rfl rfl
    | some q =>
      obtain ⟨Q, hQ⟩ := hp q rfl
      have hqa : q ≠ a := by rintro rfl; exact hne rfl
      have hc := h.cons.connect ha hpar hQ hqa
      simp only [connected, hQ]
      have e1 : ((c.put a { A with parent := some q, parentId := q }).put q
          { Q with children := insertSet Q.children a }).mem a =
          some { A with parent := some q, parentId := q } := by
        simp [Ctx.put, Function.update_of_ne (Ne.symm hqa)]
      exact hc.put e1 rfl rfl rfl
  · intro x X hx
    rw [hframe.2]
    rcases connected_mem ha hp hne hx with ⟨rfl, _⟩ | ⟨_, X0, hX0, _⟩
    · exact h.ids ha
    · exact h.ids hX0
  · intro x X hx he
    rcases connected_mem ha hp hne hx with ⟨rfl, rfl⟩ | ⟨_, X0, hX0, rfl⟩
    · have := h.time
      cases p <;> simp [built] at he <;> omega
    · have := h.fresh hX0 he; exact this

theorem Inv.congr {c c' : Ctx} (h : Inv c) (hm : c'.mem = c.mem) (hl : c'.list = c.list)
    (ht : c'.time = c.time) (hn : c'.nextId = c.nextId) : Inv c' :=
  ⟨h.cons.congr hm hl, by rw [ht]; exact h.time, by intro a A; rw [hm, hn]; exact h.ids,
    by intro a A; rw [hm]; exact h.fresh⟩

theorem Inv.delete {c : Ctx} (h : Inv c) (a : ℕ) : Inv { c with
      list := c.list.filter (· ≠ a)
      mem := fun x => if x = a then none else (c.mem x).map (cut a) } := by
  refine ⟨h.cons.delete a, h.time, ?_, ?_⟩
  · intro x X hx
    simp only at hx
    split_ifs at hx with h1
    cases hX : c.mem x with
    | none => rw [hX] at hx; cases hx
    | some X0 => exact h.ids hX
  · intro x X hx he
    simp only at hx
    split_ifs at hx with h1
    cases hX : c.mem x with
    | none => rw [hX] at hx; cases hx
    | some X0 =>
      rw [hX] at hx
      simp only [Option.map_some, Option.some.injEq] at hx
      subst hx
      have := h.fresh hX he
      simp [cut, this]

/-- The state after `Decommission`. -/
theorem decommission_spec {c : Ctx} (h : Consistent c) {a : ℕ} {A : Agent} (ha : c.mem a = some A)
    {cond : Bool} (hc : ¬ (A.kind = .facility ∧ cond = false)) :
    decommission c a cond = some ({ c with
      list := c.list.filter (· ≠ a)
      mem := fun x => if x = a then none else (c.mem x).map (cut a)
      traders := if A.kind = .facility then c.traders.filter (· ≠ a) else c.traders
      nProto := Function.update c.nProto A.proto (c.nProto A.proto - 1)
      nSpec := Function.update c.nSpec A.spec (c.nSpec A.spec - 1)
      rows := c.rows ++ [.exit a c.time] }, .ok ()) := by
  unfold decommission
  simp only [ha, if_neg hc]
  have hs : ∀ c1 : Ctx, c1.mem = c.mem → c1.list = c.list → delAgent c1 a = some { c1 with
      list := c1.list.filter (· ≠ a)
      mem := fun x => if x = a then none else (c1.mem x).map (cut a) } :=
    fun c1 h1 h2 => delAgent_spec (h.congr h1 h2) (by rw [h1, ha])
  erw [hs (unregisterAgent { c with
    traders := if A.kind = .facility then c.traders.filter (· ≠ a) else c.traders
    rows := c.rows ++ [.exit a c.time] } A) rfl rfl]
  rfl

theorem exec_inv {c : Ctx} (h : Inv c) {o : Op} (hv : ValidArgs c o) :
    ∃ c' r, exec c o = some (c', r) ∧ Inv c' := by
  cases o with
  | create proto spec kind life => exact ⟨_, _, rfl, h.create _ _ _ _⟩
  | build a p =>
    obtain ⟨⟨A, ha, hf⟩, hp⟩ := hv
    by_cases hne : p = some a
    · refine ⟨c, .error .key, ?_, h⟩
      simp only [exec, build, connect, ha, if_pos hne]
    · refine ⟨_, _, build_spec h ha hp hne, ?_⟩
      obtain ⟨f1, f2, f3, f4, f5⟩ := enterNotify_frame ((connected c a A p).put a (built c A p)) a
        (built c A p)
      exact (h.connectedPut ha hf hp hne).congr f1 f2 f3 f4
  | decommission a cond =>
    obtain ⟨A, ha⟩ := hv
    by_cases hc : A.kind = .facility ∧ cond = false
    · refine ⟨c, .error .generic, ?_, h⟩
      simp only [exec, decommission, ha, if_pos hc]
    · refine ⟨_, _, decommission_spec h.cons ha hc, ?_⟩
      exact (h.delete a).congr rfl rfl rfl rfl
  | del a =>
    cases ha : c.mem a with
    | none => exact ⟨c, .ok (), by simp [exec, delAgent_dead h.cons ha], h⟩
    | some A => exact ⟨_, .ok (), by simp only [exec, delAgent_spec h.cons ha]; rfl, h.delete a⟩
  | setLifetime a n =>
    obtain ⟨A, ha⟩ := hv
    by_cases he : A.enter ≠ -1
    · exact ⟨c, .error .value, by simp [exec, setLifetime, ha, he], h⟩
    · refine ⟨c.put a { A with lifetime := n }, .ok (), by simp [exec, setLifetime, ha, he], ?_⟩
      refine ⟨h.cons.put ha rfl rfl rfl, h.time, ?_, ?_⟩
      · intro x X hx
        by_cases hxa : x = a
        · subst hxa; exact h.ids ha
        · simp only [Ctx.put, Function.update_of_ne hxa] at hx; exact h.ids hx
      · intro x X hx
        by_cases hxa : x = a
        · subst hxa
          simp only [Ctx.put, Function.update_self, Option.some.injEq] at hx
          subst hx; have := h.fresh ha; exact this
        · simp only [Ctx.put, Function.update_of_ne hxa] at hx; exact h.fresh hx
  | lifetimeForce a n =>
    obtain ⟨A, ha⟩ := hv
    have hput : Inv (c.put a { A with lifetime := n }) := by
      refine ⟨h.cons.put ha rfl rfl rfl, h.time, ?_, ?_⟩
      · intro x X hx
        by_cases hxa : x = a
        · subst hxa; exact h.ids ha
        · simp only [Ctx.put, Function.update_of_ne hxa] at hx; exact h.ids hx
      · intro x X hx
        by_cases hxa : x = a
        · subst hxa
          simp only [Ctx.put, Function.update_self, Option.some.injEq] at hx
          subst hx; have := h.fresh ha; exact this
        · simp only [Ctx.put, Function.update_of_ne hxa] at hx; exact h.fresh hx
    by_cases he : A.enter ≠ -1
    · by_cases ht : A.enter + n ≤ c.time
      · exact ⟨c, .error .value, by simp [exec, lifetimeForce, setLifetime, ha, he, ht], h⟩
      · exact ⟨_, .ok (), by simp [exec, lifetimeForce, setLifetime, ha, he, ht], hput⟩
    · exact ⟨_, .ok (), by simp [exec, lifetimeForce, setLifetime, ha, he], hput⟩
  | step => exact ⟨_, _, rfl, ⟨h.cons.congr rfl rfl, by have := h.time; simp; omega, h.ids, h.fresh⟩⟩

theorem run_inv {ops : List Op} : ∀ {c : Ctx}, Inv c → Program ValidArgs c ops →
    ∃ c', run c ops = some c' ∧ Inv c' := by
  induction ops with
  | nil => intro c h _; exact ⟨c, rfl, h⟩
  | cons o os ih =>
    intro c h hp
    obtain ⟨c1, r, e, h1⟩ := exec_inv h hp.1
    obtain ⟨c', e', h'⟩ := ih h1 (hp.2 c1 r e)
    exact ⟨c', by simp only [run, e, e'], h'⟩

theorem Inv.empty {t0 : ℤ} (h : 0 ≤ t0) : Inv (Ctx.empty t0) := by
  refine ⟨⟨?_, ?_, ?_, ?_, ?_, ?_, ?_⟩, h, ?_, ?_⟩ <;> simp [Ctx.empty]

/-- **C25.** No sequence of valid calls uses a deleted agent, and afterwards parents and children
agree: every child's parent exists, every agent is in its parent's set and in no other. -/
theorem C25_tree {t0 : ℤ} (h0 : 0 ≤ t0) {ops : List Op} (h : Program ValidArgs (Ctx.empty t0) ops) :
    ∃ c, run (Ctx.empty t0) ops = some c ∧ Consistent c := by
  obtain ⟨c, h1, h2⟩ := run_inv (Inv.empty h0) h
  exact ⟨c, h1, h2.cons⟩

/-- **C25**, decommissioning: removes the agent, from its parent's children too, makes its children
orphans, and changes nothing else about the other agents; the exit is recorded once. -/
theorem C25_decommission {c : Ctx} (h : Consistent c) {a : ℕ} {A : Agent} (ha : c.mem a = some A)
    {cond : Bool} (hc : A.kind = .facility → cond = true) :
    ∃ c', decommission c a cond = some (c', .ok ()) ∧ Consistent c' ∧ c'.mem a = none ∧
      c'.rows = c.rows ++ [.exit a c.time] ∧ a ∉ c'.list ∧ (A.kind = .facility → a ∉ c'.traders) ∧
      (∀ x X, x ≠ a → c.mem x = some X → ∃ X', c'.mem x = some X' ∧
        X'.parent = (if X.parent = some a then none else X.parent) ∧
        (∀ k, k ∈ X'.children ↔ k ∈ X.children ∧ k ≠ a) ∧
        X'.proto = X.proto ∧ X'.spec = X.spec ∧ X'.kind = X.kind ∧ X'.lifetime = X.lifetime ∧
        X'.enter = X.enter) ∧
      (∀ x, c.mem x = none → c'.mem x = none) ∧ ∀ x ≠ a, x ∈ c'.traders ↔ x ∈ c.traders := by
  have hc' : ¬ (A.kind = .facility ∧ cond = false) := by
    rintro ⟨h1, h2⟩; rw [hc h1] at h2; cases h2
  refine ⟨_, decommission_spec h ha hc', (h.delete a).congr rfl rfl, by simp, rfl, by simp, ?_, ?_,
    ?_, ?_⟩
  · intro hk; simp [hk]
  · intro x X hx hX
    refine ⟨cut a X, by simp [hx, hX], rfl, ?_, rfl, rfl, rfl, rfl, rfl⟩
    intro k; simp [cut]
  · intro x hx; simp [hx]
  · intro x hx
    simp only
    split_ifs <;> simp [hx]

/-- **C25**, refusal: a facility that may not be decommissioned stays as it is. -/
theorem C25_refused {c : Ctx} {a : ℕ} {A : Agent} (ha : c.mem a = some A)
    (hk : A.kind = .facility) : decommission c a false = some (c, .error .generic) := by
  unfold decommission
  simp [ha, hk]

/-- **C25**, the end: deleting the context deletes exactly the agents without a parent; all others
are never deleted (`context.cc:101-102` says that deallocation propagates). -/
theorem C25_leak {c : Ctx} (h : Consistent c) : ∃ c', destroyContext c = some c' ∧ Consistent c' ∧
    ∀ a, (∃ A, c'.mem a = some A) ↔ ∃ A p, c.mem a = some A ∧ A.parent = some p := by
  unfold destroyContext
  have key : ∀ (l : List ℕ) (c : Ctx), Consistent c → ∃ c',
      l.foldl (fun oc a => oc.bind fun c => delAgent c a) (some c) = some c' ∧ Consistent c' ∧
      ∀ a, (∃ A, c'.mem a = some A) ↔ (∃ A, c.mem a = some A) ∧ a ∉ l := by
    intro l
    induction l with
    | nil => intro c h; exact ⟨c, rfl, h, by simp⟩
    | cons x l ih =>
      intro c h
      simp only [List.foldl_cons, Option.bind_some]
      cases hx : c.mem x with
      | none =>
        rw [delAgent_dead h hx]
        obtain ⟨c', h1, h2, h3⟩ := ih c h
        refine ⟨c', h1, h2, fun a => ?_⟩
        rw [h3, List.mem_cons]
        constructor
        · rintro ⟨⟨A, hA⟩, h5⟩
          refine ⟨⟨A, hA⟩, ?_⟩
          rintro (rfl | h6)
          · rw [hx] at hA; cases hA
          · exact h5 h6
        · rintro ⟨h4, h5⟩; exact ⟨h4, fun h6 => h5 (Or.inr h6)⟩
      | some X =>
        rw [delAgent_spec h hx]
        obtain ⟨c', h1, h2, h3⟩ := ih _ (h.delete x)
        refine ⟨c', h1, h2, fun a => ?_⟩
        rw [h3, List.mem_cons]
        simp only
        by_cases hax : a = x
        · simp [hax]
        · simp [hax]
  obtain ⟨c', h1, h2, h3⟩ := key _ c h
  refine ⟨c', h1, h2, fun a => ?_⟩
  rw [h3]
  simp only [List.mem_filter, decide_eq_true_eq, not_and]
  constructor
  · rintro ⟨⟨A, hA⟩, h4⟩
    have := h4 (h.list.2 ⟨A, hA⟩)
    rw [hA] at this
    simp only [Option.map_some, Option.some.injEq] at this
    obtain ⟨p, hp⟩ := Option.ne_none_iff_exists'.1 this
    exact ⟨A, p, hA, hp⟩
  · rintro ⟨A, p, hA, hp⟩
    exact ⟨⟨A, hA⟩, fun _ => by simp [hA, hp]⟩

/-! ## Lifetime -/

/-- **C27**, before the agent enters: both setters set the lifetime and nothing else. -/
theorem C27_before {c : Ctx} {a : ℕ} {A : Agent} (ha : c.mem a = some A) (he : A.enter = -1)
    (n : ℤ) : setLifetime c a n = some (c.put a { A with lifetime := n }, .ok ()) ∧
      lifetimeForce c a n = some (c.put a { A with lifetime := n }, .ok ()) := by
  constructor <;> simp [lifetimeForce, setLifetime, ha, he]

/-- **C27**, afterwards: `lifetime(n)` throws `ValueError` and changes nothing. -/
theorem C27_after {c : Ctx} {a : ℕ} {A : Agent} (ha : c.mem a = some A) (he : A.enter ≠ -1)
    (n : ℤ) : setLifetime c a n = some (c, .error .value) := by
  simp [setLifetime, ha, he]

/-- **C27**, force (partial): `lifetime_force(n)` sets the lifetime if the agent then still has a
step to live.  Missing: the other lifetimes, for which it throws (`C27_fails_force`). -/
theorem C27_force_partial {c : Ctx} {a : ℕ} {A : Agent} (ha : c.mem a = some A) (n : ℤ)
    (ht : c.time < A.enter + n) :
    lifetimeForce c a n = some (c.put a { A with lifetime := n }, .ok ()) := by
  by_cases he : A.enter = -1
  · exact (C27_before ha he n).2
  · simp [lifetimeForce, setLifetime, ha, he]
    omega

/-- **C27** fails: forcing a lifetime that has passed already throws `ValueError`; in particular it
is impossible to make the lifetime of an agent infinite (`n = -1`). -/
theorem C27_fails_force {c : Ctx} {a : ℕ} {A : Agent} (ha : c.mem a = some A) (he : A.enter ≠ -1)
    {n : ℤ} (ht : A.enter + n ≤ c.time) : lifetimeForce c a n = some (c, .error .value) := by
  simp [lifetimeForce, setLifetime, ha, he, ht]

/-! ## Counts -/

/-- The agents that entered: id, kind, spec, prototype. -/
def entries (rows : List Row) : List (ℕ × Kind × String × String) :=
  rows.filterMap fun r => match r with
    | .entry id kind spec proto _ _ _ => some (id, kind, spec, proto)
    | _ => none

/-- The agents that left. -/
def exits (rows : List Row) : List ℕ :=
  rows.filterMap fun r => match r with
    | .exit id _ => some id
    | _ => none

/-- In addition to `ValidArgs`, agents leave by decommissioning only, after they have entered. -/
def ValidLeave (c : Ctx) (o : Op) : Prop :=
  ValidArgs c o ∧ match o with
    | .decommission a _ => ∃ A, c.mem a = some A ∧ A.enter ≠ -1
    | .del a => ∀ A, c.mem a = some A → A.enter = -1
    | _ => True

theorem entries_append (a b : List Row) : entries (a ++ b) = entries a ++ entries b := by
  simp [entries]

theorem exits_append (a b : List Row) : exits (a ++ b) = exits a ++ exits b := by
  simp [exits]

/-- Kinds whose `EnterNotify` registers the agent. -/
def registers (k : Kind) : Bool := k = .facility ∨ k = .other

structure Counts (c : Ctx) : Prop where
  inv : Inv c
  ids : ((entries c.rows).map Prod.fst).Nodup
  row : ∀ {a A}, c.mem a = some A → A.enter ≠ -1 → (a, A.kind, A.spec, A.proto) ∈ entries c.rows
  out : ∀ {a A}, c.mem a = some A → a ∉ exits c.rows
  fresh : ∀ {a A}, c.mem a = some A → A.enter = -1 → a ∉ (entries c.rows).map Prod.fst
  lt : ∀ {a}, a ∈ (entries c.rows).map Prod.fst → a < c.nextId
  lt' : ∀ {a}, a ∈ exits c.rows → a < c.nextId
  live : ∀ {e}, e ∈ entries c.rows → e.1 ∉ exits c.rows → ∃ A, c.mem e.1 = some A
  proto : ∀ p, c.nProto p = ((entries c.rows).countP fun e => registers e.2.1 && decide (e.2.2.2 = p)) -
    ((entries c.rows).countP fun e => decide (e.1 ∈ exits c.rows) && decide (e.2.2.2 = p) : ℕ)
  spec : ∀ p, c.nSpec p = ((entries c.rows).countP fun e => registers e.2.1 && decide (e.2.2.1 = p)) -
    ((entries c.rows).countP fun e => decide (e.1 ∈ exits c.rows) && decide (e.2.2.1 = p) : ℕ)

theorem countP_exit {α : Type} (l : List (ℕ × α)) (hn : (l.map Prod.fst).Nodup) {e : ℕ × α}
    (he : e ∈ l) {xs : List ℕ} (hx : e.1 ∉ xs) (q : ℕ × α → Bool) :
    (l.countP fun f => decide (f.1 ∈ xs ++ [e.1]) && q f) =
      (l.countP fun f => decide (f.1 ∈ xs) && q f) + if q e then 1 else 0 := by
  induction l with
  | nil => cases he
  | cons f l ih =>
    rw [List.map_cons, List.nodup_cons] at hn
    simp only [List.countP_cons]
    rcases List.mem_cons.1 he with rfl | he
    · have : (l.countP fun f => decide (f.1 ∈ xs ++ [e.1]) && q f) =
          l.countP fun f => decide (f.1 ∈ xs) && q f := by
        apply List.countP_congr
        intro g hg
        have : g.1 ≠ e.1 := by
          intro h; apply hn.1; rw [← h]; exact List.mem_map.2 ⟨g, hg, rfl⟩
        simp [this]
      rw [this]
      simp [hx]
    · rw [ih hn.2 he]
      have : f.1 ≠ e.1 := by
        intro h; apply hn.1; rw [h]; exact List.mem_map.2 ⟨e, he, rfl⟩
      simp [this]
      omega

/-- A change that does not touch rows, counts, or the identity of agents. -/
theorem Counts.keep {c c' : Ctx} (h : Counts c) (hi : Inv c') (hr : c'.rows = c.rows)
    (hp : c'.nProto = c.nProto) (hs : c'.nSpec = c.nSpec) (hn : c.nextId ≤ c'.nextId)
    (hback : ∀ {a A'}, c'.mem a = some A' → (∃ A, c.mem a = some A ∧ A'.enter = A.enter ∧
      A'.kind = A.kind ∧ A'.spec = A.spec ∧ A'.proto = A.proto) ∨ (c.nextId ≤ a ∧ A'.enter = -1))
    (hfwd : ∀ {a A}, c.mem a = some A → A.enter ≠ -1 → ∃ A', c'.mem a = some A') :
    Counts c' := by
  have hent : ∀ {e}, e ∈ entries c.rows → e.1 ∉ exits c.rows → ∃ A, c.mem e.1 = some A ∧ A.enter ≠ -1 := by
    intro e he hx
    obtain ⟨A, hA⟩ := h.live he hx
    refine ⟨A, hA, fun h1 => h.fresh hA h1 (List.mem_map.2 ⟨e, he, rfl⟩)⟩
  refine ⟨hi, by rw [hr]; exact h.ids, ?_, ?_, ?_, ?_, ?_, ?_, by rw [hr, hp]; exact h.proto,
    by rw [hr, hs]; exact h.spec⟩
  · intro a A' ha he
    rw [hr]
    rcases hback ha with ⟨A, h1, h2, h3, h4, h5⟩ | ⟨_, h2⟩
    · rw [h3, h4, h5]; exact h.row h1 (h2 ▸ he)
    · exact absurd h2 he
  · intro a A' ha
    rw [hr]
    rcases hback ha with ⟨A, h1, _⟩ | ⟨h1, _⟩
    · exact h.out h1
    · intro hm; have := h.lt' hm; omega
  · intro a A' ha he
    rw [hr]
    rcases hback ha with ⟨A, h1, h2, _⟩ | ⟨h1, _⟩
    · exact h.fresh h1 (h2 ▸ he)
    · intro hm; have := h.lt hm; omega
  · intro a ha; rw [hr] at ha; have := h.lt ha; omega
  · intro a ha; rw [hr] at ha; have := h.lt' ha; omega
  · intro e he hx
    rw [hr] at he hx
    obtain ⟨A, h1, h2⟩ := hent he hx
    exact hfwd h1 h2

theorem Counts.exec {c : Ctx} (h : Counts c) {o : Op} (hv : ValidLeave c o) :
    ∃ c' r, exec c o = some (c', r) ∧ Counts c' := by
  have hcut : ∀ (a : ℕ) {x : ℕ} {X : Agent},
      (if x = a then none else (c.mem x).map (cut a)) = some X → x ≠ a ∧ ∃ X0, c.mem x = some X0 ∧
        X.enter = X0.enter ∧ X.kind = X0.kind ∧ X.spec = X0.spec ∧ X.proto = X0.proto := by
    intro a x X hx
    split_ifs at hx with h1
    cases hX : c.mem x with
    | none => rw [hX] at hx; cases hx
    | some X0 =>
      rw [hX] at hx
      simp only [Option.map_some, Option.some.injEq] at hx
      subst hx
      exact ⟨h1, X0, rfl, rfl, rfl, rfl, rfl⟩
  cases o with
  | create proto spec kind life =>
    refine ⟨_, _, rfl, h.keep (h.inv.create _ _ _ _) rfl rfl rfl (Nat.le_succ _) ?_ ?_⟩
    · intro a A' ha
      by_cases hxn : a = c.nextId
      · subst hxn
        simp only [Agents.create, Ctx.put, Function.update_self, Option.some.injEq] at ha
        subst ha; exact Or.inr ⟨le_refl _, rfl⟩
      · simp only [Agents.create, Ctx.put, Function.update_of_ne hxn] at ha
        exact Or.inl ⟨A', ha, rfl, rfl, rfl, rfl⟩
    · intro a A ha _
      have : a ≠ c.nextId := by have := h.inv.ids ha; omega
      exact ⟨A, by simp [Agents.create, Ctx.put, Function.update_of_ne this, ha]⟩
  | build a p =>
    obtain ⟨⟨⟨A, ha, hf⟩, hp⟩, _⟩ := hv
    by_cases hne : p = some a
    · refine ⟨c, .error .key, ?_, h⟩
      simp only [Agents.exec, build, connect, ha, if_pos hne]
    · refine ⟨_, _, build_spec h.inv ha hp hne, ?_⟩
      obtain ⟨f1, f2, f3, f4, f5⟩ := enterNotify_frame ((connected c a A p).put a (built c A p)) a
        (built c A p)
      have hnp : ∀ q, ((connected c a A p).put a (built c A p)).nProto q = c.nProto q ∧
          ((connected c a A p).put a (built c A p)).nSpec q = c.nSpec q ∧
          ((connected c a A p).put a (built c A p)).nextId = c.nextId := by
        intro q
        cases p with
        | none => exact ⟨rfl, rfl, rfl⟩
        | some q => obtain ⟨Q, hQ⟩ := hp q rfl; simp [connected, hQ, Ctx.put]
      have hb : (built c A p).kind = A.kind ∧ (built c A p).spec = A.spec ∧
          (built c A p).proto = A.proto ∧ (built c A p).enter = c.time := by
        cases p <;> simp [built]
      have hent : entries (c.rows ++ [.entry a A.kind A.spec A.proto (built c A p).parentId A.lifetime
          c.time]) = entries c.rows ++ [(a, A.kind, A.spec, A.proto)] := by
        rw [entries_append]; rfl
      have hex : exits (c.rows ++ [.entry a A.kind A.spec A.proto (built c A p).parentId A.lifetime
          c.time]) = exits c.rows := by
        rw [exits_append]; simp [exits]
      have hfresh := h.fresh ha hf
      have hout := h.out ha
      have hlt := h.inv.ids ha
      refine ⟨(h.inv.connectedPut ha hf hp hne).congr f1 f2 f3 f4, ?_, ?_, ?_, ?_, ?_, ?_, ?_, ?_, ?_⟩
      · simp only [hent, List.map_append, List.nodup_append']
        exact ⟨h.ids, by simp, by simpa using hfresh⟩
      · intro x X hx he
        simp only [f1] at hx
        simp only [hent, List.mem_append, List.mem_singleton]
        rcases connected_mem ha hp hne hx with ⟨rfl, rfl⟩ | ⟨_, X0, hX0, rfl⟩
        · right; rw [hb.1, hb.2.1, hb.2.2.1]
        · left; have := h.row hX0 he; exact this
      · intro x X hx
        simp only [f1] at hx
        simp only [hex]
        rcases connected_mem ha hp hne hx with ⟨rfl, rfl⟩ | ⟨_, X0, hX0, rfl⟩
        · exact hout
        · exact h.out hX0
      · intro x X hx he
        simp only [f1] at hx
        simp only [hent, List.map_append, List.mem_append, List.map_cons, List.map_nil,
          List.mem_singleton, not_or]
        rcases connected_mem ha hp hne hx with ⟨rfl, rfl⟩ | ⟨hxa, X0, hX0, rfl⟩
        · rw [hb.2.2.2] at he
          have := h.inv.time; omega
        · exact ⟨h.fresh hX0 he, hxa⟩
      · intro x hx
        simp only [hent, List.map_append, List.mem_append, List.map_cons, List.map_nil,
          List.mem_singleton] at hx
        simp only [f4, (hnp "").2.2]
        rcases hx with hx | rfl
        · exact h.lt hx
        · exact hlt
      · intro x hx
        simp only [hex] at hx
        simp only [f4, (hnp "").2.2]
        exact h.lt' hx
      · intro e he hx
        simp only [hent, List.mem_append, List.mem_singleton] at he
        simp only [hex] at hx
        simp only [f1]
        rcases he with he | rfl
        · by_cases hea : e.1 = a
          · rw [hea]; simp [Ctx.put]
          · obtain ⟨X, hX⟩ := h.live he hx
            simp only [Ctx.put, Function.update_of_ne hea]
            cases p with
            | none => exact ⟨X, hX⟩
            | some q =>
              obtain ⟨Q, hQ⟩ := hp q rfl
              simp only [connected, hQ, Ctx.put]
              by_cases heq : e.1 = q
              · rw [heq]; simp
              · exact ⟨X, by rw [Function.update_of_ne heq, Function.update_of_ne hea, hX]⟩
        · simp [Ctx.put]
      · intro q
        have e1 : (enterNotify ((connected c a A p).put a (built c A p)) a (built c A p)).nProto q =
            c.nProto q + if registers A.kind && decide (A.proto = q) then 1 else 0 := by
          have := (hnp q).1
          unfold enterNotify
          rw [hb.1]
          by_cases hq : A.proto = q
          · have hq' : (built c A p).proto = q := by rw [hb.2.2.1, hq]
            cases hk : A.kind <;> simp [registers, registerAgent, hq, hq', this]
          · have hq' : q ≠ (built c A p).proto := by rw [hb.2.2.1]; exact Ne.symm hq
            cases hk : A.kind <;> simp [registers, registerAgent, hq, Function.update_of_ne hq', this]
        simp only [hent, hex, e1, h.proto q, List.countP_append, List.countP_singleton, hout,
          decide_false, Bool.false_and]
        push_cast
        split_ifs <;> simp <;> ring
      · intro q
        have e1 : (enterNotify ((connected c a A p).put a (built c A p)) a (built c A p)).nSpec q =
            c.nSpec q + if registers A.kind && decide (A.spec = q) then 1 else 0 := by
          have := (hnp q).2.1
          unfold enterNotify
          rw [hb.1]
          by_cases hq : A.spec = q
          · have hq' : (built c A p).spec = q := by rw [hb.2.1, hq]
            cases hk : A.kind <;> simp [registers, registerAgent, hq, hq', this]
          · have hq' : q ≠ (built c A p).spec := by rw [hb.2.1]; exact Ne.symm hq
            cases hk : A.kind <;> simp [registers, registerAgent, hq, Function.update_of_ne hq', this]
        simp only [hent, hex, e1, h.spec q, List.countP_append, List.countP_singleton, hout,
          decide_false, Bool.false_and]
        push_cast
        split_ifs <;> simp <;> ring
  | decommission a cond =>
    obtain ⟨_, A, ha, hen⟩ := hv
    by_cases hc : A.kind = .facility ∧ cond = false
    · refine ⟨c, .error .generic, ?_, h⟩
      simp only [Agents.exec, decommission, ha, if_pos hc]
    · refine ⟨_, _, decommission_spec h.inv.cons ha hc, ?_⟩
      have hent : entries (c.rows ++ [.exit a c.time]) = entries c.rows := by
        rw [entries_append]; simp [entries]
      have hex : exits (c.rows ++ [.exit a c.time]) = exits c.rows ++ [a] := by
        rw [exits_append]; rfl
      have hrow := h.row ha hen
      have hout := h.out ha
      refine ⟨(h.inv.delete a).congr rfl rfl rfl rfl, ?_, ?_, ?_, ?_, ?_, ?_, ?_, ?_, ?_⟩
      · simp only [hent]; exact h.ids
      · intro x X hx he
        simp only [hent]
        obtain ⟨h1, X0, hX0, q1, q2, q3, q4⟩ := hcut a hx
        rw [q2, q3, q4]; exact h.row hX0 (q1 ▸ he)
      · intro x X hx
        simp only [hex, List.mem_append, List.mem_singleton, not_or]
        obtain ⟨h1, X0, hX0, q1, q2, q3, q4⟩ := hcut a hx
        exact ⟨h.out hX0, h1⟩
      · intro x X hx he
        simp only [hent]
        obtain ⟨h1, X0, hX0, q1, q2, q3, q4⟩ := hcut a hx
        exact h.fresh hX0 (q1 ▸ he)
      · intro x hx; simp only [hent] at hx; exact h.lt hx
      · intro x hx
        simp only [hex, List.mem_append, List.mem_singleton] at hx
        rcases hx with hx | rfl
        · exact h.lt' hx
        · exact h.inv.ids ha
      · intro e he hx
        simp only [hent] at he
        simp only [hex, List.mem_append, List.mem_singleton, not_or] at hx
        obtain ⟨X, hX⟩ := h.live he hx.1
        exact ⟨cut a X, by simp [hx.2, hX]⟩
      · intro q
        simp only [hent, hex]
        rw [countP_exit _ h.ids hrow hout (fun e => decide (e.2.2.2 = q))]
        have := h.proto q
        by_cases hq : A.proto = q
        · subst hq
          simp only [Function.update_self, this, decide_true, if_true]
          push_cast; ring
        · simp only [Function.update_of_ne (Ne.symm hq), this, hq, decide_false]
          simp
      · intro q
        simp only [hent, hex]
        rw [countP_exit _ h.ids hrow hout (fun e => decide (e.2.2.1 = q))]
        have := h.spec q
        by_cases hq : A.spec = q
        · subst hq
          simp only [Function.update_self, this, decide_true, if_true]
          push_cast; ring
        · simp only [Function.update_of_ne (Ne.symm hq), this, hq, decide_false]
          simp
  | del a =>
    cases ha : c.mem a with
    | none => exact ⟨c, .ok (), by simp [Agents.exec, delAgent_dead h.inv.cons ha], h⟩
    | some A =>
      refine ⟨_, .ok (), by simp only [Agents.exec, delAgent_spec h.inv.cons ha]; rfl, ?_⟩
      refine h.keep (h.inv.delete a) rfl rfl rfl (le_refl _) ?_ ?_
      · intro x X hx
        obtain ⟨h1, X0, hX0, q⟩ := hcut a hx
        exact Or.inl ⟨X0, hX0, q⟩
      · intro x X hx he
        have : x ≠ a := by rintro rfl; exact he (hv.2 X hx)
        exact ⟨cut a X, by simp [this, hx]⟩
  | setLifetime a n =>
    obtain ⟨c', r, e, hi⟩ := exec_inv h.inv hv.1
    refine ⟨c', r, e, ?_⟩
    obtain ⟨A, ha⟩ := hv.1
    simp only [Agents.exec, setLifetime, ha] at e
    split_ifs at e with he
    · cases e; exact h
    · cases e
      refine h.keep hi rfl rfl rfl (le_refl _) ?_ ?_
      · intro x X hx
        by_cases hxa : x = a
        · subst hxa
          simp only [Ctx.put, Function.update_self, Option.some.injEq] at hx
          subst hx; exact Or.inl ⟨A, ha, rfl, rfl, rfl, rfl⟩
        · simp only [Ctx.put, Function.update_of_ne hxa] at hx
          exact Or.inl ⟨X, hx, rfl, rfl, rfl, rfl⟩
      · intro x X hx _
        by_cases hxa : x = a
        · subst hxa; exact ⟨_, by simp [Ctx.put]; rfl⟩
        · exact ⟨X, by simp [Ctx.put, Function.update_of_ne hxa, hx]⟩
  | lifetimeForce a n =>
    obtain ⟨c', r, e, hi⟩ := exec_inv h.inv hv.1
    refine ⟨c', r, e, ?_⟩
    obtain ⟨A, ha⟩ := hv.1
    have hput : c' = c ∨ c' = c.put a { A with lifetime := n } := by
      by_cases he : A.enter = -1
      · simp [Agents.exec, lifetimeForce, setLifetime, ha, he] at e
        exact Or.inr (by rw [← e.1, ← he])
      · by_cases ht : A.enter + n ≤ c.time
        · simp [Agents.exec, lifetimeForce, setLifetime, ha, he, ht] at e
          exact Or.inl e.1.symm
        · simp [Agents.exec, lifetimeForce, setLifetime, ha, he, ht] at e
          exact Or.inr e.1.symm
    rcases hput with rfl | rfl
    · exact h
    · refine h.keep hi rfl rfl rfl (le_refl _) ?_ ?_
      · intro x X hx
        by_cases hxa : x = a
        · subst hxa
          simp only [Ctx.put, Function.update_self, Option.some.injEq] at hx
          subst hx; exact Or.inl ⟨A, ha, rfl, rfl, rfl, rfl⟩
        · simp only [Ctx.put, Function.update_of_ne hxa] at hx
          exact Or.inl ⟨X, hx, rfl, rfl, rfl, rfl⟩
      · intro x X hx _
        by_cases hxa : x = a
        · subst hxa; exact ⟨_, by simp [Ctx.put]; rfl⟩
        · exact ⟨X, by simp [Ctx.put, Function.update_of_ne hxa, hx]⟩
  | step =>
    obtain ⟨c', r, e, hi⟩ := exec_inv h.inv hv.1
    refine ⟨c', r, e, ?_⟩
    simp only [Agents.exec, Option.some.injEq, Prod.mk.injEq] at e
    obtain ⟨rfl, _⟩ := e
    exact h.keep hi rfl rfl rfl (le_refl _) (fun {x X} hx => Or.inl ⟨X, hx, rfl, rfl, rfl, rfl⟩)
      (fun {x X} hx _ => ⟨X, hx⟩)

theorem Counts.run {ops : List Op} : ∀ {c : Ctx}, Counts c → Program ValidLeave c ops →
    ∃ c', run c ops = some c' ∧ Counts c' := by
  induction ops with
  | nil => intro c h _; exact ⟨c, rfl, h⟩
  | cons o os ih =>
    intro c h hp
    obtain ⟨c1, r, e, h1⟩ := h.exec hp.1
    obtain ⟨c', e', h'⟩ := ih h1 (hp.2 c1 r e)
    exact ⟨c', by simp only [Agents.run, e, e'], h'⟩

theorem Counts.empty {t0 : ℤ} (h : 0 ≤ t0) : Counts (Ctx.empty t0) := by
  refine ⟨Inv.empty h, ?_, ?_, ?_, ?_, ?_, ?_, ?_, ?_, ?_⟩ <;> simp [Ctx.empty, entries, exits]

/-- **C28**, what the counters are: agents of classes that register (facilities, and direct
subclasses of `Agent`) that entered, less agents of any class that left. -/
theorem C28_counts {t0 : ℤ} (h0 : 0 ≤ t0) {ops : List Op}
    (h : Program ValidLeave (Ctx.empty t0) ops) : ∃ c, run (Ctx.empty t0) ops = some c ∧
      (∀ p, c.nProto p =
        ((entries c.rows).countP fun e =>
          (decide (e.2.1 = .facility) || decide (e.2.1 = .other)) && decide (e.2.2.2 = p)) -
        ((entries c.rows).countP fun e => decide (e.1 ∈ exits c.rows) && decide (e.2.2.2 = p) : ℕ)) ∧
      ∀ p, c.nSpec p =
        ((entries c.rows).countP fun e =>
          (decide (e.2.1 = .facility) || decide (e.2.1 = .other)) && decide (e.2.2.1 = p)) -
        ((entries c.rows).countP fun e => decide (e.1 ∈ exits c.rows) && decide (e.2.2.1 = p) : ℕ) := by
  obtain ⟨c, h1, h2⟩ := (Counts.empty h0).run h
  refine ⟨c, h1, fun p => ?_, fun p => ?_⟩
  · rw [h2.proto p]; simp [registers]
  · rw [h2.spec p]; simp [registers]

theorem countP_sub {α : Type} (l : List α) (p q : α → Bool) :
    ((l.countP q : ℤ)) - (l.countP fun e => p e && q e : ℕ) = (l.countP fun e => !p e && q e : ℕ) := by
  induction l with
  | nil => rfl
  | cons x l ih =>
    simp only [List.countP_cons]
    cases p x <;> cases q x <;> simp <;> omega

/-- **C28** (partial): if no institution or region enters the simulation, the counters are the number
of agents in it.  Missing: institutions and regions (`C28_fails`). -/
theorem C28_partial {t0 : ℤ} (h0 : 0 ≤ t0) {ops : List Op}
    (h : Program ValidLeave (Ctx.empty t0) ops) : ∃ c, run (Ctx.empty t0) ops = some c ∧
      ((∀ e ∈ entries c.rows, e.2.1 = .facility ∨ e.2.1 = .other) →
        (∀ p, c.nProto p =
          ((entries c.rows).countP fun e => !decide (e.1 ∈ exits c.rows) && decide (e.2.2.2 = p) : ℕ)) ∧
        ∀ p, c.nSpec p =
          ((entries c.rows).countP fun e => !decide (e.1 ∈ exits c.rows) && decide (e.2.2.1 = p) : ℕ)) ∧
      (∀ a A, c.mem a = some A → A.enter ≠ -1 →
        (a, A.kind, A.spec, A.proto) ∈ entries c.rows ∧ a ∉ exits c.rows) ∧
      ∀ e ∈ entries c.rows, e.1 ∉ exits c.rows → ∃ A, c.mem e.1 = some A := by
  obtain ⟨c, h1, h2⟩ := (Counts.empty h0).run h
  refine ⟨c, h1, fun hk => ⟨fun p => ?_, fun p => ?_⟩, fun a A ha he => ⟨h2.row ha he, h2.out ha⟩,
    fun e he hx => h2.live he hx⟩
  · rw [h2.proto p, ← countP_sub]
    congr 2
    apply List.countP_congr
    intro e he
    rcases hk e he with h | h <;> simp [registers, h]
  · rw [h2.spec p, ← countP_sub]
    congr 2
    apply List.countP_congr
    intro e he
    rcases hk e he with h | h <;> simp [registers, h]

/-! ## Ancestors -/

/-- In addition to `ValidArgs`, an agent has no children when it is built. -/
def ValidFresh (c : Ctx) (o : Op) : Prop :=
  ValidArgs c o ∧ match o with
    | .build a _ => ∀ A, c.mem a = some A → A.children = []
    | _ => True

/-- Parents come before children in some ranking. -/
def Ranked (c : Ctx) : Prop :=
  ∃ (rank : ℕ → ℕ) (M : ℕ), ∀ p x, ParentOf c p x → rank p < rank x ∧ rank x ≤ M

theorem Ranked.mono {c c' : Ctx} (h : Ranked c) (hs : ∀ p x, ParentOf c' p x → ParentOf c p x) :
    Ranked c' := by
  obtain ⟨rank, M, hr⟩ := h
  exact ⟨rank, M, fun p x hp => hr p x (hs p x hp)⟩

theorem ranked_exec {c : Ctx} (h : Inv c) (hr : Ranked c) {o : Op} (hv : ValidFresh c o) {c' : Ctx}
    {r : Except Err Unit} (he : exec c o = some (c', r)) : Ranked c' := by
  have hdel : ∀ a, Ranked { c with
      list := c.list.filter (· ≠ a)
      mem := fun x => if x = a then none else (c.mem x).map (cut a) } := by
    intro a
    apply hr.mono
    rintro p x ⟨X, h1, h2⟩
    simp only at h1
    split_ifs at h1 with h3
    cases hX : c.mem x with
    | none => rw [hX] at h1; cases h1
    | some X0 =>
      rw [hX] at h1
      simp only [Option.map_some, Option.some.injEq] at h1
      subst h1
      simp only [cut] at h2
      split_ifs at h2
      exact ⟨X0, hX, h2⟩
  have hput : ∀ {a A n}, c.mem a = some A → Ranked (c.put a { A with lifetime := n }) := by
    intro a A n ha
    apply hr.mono
    rintro p x ⟨X, h1, h2⟩
    by_cases hxa : x = a
    · subst hxa
      simp only [Ctx.put, Function.update_self, Option.some.injEq] at h1
      subst h1; exact ⟨A, ha, h2⟩
    · simp only [Ctx.put, Function.update_of_ne hxa] at h1
      exact ⟨X, h1, h2⟩
  cases o with
  | create proto spec kind life =>
    simp only [exec, Option.some.injEq, Prod.mk.injEq] at he
    obtain ⟨rfl, _⟩ := he
    apply hr.mono
    rintro p x ⟨X, h1, h2⟩
    by_cases hxn : x = c.nextId
    · subst hxn
      simp only [create, Ctx.put, Function.update_self, Option.some.injEq] at h1
      subst h1; cases h2
    · simp only [create, Ctx.put, Function.update_of_ne hxn] at h1
      exact ⟨X, h1, h2⟩
  | build a p =>
    obtain ⟨⟨⟨A, ha, hf⟩, hp⟩, hfresh⟩ := hv
    by_cases hne : p = some a
    · simp only [exec, build, connect, ha, if_pos hne, Option.some.injEq, Prod.mk.injEq] at he
      obtain ⟨rfl, _⟩ := he
      exact hr
    · simp only [exec] at he
      rw [build_spec h ha hp hne] at he
      simp only [Option.some.injEq, Prod.mk.injEq] at he
      obtain ⟨rfl, _⟩ := he
      have hno : ∀ x, ¬ ParentOf c a x := by
        rintro x ⟨X, h1, h2⟩
        obtain ⟨A', q1, q2⟩ := h.cons.parent h1 h2
        rw [ha] at q1; cases q1
        rw [hfresh A ha] at q2; cases q2
      obtain ⟨rank, M, hrank⟩ := hr
      have hpar : ∀ q x, ParentOf { enterNotify ((connected c a A p).put a (built c A p)) a
          (built c A p) with rows := c.rows ++ [.entry a A.kind A.spec A.proto
          (built c A p).parentId A.lifetime c.time] } q x →
          (x = a ∧ p = some q) ∨ x ≠ a ∧ ParentOf c q x := by
        rintro q x ⟨X, h1, h2⟩
        simp only [(enterNotify_frame _ _ _).1] at h1
        rcases connected_mem ha hp hne h1 with ⟨rfl, rfl⟩ | ⟨hxa, X0, hX0, rfl⟩
        · left
          cases p with
          | none => simp [built, h.fresh ha hf] at h2
          | some q' => simp [built] at h2; exact ⟨rfl, by rw [h2]⟩
        · exact Or.inr ⟨hxa, X0, hX0, h2⟩
      cases p with
      | none =>
        exact ⟨rank, M, fun q x hq => by
          rcases hpar q x hq with ⟨_, h1⟩ | ⟨_, h1⟩
          · cases h1
          · exact hrank q x h1⟩
      | some q0 =>
        have hqa : q0 ≠ a := by rintro rfl; exact hne rfl
        refine ⟨Function.update rank a (rank q0 + 1), max M (rank q0 + 1), ?_⟩
        intro q x hq
        rcases hpar q x hq with ⟨rfl, h1⟩ | ⟨hxa, h1⟩
        · cases h1
          simp [Function.update_of_ne hqa]
        · have hqa' : q ≠ a := by rintro rfl; exact hno x h1
          rw [Function.update_of_ne hqa', Function.update_of_ne hxa]
          have := hrank q x h1
          omega
  | decommission a cond =>
    obtain ⟨⟨A, ha⟩, _⟩ := hv
    by_cases hc : A.kind = .facility ∧ cond = false
    · simp only [exec, decommission, ha, if_pos hc, Option.some.injEq, Prod.mk.injEq] at he
      obtain ⟨rfl, _⟩ := he
      exact hr
    · simp only [exec] at he
      rw [decommission_spec h.cons ha hc] at he
      simp only [Option.some.injEq, Prod.mk.injEq] at he
      obtain ⟨rfl, _⟩ := he
      exact (hdel a).mono fun p x hp => hp
  | del a =>
    cases ha : c.mem a with
    | none =>
      simp only [exec, delAgent_dead h.cons ha, Option.map_some, Option.some.injEq,
        Prod.mk.injEq] at he
      obtain ⟨rfl, _⟩ := he
      exact hr
    | some A =>
      simp only [exec, delAgent_spec h.cons ha, Option.map_some, Option.some.injEq,
        Prod.mk.injEq] at he
      obtain ⟨rfl, _⟩ := he
      exact hdel a
  | setLifetime a n =>
    obtain ⟨⟨A, ha⟩, _⟩ := hv
    simp only [exec, setLifetime, ha] at he
    split_ifs at he
    · cases he; exact hr
    · cases he; exact hput ha
  | lifetimeForce a n =>
    obtain ⟨⟨A, ha⟩, _⟩ := hv
    by_cases hen : A.enter = -1
    · simp [exec, lifetimeForce, setLifetime, ha, hen] at he
      rw [← he.1]
      have := hput ha (n := n)
      rw [hen] at this; exact this
    · by_cases ht : A.enter + n ≤ c.time
      · simp [exec, lifetimeForce, setLifetime, ha, hen, ht] at he
        rw [← he.1]; exact hr
      · simp [exec, lifetimeForce, setLifetime, ha, hen, ht] at he
        rw [← he.1]; exact hput ha
  | step =>
    simp only [exec, Option.some.injEq, Prod.mk.injEq] at he
    obtain ⟨rfl, _⟩ := he
    exact hr

theorem ranked_run {ops : List Op} : ∀ {c : Ctx}, Inv c → Ranked c → Program ValidFresh c ops →
    ∃ c', run c ops = some c' ∧ Inv c' ∧ Ranked c' := by
  induction ops with
  | nil => intro c h hr _; exact ⟨c, rfl, h, hr⟩
  | cons o os ih =>
    intro c h hr hp
    obtain ⟨c1, r, e, h1⟩ := exec_inv h hp.1.1
    obtain ⟨c', e', h'⟩ := ih h1 (ranked_exec h hr hp.1 e) (hp.2 c1 r e)
    exact ⟨c', by simp only [run, e, e'], h'⟩

theorem anc_iff {c : Ctx} {a x : ℕ} {X : Agent} (hx : c.mem x = some X) :
    Anc c a x ↔ ∃ p, X.parent = some p ∧ (a = p ∨ Anc c a p) := by
  constructor
  · intro h
    cases h with
    | single h => obtain ⟨X', h1, h2⟩ := h; rw [hx] at h1; cases h1; exact ⟨a, h2, Or.inl rfl⟩
    | @tail p _ h1 h2 =>
      obtain ⟨X', h3, h4⟩ := h2
      rw [hx] at h3; cases h3; exact ⟨p, h4, Or.inr h1⟩
  · rintro ⟨p, h1, rfl | h2⟩
    · exact .single ⟨X, hx, h1⟩
    · exact .tail h2 ⟨X, hx, h1⟩

theorem anc_child {c : Ctx} (h : Consistent c) {b x : ℕ} {B : Agent} (hb : c.mem b = some B) :
    Anc c b x ↔ ∃ k ∈ B.children, x = k ∨ Anc c k x := by
  constructor
  · intro hanc
    obtain ⟨k, ⟨K, h1, h2⟩, h3⟩ := Relation.TransGen.head'_iff.1 hanc
    obtain ⟨B', h4, h5⟩ := h.parent h1 h2
    rw [hb] at h4; cases h4
    refine ⟨k, h5, ?_⟩
    rcases Relation.reflTransGen_iff_eq_or_transGen.1 h3 with h6 | h6
    · exact Or.inl h6
    · exact Or.inr h6
  · rintro ⟨k, hk, rfl | h2⟩
    · obtain ⟨K, h3, h4⟩ := h.child hb hk
      exact .single ⟨K, h3, h4⟩
    · obtain ⟨K, h3, h4⟩ := h.child hb hk
      exact .head ⟨K, h3, h4⟩ h2

theorem ancestorLoop_spec {c : Ctx} (h : Consistent c) {rank : ℕ → ℕ} {M : ℕ}
    (hr : ∀ p x, ParentOf c p x → rank p < rank x ∧ rank x ≤ M) (this : ℕ) :
    ∀ (fuel up : ℕ) (U : Agent), c.mem up = some U → rank up < fuel →
      ∃ b, ancestorLoop c this fuel (some up) = some b ∧ (b = true ↔ this = up ∨ Anc c this up) := by
  intro fuel
  induction fuel with
  | zero => intro up U _ hlt; omega
  | succ n ih =>
    intro up U hU hlt
    by_cases hthis : this = up
    · exact ⟨true, by simp [ancestorLoop, hthis], by simp [hthis]⟩
    · simp only [ancestorLoop, if_neg hthis, hU]
      cases hp : U.parent with
      | none =>
        refine ⟨false, by cases n <;> rfl, ?_⟩
        rw [anc_iff hU]
        simp [hthis, hp]
      | some p =>
        have hpar : ParentOf c p up := ⟨U, hU, hp⟩
        obtain ⟨P, hP, _⟩ := h.parent hU hp
        obtain ⟨b, h1, h2⟩ := ih p P hP (by have := hr p up hpar; omega)
        refine ⟨b, h1, ?_⟩
        rw [h2, anc_iff hU]
        simp [hthis, hp]

theorem anyM_spec {f : ℕ → Option Bool} {Q : ℕ → Prop} : ∀ (l : List ℕ),
    (∀ x ∈ l, ∃ b, f x = some b ∧ (b = true ↔ Q x)) →
      ∃ b, anyM f l = some b ∧ (b = true ↔ ∃ x ∈ l, Q x) := by
  intro l
  induction l with
  | nil => intro _; exact ⟨false, rfl, by simp⟩
  | cons x l ih =>
    intro hf
    obtain ⟨b, h1, h2⟩ := hf x List.mem_cons_self
    obtain ⟨b', h3, h4⟩ := ih fun y hy => hf y (List.mem_cons_of_mem _ hy)
    cases b with
    | true => exact ⟨true, by simp [anyM, h1], by simp [h2.1 rfl]⟩
    | false =>
      refine ⟨b', by simp [anyM, h1, h3], ?_⟩
      have : ¬ Q x := fun hq => by have := h2.2 hq; cases this
      rw [h4]; simp [this]

theorem decendentOf_spec {c : Ctx} (h : Consistent c) {rank : ℕ → ℕ} {M : ℕ}
    (hr : ∀ p x, ParentOf c p x → rank p < rank x ∧ rank x ≤ M) (a : ℕ) :
    ∀ (fuel o : ℕ) (O : Agent), c.mem o = some O → M - rank o < fuel →
      ∃ b, decendentOf c fuel a o = some b ∧ (b = true ↔ Anc c o a) := by
  intro fuel
  induction fuel with
  | zero => intro o O _ hlt; omega
  | succ n ih =>
    intro o O hO hlt
    simp only [decendentOf, hO]
    obtain ⟨b, h1, h2⟩ := anyM_spec (f := fun k => if a = k then some true else decendentOf c n a k)
      (Q := fun k => a = k ∨ Anc c k a) O.children (by
        intro k hk
        obtain ⟨K, hK, hKp⟩ := h.child hO hk
        by_cases hak : a = k
        · exact ⟨true, by simp [hak], by simp [hak]⟩
        · have := hr o k ⟨K, hK, hKp⟩
          obtain ⟨b, h1, h2⟩ := ih k K hK (by omega)
          exact ⟨b, by simp [hak, h1], by simp [hak, h2]⟩)
    exact ⟨b, h1, by rw [h2, anc_child h hO]⟩

/-- **C67.** In every state reached by valid calls no agent is its own ancestor; `AncestorOf`,
`DecendentOf` and `InFamilyTree` end, `a->AncestorOf(b)` and `b->DecendentOf(a)` agree and hold
exactly for proper ancestors, and `InFamilyTree` holds for the agent itself, its ancestors and
descendants. -/
theorem C67_family {t0 : ℤ} (h0 : 0 ≤ t0) {ops : List Op}
    (h : Program ValidFresh (Ctx.empty t0) ops) : ∃ c, run (Ctx.empty t0) ops = some c ∧
      (∀ a, ¬ Anc c a a) ∧ ∃ N, ∀ fuel ≥ N, ∀ a b A B, c.mem a = some A → c.mem b = some B →
        ∃ x z, ancestorOf c fuel a b = some x ∧ decendentOf c fuel b a = some x ∧
          (x = true ↔ Anc c a b) ∧ inFamilyTree c fuel a b = some z ∧
          (z = true ↔ a = b ∨ Anc c a b ∨ Anc c b a) := by
  obtain ⟨c, h1, hi, rank, M, hr⟩ := ranked_run (Inv.empty h0)
    ⟨fun _ => 0, 0, by rintro p x ⟨X, hX, _⟩; cases hX⟩ h
  refine ⟨c, h1, ?_, M + 1, ?_⟩
  · have : ∀ a b, Anc c a b → rank a < rank b := by
      intro a b hab
      induction hab with
      | single h => exact (hr _ _ h).1
      | tail _ h ih => exact ih.trans (hr _ _ h).1
    intro a ha
    exact lt_irrefl _ (this a a ha)
  · intro fuel hf
    have hanc : ∀ a b B, c.mem b = some B →
        ∃ x, ancestorOf c fuel a b = some x ∧ (x = true ↔ Anc c a b) := by
      intro a b B hB
      simp only [ancestorOf, hB]
      cases hp : B.parent with
      | none =>
        refine ⟨false, by cases fuel <;> rfl, ?_⟩
        rw [anc_iff hB]; simp [hp]
      | some p =>
        obtain ⟨P, hP, _⟩ := hi.cons.parent hB hp
        have := hr p b ⟨B, hB, hp⟩
        obtain ⟨x, h2, h3⟩ := ancestorLoop_spec hi.cons hr a fuel p P hP (by omega)
        refine ⟨x, h2, ?_⟩
        rw [h3, anc_iff hB]; simp [hp]
    intro a b A B hA hB
    obtain ⟨x, h2, h3⟩ := hanc a b B hB
    obtain ⟨y, h4, h5⟩ := decendentOf_spec hi.cons hr b fuel a A hA (by omega)
    have hxy : y = x := by
      rw [Bool.eq_iff_iff, h3, h5]
    obtain ⟨w, h6, h7⟩ := decendentOf_spec hi.cons hr a fuel b B hB (by omega)
    subst hxy
    by_cases hab : a = b
    · exact ⟨y, true, h2, h4, h3, by simp [inFamilyTree, hab], by simp [hab]⟩
    · cases y with
      | true =>
        exact ⟨true, true, h2, h4, h3, by simp [inFamilyTree, hab, h2], by simp [h3.1 rfl]⟩
      | false =>
        refine ⟨false, w, h2, h4, h3, by simp [inFamilyTree, hab, h2, h6], ?_⟩
        have : ¬ Anc c a b := fun hq => by have := h3.2 hq; cases this
        rw [h7]; simp [hab, this]

/-- **C67** fails: `GetTreePrintOuts` calls itself for the same agent once per child, so it never
ends for an agent that has a child. -/
theorem C67_fails_print {c : Ctx} {a : ℕ} {A : Agent} (ha : c.mem a = some A)
    (hk : A.children ≠ []) (fuel : ℕ) : treePrintOuts c a fuel = none := by
  induction fuel with
  | zero => rfl
  | succ n ih =>
    simp only [treePrintOuts, ha, ih]
    obtain ⟨k, ks, hks⟩ := List.exists_cons_of_ne_nil hk
    rw [hks, List.foldl_cons]
    have : ∀ l : List ℕ, l.foldl (fun (_ : Option ℕ) (_ : ℕ) => (none : Option ℕ)) none = none := by
      intro l
      induction l with
      | nil => rfl
      | cons x l ih => rw [List.foldl_cons]; exact ih
    exact this ks

/-! ## Examples and disagreements -/

/-- An institution with two facilities. -/
def small : List Op :=
  [.create "inst" "spec:inst" .inst (-1), .create "fac" "spec:fac" .facility 3,
   .create "fac" "spec:fac" .facility (-1), .build 0 none, .build 1 (some 0), .build 2 (some 0)]

/-- `small`, and one facility is decommissioned. -/
def small1 : List Op := small ++ [.step, .decommission 1 true]

/-- Checks the conditions of `ValidArgs` call by call. -/
def validB (c : Ctx) : Op → Bool
  | .build a p => (match c.mem a with | none => false | some A => A.enter = -1 ∧ A.children = []) &&
      (match p with | none => true | some q => (c.mem q).isSome)
  | .decommission a _ => match c.mem a with | none => false | some A => A.enter ≠ -1
  | .del a => match c.mem a with | none => true | some A => A.enter = -1
  | .setLifetime a _ => (c.mem a).isSome
  | .lifetimeForce a _ => (c.mem a).isSome
  | _ => true

/-- Checks a program. -/
def progB (c : Ctx) : List Op → Bool
  | [] => true
  | o :: os => validB c o && match exec c o with
    | none => true
    | some (c', _) => progB c' os

theorem validB_args {c : Ctx} {o : Op} (h : validB c o = true) :
    ValidLeave c o ∧ ValidFresh c o := by
  cases o with
  | create => exact ⟨⟨trivial, trivial⟩, trivial, trivial⟩
  | build a p =>
    simp only [validB, Bool.and_eq_true] at h
    obtain ⟨h1, h2⟩ := h
    cases ha : c.mem a with
    | none => simp [ha] at h1
    | some A =>
      simp only [ha, decide_eq_true_eq] at h1
      have hv : ValidArgs c (.build a p) := by
        refine ⟨⟨A, ha, h1.1⟩, ?_⟩
        rintro q rfl
        exact Option.isSome_iff_exists.1 h2
      refine ⟨⟨hv, trivial⟩, hv, ?_⟩
      intro A' hA'
      rw [ha] at hA'; cases hA'; exact h1.2
  | decommission a cond =>
    simp only [validB] at h
    cases ha : c.mem a with
    | none => simp [ha] at h
    | some A =>
      simp only [ha, decide_eq_true_eq] at h
      exact ⟨⟨⟨A, ha⟩, A, ha, h⟩, ⟨A, ha⟩, trivial⟩
  | del a =>
    simp only [validB] at h
    refine ⟨⟨trivial, ?_⟩, trivial, trivial⟩
    intro A ha
    simpa [ha] using h
  | setLifetime a n =>
    have := Option.isSome_iff_exists.1 h
    exact ⟨⟨this, trivial⟩, this, trivial⟩
  | lifetimeForce a n =>
    have := Option.isSome_iff_exists.1 h
    exact ⟨⟨this, trivial⟩, this, trivial⟩
  | step => exact ⟨⟨trivial, trivial⟩, trivial, trivial⟩

theorem progB_program {ops : List Op} : ∀ {c : Ctx}, progB c ops = true →
    Program ValidLeave c ops ∧ Program ValidFresh c ops ∧ Program ValidArgs c ops := by
  induction ops with
  | nil => intro c _; exact ⟨trivial, trivial, trivial⟩
  | cons o os ih =>
    intro c h
    simp only [progB, Bool.and_eq_true] at h
    obtain ⟨h1, h2⟩ := validB_args h.1
    have h3 : ∀ c' r, exec c o = some (c', r) → progB c' os = true := by
      intro c' r he; simpa [he] using h.2
    exact ⟨⟨h1, fun c' r he => (ih (h3 c' r he)).1⟩, ⟨h2, fun c' r he => (ih (h3 c' r he)).2.1⟩,
      h1.1, fun c' r he => (ih (h3 c' r he)).2.2⟩

-- C25_tree, C28_counts, C67_family: a tree that has lost a leaf
example : Program ValidLeave (Ctx.empty 0) small1 ∧ Program ValidFresh (Ctx.empty 0) small1 ∧
    Program ValidArgs (Ctx.empty 0) small1 ∧
    (run (Ctx.empty 0) small1).map (fun c => (c.list, (c.mem 0).map Agent.children,
      (c.mem 2).map Agent.parent, c.nProto "fac", c.nProto "inst")) =
      some ([0, 2], some [2], some (some 0), 1, 0) := by
  obtain ⟨h1, h2, h3⟩ := progB_program (c := Ctx.empty 0) (ops := small1) (by decide +kernel)
  exact ⟨h1, h2, h3, by decide +kernel⟩

-- C25_decommission, C25_refused: the facility of the tree
example : ∃ c, run (Ctx.empty 0) small = some c ∧ Consistent c ∧
    ∃ A, c.mem 1 = some A ∧ A.kind = .facility ∧ A.parent = some 0 := by
  obtain ⟨c, h1, h2⟩ := C25_tree (t0 := 0) (le_refl _) (ops := small)
    (progB_program (by decide +kernel)).2.2
  have h3 : (run (Ctx.empty 0) small).map (fun c => (c.mem 1).map fun A => (A.kind, A.parent)) =
      some (some (.facility, some 0)) := by decide +kernel
  rw [h1] at h3
  simp only [Option.map_some, Option.some.injEq] at h3
  cases h4 : c.mem 1 with
  | none => rw [h4] at h3; cases h3
  | some A =>
    rw [h4] at h3
    simp only [Option.map_some, Option.some.injEq, Prod.mk.injEq] at h3
    exact ⟨c, h1, h2, A, h4, h3⟩

-- C28_partial: two facilities, one leaves
example : Program ValidLeave (Ctx.empty 0) [.create "f" "s" .facility 1, .create "f" "s" .facility 1,
    .build 0 none, .build 1 none, .decommission 0 true] ∧
    (run (Ctx.empty 0) [.create "f" "s" .facility 1, .create "f" "s" .facility 1,
      .build 0 none, .build 1 none, .decommission 0 true]).map (fun c => c.nProto "f") = some 1 :=
  ⟨(progB_program (by decide +kernel)).1, by decide +kernel⟩

-- C27: a facility before and after it enters
example : ∃ c A, run (Ctx.empty 5) [.create "f" "s" .facility 1] = some c ∧ c.mem 0 = some A ∧
    A.enter = -1 := ⟨_, _, rfl, rfl, rfl⟩

example : ∃ c A, run (Ctx.empty 5) [.create "f" "s" .facility 9, .build 0 none, .step] = some c ∧
    c.mem 0 = some A ∧ A.enter ≠ -1 ∧ c.time < A.enter + 2 ∧ A.enter + (-1) ≤ c.time :=
  ⟨_, _, rfl, rfl, by decide, by decide, by decide⟩

/-- **C25** fails as documented (`context.h:218`, "Destructs and cleans up m (and it's children
recursively)"): after the institution is decommissioned its facilities are still there, without a
parent, and still trade. -/
theorem C25_fails_subtree : ∃ ops c, Program ValidArgs (Ctx.empty 0) ops ∧
    ops = small ++ [.decommission 0 true] ∧ run (Ctx.empty 0) ops = some c ∧
    (∃ c0 A, run (Ctx.empty 0) small = some c0 ∧ c0.mem 1 = some A ∧ A.parent = some 0) ∧
    c.mem 0 = none ∧ (∃ A, c.mem 1 = some A ∧ A.parent = none ∧ A.parentId = -1) ∧
    1 ∈ c.traders :=
  ⟨_, _, (progB_program (by decide +kernel)).2.2, rfl, rfl, ⟨_, _, rfl, rfl, rfl⟩, rfl,
    ⟨_, rfl, rfl, rfl⟩, by decide +kernel⟩

/-- **C25** fails: deleting the context leaves agents behind. -/
theorem C25_fails_leak : ∃ c c', Program ValidArgs (Ctx.empty 0) small ∧
    run (Ctx.empty 0) small = some c ∧ destroyContext c = some c' ∧ c'.list = [1, 2] ∧
    ∃ A, c'.mem 1 = some A :=
  ⟨_, _, (progB_program (by decide +kernel)).2.2, rfl, rfl, by decide +kernel, _, rfl⟩

/-- **C25** fails if an agent is built a second time under another parent: the first parent keeps a
pointer to it, and uses it after it is deleted. -/
theorem C25_fails_rebuild : ∃ c, run (Ctx.empty 0) [.create "i" "s" .inst (-1),
      .create "i" "s" .inst (-1), .create "f" "s" .facility 1, .build 0 none, .build 1 none,
      .build 2 (some 0), .build 2 (some 1), .decommission 2 true] = some c ∧ c.mem 2 = none ∧
    (∃ I, c.mem 0 = some I ∧ I.children = [2]) ∧ ∀ cond, instTock c cond 0 = none :=
  ⟨_, rfl, rfl, ⟨_, rfl, rfl⟩, fun _ => rfl⟩

/-- **C28** fails for institutions: while one is in the simulation the counter is 0, and after it has
left −1. -/
theorem C28_fails : ∃ c c', Program ValidLeave (Ctx.empty 0)
      [.create "i" "s" .inst (-1), .build 0 none, .decommission 0 true] ∧
    run (Ctx.empty 0) [.create "i" "s" .inst (-1), .build 0 none] = some c ∧
    run (Ctx.empty 0) [.create "i" "s" .inst (-1), .build 0 none, .decommission 0 true] = some c' ∧
    (∃ A, c.mem 0 = some A ∧ A.enter ≠ -1) ∧ c.nProto "i" = 0 ∧ c.nSpec "s" = 0 ∧
    c'.mem 0 = none ∧ c'.nProto "i" = -1 ∧ c'.nSpec "s" = -1 :=
  ⟨_, _, (progB_program (by decide +kernel)).1, rfl, rfl, ⟨_, rfl, by decide⟩, by decide +kernel,
    by decide +kernel, rfl, by decide +kernel, by decide +kernel⟩

end Cyclus.Agents
