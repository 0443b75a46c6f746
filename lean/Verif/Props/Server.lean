import Verif.Model.Server

/-!
# C39: pausing and resuming
-/

namespace Cyclus.Server

/-! ## Specification -/

/-- The number of pauses that were asked for and have not begun. -/
def pending (s : S) : ℕ := s.actions.count .pause + s.staged.count (.fresh .pause)

/-- What a considerate client may bring about: it asks for a pause only when none is pending or
in effect, for anything else at any time, and does not shut the server down. -/
inductive Considerate : S → Prop
  | start : Considerate {}
  | step {s s' : S} : Considerate s → Step s s' → Considerate s'
  | pause {s : S} : Considerate s → pending s = 0 → s.pauseTask = none →
      Considerate (recv .pause s)
  | other {s : S} : Considerate s → Considerate (recv .other s)
  | unpause {s : S} : Considerate s → Considerate (recv .unpause s)

/-- The server goes on by itself and other actions come in. -/
inductive Later : S → S → Prop
  | refl (s : S) : Later s s
  | step {a b c : S} : Later a b → Step b c → Later a c
  | other {a b : S} : Later a b → Later a (recv .other b)

/-- A number of steps of the server. -/
inductive Steps : ℕ → S → S → Prop
  | zero (s : S) : Steps 0 s s
  | succ {n : ℕ} {a b c : S} : Step a b → Steps n b c → Steps (n + 1) a c

/-- No step is possible and the simulation is held. -/
def Stuck (s : S) : Prop := (∀ s', ¬ Step s s') ∧ ¬ CanGo s

/-! ## Proof -/

/-- Sleeps are cancelled or the current pause, and there is at most one pause. -/
structure Inv (s : S) : Prop where
  ne : s.waiting = true → s.staged ≠ []
  sleeps : ∀ id, Tk.waiting id ∈ s.staged → id ∈ s.cancelled ∨ s.pauseTask = some id
  one : pending s + (if s.pauseTask.isSome then 1 else 0) ≤ 1
  mon : ∀ a ∈ s.monitor, a = .unpause
  acts : ∀ a ∈ s.actions, a = .pause ∨ a = .other
  fresh : ∀ a, Tk.fresh a ∈ s.staged → a = .pause ∨ a = .other

theorem doUnpause_fields (s : S) : (doUnpause s).actions = s.actions ∧
    (doUnpause s).monitor = s.monitor ∧ (doUnpause s).staged = s.staged ∧
    (doUnpause s).waiting = s.waiting ∧ (doUnpause s).pauseTask = none ∧
    (∀ id, id ∈ s.cancelled ∨ s.pauseTask = some id → id ∈ (doUnpause s).cancelled) := by
  unfold doUnpause
  split
  · rename_i h
    refine ⟨rfl, rfl, rfl, rfl, h, ?_⟩
    rintro id (h' | h')
    · exact h'
    · rw [h] at h'
      cases h'
  · rename_i i h
    refine ⟨rfl, rfl, rfl, rfl, rfl, ?_⟩
    rintro id (h' | h')
    · exact List.mem_cons_of_mem _ h'
    · rw [h] at h'
      injection h' with h'
      subst h'
      exact List.mem_cons_self

theorem step_inv {s s' : S} (hi : Inv s) (h : Step s s') : Inv s' := by
  cases h with
  | take a r hw ha =>
    refine ⟨?_, ?_, ?_, hi.mon, ?_, ?_⟩
    · intro h
      simp only at h
      rw [hw] at h
      cases h
    · intro id hm
      simp only [List.mem_append, List.mem_singleton] at hm
      rcases hm with hm | hm
      · exact hi.sleeps id hm
      · cases hm
    · have := hi.one
      simp only [pending, ha] at this ⊢
      rw [List.count_append]
      rw [List.count_cons] at this
      have e : ([Tk.fresh a] : List Tk).count (.fresh .pause) = if a = .pause then 1 else 0 := by
        by_cases h : a = .pause <;> simp [h]
      rw [e]
      by_cases h : a = .pause
      · simp [h] at this ⊢
        omega
      · simp [h] at this ⊢
        omega
    · intro b hb
      exact hi.acts b (by rw [ha]; exact List.mem_cons_of_mem _ hb)
    · intro b hb
      simp only [List.mem_append, List.mem_singleton] at hb
      rcases hb with hb | hb
      · exact hi.fresh b hb
      · injection hb with hb
        subst hb
        exact hi.acts b (by rw [ha]; exact List.mem_cons_self)
  | wait hw ha hs => exact ⟨fun _ => hs, hi.sleeps, hi.one, hi.mon, hi.acts, hi.fresh⟩
  | finish hw hd =>
    refine ⟨?_, ?_, ?_, hi.mon, hi.acts, ?_⟩
    · intro h
      cases h
    · intro id hm
      cases hm
    · have := hi.one
      simp only [pending, List.count_nil] at this ⊢
      omega
    · intro a hm
      cases hm
  | startPause l r hw hs =>
    have hone := hi.one
    have hc : 1 ≤ s.staged.count (Tk.fresh .pause) := by
      rw [List.one_le_count_iff, hs]
      simp
    have hnone : s.pauseTask = none := by
      cases hp : s.pauseTask with
      | none => rfl
      | some id =>
        simp only [pending, hp, Option.isSome_some, if_true] at hone
        omega
    refine ⟨?_, ?_, ?_, hi.mon, hi.acts, ?_⟩
    · intro _
      simp
    · intro id hm
      simp only [List.mem_append, List.mem_cons] at hm
      have old : Tk.waiting id ∈ s.staged → id ∈ s.cancelled := by
        intro h
        rcases hi.sleeps id h with h | h
        · exact h
        · rw [hnone] at h
          cases h
      rcases hm with hm | hm | hm
      · exact Or.inl (old (by rw [hs]; simp [hm]))
      · injection hm with hm
        exact Or.inr (by rw [hm])
      · exact Or.inl (old (by rw [hs]; simp [hm]))
    · simp only [pending, hs, hnone] at hone ⊢
      rw [List.count_append, List.count_cons] at hone ⊢
      simp at hone ⊢
      omega
    · intro a hm
      simp only [List.mem_append, List.mem_cons] at hm
      rcases hm with hm | hm | hm
      · exact hi.fresh a (by rw [hs]; simp [hm])
      · cases hm
      · exact hi.fresh a (by rw [hs]; simp [hm])
  | startOther l r hw hs =>
    refine ⟨fun _ => by simp, ?_, ?_, hi.mon, hi.acts, ?_⟩
    · intro id hm
      simp only [List.mem_append, List.mem_cons] at hm
      rcases hm with hm | hm | hm
      · exact hi.sleeps id (by rw [hs]; simp [hm])
      · cases hm
      · exact hi.sleeps id (by rw [hs]; simp [hm])
    · have hone := hi.one
      simp only [pending, hs] at hone ⊢
      rw [List.count_append, List.count_cons] at hone ⊢
      simp at hone ⊢
      omega
    · intro a hm
      simp only [List.mem_append, List.mem_cons] at hm
      rcases hm with hm | hm | hm
      · exact hi.fresh a (by rw [hs]; simp [hm])
      · cases hm
      · exact hi.fresh a (by rw [hs]; simp [hm])
  | startUnpause l r hw hs =>
    rcases hi.fresh .unpause (by rw [hs]; simp) with h | h <;> cases h
  | wake l r id hs hc =>
    refine ⟨fun _ => by simp, ?_, ?_, hi.mon, hi.acts, ?_⟩
    · intro id hm
      simp only [List.mem_append, List.mem_cons] at hm
      rcases hm with hm | hm | hm
      · exact hi.sleeps id (by rw [hs]; simp [hm])
      · cases hm
      · exact hi.sleeps id (by rw [hs]; simp [hm])
    · have hone := hi.one
      simp only [pending, hs] at hone ⊢
      rw [List.count_append, List.count_cons] at hone ⊢
      simp at hone ⊢
      omega
    · intro a hm
      simp only [List.mem_append, List.mem_cons] at hm
      rcases hm with hm | hm | hm
      · exact hi.fresh a (by rw [hs]; simp [hm])
      · cases hm
      · exact hi.fresh a (by rw [hs]; simp [hm])
  | monUnpause r hw hm =>
    obtain ⟨d1, d2, d3, d4, d5, d6⟩ := doUnpause_fields s
    refine ⟨?_, ?_, ?_, ?_, ?_, ?_⟩
    · simp only [d3, d4]
      exact hi.ne
    · simp only [d3]
      intro id h
      exact Or.inl (d6 id (hi.sleeps id h))
    · have hone := hi.one
      simp only [pending, d1, d3, d5] at hone ⊢
      simp
      omega
    · intro a ha
      exact hi.mon a (by rw [hm]; exact List.mem_cons_of_mem _ ha)
    · simp only [d1]
      exact hi.acts
    · simp only [d3]
      exact hi.fresh
  | monShutdown r hw hm hl =>
    have := hi.mon .shutdown (by rw [hm]; exact List.mem_cons_self)
    cases this

theorem recv_other_inv {s : S} (hi : Inv s) : Inv (recv .other s) := by
  refine ⟨hi.ne, hi.sleeps, ?_, hi.mon, ?_, hi.fresh⟩
  · have := hi.one
    simp only [pending, recv] at this ⊢
    rw [List.count_append]
    have e : ([Act.other] : List Act).count .pause = 0 := by decide
    rw [e, Nat.add_zero]
    exact this
  · intro a ha
    simp only [recv, List.mem_append, List.mem_singleton] at ha
    rcases ha with ha | ha
    · exact hi.acts a ha
    · exact Or.inr ha

theorem recv_unpause_inv {s : S} (hi : Inv s) : Inv (recv .unpause s) := by
  refine ⟨hi.ne, hi.sleeps, hi.one, ?_, hi.acts, hi.fresh⟩
  intro a ha
  simp only [recv, List.mem_append, List.mem_singleton] at ha
  rcases ha with ha | ha
  · exact hi.mon a ha
  · exact ha

theorem considerate_inv {s : S} (h : Considerate s) : Inv s := by
  induction h with
  | start =>
    refine ⟨?_, ?_, ?_, ?_, ?_, ?_⟩
    · intro h
      cases h
    · intro _ h
      cases h
    · simp [pending]
    · intro _ h
      cases h
    · intro _ h
      cases h
    · intro _ h
      cases h
  | step _ hs ih => exact step_inv ih hs
  | other _ ih => exact recv_other_inv ih
  | unpause _ ih => exact recv_unpause_inv ih
  | pause _ hp hn ih =>
    refine ⟨ih.ne, ih.sleeps, ?_, ih.mon, ?_, ih.fresh⟩
    · simp only [pending, recv, hn] at hp ⊢
      rw [List.count_append]
      simp
      omega
    · intro a ha
      simp only [recv, List.mem_append, List.mem_singleton] at ha
      rcases ha with ha | ha
      · exact ih.acts a ha
      · exact Or.inl ha

/-- No pause is pending, and if one is in effect an unpause is on its way. -/
structure Resuming (s : S) : Prop where
  inv : Inv s
  none : pending s = 0
  way : s.pauseTask = .none ∨ s.monitor ≠ []

theorem step_resuming {s s' : S} (hr : Resuming s) (h : Step s s') : Resuming s' := by
  refine ⟨step_inv hr.inv h, ?_, ?_⟩
  · have hp := hr.none
    cases h with
    | take a r hw ha =>
      simp only [pending, ha] at hp ⊢
      rw [List.count_cons] at hp
      rw [List.count_append]
      have : a ≠ .pause := by
        rintro rfl
        simp at hp
      simp [this] at hp ⊢
      exact hp
    | wait => exact hp
    | finish =>
      simp only [pending, List.count_nil] at hp ⊢
      omega
    | startPause l r hw hs =>
      have : 1 ≤ s.staged.count (Tk.fresh .pause) := by
        rw [List.one_le_count_iff, hs]
        simp
      simp only [pending] at hp
      omega
    | startOther l r hw hs =>
      simp only [pending, hs] at hp ⊢
      rw [List.count_append, List.count_cons] at hp ⊢
      simp at hp ⊢
      exact hp
    | startUnpause l r hw hs =>
      rcases hr.inv.fresh .unpause (by rw [hs]; simp) with h | h <;> cases h
    | wake l r id hs hc =>
      simp only [pending, hs] at hp ⊢
      rw [List.count_append, List.count_cons] at hp ⊢
      simp at hp ⊢
      exact hp
    | monUnpause r hw hm =>
      obtain ⟨d1, _, d3, _⟩ := doUnpause_fields s
      simp only [pending, d1, d3]
      exact hp
    | monShutdown r => exact hp
  · cases h with
    | startPause l r hw hs =>
      have : 1 ≤ s.staged.count (Tk.fresh .pause) := by
        rw [List.one_le_count_iff, hs]
        simp
      have hp := hr.none
      simp only [pending] at hp
      omega
    | startUnpause l r hw hs =>
      rcases hr.inv.fresh .unpause (by rw [hs]; simp) with h | h <;> cases h
    | monUnpause r hw hm => exact Or.inl (doUnpause_fields s).2.2.2.2.1
    | monShutdown r hw hm hl =>
      have := hr.inv.mon .shutdown (by rw [hm]; exact List.mem_cons_self)
      cases this
    | take => exact hr.way
    | wait => exact hr.way
    | finish => exact hr.way
    | startOther => exact hr.way
    | wake => exact hr.way

theorem later_resuming {s s' : S} (hr : Resuming s) (h : Later s s') : Resuming s' := by
  induction h with
  | refl => exact hr
  | step _ hs ih => exact step_resuming ih hs
  | other _ ih =>
    refine ⟨recv_other_inv ih.inv, ?_, ih.way⟩
    have := ih.none
    simp only [pending, recv] at this ⊢
    rw [List.count_append]
    simpa using this

/-- How far the server is from rest. -/
def weight : Tk → ℕ
  | .fresh _ => 8
  | .waiting _ => 6
  | .done => 4

def measure (s : S) : ℕ :=
  10 * s.actions.length + s.monitor.length + (s.staged.map weight).sum +
    (if s.waiting then 0 else 1)

theorem step_measure {s s' : S} (hi : Inv s) (h : Step s s') : measure s' < measure s := by
  cases h with
  | take a r hw ha => simp [measure, ha, weight]; omega
  | wait hw ha hs => simp [measure, hw]
  | finish hw hd =>
    have hne := hi.ne hw
    have : 4 ≤ (s.staged.map weight).sum := by
      cases hst : s.staged with
      | nil => exact absurd hst hne
      | cons t ts =>
        have := hd t (by rw [hst]; exact List.mem_cons_self)
        subst this
        simp [weight]
    simp [measure, hw]
    omega
  | startPause l r hw hs => simp [measure, hs, weight]
  | startOther l r hw hs => simp [measure, hs, weight]
  | startUnpause l r hw hs =>
    obtain ⟨d1, d2, d3, d4, d5, d6⟩ := doUnpause_fields s
    simp [measure, hs, weight, d1, d2, d4]
  | wake l r id hs hc => simp [measure, hs, weight]
  | monUnpause r hw hm =>
    obtain ⟨d1, d2, d3, d4, d5, d6⟩ := doUnpause_fields s
    simp [measure, hm, d1, d3, d4]
  | monShutdown r hw hm hl => simp [measure, hm]

/-- A server at rest lets the simulation go. -/
theorem rest_go {s : S} (hr : Resuming s) (h : ∀ s', ¬ Step s s') : CanGo s := by
  cases hw : s.waiting with
  | false =>
    have ha : s.actions = [] := by
      cases ha : s.actions with
      | nil => rfl
      | cons a r => exact absurd (Step.take s a r hw ha) (h _)
    have hs : s.staged = [] := by
      by_contra hs
      exact h _ (Step.wait s hw ha hs)
    refine ⟨?_, ha⟩
    rcases hr.way with hp | hm
    · exact hp
    · cases hm' : s.monitor with
      | nil => exact absurd hm' hm
      | cons a r =>
        have := hr.inv.mon a (by rw [hm']; exact List.mem_cons_self)
        subst this
        exact absurd (Step.monUnpause s r (Or.inr hs) hm') (h _)
  | true =>
    exfalso
    by_cases hd : ∀ t ∈ s.staged, t = .done
    · exact h _ (Step.finish s hw hd)
    · push Not at hd
      obtain ⟨t, ht, hne⟩ := hd
      obtain ⟨l, r, hs⟩ := List.append_of_mem ht
      cases t with
      | done => exact hne rfl
      | fresh a =>
        rcases hr.inv.fresh a ht with rfl | rfl
        · exact h _ (Step.startPause s l r hw hs)
        · exact h _ (Step.startOther s l r hw hs)
      | waiting id =>
        rcases hr.inv.sleeps id ht with hc | hp
        · exact h _ (Step.wake s l r id hs hc)
        · rcases hr.way with hn | hm
          · rw [hn] at hp
            cases hp
          · cases hm' : s.monitor with
            | nil => exact absurd hm' hm
            | cons a q =>
              have := hr.inv.mon a (by rw [hm']; exact List.mem_cons_self)
              subst this
              exact h _ (Step.monUnpause s q (Or.inl hw) hm')

/-! ## C39 -/

/-- **C39** for a considerate client: after an unpause that comes when no pause is pending, in
whatever order the tasks take turns and whatever other actions come in, the server makes only
finitely many steps by itself, and when it has none left to make the simulation goes on.

The full statement, for every sequence of pauses and unpauses that ends with an unpause, is
false: `C39_fails_overtake`, `C39_fails_queued` and `C39_fails_double`. -/
theorem C39_resumes_partial {s s' : S} (h : Considerate s) (hp : pending s = 0)
    (hl : Later (recv .unpause s) s') :
    (∃ N, ∀ n s'', Steps n s' s'' → n ≤ N) ∧
    (∀ n s'', Steps n s' s'' → (∀ s₃, ¬ Step s'' s₃) → CanGo s'') := by
  have hr : Resuming (recv .unpause s) :=
    ⟨recv_unpause_inv (considerate_inv h), hp, Or.inr (by simp [recv])⟩
  have hr' := later_resuming hr hl
  constructor
  · refine ⟨measure s', ?_⟩
    intro n s'' hn
    have : n + measure s'' ≤ measure s' ∧ Inv s'' := by
      have hi := hr'.inv
      clear hr hl hr' h hp
      induction hn with
      | zero s => exact ⟨by omega, hi⟩
      | succ hst _ ih =>
        have := step_measure hi hst
        obtain ⟨i1, i2⟩ := ih (step_inv hi hst)
        exact ⟨by omega, i2⟩
    omega
  · intro n s'' hn hrest
    have : Resuming s'' := by
      clear hr hl h hp hrest
      induction hn with
      | zero s => exact hr'
      | succ hst _ ih => exact ih (step_resuming hr' hst)
    exact rest_go this hrest

/-- **C39**, never stuck: in particular none of these states is stuck. -/
theorem C39_not_stuck_partial {s s' : S} (h : Considerate s) (hp : pending s = 0)
    (hl : Later (recv .unpause s) s') : ¬ Stuck s' := fun hs =>
  hs.2 ((C39_resumes_partial h hp hl).2 0 s' (.zero s') hs.1)

/-- A state with a pause in effect and another action running. -/
def paused : S where
  staged := [.waiting 0, .done]
  waiting := true
  pauseTask := some 0
  next := 1

example : Considerate paused ∧ pending paused = 0 ∧ ¬ CanGo paused := by
  refine ⟨?_, by decide, by simp [CanGo, paused]⟩
  have h1 : Considerate (recv .other (recv .pause {})) :=
    .other (.pause .start (by decide) rfl)
  have h2 := Considerate.step h1 (Step.take _ .pause [.other] rfl rfl)
  have h3 := Considerate.step h2 (Step.take _ .other [] rfl rfl)
  have h4 := Considerate.step h3 (Step.wait _ rfl rfl (by simp))
  have h5 := Considerate.step h4 (Step.startPause _ [] [.fresh .other] rfl rfl)
  exact Considerate.step h5 (Step.startOther _ [.waiting 0] [] rfl rfl)

/-- The pause holds the simulation: as long as no unpause is asked for and the server does not
shut down, a pause in effect stays in effect. -/
theorem C39_holds {s s' : S} (h : Step s s') (hp : s.pauseTask ≠ none)
    (hm : .unpause ∉ s.monitor) (hf : Tk.fresh .unpause ∉ s.staged) : ¬ CanGo s' := by
  intro hg
  have hg := hg.1
  cases h with
  | startPause => cases hg
  | startUnpause l r hw hs => exact hf (by rw [hs]; simp)
  | monUnpause r hw hm' => exact hm (by rw [hm']; simp)
  | take => exact hp hg
  | wait => exact hp hg
  | finish => exact hp hg
  | startOther => exact hp hg
  | wake => exact hp hg
  | monShutdown => exact hp hg

example : paused.pauseTask ≠ none ∧ .unpause ∉ (recv .other paused).monitor ∧
    Tk.fresh .unpause ∉ (recv .other paused).staged := by decide

/-! ### Disagreements -/

/-- Messages of a client and steps of the server. -/
inductive Run : List Act → S → Prop
  | start : Run [] {}
  | step {as : List Act} {s s' : S} : Run as s → Step s s' → Run as s'
  | msg {as : List Act} {s : S} (a : Act) : Run as s → Run (as ++ [a]) (recv a s)

def stuck1 : S where
  staged := [.waiting 0]
  waiting := true
  pauseTask := some 0
  next := 1

theorem stuck1_stuck : Stuck stuck1 := by
  refine ⟨?_, by simp [CanGo, stuck1]⟩
  intro s' h
  generalize hs : stuck1 = s at h
  cases h with
  | take a r hw ha => subst hs; cases hw
  | wait hw ha hs' => subst hs; cases hw
  | finish hw hd =>
    subst hs
    have := hd (.waiting 0) (by simp [stuck1])
    cases this
  | startPause l r hw hs' =>
    subst hs
    have : Tk.fresh .pause ∈ stuck1.staged := by rw [hs']; simp
    revert this; decide
  | startOther l r hw hs' =>
    subst hs
    have : Tk.fresh .other ∈ stuck1.staged := by rw [hs']; simp
    revert this; decide
  | startUnpause l r hw hs' =>
    subst hs
    have : Tk.fresh .unpause ∈ stuck1.staged := by rw [hs']; simp
    revert this; decide
  | wake l r id hs' hc => subst hs; cases hc
  | monUnpause r hw hm => subst hs; cases hm
  | monShutdown r hw hm hl => subst hs; cases hm

/-- The code contradicts C39: an unpause that overtakes its pause, because the monitor runs
before the consumer, is lost; the simulation is paused for ever. -/
theorem C39_fails_overtake : ∃ s, Run [.pause, .unpause] s ∧ Stuck s := by
  refine ⟨stuck1, ?_, stuck1_stuck⟩
  have h1 : Run [.pause, .unpause] (recv .unpause (recv .pause {})) := .msg .unpause
    (.msg .pause .start)
  have h2 := Run.step h1 (Step.monUnpause _ [] (Or.inr rfl) rfl)
  have h3 := Run.step h2 (Step.take _ .pause [] rfl rfl)
  have h4 := Run.step h3 (Step.wait _ rfl rfl (by simp))
  exact Run.step h4 (Step.startPause _ [] [] rfl rfl)

def stuck2 : S where
  staged := [.waiting 1]
  waiting := true
  pauseTask := some 1
  cancelled := [0]
  next := 2

/-- The code contradicts C39: a second pause stays in the queue while the first is in effect,
and takes effect after the unpause. -/
theorem C39_fails_queued : ∃ s, Run [.pause, .pause, .unpause] s ∧ Stuck s := by
  refine ⟨stuck2, ?_, ?_, by simp [CanGo, stuck2]⟩
  · have h1 : Run [.pause] (recv .pause {}) := .msg .pause .start
    have h2 := Run.step h1 (Step.take _ .pause [] rfl rfl)
    have h3 := Run.step h2 (Step.wait _ rfl rfl (by simp))
    have h4 := Run.step h3 (Step.startPause _ [] [] rfl rfl)
    have h5 := Run.msg .unpause (Run.msg .pause h4)
    have h6 := Run.step h5 (Step.monUnpause _ [] (Or.inl rfl) rfl)
    have h7 := Run.step h6 (Step.wake _ [] [] 0 rfl (by decide))
    have h8 := Run.step h7 (Step.finish _ rfl (by simp))
    have h9 := Run.step h8 (Step.take _ .pause [] rfl rfl)
    have h10 := Run.step h9 (Step.wait _ rfl rfl (by simp))
    exact Run.step h10 (Step.startPause _ [] [] rfl rfl)
  · intro s' h
    generalize hs : stuck2 = s at h
    cases h with
    | take a r hw ha => subst hs; cases hw
    | wait hw ha hs' => subst hs; cases hw
    | finish hw hd =>
      subst hs
      have := hd (.waiting 1) (by simp [stuck2])
      cases this
    | startPause l r hw hs' =>
      subst hs
      have : Tk.fresh .pause ∈ stuck2.staged := by rw [hs']; simp
      revert this; decide
    | startOther l r hw hs' =>
      subst hs
      have : Tk.fresh .other ∈ stuck2.staged := by rw [hs']; simp
      revert this; decide
    | startUnpause l r hw hs' =>
      subst hs
      have : Tk.fresh .unpause ∈ stuck2.staged := by rw [hs']; simp
      revert this; decide
    | wake l r id hs' hc =>
      subst hs
      have : Tk.waiting id ∈ stuck2.staged := by rw [hs']; simp
      simp [stuck2] at this hc
      omega
    | monUnpause r hw hm => subst hs; cases hm
    | monShutdown r hw hm hl => subst hs; cases hm

def stuck3 : S where
  actions := [.other]
  staged := [.waiting 0, .done]
  waiting := true
  cancelled := [1]
  next := 2

/-- The code contradicts C39: of two pauses taken together the second replaces the first, which
no unpause can end.  The consumer waits for it for ever, so that the next action that comes in,
such as a repeating action of the simulation, holds the simulation for good. -/
theorem C39_fails_double : ∃ s, Run [.pause, .pause, .unpause, .unpause, .other] s ∧ Stuck s := by
  refine ⟨stuck3, ?_, ?_, by simp [CanGo, stuck3]⟩
  · have h1 : Run [.pause, .pause] (recv .pause (recv .pause {})) :=
      .msg .pause (.msg .pause .start)
    have h2 := Run.step h1 (Step.take _ .pause [.pause] rfl rfl)
    have h3 := Run.step h2 (Step.take _ .pause [] rfl rfl)
    have h4 := Run.step h3 (Step.wait _ rfl rfl (by simp))
    have h5 := Run.step h4 (Step.startPause _ [] [.fresh .pause] rfl rfl)
    have h6 := Run.step h5 (Step.startPause _ [.waiting 0] [] rfl rfl)
    have h7 := Run.msg .unpause (Run.msg .unpause h6)
    have h8 := Run.step h7 (Step.monUnpause _ [.unpause] (Or.inl rfl) rfl)
    have h9 := Run.step h8 (Step.monUnpause _ [] (Or.inl rfl) rfl)
    have h10 := Run.step h9 (Step.wake _ [.waiting 0] [] 1 rfl (by decide))
    exact Run.msg .other h10
  · intro s' h
    generalize hs : stuck3 = s at h
    cases h with
    | take a r hw ha => subst hs; cases hw
    | wait hw ha hs' => subst hs; cases hw
    | finish hw hd =>
      subst hs
      have := hd (.waiting 0) (by simp [stuck3])
      cases this
    | startPause l r hw hs' =>
      subst hs
      have : Tk.fresh .pause ∈ stuck3.staged := by rw [hs']; simp
      revert this; decide
    | startOther l r hw hs' =>
      subst hs
      have : Tk.fresh .other ∈ stuck3.staged := by rw [hs']; simp
      revert this; decide
    | startUnpause l r hw hs' =>
      subst hs
      have : Tk.fresh .unpause ∈ stuck3.staged := by rw [hs']; simp
      revert this; decide
    | wake l r id hs' hc =>
      subst hs
      have : Tk.waiting id ∈ stuck3.staged := by rw [hs']; simp
      simp [stuck3] at this hc
      omega
    | monUnpause r hw hm => subst hs; cases hm
    | monShutdown r hw hm hl => subst hs; cases hm

def stuck4 : S where
  actions := [.other, .other]
  monitor := [.shutdown, .unpause]
  staged := [.waiting 0]
  waiting := true
  pauseTask := some 0
  next := 1

/-- The code contradicts C39: a shutdown that waits for the action queue to become empty keeps
the monitor from the unpause that would let it become empty. -/
theorem C39_fails_shutdown :
    ∃ s, Run [.pause, .other, .other, .shutdown, .unpause] s ∧ Stuck s := by
  refine ⟨stuck4, ?_, ?_, by simp [CanGo, stuck4]⟩
  · have h1 : Run [.pause] (recv .pause {}) := .msg .pause .start
    have h2 := Run.step h1 (Step.take _ .pause [] rfl rfl)
    have h3 := Run.step h2 (Step.wait _ rfl rfl (by simp))
    have h4 := Run.step h3 (Step.startPause _ [] [] rfl rfl)
    exact Run.msg .unpause (Run.msg .shutdown (Run.msg .other (Run.msg .other h4)))
  · intro s' h
    generalize hs : stuck4 = s at h
    cases h with
    | take a r hw ha => subst hs; cases hw
    | wait hw ha hs' => subst hs; cases hw
    | finish hw hd =>
      subst hs
      have := hd (.waiting 0) (by simp [stuck4])
      cases this
    | startPause l r hw hs' =>
      subst hs
      have : Tk.fresh .pause ∈ stuck4.staged := by rw [hs']; simp
      revert this; decide
    | startOther l r hw hs' =>
      subst hs
      have : Tk.fresh .other ∈ stuck4.staged := by rw [hs']; simp
      revert this; decide
    | startUnpause l r hw hs' =>
      subst hs
      have : Tk.fresh .unpause ∈ stuck4.staged := by rw [hs']; simp
      revert this; decide
    | wake l r id hs' hc => subst hs; cases hc
    | monUnpause r hw hm => subst hs; cases hm
    | monShutdown r hw hm hl =>
      subst hs
      simp [stuck4] at hl

end Cyclus.Server
