import Verif.Spec.PyLife

/-!
# Lemmas about the lifetime of agents in Python
-/

namespace Cyclus.PyLife

theorem upd_same {α : Type} (f : ℕ → α) (k : ℕ) (v : α) : upd f k v k = v := if_pos rfl

theorem upd_other {α : Type} (f : ℕ → α) {k x : ℕ} (v : α) (h : x ≠ k) : upd f k v x = f x := if_neg h

structure Inv (s : St) : Prop where
  shim : ∀ c o, s.cpp c = some (.shim o) → s.refs c = some o
  refs : ∀ c o, s.refs c = some o → (∃ x, s.cpp c = some x ∧ x ≠ .orphan) ∧ ∃ h, s.objs o = some ⟨c, false, h⟩
  objs : ∀ o b, s.objs o = some b → b.free = false ∧ (s.refs b.cpp = some o ∨ 0 < b.held ∧ s.cpp b.cpp = none)
  nc : ∀ c, s.nc ≤ c → s.cpp c = none ∧ s.refs c = none
  np : ∀ o, s.np ≤ o → s.objs o = none
  low : ∀ o b, s.objs o = some b → b.cpp < s.nc

theorem inv_init : Inv St.init :=
  ⟨fun _ _ h => (nomatch h), fun _ _ h => (nomatch h), fun _ _ h => (nomatch h), fun _ _ => ⟨rfl, rfl⟩, fun _ _ => rfl,
    fun _ _ h => (nomatch h)⟩

theorem own_ge (s : St) (sub : Bool) : s.nc ≤ own s sub := by unfold own; split <;> omega

theorem make_cpp (s : St) (sub : Bool) (c : ℕ) :
    (make s sub).cpp c = if c = own s sub then some (.shim s.np) else if sub = true ∧ c = s.nc then some .orphan else s.cpp c := by
  show upd _ _ _ c = _
  by_cases h : c = own s sub
  · rw [if_pos h, h, upd_same]
  · rw [if_neg h, upd_other _ _ h]
    cases sub with
    | false => simp
    | true =>
      by_cases h2 : c = s.nc
      · rw [if_pos rfl, h2, upd_same, if_pos ⟨rfl, rfl⟩]
      · rw [if_pos rfl, upd_other _ _ h2, if_neg (fun e => h2 e.2)]

theorem make_inv {s : St} (hi : Inv s) (sub : Bool) : Inv (make s sub) := by
  have hge := own_ge s sub
  have hrefs : ∀ c, (make s sub).refs c = if c = own s sub then some s.np else s.refs c := fun c => rfl
  have hobjs : ∀ o, (make s sub).objs o = if o = s.np then some ⟨own s sub, false, 0⟩ else s.objs o := fun o => rfl
  have hnc : (make s sub).nc = own s sub + 1 := rfl
  have hnp : (make s sub).np = s.np + 1 := rfl
  refine ⟨fun c o h => ?_, fun c o h => ?_, fun o b h => ?_, fun c h => ?_, fun o h => ?_, fun o b h => ?_⟩
  · rw [make_cpp] at h
    rw [hrefs]
    split at h
    · rename_i e
      rw [if_pos e]
      injection h with h
      injection h with h
      rw [h]
    · rename_i e
      split at h
      · cases h
      · rw [if_neg e]
        exact hi.shim c o h
  · rw [hrefs] at h
    rw [make_cpp, hobjs]
    split at h
    · rename_i e
      injection h with h
      subst h e
      rw [if_pos rfl, if_pos rfl]
      exact ⟨⟨_, rfl, by simp⟩, 0, rfl⟩
    · rename_i e
      obtain ⟨⟨x, h1, h2⟩, k, h3⟩ := hi.refs c o h
      have hc : c < s.nc := by
        by_contra hc
        rw [(hi.nc c (by omega)).1] at h1
        cases h1
      have ho : o < s.np := by
        by_contra ho
        rw [hi.np o (by omega)] at h3
        cases h3
      rw [if_neg e, if_neg (by omega), if_neg (by omega)]
      exact ⟨⟨x, h1, h2⟩, k, h3⟩
  · rw [hobjs] at h
    split at h
    · rename_i e
      injection h with h
      subst h e
      exact ⟨rfl, .inl (by rw [hrefs, if_pos rfl])⟩
    · have hl := hi.low o b h
      obtain ⟨h1, h2⟩ := hi.objs o b h
      refine ⟨h1, ?_⟩
      rw [hrefs, make_cpp, if_neg (by omega), if_neg (by omega), if_neg (by omega)]
      exact h2
  · rw [hnc] at h
    rw [make_cpp, hrefs, if_neg (by omega), if_neg (by omega), if_neg (by omega)]
    exact hi.nc c (by omega)
  · rw [hnp] at h
    rw [hobjs, if_neg (by omega)]
    exact hi.np o (by omega)
  · rw [hnc]
    rw [hobjs] at h
    split at h
    · injection h with h
      subst h
      dsimp only
      omega
    · have := hi.low o b h
      omega

theorem cpp_inv {s : St} (hi : Inv s) : Inv { s with cpp := upd s.cpp s.nc (some .cpp), nc := s.nc + 1 } := by
  have hn := hi.nc s.nc (Nat.le_refl _)
  refine ⟨fun c o h => ?_, fun c o h => ?_, fun o b h => ?_, fun c h => ?_, hi.np, fun o b h => Nat.lt_succ_of_lt (hi.low o b h)⟩
  · dsimp only at h ⊢
    by_cases hc : c = s.nc
    · subst hc; rw [upd_same] at h; cases h
    · rw [upd_other _ _ hc] at h; exact hi.shim c o h
  · dsimp only at h ⊢
    obtain ⟨⟨x, h1, h2⟩, h3⟩ := hi.refs c o h
    have hc : c ≠ s.nc := by rintro rfl; rw [hn.1] at h1; cases h1
    rw [upd_other _ _ hc]
    exact ⟨⟨x, h1, h2⟩, h3⟩
  · dsimp only at h ⊢
    rw [upd_other _ _ (Nat.ne_of_lt (hi.low o b h))]
    exact hi.objs o b h
  · dsimp only at h ⊢
    rw [upd_other _ _ (by omega)]
    exact hi.nc c (by omega)

/-- What `agent_to_py` does. -/
theorem wrap_eq {s : St} (hi : Inv s) (c : ℕ) :
    ((∀ x, s.cpp c = some x → x = .orphan) ∧ wrap s c = some s) ∨
      (s.cpp c = some .cpp ∧ s.refs c = none ∧ wrap s c = some { s with objs := upd s.objs s.np (some ⟨c, false, 1⟩), refs := upd s.refs c (some s.np), np := s.np + 1 }) ∨
      ∃ o h, s.refs c = some o ∧ s.objs o = some ⟨c, false, h⟩ ∧ wrap s c = some { s with objs := upd s.objs o (some ⟨c, false, h + 1⟩) } := by
  cases hc : s.cpp c with
  | none => exact .inl ⟨fun x h => (nomatch h), by rw [wrap, hc]⟩
  | some x =>
    cases hr : s.refs c with
    | some o =>
      obtain ⟨⟨y, h1, h2⟩, h, h3⟩ := hi.refs c o hr
      refine .inr (.inr ⟨o, h, rfl, h3, ?_⟩)
      rw [hc] at h1
      injection h1 with h1
      subst h1
      rw [wrap, hc]
      cases x with
      | orphan => exact absurd rfl h2
      | cpp => dsimp only; rw [hr]; dsimp only; rw [h3]
      | shim o' => dsimp only; rw [hr]; dsimp only; rw [h3]
    | none =>
      cases x with
      | orphan =>
        refine .inl ⟨fun y h => ?_, by rw [wrap, hc]⟩
        injection h with h
        exact h.symm
      | cpp => exact .inr (.inl ⟨rfl, rfl, by rw [wrap, hc]; dsimp only; rw [hr]⟩)
      | shim o' =>
        have := hi.shim c o' hc
        rw [hr] at this
        cases this

/-- A change of how many references the user has. -/
theorem held_inv {s : St} (hi : Inv s) {o c h k : ℕ} (ho : s.objs o = some ⟨c, false, h⟩) (hk : s.refs c = some o ∨ 0 < k) :
    Inv { s with objs := upd s.objs o (some ⟨c, false, k⟩) } := by
  refine ⟨hi.shim, fun c' o' h' => ?_, fun o' b h' => ?_, hi.nc, fun o' h' => ?_, fun o' b h' => ?_⟩
  · dsimp only at h' ⊢
    obtain ⟨h1, j, h2⟩ := hi.refs c' o' h'
    refine ⟨h1, ?_⟩
    by_cases e : o' = o
    · subst e
      rw [ho] at h2
      injection h2 with h2
      injection h2 with h2 _ _
      subst h2
      exact ⟨k, upd_same _ _ _⟩
    · exact ⟨j, by rw [upd_other _ _ e]; exact h2⟩
  · dsimp only at h' ⊢
    by_cases e : o' = o
    · subst e
      rw [upd_same] at h'
      injection h' with h'
      subst h'
      refine ⟨rfl, ?_⟩
      rcases (hi.objs _ _ ho).2 with h1 | ⟨-, h1⟩
      · exact .inl h1
      · rcases hk with hk | hk
        · exact .inl hk
        · exact .inr ⟨hk, h1⟩
    · rw [upd_other _ _ e] at h'
      exact hi.objs o' b h'
  · dsimp only at h' ⊢
    have : o' ≠ o := by
      rintro rfl
      rw [hi.np o' h'] at ho
      cases ho
    rw [upd_other _ _ this]
    exact hi.np o' h'
  · dsimp only at h' ⊢
    by_cases e : o' = o
    · subst e
      rw [upd_same] at h'
      injection h' with h'
      subst h'
      have := hi.low _ _ ho
      exact this
    · rw [upd_other _ _ e] at h'
      exact hi.low o' b h'

theorem wrap_inv {s : St} (hi : Inv s) (c : ℕ) : ∃ s', wrap s c = some s' ∧ Inv s' := by
  rcases wrap_eq hi c with ⟨-, e⟩ | ⟨hc, hr, e⟩ | ⟨o, h, hr, ho, e⟩
  · exact ⟨s, e, hi⟩
  · refine ⟨_, e, ?_⟩
    have hn := hi.np s.np (Nat.le_refl _)
    refine ⟨fun c' o h => ?_, fun c' o h => ?_, fun o b h => ?_, fun c' h => ?_, fun o h => ?_, fun o b h => ?_⟩
    · dsimp only at h ⊢
      have : c' ≠ c := by rintro rfl; rw [hc] at h; cases h
      rw [upd_other _ _ this]
      exact hi.shim c' o h
    · dsimp only at h ⊢
      by_cases e' : c' = c
      · subst e'
        rw [upd_same] at h
        injection h with h
        subst h
        exact ⟨⟨_, hc, by simp⟩, 1, upd_same _ _ _⟩
      · rw [upd_other _ _ e'] at h
        obtain ⟨h1, j, h2⟩ := hi.refs c' o h
        have : o ≠ s.np := by rintro rfl; rw [hn] at h2; cases h2
        exact ⟨h1, j, by rw [upd_other _ _ this]; exact h2⟩
    · dsimp only at h ⊢
      by_cases e' : o = s.np
      · subst e'
        rw [upd_same] at h
        injection h with h
        subst h
        exact ⟨rfl, .inl (upd_same _ _ _)⟩
      · rw [upd_other _ _ e'] at h
        obtain ⟨h1, h2⟩ := hi.objs o b h
        refine ⟨h1, ?_⟩
        rcases h2 with h2 | ⟨h2, h3⟩
        · left
          rw [upd_other]
          · exact h2
          · rintro e''
            rw [e'', hr] at h2
            cases h2
        · exact .inr ⟨h2, h3⟩
    · dsimp only at h ⊢
      have : c' ≠ c := by rintro rfl; rw [(hi.nc c' h).1] at hc; cases hc
      rw [upd_other _ _ this]
      exact hi.nc c' h
    · dsimp only at h ⊢
      rw [upd_other _ _ (by omega)]
      exact hi.np o (by omega)
    · dsimp only at h ⊢
      by_cases e' : o = s.np
      · subst e'
        rw [upd_same] at h
        injection h with h
        subst h
        by_contra hl
        rw [(hi.nc c (by simpa using hl)).1] at hc
        cases hc
      · rw [upd_other _ _ e'] at h
        exact hi.low o b h
  · exact ⟨_, e, held_inv hi ho (.inl hr)⟩

/-- The end of an object whose agent is gone. -/
theorem dead_inv {s : St} (hi : Inv s) {o : ℕ} {b : Obj} (ho : s.objs o = some b) (hr : s.refs b.cpp ≠ some o) :
    Inv { s with objs := upd s.objs o none } := by
  refine ⟨hi.shim, fun c o' h => ?_, fun o' b' h => ?_, hi.nc, fun o' h => ?_, fun o' b' h => ?_⟩
  · dsimp only at h ⊢
    obtain ⟨h1, j, h2⟩ := hi.refs c o' h
    have : o' ≠ o := by
      rintro rfl
      rw [ho] at h2
      injection h2 with h2
      subst h2
      exact hr h
    exact ⟨h1, j, by rw [upd_other _ _ this]; exact h2⟩
  · dsimp only at h ⊢
    by_cases e : o' = o
    · subst e; rw [upd_same] at h; cases h
    · rw [upd_other _ _ e] at h; exact hi.objs o' b' h
  · dsimp only at h ⊢
    by_cases e : o' = o
    · subst e; rw [upd_same]
    · rw [upd_other _ _ e]; exact hi.np o' h
  · dsimp only at h
    by_cases e : o' = o
    · subst e; rw [upd_same] at h; cases h
    · rw [upd_other _ _ e] at h; exact hi.low o' b' h

/-- The user forgets an object. -/
theorem release_eq {s : St} (hi : Inv s) (o : ℕ) :
    (step s (.release o) = some s) ∨ (∃ c h, s.objs o = some ⟨c, false, h + 1⟩ ∧ (s.refs c = some o ∨ 0 < h) ∧
        step s (.release o) = some { s with objs := upd s.objs o (some ⟨c, false, h⟩) }) ∨
      ∃ b, s.objs o = some b ∧ s.refs b.cpp ≠ some o ∧ step s (.release o) = some { s with objs := upd s.objs o none } := by
  cases ho : s.objs o with
  | none => exact .inl (by rw [step, ho])
  | some b =>
    obtain ⟨c, f, h⟩ := b
    obtain ⟨h1, -⟩ := hi.objs o _ ho
    dsimp only at h1
    subst h1
    cases h with
    | zero => exact .inl (by rw [step, ho]; rfl)
    | succ h =>
      have e : step s (.release o) = settle { s with objs := upd s.objs o (some ⟨c, false, h⟩) } o := by
        rw [step, ho]
        rfl
      by_cases hc : s.refs c = some o ∨ 0 < h
      · refine .inr (.inl ⟨c, h, rfl, hc, ?_⟩)
        rw [e, settle]
        simp only [upd_same]
        rw [if_neg]
        rintro ⟨a, b⟩
        rcases hc with hc | hc
        · exact b hc
        · omega
      · rw [not_or] at hc
        refine .inr (.inr ⟨_, rfl, hc.1, ?_⟩)
        rw [e, settle]
        simp only [upd_same]
        rw [if_pos ⟨by omega, hc.1⟩, dealloc]
        simp only [Bool.false_eq_true, if_false]
        congr 2
        funext x
        simp only [upd]
        split <;> rfl

theorem release_inv {s : St} (hi : Inv s) (o : ℕ) : ∃ s', step s (.release o) = some s' ∧ Inv s' := by
  rcases release_eq hi o with e | ⟨c, h, h1, h2, e⟩ | ⟨b, h1, h2, e⟩
  · exact ⟨s, e, hi⟩
  · exact ⟨_, e, held_inv hi h1 h2⟩
  · exact ⟨_, e, dead_inv hi h1 h2⟩

/-- The state after an agent was deleted: its object remains if the user has it. -/
def gone (s : St) (c : ℕ) : St :=
  { s with
    cpp := upd s.cpp c none
    refs := upd s.refs c none
    objs := fun o => (s.objs o).bind fun b => if s.refs c = some o ∧ b.held = 0 then none else some b }

theorem del_eq {s : St} (hi : Inv s) {c : ℕ} {x : Who} (hc : s.cpp c = some x) : step s (.del c) = some (gone s c) := by
  rw [step, hc]
  dsimp only
  cases hr : s.refs c with
  | none =>
    rw [delRef, hr, Option.bind_some, delete, hc]
    simp only [gone, hr, Option.some.injEq]
    congr 1
    · funext o
      cases s.objs o <;> simp
    · funext y
      simp only [upd]
      split
      · rename_i e; rw [e, hr]
      · rfl
  | some o =>
    obtain ⟨-, h, ho⟩ := hi.refs c o hr
    rw [delRef, hr]
    dsimp only
    rw [settle]
    dsimp only
    rw [ho]
    cases h with
    | zero =>
      dsimp only
      rw [if_pos ⟨rfl, by simp [upd_same]⟩, dealloc]
      simp only [Bool.false_eq_true, if_false, Option.bind_some, delete, hc]
      simp only [gone, hr, Option.some.injEq]
      congr 1
      funext o'
      by_cases e : o' = o
      · subst e; rw [upd_same, ho]; simp
      · rw [upd_other _ _ e]
        cases s.objs o' with
        | none => rfl
        | some b =>
          simp only [Option.bind_some]
          rw [if_neg]
          rintro ⟨h', -⟩
          exact e h'.symm
    | succ h =>
      dsimp only
      rw [if_neg (by simp)]
      simp only [Option.bind_some, delete, hc]
      simp only [gone, hr, Option.some.injEq]
      congr 1
      funext o'
      by_cases e : o' = o
      · subst e; rw [ho]; simp
      · cases s.objs o' with
        | none => rfl
        | some b =>
          simp only [Option.bind_some]
          rw [if_neg]
          rintro ⟨h', -⟩
          exact e h'.symm

theorem gone_inv {s : St} (hi : Inv s) (c : ℕ) : Inv (gone s c) := by
  have hobj : ∀ o b, (gone s c).objs o = some b ↔ s.objs o = some b ∧ ¬ (s.refs c = some o ∧ b.held = 0) := by
    intro o b
    simp only [gone]
    cases h : s.objs o with
    | none => simp
    | some b' =>
      simp only [Option.bind_some]
      split
      · rename_i hc
        refine ⟨fun h => (nomatch h), fun h => ?_⟩
        obtain ⟨h1, h2⟩ := h
        injection h1 with h1
        subst h1
        exact absurd hc h2
      · rename_i hc
        simp only [Option.some.injEq]
        constructor
        · rintro rfl; exact ⟨rfl, hc⟩
        · rintro ⟨h1, -⟩; exact h1
  refine ⟨fun c' o h => ?_, fun c' o h => ?_, fun o b h => ?_, fun c' h => ?_, fun o h => ?_, fun o b h => ?_⟩
  · by_cases e : c' = c
    · subst e; simp only [gone, upd_same] at h; cases h
    · simp only [gone, upd_other _ _ e] at h ⊢; exact hi.shim c' o h
  · by_cases e : c' = c
    · subst e; simp only [gone, upd_same] at h; cases h
    · simp only [gone, upd_other _ _ e] at h
      obtain ⟨h1, j, h2⟩ := hi.refs c' o h
      refine ⟨by simp only [gone, upd_other _ _ e]; exact h1, j, (hobj _ _).2 ⟨h2, ?_⟩⟩
      rintro ⟨h3, -⟩
      obtain ⟨-, j', h4⟩ := hi.refs c o h3
      rw [h2] at h4
      injection h4 with h4
      injection h4 with h4 _ _
      exact e h4
  · obtain ⟨h1, h2⟩ := (hobj o b).1 h
    obtain ⟨h3, h4⟩ := hi.objs o b h1
    refine ⟨h3, ?_⟩
    by_cases e : b.cpp = c
    · right
      simp only [gone, e, upd_same, and_true]
      rcases h4 with h4 | h4
      · rw [e] at h4
        by_contra hn
        exact h2 ⟨h4, by omega⟩
      · exact h4.1
    · simp only [gone, upd_other _ _ e]
      exact h4
  · have := hi.nc c' h
    by_cases e : c' = c
    · subst e; simp [gone, upd_same]
    · simp only [gone, upd_other _ _ e]; exact this
  · simp only [gone]
    rw [hi.np o h]
    rfl
  · exact hi.low o b ((hobj o b).1 h).1

theorem initFrom_eq {s : St} (hi : Inv s) (c : ℕ) : step s (.initFrom c) = some s := by
  rw [step]
  split
  · rename_i o hc
    have hr := hi.shim c o hc
    obtain ⟨-, h, ho⟩ := hi.refs c o hr
    rw [ho]
    dsimp only
    rw [hr]
    dsimp only
    have e : upd s.refs c (some o) = s.refs := by
      funext x
      simp only [upd]
      split
      · rename_i e; rw [e, hr]
      · rfl
    rw [e, settle]
    dsimp only
    rw [ho]
    dsimp only
    rw [if_neg (fun h => h.2 hr)]
  · rfl

theorem call_eq {s : St} (hi : Inv s) (c : ℕ) : step s (.call c) = some s := by
  rw [step]
  split
  · rename_i o hc
    obtain ⟨-, h, ho⟩ := hi.refs c o (hi.shim c o hc)
    rw [ho]
    rfl
  · rfl

theorem step_inv {s : St} (hi : Inv s) {o : Op} (hm : Managed o) : ∃ s', step s o = some s' ∧ Inv s' := by
  cases o with
  | cpp => exact ⟨_, rfl, cpp_inv hi⟩
  | user sub => exact absurd hm id
  | make sub => exact ⟨_, rfl, make_inv hi sub⟩
  | clone c sub =>
    cases hc : s.cpp c with
    | none => exact ⟨s, by rw [step, hc], hi⟩
    | some x =>
      cases x with
      | cpp => exact ⟨_, by rw [step, hc], cpp_inv hi⟩
      | orphan => exact ⟨s, by rw [step, hc], hi⟩
      | shim o =>
        obtain ⟨-, h, ho⟩ := hi.refs c o (hi.shim c o hc)
        exact ⟨_, by rw [step, hc]; dsimp only; rw [ho]; rfl, make_inv hi sub⟩
  | initFrom c => exact ⟨s, initFrom_eq hi c, hi⟩
  | wrap c => exact wrap_inv hi c
  | release o => exact release_inv hi o
  | use o => exact absurd hm id
  | call c => exact ⟨s, call_eq hi c, hi⟩
  | del c =>
    cases hc : s.cpp c with
    | none => exact ⟨s, by rw [step, hc], hi⟩
    | some x => exact ⟨_, del_eq hi hc, gone_inv hi c⟩
  | clear => exact absurd hm id

theorem exec_inv : ∀ {ops : List Op} {s : St}, Inv s → (∀ o ∈ ops, Managed o) → ∃ s', exec s ops = some s' ∧ Inv s'
  | [], s, hi, _ => ⟨s, rfl, hi⟩
  | o :: l, s, hi, h => by
    obtain ⟨s1, e1, h1⟩ := step_inv hi (h o (by simp))
    obtain ⟨s2, e2, h2⟩ := exec_inv (ops := l) h1 fun x hx => h x (by simp [hx])
    exact ⟨s2, by rw [exec, e1]; exact e2, h2⟩

/-- An entry of the cache stays until the agent is deleted. -/
theorem step_refs {s s' : St} (hi : Inv s) {o : Op} (hm : Managed o) {c k : ℕ} (hc : o ≠ .del c) (hr : s.refs c = some k)
    (e : step s o = some s') : s'.refs c = some k := by
  obtain ⟨⟨x, hx, -⟩, -⟩ := hi.refs c k hr
  have hlt : c < s.nc := by
    by_contra h
    rw [(hi.nc c (by omega)).1] at hx
    cases hx
  have hmake : ∀ sub, (make s sub).refs c = some k := fun sub => by
    have := own_ge s sub
    show upd _ _ _ c = _
    rw [upd_other _ _ (by omega), hr]
  cases o with
  | cpp => injection e with e; subst e; exact hr
  | user sub => exact absurd hm id
  | make sub => injection e with e; subst e; exact hmake sub
  | clone d sub =>
    cases hd : s.cpp d with
    | none => rw [step, hd] at e; injection e with e; subst e; exact hr
    | some x =>
      cases x with
      | cpp => rw [step, hd] at e; injection e with e; subst e; exact hr
      | orphan => rw [step, hd] at e; injection e with e; subst e; exact hr
      | shim o =>
        obtain ⟨-, h, ho⟩ := hi.refs d o (hi.shim d o hd)
        rw [step, hd] at e
        dsimp only at e
        rw [ho] at e
        injection e with e
        subst e
        exact hmake sub
  | initFrom d => rw [initFrom_eq hi] at e; injection e with e; subst e; exact hr
  | wrap d =>
    rcases wrap_eq hi d with ⟨-, e'⟩ | ⟨hd, hn, e'⟩ | ⟨o, h, h1, h2, e'⟩
    · rw [step, e'] at e; injection e with e; subst e; exact hr
    · rw [step, e'] at e
      injection e with e
      subst e
      dsimp only
      rw [upd_other]
      · exact hr
      · rintro rfl; rw [hr] at hn; cases hn
    · rw [step, e'] at e; injection e with e; subst e; exact hr
  | release o =>
    rcases release_eq hi o with e' | ⟨d, h, h1, h2, e'⟩ | ⟨b, h1, h2, e'⟩ <;>
      (rw [e'] at e; injection e with e; subst e; exact hr)
  | use o => exact absurd hm id
  | call d => rw [call_eq hi] at e; injection e with e; subst e; exact hr
  | del d =>
    have hne : c ≠ d := fun h => hc (by rw [h])
    cases hd : s.cpp d with
    | none => rw [step, hd] at e; injection e with e; subst e; exact hr
    | some x =>
      rw [del_eq hi hd] at e
      injection e with e
      subst e
      simp only [gone, upd_other _ _ hne]
      exact hr
  | clear => exact absurd hm id

theorem exec_refs : ∀ {ops : List Op} {s s' : St}, Inv s → (∀ o ∈ ops, Managed o) → ∀ {c k : ℕ}, Op.del c ∉ ops → s.refs c = some k →
    exec s ops = some s' → s'.refs c = some k
  | [], s, s', _, _, c, k, _, hr, e => by
    injection e with e
    subst e
    exact hr
  | o :: l, s, s', hi, h, c, k, hc, hr, e => by
    obtain ⟨s1, e1, h1⟩ := step_inv hi (h o (by simp))
    rw [exec, e1] at e
    exact exec_refs h1 (fun x hx => h x (by simp [hx])) (fun hx => hc (by simp [hx]))
      (step_refs hi (h o (by simp)) (fun he => hc (by simp [he])) hr e1) e

end Cyclus.PyLife
