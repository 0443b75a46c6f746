import Verif.Lemmas.Fleet

/-!
# C26: lifetimes in a simulation
-/

namespace Cyclus.Agents

open Timing (World Timer Ev Sim Run)
open Timing.Spec (isCall time phase calls accepts)

variable {τ : Type}

/-- Nobody but institutions schedules decommissionings. -/
def NoDecom (ops : List Timing.Op) : Prop := ∀ m t, Timing.Op.schedDecom m t ∉ ops

/-- The relation between trace and context. -/
structure Linked (F : Fleet τ) (s : Sim (Option Ctx × τ)) (c : Ctx) : Prop where
  ok : CtxOk c s.t.time
  nonneg : 0 ≤ s.t.time
  le : ∀ e ∈ s.trace, time e ≤ s.t.time
  exits : ∀ k t, Row.exit k t ∈ c.rows ↔ Ev.decom t k ∈ s.trace
  ops : ∀ {now k t b}, Ev.op now (.schedDecom k t) b ∈ s.trace → t = -1 ∧
    ∃ kd sp pr pid n e, Row.entry k kd sp pr pid n e ∈ c.rows ∧ n ≠ -1 ∧ e + n - 1 ≤ now ∧ e ≤ now
  tockLt : ∀ {t i}, Ev.tock t i ∈ s.trace → i < c.nextId
  tock : (∀ x k, F.cond x k = true) → ∀ {T : ℤ} {i k : ℕ} {sp' pr' pid' n' e' kd sp pr n e},
    Ev.tock T i ∈ s.trace → Row.entry i .inst sp' pr' pid' n' e' ∈ c.rows →
    Row.entry k kd sp pr i n e ∈ c.rows → n ≠ -1 → e ≤ T → e + n - 1 ≤ T →
    (∀ t, Row.exit k t ∈ c.rows → T ≤ t) → Ev.op T (.schedDecom k (-1)) true ∈ s.trace
  sane : s.trace.Pairwise fun e f => ∀ now m t b, f = Ev.op now (.schedDecom m t) b →
    ¬ (isCall e = true ∧ time e = now ∧ 8 ≤ phase e)

/-- How a call of the timer keeps the relation. -/
theorem Linked.next {F : Fleet τ} {s s' : Sim (Option Ctx × τ)} {c c' : Ctx} (h : Linked F s c)
    {e : Ev} {ops : List Timing.Op} (hc : isCall e = true) (ht : time e = s.t.time)
    (hord : ∀ a ∈ calls s.trace, Timing.Before a e)
    (htr : s'.trace = s.trace ++ e :: ops.map fun o => .op s.t.time o (accepts s.t.time o))
    (htm : s'.t.time = s.t.time) (hok : CtxOk c' s.t.time) (hn : c.nextId ≤ c'.nextId)
    (hent : ∀ {k kd sp pr pid n e}, Row.entry k kd sp pr pid n e ∈ c.rows →
      Row.entry k kd sp pr pid n e ∈ c'.rows)
    (hent' : ∀ {k kd sp pr pid n en}, Row.entry k kd sp pr pid n en ∈ c'.rows →
      Row.entry k kd sp pr pid n en ∈ c.rows ∨ phase e = 2 ∧ en = s.t.time ∧ c.nextId ≤ k)
    (hexit : ∀ k t, Row.exit k t ∈ c'.rows ↔ Row.exit k t ∈ c.rows ∨ e = .decom t k)
    (hdec : ∀ {k t}, Timing.Op.schedDecom k t ∈ ops → t = -1 ∧ phase e = 6 ∧
      ∃ kd sp pr pid n en, Row.entry k kd sp pr pid n en ∈ c.rows ∧ n ≠ -1 ∧
        en + n - 1 ≤ s.t.time ∧ en ≤ s.t.time)
    (htock : ∀ {t i}, e = .tock t i → i < c.nextId ∧ ((∀ x k, F.cond x k = true) →
      ∀ {k : ℕ} {sp' pr' pid' n' e' kd sp pr n en}, Row.entry i .inst sp' pr' pid' n' e' ∈ c.rows →
        Row.entry k kd sp pr i n en ∈ c.rows → n ≠ -1 → en ≤ s.t.time → en + n - 1 ≤ s.t.time →
        (∀ t, Row.exit k t ∈ c.rows → s.t.time ≤ t) → .schedDecom k (-1) ∈ ops)) :
    Linked F s' c' := by
  have hnew : ∀ {f}, f ∈ s'.trace → f ∈ s.trace ∨ f = e ∨
      ∃ o ∈ ops, f = .op s.t.time o (accepts s.t.time o) := by
    intro f hf
    rw [htr] at hf
    simp only [List.mem_append, List.mem_cons, List.mem_map] at hf
    rcases hf with hf | hf | ⟨o, ho, hf⟩
    · exact Or.inl hf
    · exact Or.inr (Or.inl hf)
    · exact Or.inr (Or.inr ⟨o, ho, hf.symm⟩)
  have hold : ∀ {f}, f ∈ s.trace → f ∈ s'.trace := by
    intro f hf; rw [htr]; exact List.mem_append_left _ hf
  have he : e ∈ s'.trace := by rw [htr]; simp
  refine ⟨by rw [htm]; exact hok, by rw [htm]; exact h.nonneg, ?_, ?_, ?_, ?_, ?_, ?_⟩
  · intro f hf
    rw [htm]
    rcases hnew hf with hf | rfl | ⟨o, _, rfl⟩
    · exact h.le f hf
    · exact le_of_eq ht
    · exact le_refl _
  · intro k t
    rw [hexit, h.exits]
    constructor
    · rintro (hm | rfl)
      · exact hold hm
      · exact he
    · intro hm
      rcases hnew hm with hm | hm | ⟨o, _, hm⟩
      · exact Or.inl hm
      · exact Or.inr hm.symm
      · cases hm
  · intro now k t b hm
    rcases hnew hm with hm | hm | ⟨o, ho, hm⟩
    · obtain ⟨h1, kd, sp, pr, pid, n, en, h2, h3⟩ := h.ops hm
      exact ⟨h1, kd, sp, pr, pid, n, en, hent h2, h3⟩
    · rw [← hm] at hc; simp [isCall] at hc
    · cases hm
      obtain ⟨h1, _, kd, sp, pr, pid, n, en, h2, h3⟩ := hdec ho
      exact ⟨h1, kd, sp, pr, pid, n, en, hent h2, h3⟩
  · intro t i hm
    rcases hnew hm with hm | hm | ⟨o, _, hm⟩
    · have := h.tockLt hm; omega
    · have := (htock hm.symm).1; omega
    · cases hm
  · intro hcond T i k sp' pr' pid' n' e' kd sp pr n en hm hi hk hn1 h1 h2 h3
    rcases hnew hm with hm | hm | ⟨o, _, hm⟩
    · have hT := h.le _ hm
      simp only [time] at hT
      rcases hent' hi with hi | ⟨_, _, hlt⟩
      · rcases hent' hk with hk | ⟨hp, hen, _⟩
        · exact hold (h.tock hcond hm hi hk hn1 h1 h2 fun t ht => h3 t ((hexit k t).2 (Or.inl ht)))
        · have := hord _ (Timing.mem_calls.2 ⟨hm, rfl⟩)
          unfold Timing.Before at this
          rw [ht, hp] at this
          simp only [time, phase] at this
          omega
      · have := h.tockLt hm; omega
    · obtain ⟨q1, q2⟩ := htock hm.symm
      have hTt : T = s.t.time := by rw [← hm] at ht; exact ht
      subst hTt
      have hph : phase e = 6 := by rw [← hm]; rfl
      rcases hent' hi with hi | ⟨hp, _⟩
      · rcases hent' hk with hk | ⟨hp, _⟩
        · have := q2 hcond hi hk hn1 h1 h2 fun t ht => h3 t ((hexit k t).2 (Or.inl ht))
          rw [htr]
          simp only [List.mem_append, List.mem_cons, List.mem_map]
          exact Or.inr (Or.inr ⟨_, this, rfl⟩)
        · omega
      · omega
    · cases hm
  · rw [htr, List.pairwise_append]
    refine ⟨h.sane, ?_, ?_⟩
    · rw [List.pairwise_cons]
      constructor
      · intro f hf now m t b hfe
        obtain ⟨o, ho, rfl⟩ := List.mem_map.1 hf
        cases hfe
        have := (hdec ho).2.1
        omega
      · rw [List.pairwise_iff_forall_sublist]
        intro a b hab now m t bb _ h1
        have ha := hab.subset (List.mem_cons_self)
        obtain ⟨o, _, rfl⟩ := List.mem_map.1 ha
        simp [isCall] at h1
    · intro a ha f hf now m t b hfe h1
      rcases List.mem_cons.1 hf with rfl | hf
      · rw [hfe] at hc; simp [isCall] at hc
      · obtain ⟨o, ho, rfl⟩ := List.mem_map.1 hf
        cases hfe
        have hp := (hdec ho).2.1
        have := hord a (Timing.mem_calls.2 ⟨ha, h1.1⟩)
        unfold Timing.Before at this
        omega

theorem Linked.fire {F : Fleet τ} (hF : ∀ x c t e, NoDecom (F.extra x c t e).2)
    {s : Sim (Option Ctx × τ)} {c : Ctx} (hw : s.w.1 = some c) (h : Linked F s c) {e : Ev}
    (hc : isCall e = true) (ht : time e = s.t.time) (hord : ∀ a ∈ calls s.trace, Timing.Before a e)
    {c' : Ctx} (hw' : (s.fire F.world e).w.1 = some c') : Linked F (s.fire F.world e) c' := by
  obtain ⟨htr, hww, htm⟩ := Timing.fire_trace F.world s e
  rw [hww] at hw'
  simp only [Fleet.world] at htr hw'
  have hset := h.ok.setTime (le_refl _) h.nonneg
  -- an event that does nothing
  have plain : F.act s.w s.t e = ((some { c with time := s.t.time }, (F.extra s.w.2 { c with time := s.t.time } s.t e).1), (F.extra s.w.2 { c with time := s.t.time } s.t e).2) →
      (∀ t i, e ≠ .tock t i) → (∀ t a, e ≠ .decom t a) → Linked F (s.fire F.world e) c' := by
    intro hact h1 h2
    rw [hact] at hw' htr
    simp only [Option.some.injEq] at hw'
    subst hw'
    refine h.next hc ht hord htr htm hset (le_refl _) (fun h => h) (fun h => Or.inl h) ?_ ?_ ?_
    · intro k t
      constructor
      · exact Or.inl
      · rintro (h' | h')
        · exact h'
        · exact absurd h' (h2 t k)
    · intro k t hm; exact absurd hm (hF _ _ _ _ k t)
    · intro t i he; exact absurd he (h1 t i)
  cases e with
  | build t proto parent =>
    simp only [Fleet.act, hw] at hw' htr
    cases hp : F.protos proto with
    | none => simp only [hp] at hw'; cases hw'
    | some p =>
      simp only [hp] at hw' htr
      cases hen : enter { c with time := s.t.time } proto p parent with
      | none => simp only [hen] at hw'; cases hw'
      | some c1 =>
        simp only [hen, Option.some.injEq] at hw' htr
        subst hw'
        obtain ⟨k1, k2, pid, k3⟩ := enter_spec hset rfl hen (enter_parent hen)
        refine h.next hc ht hord htr htm k1 (by rw [k2]; exact Nat.le_succ _) ?_ ?_ ?_ ?_ ?_
        · intro k kd sp pr pid n e hm; rw [k3]; exact List.mem_append_left _ hm
        · intro k kd sp pr pid n e hm
          rw [k3] at hm
          rcases List.mem_append.1 hm with hm | hm
          · exact Or.inl hm
          · rw [List.mem_singleton] at hm
            cases hm
            exact Or.inr ⟨rfl, rfl, le_refl _⟩
        · intro k t'
          rw [k3]
          simp
        · intro k t' hm
          rcases List.mem_append.1 hm with hm | hm
          · unfold listen at hm; split_ifs at hm <;> simp at hm
          · exact absurd hm (hF _ _ _ _ k t')
        · intro t' i he; cases he
  | tock t i =>
    have hti : t = s.t.time := ht
    subst hti
    simp only [Fleet.act, hw] at hw' htr
    cases hI : c.mem i with
    | none => simp only [hI] at hw'; cases hw'
    | some I =>
      simp only [hI] at hw' htr
      have hlt := h.ok.inv.ids hI
      have hexit : ∀ k t', Row.exit k t' ∈ c.rows ↔ Row.exit k t' ∈ c.rows ∨
          Ev.tock s.t.time i = .decom t' k := by
        intro k t'; simp
      have hkind : ∀ {sp pr pid n e}, Row.entry i .inst sp pr pid n e ∈ c.rows → I.kind = .inst := by
        intro sp pr pid n e hm
        rcases h.ok.live hm with ⟨I', q1, q2, _⟩ | ⟨t', q⟩
        · rw [hI] at q1; cases q1; exact q2
        · exact absurd q (h.ok.dead hI t')
      by_cases hk : I.kind = .inst
      · simp only [if_pos hk] at hw' htr
        cases hl : instTock { c with time := s.t.time } (F.cond s.w.2) i with
        | none => simp only [hl] at hw'; cases hw'
        | some l =>
          simp only [hl, Option.some.injEq] at hw' htr
          subst hw'
          unfold instTock at hl
          simp only [hI] at hl
          split_ifs at hl with hall
          simp only [Option.some.injEq] at hl
          refine h.next hc rfl hord htr htm hset (le_refl _) (fun h => h) (fun h => Or.inl h) hexit
            ?_ ?_
          · intro k t' hm
            rcases List.mem_append.1 hm with hm | hm
            · obtain ⟨k', hk', he⟩ := List.mem_map.1 hm
              cases he
              rw [← hl, List.mem_filter] at hk'
              obtain ⟨hk1, hk2⟩ := hk'
              cases hK : c.mem k with
              | none => simp [hK] at hk2
              | some K =>
                simp only [hK, decide_eq_true_eq] at hk2
                obtain ⟨pid, hr⟩ := h.ok.row hK
                have hle := (h.ok.lt hr).2.2
                refine ⟨rfl, rfl, _, _, _, _, _, _, hr, hk2.1, ?_, hle⟩
                have := hk2.2.1
                unfold Agent.exitTime at this
                rw [if_neg hk2.1] at this
                omega
            · exact absurd hm (hF _ _ _ _ k t')
          · intro t' i' he
            cases he
            refine ⟨hlt, ?_⟩
            intro hcond k sp' pr' pid' n' e' kd sp pr n en hi hkr hn h1 h2 h3
            apply List.mem_append_left
            refine List.mem_map.2 ⟨k, ?_, rfl⟩
            rcases h.ok.live hkr with ⟨K, q1, q2, q3, q4, q5⟩ | ⟨t', q⟩
            · have hpar := q5 i rfl ⟨I, hI⟩
              obtain ⟨I', r1, r2⟩ := h.ok.inv.cons.parent q1 hpar
              rw [hI] at r1; cases r1
              rw [← hl, List.mem_filter]
              refine ⟨r2, ?_⟩
              simp only [q1, decide_eq_true_eq]
              refine ⟨by rw [q3]; exact hn, ?_, Or.inr (hcond _ _)⟩
              unfold Agent.exitTime
              rw [q3, q4, if_neg hn]; omega
            · -- decommissioned earlier in this step: impossible
              have hd := (h.exits k t').1 q
              have hle := h.le _ hd
              have := h3 t' q
              have hb := hord _ (Timing.mem_calls.2 ⟨hd, rfl⟩)
              unfold Timing.Before at hb
              simp only [time, phase] at hb hle
              omega
      · simp only [if_neg hk, Option.some.injEq] at hw' htr
        subst hw'
        refine h.next hc rfl hord htr htm hset (le_refl _) (fun h => h) (fun h => Or.inl h) hexit
          ?_ ?_
        · intro k t' hm; exact absurd hm (hF _ _ _ _ k t')
        · intro t' i' he
          cases he
          refine ⟨hlt, ?_⟩
          intro _ k sp' pr' pid' n' e' kd sp pr n en hi
          exact absurd (hkind hi) hk
  | decom t a =>
    have hta : t = s.t.time := ht
    subst hta
    simp only [Fleet.act, hw] at hw' htr
    cases hA : c.mem a with
    | none => simp only [hA] at hw'; cases hw'
    | some A =>
      simp only [hA] at hw' htr
      cases hd : decommission { c with time := s.t.time } a (F.cond s.w.2 a) with
      | none => simp only [hd] at hw'; cases hw'
      | some r =>
        obtain ⟨c1, r⟩ := r
        cases r with
        | error e => simp only [hd] at hw'; cases hw'
        | ok u =>
          simp only [hd, Option.some.injEq] at hw' htr
          subst hw'
          obtain ⟨k1, k2, k3, _⟩ := leave_spec hset rfl hd
          refine h.next hc rfl hord htr htm k1 (le_of_eq k2.symm) ?_ ?_ ?_ ?_ ?_
          · intro k kd sp pr pid n e hm; rw [k3]; exact List.mem_append_left _ hm
          · intro k kd sp pr pid n e hm
            rw [k3] at hm
            simp only [List.mem_append, List.mem_singleton, reduceCtorEq, or_false] at hm
            exact Or.inl hm
          · intro k t'
            rw [k3, List.mem_append, List.mem_singleton]
            constructor
            · rintro (hm | hm)
              · exact Or.inl hm
              · cases hm; exact Or.inr rfl
            · rintro (hm | hm)
              · exact Or.inl hm
              · cases hm; exact Or.inr rfl
          · intro k t' hm
            rcases List.mem_append.1 hm with hm | hm
            · unfold unlisten at hm; split_ifs at hm <;> simp at hm
            · exact absurd hm (hF _ _ _ _ k t')
          · intro t' i he; cases he
  | snap t => exact plain (by simp only [Fleet.act, hw]) (by simp) (by simp)
  | tick t a => exact plain (by simp only [Fleet.act, hw]) (by simp) (by simp)
  | matl t => exact plain (by simp only [Fleet.act, hw]) (by simp) (by simp)
  | prod t => exact plain (by simp only [Fleet.act, hw]) (by simp) (by simp)
  | decision t a => exact plain (by simp only [Fleet.act, hw]) (by simp) (by simp)
  | loop t => exact plain (by simp only [Fleet.act, hw]) (by simp) (by simp)
  | op t o b => simp [isCall] at hc
  | finish t b e => exact plain (by simp only [Fleet.act, hw]) (by simp) (by simp)

/-- A simulation with agents that ends without error. -/
structure Simulation (F : Fleet τ) (x : τ) (fuel : ℕ) (t0 dur : ℤ)
    (l : List (String × (String × Kind × ℤ) × Option ℕ)) (setup : List Timing.Op)
    (s' : Sim (Option Ctx × τ)) (c : Ctx) : Prop where
  start : 0 ≤ t0
  run : ∃ c0, initial t0 l = some c0 ∧ Run F.world (some c0, x) fuel t0 dur setup s'
  final : s'.w.1 = some c
  setup : NoDecom setup
  extra : ∀ x c t e, NoDecom (F.extra x c t e).2

theorem Simulation.linked {F : Fleet τ} {x : τ} {fuel : ℕ} {t0 dur : ℤ}
    {l : List (String × (String × Kind × ℤ) × Option ℕ)} {setup : List Timing.Op}
    {s' : Sim (Option Ctx × τ)} {c : Ctx} (h : Simulation F x fuel t0 dur l setup s' c) :
    Linked F s' c := by
  obtain ⟨c0, hc0, hrun⟩ := h.run
  obtain ⟨i1, i2, i3⟩ := initial_ok h.start hc0
  have key := hrun.induct (P := fun s => (calls s.trace).Pairwise Timing.Before →
    ∀ c, s.w.1 = some c → Linked F s c) ?_ ?_ ?_ ?_ ?_
  · exact key hrun.whole.ord c h.final
  · intro _ c hc
    have hst : ∀ (ops : List Timing.Op) (s : Sim (Option Ctx × τ)),
        (ops.foldl (Sim.call F.world) s).trace =
          s.trace ++ ops.map (fun o => .op s.t.time o (accepts s.t.time o)) ∧
        (ops.foldl (Sim.call F.world) s).w = s.w ∧
        (ops.foldl (Sim.call F.world) s).t.time = s.t.time := by
      intro ops
      induction ops with
      | nil => intro s; simp
      | cons o ops ih =>
        intro s
        obtain ⟨h1, _, ok, h3, h4⟩ := Timing.call_fair F.world s o
        obtain ⟨j1, j2, j3⟩ := ih (s.call F.world o)
        rw [List.foldl_cons, j1, j2, j3, h3, h1, h4]
        refine ⟨by simp, rfl, rfl⟩
    obtain ⟨s1, s2, s3⟩ := hst setup
      ⟨⟨t0, dur, false, false, [], [], [], fun _ => [], []⟩, (some c0, x), []⟩
    change (Timing.start F.world (some c0, x) t0 dur setup).trace = _ at s1
    change (Timing.start F.world (some c0, x) t0 dur setup).w = _ at s2
    change (Timing.start F.world (some c0, x) t0 dur setup).t.time = _ at s3
    rw [s2] at hc
    simp only [Option.some.injEq] at hc
    subst hc
    simp only [List.nil_append] at s1
    have hmem : ∀ {f}, f ∈ (Timing.start F.world (some c0, x) t0 dur setup).trace →
        ∃ o ∈ setup, f = .op t0 o (accepts t0 o) := by
      intro f hf
      rw [s1] at hf
      obtain ⟨o, ho, rfl⟩ := List.mem_map.1 hf
      exact ⟨o, ho, rfl⟩
    refine ⟨by rw [s3]; exact i1, by rw [s3]; exact h.start, ?_, ?_, ?_, ?_, ?_, ?_⟩
    · intro f hf
      obtain ⟨o, _, rfl⟩ := hmem hf
      rw [s3]; exact le_refl _
    · intro k t
      constructor
      · intro hm; exact absurd hm (i3 k t)
      · intro hm; obtain ⟨o, _, he⟩ := hmem hm; cases he
    · intro now k t b hm
      obtain ⟨o, ho, he⟩ := hmem hm
      cases he
      exact absurd ho (h.setup k t)
    · intro t i hm; obtain ⟨o, _, he⟩ := hmem hm; cases he
    · intro _ T i k sp' pr' pid' n' e' kd sp pr n e hm
      obtain ⟨o, _, he⟩ := hmem hm; cases he
    · rw [List.pairwise_iff_forall_sublist]
      intro a b hab now m t bb hb _
      obtain ⟨o, ho, he⟩ := hmem (hab.subset (by simp : b ∈ [a, b]))
      rw [hb] at he
      cases he
      exact absurd ho (h.setup m t)
  · intro s e ih hc ht hord c' hw'
    obtain ⟨htr, hww, htm⟩ := Timing.fire_trace F.world s e
    rw [htr, Timing.calls_append, List.pairwise_append] at hord
    obtain ⟨o1, _, o3⟩ := hord
    cases hw : s.w.1 with
    | none =>
      rw [hww] at hw'
      simp only [Fleet.world, Fleet.act, hw] at hw'
      cases hw'
    | some c =>
      refine Linked.fire h.extra hw (ih o1 c hw) hc ht (fun a ha => o3 a ha e ?_) hw'
      exact Timing.mem_calls.2 ⟨List.mem_cons_self, hc⟩
  · intro s ih hord c hw
    obtain ⟨a1, a2, a3, a4, a5, a6, a7, a8⟩ := ih hord c hw
    exact ⟨a1, a2, a3, a4, a5, a6, a7, a8⟩
  · intro s ih hord c hw
    obtain ⟨a1, a2, a3, a4, a5, a6, a7, a8⟩ := ih hord c hw
    exact ⟨a1.later (by simp), by simp; omega, fun e he => by have := a3 e he; simp; omega, a4, a5, a6,
      a7, a8⟩
  · intro s ih hord c hw
    have hord' : (calls s.trace).Pairwise Timing.Before := by
      simp only [Timing.calls_append, List.pairwise_append] at hord
      exact hord.1
    obtain ⟨a1, a2, a3, a4, a5, a6, a7, a8⟩ := ih hord' c hw
    have hmem : ∀ {f}, f ∈ s.trace ++ [Ev.finish s.t.time s.t.wantKill (s.t.time - 1)] → f ∈ s.trace ∨
        f = Ev.finish s.t.time s.t.wantKill (s.t.time - 1) := by
      intro f hf; simpa using hf
    refine ⟨a1, a2, ?_, ?_, ?_, ?_, ?_, ?_⟩
    · intro f hf
      rcases hmem hf with hf | rfl
      · exact a3 f hf
      · exact le_refl _
    · intro k t
      rw [a4]; simp
    · intro now k t b hm
      rcases hmem hm with hm | hm
      · exact a5 hm
      · cases hm
    · intro t i hm
      rcases hmem hm with hm | hm
      · exact a6 hm
      · cases hm
    · intro hcond T i k sp' pr' pid' n' e' kd sp pr n e hm q1 q2 q3 q4 q5 q6
      rcases hmem hm with hm | hm
      · exact List.mem_append_left _ (a7 hcond hm q1 q2 q3 q4 q5 q6)
      · cases hm
    · rw [List.pairwise_append]
      refine ⟨a8, by simp, ?_⟩
      intro a _ b hb now m t bb hbe
      rw [List.mem_singleton] at hb
      rw [hb] at hbe; cases hbe

theorem mem_decomsAt {tr : List Ev} {t : ℤ} {k : ℕ} :
    k ∈ Timing.Spec.decomsAt tr t ↔ Ev.decom t k ∈ tr := by
  simp only [Timing.Spec.decomsAt, List.mem_filterMap]
  constructor
  · rintro ⟨e, he, h⟩
    cases e <;> simp at h
    obtain ⟨rfl, rfl⟩ := h
    exact he
  · intro h; exact ⟨_, h, by simp⟩

/-- Who is on the agenda was put there. -/
theorem agenda_op {tr : List Ev} {k : ℕ} {t : ℤ} (h : (k, t) ∈ Timing.Spec.agenda tr) :
    ∃ now t', Ev.op now (.schedDecom k t') true ∈ tr ∧ t = if t' = -1 then now else t' := by
  induction tr using List.reverseRecOn with
  | nil => simp [Timing.Spec.agenda] at h
  | append_singleton tr e ih =>
    rw [Timing.agenda_snoc] at h
    unfold Timing.Spec.agendaStep at h
    split at h
    · rename_i now m t'
      rcases List.mem_append.1 h with h | h
      · obtain ⟨n, t'', h1, h2⟩ := ih (List.mem_filter.1 h).1
        exact ⟨n, t'', List.mem_append_left _ h1, h2⟩
      · rw [List.mem_singleton] at h
        cases h
        exact ⟨now, t', List.mem_append_right _ (List.mem_singleton.2 rfl), rfl⟩
    · obtain ⟨n, t'', h1, h2⟩ := ih h
      exact ⟨n, t'', List.mem_append_left _ h1, h2⟩

/-- A request for the present step stays on the agenda during the step. -/
theorem op_agenda {tr : List Ev} {k : ℕ} {T : ℤ} (hle : ∀ e ∈ tr, time e ≤ T)
    (hmono : tr.Pairwise fun a b => time a ≤ time b)
    (hnow : ∀ now m t b, Ev.op now (.schedDecom m t) b ∈ tr → t = -1)
    (h : Ev.op T (.schedDecom k (-1)) true ∈ tr) : (k, T) ∈ Timing.Spec.agenda tr := by
  induction tr using List.reverseRecOn with
  | nil => cases h
  | append_singleton tr e ih =>
    rw [Timing.agenda_snoc]
    rw [List.pairwise_append] at hmono
    obtain ⟨m1, _, m3⟩ := hmono
    have hih : Ev.op T (.schedDecom k (-1)) true ∈ tr → (k, T) ∈ Timing.Spec.agenda tr := fun h =>
      ih (fun e he => hle e (List.mem_append_left _ he)) m1
        (fun now m t b hm => hnow now m t b (List.mem_append_left _ hm)) h
    have hlast := hle e (by simp)
    rcases List.mem_append.1 h with h | h
    · have h1 := hih h
      have h2 := m3 _ h e (by simp)
      unfold Timing.Spec.agendaStep
      split
      · rename_i now m t' _
        have h3 := hnow now m t' true (by simp)
        simp only [time] at h2 hlast
        by_cases hm : k = m
        · subst hm
          apply List.mem_append_right
          rw [List.mem_singleton, h3, if_pos rfl]
          congr 1; omega
        · apply List.mem_append_left
          rw [List.mem_filter]
          exact ⟨h1, by simpa using hm⟩
      · exact h1
    · rw [List.mem_singleton] at h
      subst h
      simp [Timing.Spec.agendaStep]

section
variable {F : Fleet τ} {x : τ} {fuel : ℕ} {t0 dur : ℤ}
  {l : List (String × (String × Kind × ℤ) × Option ℕ)} {setup : List Timing.Op}
  {s' : Sim (Option Ctx × τ)} {c : Ctx}

/-- **C26**, not earlier: in a simulation in which only institutions retire agents, an agent that
entered at `e` with lifetime `n` leaves only if `n` is not -1, and at the end of step `e + n - 1` or
later. -/
theorem C26_not_before (h : Simulation F x fuel t0 dur l setup s' c) {k : ℕ} {kd : Kind}
    {sp pr : String} {pid n e t : ℤ} (hk : Row.entry k kd sp pr pid n e ∈ c.rows)
    (hx : Row.exit k t ∈ c.rows) : n ≠ -1 ∧ e ≤ t ∧ e + n - 1 ≤ t := by
  have hL := h.linked
  obtain ⟨c0, _, hrun⟩ := h.run
  have hd := (hL.exits k t).1 hx
  rw [← mem_decomsAt] at hd
  obtain ⟨d1, d2⟩ := Timing.C23_decoms hrun t
  by_cases hr : t0 ≤ t ∧ t < s'.t.time
  · obtain ⟨pre, ev, post, e1, _, _, _, _, e6, _⟩ := d1 hr.1 hr.2
    rw [e6, Timing.mem_pending] at hd
    obtain ⟨now, t', h1, h2⟩ := agenda_op hd
    have hm : Ev.op now (.schedDecom k t') true ∈ s'.trace := by
      rw [e1]; exact List.mem_append_left _ h1
    obtain ⟨h3, kd', sp', pr', pid', n', e', h4, h5, h6, h7⟩ := hL.ops hm
    rw [h3, if_pos rfl] at h2
    subst h2
    obtain ⟨_, _, rfl, rfl⟩ := hL.ok.once hk h4
    exact ⟨h5, h7, h6⟩
  · rw [d2 hr] at hd; cases hd

/-- **C26**, exactly then: if moreover its parent is an institution that receives the Tock of step
`e + n - 1` (of step `e` if `n` is less than 1) and nothing ever forbids decommissioning, the agent
leaves at the end of that step, and at no other time. -/
theorem C26_exit (h : Simulation F x fuel t0 dur l setup s' c)
    (hcond : ∀ x k, F.cond x k = true) {i k : ℕ} {kd : Kind} {sp pr sp' pr' : String}
    {pid' n' e' n e T : ℤ} (hi : Row.entry i .inst sp' pr' pid' n' e' ∈ c.rows)
    (hk : Row.entry k kd sp pr i n e ∈ c.rows) (hn : n ≠ -1) (hT : T = max e (e + n - 1))
    (htock : Ev.tock T i ∈ s'.trace) :
    Row.exit k T ∈ c.rows ∧ ∀ t, Row.exit k t ∈ c.rows → t = T := by
  have hL := h.linked
  obtain ⟨c0, _, hrun⟩ := h.run
  have hw := hrun.whole
  have hop := hL.tock hcond htock hi hk hn (by omega) (by omega) (fun t ht => by
    have := C26_not_before h hk ht; omega)
  have hc : Ev.tock T i ∈ calls s'.trace := Timing.mem_calls.2 ⟨htock, rfl⟩
  have h0 : t0 ≤ T := hw.ge _ hc
  have h1 : T < s'.t.time := by
    have := hw.le _ htock
    have h2 := hw.last _ hc
    simp only [time, phase] at this h2
    omega
  obtain ⟨pre, ev, post, e1, e2, e3, e4, e5, e6, _⟩ := (Timing.C23_decoms hrun T).1 h0 h1
  have hpre : Ev.op T (.schedDecom k (-1)) true ∈ pre := by
    rw [e1] at hop
    rcases List.mem_append.1 hop with hop | hop
    · exact hop
    · rcases List.mem_cons.1 hop with hop | hop
      · rw [← hop] at e2; simp [isCall] at e2
      · have hs := hL.sane
        rw [e1, List.pairwise_append, List.pairwise_cons] at hs
        exact absurd ⟨e2, e3, e4⟩ (hs.2.1.1 _ hop _ _ _ _ rfl)
  have hmono := hw.mono
  rw [e1, List.pairwise_append] at hmono
  have hag := op_agenda (tr := pre) (k := k) (T := T)
    (fun f hf => by
      have := hmono.2.2 f hf ev List.mem_cons_self
      omega) hmono.1
    (fun now m t b hm => (hL.ops (by rw [e1]; exact List.mem_append_left _ hm)).1) hpre
  have hd : Ev.decom T k ∈ s'.trace := by
    rw [← mem_decomsAt, e6, Timing.mem_pending]; exact hag
  have hx := (hL.exits k T).2 hd
  exact ⟨hx, fun t ht => hL.ok.exitOnce ht hx⟩

/-- **C26**, infinite lifetime: an agent with lifetime -1 is never retired. -/
theorem C26_forever (h : Simulation F x fuel t0 dur l setup s' c) {k : ℕ} {kd : Kind}
    {sp pr : String} {pid e t : ℤ} (hk : Row.entry k kd sp pr pid (-1) e ∈ c.rows) :
    Row.exit k t ∉ c.rows := fun hx => (C26_not_before h hk hx).1 rfl

end

/-! ## Example -/

/-- Prototypes: a region, an institution, facilities that live for two steps. -/
def demo : Fleet Unit where
  protos := fun p => if p = "fac" then some ("spec:fac", .facility, 2) else none
  cond := fun _ _ => true
  extra := fun _ _ _ _ => ((), [])
  shim := fun _ => false

-- C26_not_before, C26_exit: a facility built at time 1 lives through steps 1 and 2
example : ∃ s' c, Simulation demo () 10 0 5
    [("reg", ("s", .region, -1), none), ("inst", ("s", .inst, -1), some 0)]
    [.register 0, .register 1, .schedBuild "fac" (some 1) 1] s' c ∧
    Row.entry 1 .inst "s" "inst" 0 (-1) 0 ∈ c.rows ∧
    Row.entry 2 .facility "spec:fac" "fac" 1 2 1 ∈ c.rows ∧ (2 : ℤ) = max 1 (1 + 2 - 1) ∧
    Ev.tock 2 1 ∈ s'.trace ∧ Row.exit 2 2 ∈ c.rows := by
  have key : ((initial 0 [("reg", ("s", .region, -1), none), ("inst", ("s", .inst, -1), some 0)]).bind
      fun c0 => Timing.runSim demo.world 10 (Timing.start demo.world (some c0, ()) 0 5
        [.register 0, .register 1, .schedBuild "fac" (some 1) 1])).bind (fun s' => s'.w.1.map fun c =>
        decide (Row.entry 1 .inst "s" "inst" 0 (-1) 0 ∈ c.rows ∧
          Row.entry 2 .facility "spec:fac" "fac" 1 2 1 ∈ c.rows ∧ Ev.tock 2 1 ∈ s'.trace ∧
          Row.exit 2 2 ∈ c.rows)) = some true := by decide +kernel
  rw [Option.bind_eq_some_iff] at key
  obtain ⟨s', hs, key⟩ := key
  rw [Option.bind_eq_some_iff] at hs
  obtain ⟨c0, h0, hr⟩ := hs
  rw [Option.map_eq_some_iff] at key
  obtain ⟨c, hc, key⟩ := key
  simp only [decide_eq_true_eq] at key
  refine ⟨s', c, ⟨le_refl _, ⟨c0, h0, hr⟩, hc, ?_, ?_⟩, key.1, key.2.1, by decide, key.2.2.1,
    key.2.2.2⟩
  · intro m t; simp
  · intro x c t e m t'; simp [demo]

/-- Facilities with lifetime 0. -/
def demo0 : Fleet Unit where
  protos := fun p => if p = "fac" then some ("spec:fac", .facility, 0) else none
  cond := fun _ _ => true
  extra := fun _ _ _ _ => ((), [])
  shim := fun _ => false

/-- **C26** fails for lifetime 0: a facility that enters at time 1 with lifetime 0 has exit time 0 but
lives through step 1 like one with lifetime 1. -/
theorem C26_fails_zero : ∃ s' c, Simulation demo0 () 10 0 5
    [("reg", ("s", .region, -1), none), ("inst", ("s", .inst, -1), some 0)]
    [.register 0, .register 1, .schedBuild "fac" (some 1) 1] s' c ∧
    Row.entry 2 .facility "spec:fac" "fac" 1 0 1 ∈ c.rows ∧ Ev.tick 1 2 ∈ s'.trace ∧
    Row.exit 2 1 ∈ c.rows ∧ Row.exit 2 0 ∉ c.rows := by
  have key : ((initial 0 [("reg", ("s", .region, -1), none), ("inst", ("s", .inst, -1), some 0)]).bind
      fun c0 => Timing.runSim demo0.world 10 (Timing.start demo0.world (some c0, ()) 0 5
        [.register 0, .register 1, .schedBuild "fac" (some 1) 1])).bind (fun s' => s'.w.1.map fun c =>
        decide (Row.entry 2 .facility "spec:fac" "fac" 1 0 1 ∈ c.rows ∧ Ev.tick 1 2 ∈ s'.trace ∧
          Row.exit 2 1 ∈ c.rows ∧ Row.exit 2 0 ∉ c.rows)) = some true := by decide +kernel
  rw [Option.bind_eq_some_iff] at key
  obtain ⟨s', hs, key⟩ := key
  rw [Option.bind_eq_some_iff] at hs
  obtain ⟨c0, h0, hr⟩ := hs
  rw [Option.map_eq_some_iff] at key
  obtain ⟨c, hc, key⟩ := key
  simp only [decide_eq_true_eq] at key
  refine ⟨s', c, ⟨le_refl _, ⟨c0, h0, hr⟩, hc, ?_, ?_⟩, key⟩
  · intro m t; simp
  · intro x c t e m t'; simp [demo0]

end Cyclus.Agents
