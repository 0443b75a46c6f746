import Verif.Model.Fleet
import Verif.Props.Timer
import Verif.Props.Agent

/-!
# Lemmas for C26
-/

namespace Cyclus.Timing

open Spec

variable {σ : Type}

/-- Induction over a run. -/
theorem Adv.induct {W : World σ} {P : Sim σ → Prop}
    (hfire : ∀ s e, P s → isCall e = true → time e = s.t.time → P (s.fire W e)) {s s' : Sim σ}
    {evs : List Ev} (h : Adv W s s' evs) (h0 : P s) : P s' := by
  induction h with
  | nil => exact h0
  | snoc _ hc ht ih => exact hfire _ _ ih hc ht

theorem Run.induct {W : World σ} {P : Sim σ → Prop} {w : σ} {fuel : ℕ} {t0 dur : ℤ}
    {setup : List Op} {s' : Sim σ} (h : Run W w fuel t0 dur setup s')
    (h0 : P (start W w t0 dur setup))
    (hfire : ∀ s e, P s → isCall e = true → time e = s.t.time → P (s.fire W e))
    (hsnap : ∀ s, P s → P { s with t := { s.t with wantSnapshot := false } })
    (htime : ∀ s, P s → P { s with t := { s.t with time := s.t.time + 1 } })
    (hfin : ∀ s, P s → P { s with
      trace := s.trace ++ [.finish s.t.time s.t.wantKill (s.t.time - 1)] }) : P s' := by
  have hphases : ∀ s s', P s → phases W fuel s = some s' → P s' := by
    intro s s' hs hp
    unfold phases at hp
    have p0 : P (doSnapshot W s) := by
      unfold doSnapshot
      split_ifs
      · exact hfire _ _ (hsnap _ hs) rfl rfl
      · exact hs
    have p1 : P (doBuild W (doSnapshot W s)) :=
      Adv.induct hfire (fold_adv W (fun t (x : String × Option ℕ) => .build t x.1 x.2)
        (fun _ _ => rfl) (fun _ _ => rfl) _ _) p0
    cases h1 : doListeners W .tick fuel (doBuild W (doSnapshot W s)) with
    | none => rw [h1] at hp; cases hp
    | some s1 =>
      simp only [h1] at hp
      obtain ⟨_, ad, _⟩ := doListeners_adv (fun _ _ => rfl) (fun _ _ => rfl) h1
      have p2 := Adv.induct hfire ad p1
      have p3 : P (doResEx W s1) := hfire _ _ (hfire _ _ p2 rfl rfl) rfl rfl
      cases h2 : doListeners W .tock fuel (doResEx W s1) with
      | none => simp only [h2] at hp; cases hp
      | some s2 =>
        simp only [h2] at hp
        obtain ⟨_, ad, _⟩ := doListeners_adv (fun _ _ => rfl) (fun _ _ => rfl) h2
        have p4 := Adv.induct hfire ad p3
        cases h3 : doDecision W fuel s2 with
        | none => simp only [h3] at hp; cases hp
        | some s3 =>
          simp only [h3, Option.some.injEq] at hp
          obtain ⟨_, ad, _⟩ := doDecision_adv h3
          have p5 := Adv.induct hfire ad p4
          have p6 : P (doDecom W s3) :=
            Adv.induct hfire (fold_adv W (fun t (x : ℕ) => .decom t x)
              (fun _ _ => rfl) (fun _ _ => rfl) _ _) p5
          rw [← hp]
          exact hfire _ _ p6 rfl rfl
  have hloop : ∀ n s s', P s → runLoop W fuel n s = some s' → P s' := by
    intro n
    induction n with
    | zero => intro s s' hs hl; simp only [runLoop, Option.some.injEq] at hl; rwa [← hl]
    | succ n ih =>
      intro s s' hs hl
      simp only [runLoop, step] at hl
      cases hp : phases W fuel s with
      | none => rw [hp] at hl; cases hl
      | some s1 =>
        rw [hp] at hl
        simp only [Option.map_some] at hl
        have p1 := htime _ (hphases _ _ hs hp)
        split_ifs at hl
        · simp only [Option.some.injEq] at hl; rwa [← hl]
        · exact ih _ _ p1 hl
  unfold Run runSim at h
  cases hl : runLoop W fuel ((start W w t0 dur setup).t.dur - (start W w t0 dur setup).t.time).toNat
      (start W w t0 dur setup) with
  | none => rw [hl] at h; cases h
  | some s =>
    rw [hl] at h
    simp only [Option.map_some, Option.some.injEq] at h
    rw [← h]
    exact hfire _ _ (hfin _ (hloop _ _ _ h0 hl)) rfl rfl

/-- What a call of the timer adds to the trace. -/
theorem fire_trace (W : World σ) (s : Sim σ) (e : Ev) :
    (s.fire W e).trace = s.trace ++ e :: (W.act s.w s.t e).2.map (fun o => .op s.t.time o (accepts s.t.time o)) ∧
    (s.fire W e).w = (W.act s.w s.t e).1 ∧ (s.fire W e).t.time = s.t.time := by
  have key : ∀ (ops : List Op) (s : Sim σ), (ops.foldl (Sim.call W) s).trace =
      s.trace ++ ops.map (fun o => .op s.t.time o (accepts s.t.time o)) ∧
      (ops.foldl (Sim.call W) s).w = s.w ∧ (ops.foldl (Sim.call W) s).t.time = s.t.time := by
    intro ops
    induction ops with
    | nil => intro s; simp
    | cons o ops ih =>
      intro s
      obtain ⟨h1, _, ok, h3, h4⟩ := call_fair W s o
      obtain ⟨i1, i2, i3⟩ := ih (s.call W o)
      rw [List.foldl_cons, i1, i2, i3, h3, h1, h4]
      refine ⟨by simp, rfl, rfl⟩
  obtain ⟨h1, h2, h3⟩ := key (W.act s.w s.t e).2
    { s with w := (W.act s.w s.t e).1, trace := s.trace ++ [e] }
  refine ⟨?_, h2, h3⟩
  unfold Sim.fire
  rw [h1]; simp

end Cyclus.Timing

namespace Cyclus.Agents

open Timing (World Timer Ev Sim)

/-- The context and what it has recorded, at time `now`. -/
structure CtxOk (c : Ctx) (now : ℤ) : Prop where
  inv : Inv c
  row : ∀ {a A}, c.mem a = some A → ∃ pid, .entry a A.kind A.spec A.proto pid A.lifetime A.enter ∈ c.rows
  live : ∀ {a k s p pid n e}, .entry a k s p pid n e ∈ c.rows →
    (∃ A, c.mem a = some A ∧ A.kind = k ∧ A.lifetime = n ∧ A.enter = e ∧
      ∀ i : ℕ, pid = (i : ℤ) → (∃ I, c.mem i = some I) → A.parent = some i) ∨ ∃ t, .exit a t ∈ c.rows
  dead : ∀ {a A}, c.mem a = some A → ∀ t, .exit a t ∉ c.rows
  lt : ∀ {a k s p} {pid : ℤ} {n e}, .entry a k s p pid n e ∈ c.rows → a < c.nextId ∧ pid < c.nextId ∧ e ≤ now
  exitLt : ∀ {a t}, .exit a t ∈ c.rows → a < c.nextId
  exitOnce : ∀ {a t t'}, .exit a t ∈ c.rows → .exit a t' ∈ c.rows → t = t'
  once : ∀ {a k s p pid n e k' s' p' pid' n' e'}, .entry a k s p pid n e ∈ c.rows →
    .entry a k' s' p' pid' n' e' ∈ c.rows → k = k' ∧ pid = pid' ∧ n = n' ∧ e = e'

theorem CtxOk.setTime {c : Ctx} {now t : ℤ} (h : CtxOk c now) (ht : now ≤ t) (h0 : 0 ≤ t) :
    CtxOk { c with time := t } t :=
  ⟨⟨h.inv.cons.congr rfl rfl, h0, h.inv.ids, h.inv.fresh⟩, h.row, h.live, h.dead,
    fun hm => by have := h.lt hm; exact ⟨this.1, this.2.1, by omega⟩, h.exitLt, h.exitOnce, h.once⟩

theorem CtxOk.later {c : Ctx} {now t : ℤ} (h : CtxOk c now) (ht : now ≤ t) : CtxOk c t :=
  ⟨h.inv, h.row, h.live, h.dead,
    fun hm => by have := h.lt hm; exact ⟨this.1, this.2.1, by omega⟩, h.exitLt, h.exitOnce, h.once⟩

/-- The facts about `enter`. -/
theorem enter_spec {c c' : Ctx} {now : ℤ} (h : CtxOk c now) (hnow : c.time = now) {proto : String}
    {p : String × Kind × ℤ} {parent : Option ℕ} (he : enter c proto p parent = some c')
    (hpar : ∀ q, parent = some q → ∃ Q, c.mem q = some Q) :
    CtxOk c' now ∧ c'.nextId = c.nextId + 1 ∧
      ∃ pid, c'.rows = c.rows ++ [.entry c.nextId p.2.1 p.1 proto pid p.2.2 now] := by
  have hi := h.inv.create proto p.1 p.2.1 p.2.2
  have hn : c.mem c.nextId = none := by
    cases hm : c.mem c.nextId with
    | none => rfl
    | some A => exact absurd (h.inv.ids hm) (lt_irrefl _)
  set c1 := create c proto p.1 p.2.1 p.2.2 with hc1
  have ha : c1.mem c.nextId = some ⟨proto, p.1, p.2.1, p.2.2, -1, none, -1, []⟩ := by
    simp [hc1, create, Ctx.put]
  have hold : ∀ x, x ≠ c.nextId → c1.mem x = c.mem x := by
    intro x hx; simp [hc1, create, Ctx.put, Function.update_of_ne hx]
  have hp1 : ∀ q, parent = some q → ∃ Q, c1.mem q = some Q := by
    intro q hq
    obtain ⟨Q, hQ⟩ := hpar q hq
    refine ⟨Q, ?_⟩
    rw [hold q, hQ]
    rintro rfl; rw [hn] at hQ; cases hQ
  have hne : parent ≠ some c.nextId := by
    intro hq
    obtain ⟨Q, hQ⟩ := hpar _ hq
    rw [hn] at hQ; cases hQ
  unfold enter at he
  rw [build_spec hi ha hp1 hne] at he
  simp only [Option.some.injEq] at he
  set A : Agent := ⟨proto, p.1, p.2.1, p.2.2, -1, none, -1, []⟩ with hA
  obtain ⟨f1, f2, f3, f4, f5⟩ := enterNotify_frame ((connected c1 c.nextId A parent).put c.nextId
    (built c1 A parent)) c.nextId (built c1 A parent)
  have hrows : c'.rows = c.rows ++ [.entry c.nextId p.2.1 p.1 proto (built c1 A parent).parentId
      p.2.2 now] := by
    rw [← he, ← hnow]; rfl
  have hnext : c'.nextId = c.nextId + 1 := by
    rw [← he]
    simp only [f4]
    cases parent with
    | none => rfl
    | some q => obtain ⟨Q, hQ⟩ := hp1 q rfl; simp [connected, hQ, Ctx.put]; rfl
  have hcm : c'.mem = ((connected c1 c.nextId A parent).put c.nextId (built c1 A parent)).mem := by
    rw [← he]; exact f1
  have hmem : ∀ {x X}, c'.mem x = some X → (x = c.nextId ∧ X = built c1 A parent) ∨
      x ≠ c.nextId ∧ ∃ X0, c.mem x = some X0 ∧ X.kind = X0.kind ∧ X.spec = X0.spec ∧
        X.proto = X0.proto ∧ X.lifetime = X0.lifetime ∧ X.enter = X0.enter ∧
        X.parent = X0.parent := by
    intro x X hx
    rw [hcm] at hx
    rcases connected_mem ha hp1 hne hx with h1 | ⟨h1, X0, h2, rfl⟩
    · exact Or.inl h1
    · rw [hold x h1] at h2
      exact Or.inr ⟨h1, X0, h2, rfl, rfl, rfl, rfl, rfl, rfl⟩
  have hmemS : c'.mem c.nextId = some (built c1 A parent) := by
    rw [hcm]; simp [Ctx.put]
  have hmemO : ∀ {x X0}, c.mem x = some X0 → ∃ X, c'.mem x = some X := by
    intro x X0 hx
    have hxn : x ≠ c.nextId := by rintro rfl; rw [hn] at hx; cases hx
    rw [hcm]
    simp only [Ctx.put, Function.update_of_ne hxn]
    cases parent with
    | none => exact ⟨X0, by simp [connected, hold x hxn, hx]⟩
    | some q =>
      obtain ⟨Q, hQ⟩ := hp1 q rfl
      simp only [connected, hQ, Ctx.put]
      by_cases hxq : x = q
      · rw [hxq]; simp
      · exact ⟨X0, by rw [Function.update_of_ne hxq, Function.update_of_ne hxn, hold x hxn, hx]⟩
  have hb : (built c1 A parent).kind = p.2.1 ∧ (built c1 A parent).spec = p.1 ∧
      (built c1 A parent).proto = proto ∧ (built c1 A parent).lifetime = p.2.2 ∧
      (built c1 A parent).enter = now ∧
      (∀ i : ℕ, (built c1 A parent).parentId = (i : ℤ) → (built c1 A parent).parent = some i) ∧
      (built c1 A parent).parentId < c.nextId := by
    have htime : c1.time = now := hnow
    cases parent with
    | none =>
      refine ⟨rfl, rfl, rfl, rfl, htime, ?_, ?_⟩
      · intro i hi; simp [built, hA] at hi
      · have : (built c1 A none).parentId = -1 := rfl
        omega
    | some q =>
      obtain ⟨Q, hQ⟩ := hpar q rfl
      have := h.inv.ids hQ
      refine ⟨rfl, rfl, rfl, rfl, htime, ?_, ?_⟩
      · intro i hi; simp [built] at hi; simp [built, hi]
      · have h2 : (built c1 A (some q)).parentId = q := rfl
        omega
  refine ⟨⟨?_, ?_, ?_, ?_, ?_, ?_, ?_, ?_⟩, hnext, _, hrows⟩
  · rw [← he]
    exact (hi.connectedPut ha rfl hp1 hne).congr f1 f2 f3 f4
  · intro x X hx
    rw [hrows]
    rcases hmem hx with ⟨rfl, rfl⟩ | ⟨_, X0, hX0, q1, q2, q3, q4, q5, q6⟩
    · refine ⟨(built c1 A parent).parentId, List.mem_append_right _ ?_⟩
      rw [hb.1, hb.2.1, hb.2.2.1, hb.2.2.2.1, hb.2.2.2.2.1]; exact List.mem_singleton.2 rfl
    · obtain ⟨pid, hr⟩ := h.row hX0
      exact ⟨pid, List.mem_append_left _ (by rw [q1, q2, q3, q4, q5]; exact hr)⟩
  · intro a k s pr pid n e hm
    rw [hrows] at hm
    rcases List.mem_append.1 hm with hm | hm
    · rcases h.live hm with ⟨X0, r1, r2, r3, r4, r5⟩ | ⟨t, ht⟩
      · left
        obtain ⟨X, hX⟩ := hmemO r1
        rcases hmem hX with ⟨rfl, _⟩ | ⟨_, X0', hX0', q1, q2, q3, q4, q5, q6⟩
        · rw [hn] at r1; cases r1
        · rw [r1] at hX0'; cases hX0'
          refine ⟨X, hX, q1.trans r2, q4.trans r3, q5.trans r4, ?_⟩
          intro i hpi hii
          rw [q6]
          apply r5 i hpi
          obtain ⟨I, hI⟩ := hii
          rcases hmem hI with ⟨rfl, _⟩ | ⟨_, I0, hI0, _⟩
          · have := (h.lt hm).2.1; omega
          · exact ⟨I0, hI0⟩
      · right; exact ⟨t, by rw [hrows]; exact List.mem_append_left _ ht⟩
    · left
      rw [List.mem_singleton] at hm
      cases hm
      exact ⟨_, hmemS, hb.1, hb.2.2.2.1, hb.2.2.2.2.1, fun i hpi _ => hb.2.2.2.2.2.1 i hpi⟩
  · intro x X hx t hm
    rw [hrows] at hm
    rcases List.mem_append.1 hm with hm | hm
    · rcases hmem hx with ⟨rfl, _⟩ | ⟨_, X0, hX0, _⟩
      · have := h.exitLt hm; omega
      · exact h.dead hX0 t hm
    · rw [List.mem_singleton] at hm; cases hm
  · intro a k s pr pid n e hm
    rw [hrows] at hm
    rw [hnext]
    rcases List.mem_append.1 hm with hm | hm
    · have := h.lt hm
      exact ⟨by omega, by omega, this.2.2⟩
    · rw [List.mem_singleton] at hm
      cases hm
      have := hb.2.2.2.2.2.2
      exact ⟨by omega, by omega, le_refl _⟩
  · intro a t hm
    rw [hrows] at hm
    rw [hnext]
    rcases List.mem_append.1 hm with hm | hm
    · have := h.exitLt hm; omega
    · rw [List.mem_singleton] at hm; cases hm
  · intro a t t' hm hm'
    rw [hrows] at hm hm'
    simp only [List.mem_append, List.mem_singleton, reduceCtorEq, or_false] at hm hm'
    exact h.exitOnce hm hm'
  · intro a k s pr pid n e k' s' pr' pid' n' e' hm hm'
    rw [hrows] at hm hm'
    rcases List.mem_append.1 hm with hm | hm <;> rcases List.mem_append.1 hm' with hm' | hm'
    · exact h.once hm hm'
    · rw [List.mem_singleton] at hm'; cases hm'
      have := (h.lt hm).1; omega
    · rw [List.mem_singleton] at hm; cases hm
      have := (h.lt hm').1; omega
    · rw [List.mem_singleton] at hm hm'
      cases hm; cases hm'; exact ⟨rfl, rfl, rfl, rfl⟩

theorem enter_parent {c c' : Ctx} {proto : String} {p : String × Kind × ℤ}
    {parent : Option ℕ} (he : enter c proto p parent = some c') :
    ∀ q, parent = some q → ∃ Q, c.mem q = some Q := by
  rintro q rfl
  unfold enter build connect at he
  have ha : (create c proto p.1 p.2.1 p.2.2).mem c.nextId =
      some ⟨proto, p.1, p.2.1, p.2.2, -1, none, -1, []⟩ := by simp [create, Ctx.put]
  simp only [ha] at he
  by_cases hq : q = c.nextId
  · simp [hq] at he
  · rw [if_neg (by simpa using hq)] at he
    have : (create c proto p.1 p.2.1 p.2.2).mem q = c.mem q := by
      simp [create, Ctx.put, Function.update_of_ne hq]
    rw [this] at he
    cases hQ : c.mem q with
    | none => simp [hQ] at he
    | some Q => exact ⟨Q, rfl⟩

theorem leave_spec {c c' : Ctx} {now : ℤ} (h : CtxOk c now) (hnow : c.time = now) {a : ℕ}
    {cond : Bool} (he : decommission c a cond = some (c', .ok ())) :
    CtxOk c' now ∧ c'.nextId = c.nextId ∧ c'.rows = c.rows ++ [.exit a now] ∧
      ∃ A, c.mem a = some A := by
  cases ha : c.mem a with
  | none => simp [decommission, ha] at he
  | some A =>
    by_cases hc : A.kind = .facility ∧ cond = false
    · simp [decommission, ha, hc] at he
    · rw [decommission_spec h.inv.cons ha hc] at he
      simp only [Option.some.injEq, Prod.mk.injEq, and_true] at he
      have hrows : c'.rows = c.rows ++ [.exit a now] := by rw [← he, ← hnow]
      have hmem : ∀ {x X}, c'.mem x = some X → x ≠ a ∧ ∃ X0, c.mem x = some X0 ∧ X = cut a X0 := by
        intro x X hx
        rw [← he] at hx
        simp only at hx
        split_ifs at hx with h1
        cases hX : c.mem x with
        | none => rw [hX] at hx; cases hx
        | some X0 =>
          rw [hX] at hx
          simp only [Option.map_some, Option.some.injEq] at hx
          exact ⟨h1, X0, rfl, hx.symm⟩
      refine ⟨⟨?_, ?_, ?_, ?_, ?_, ?_, ?_, ?_⟩, by rw [← he], hrows, A, rfl⟩
      · rw [← he]; exact (h.inv.delete a).congr rfl rfl rfl rfl
      · intro x X hx
        obtain ⟨_, X0, hX0, rfl⟩ := hmem hx
        obtain ⟨pid, hr⟩ := h.row hX0
        exact ⟨pid, by rw [hrows]; exact List.mem_append_left _ hr⟩
      · intro x k s pr pid n e hm
        rw [hrows] at hm
        simp only [List.mem_append, List.mem_singleton, reduceCtorEq, or_false] at hm
        rcases h.live hm with ⟨X0, r1, r2, r3, r4, r5⟩ | ⟨t, ht⟩
        · by_cases hx : x = a
          · right; exact ⟨now, by rw [hrows, hx]; exact List.mem_append_right _ (List.mem_singleton.2 rfl)⟩
          · left
            refine ⟨cut a X0, by rw [← he]; simp [hx, r1], r2, r3, r4, ?_⟩
            intro i hpi hii
            obtain ⟨I, hI⟩ := hii
            obtain ⟨hia, I0, hI0, _⟩ := hmem hI
            have := r5 i hpi ⟨I0, hI0⟩
            simp only [cut]
            rw [if_neg]
            · exact this
            · rw [this]; simpa using hia
        · right; exact ⟨t, by rw [hrows]; exact List.mem_append_left _ ht⟩
      · intro x X hx t hm
        obtain ⟨hxa, X0, hX0, rfl⟩ := hmem hx
        rw [hrows] at hm
        rcases List.mem_append.1 hm with hm | hm
        · exact h.dead hX0 t hm
        · rw [List.mem_singleton] at hm; cases hm; exact hxa rfl
      · intro x k s pr pid n e hm
        rw [hrows] at hm
        simp only [List.mem_append, List.mem_singleton, reduceCtorEq, or_false] at hm
        rw [show c'.nextId = c.nextId by rw [← he]]
        exact h.lt hm
      · intro x t hm
        rw [show c'.nextId = c.nextId by rw [← he]]
        rw [hrows] at hm
        rcases List.mem_append.1 hm with hm | hm
        · exact h.exitLt hm
        · rw [List.mem_singleton] at hm; cases hm; exact h.inv.ids ha
      · intro x t t' hm hm'
        rw [hrows] at hm hm'
        rcases List.mem_append.1 hm with hm | hm <;> rcases List.mem_append.1 hm' with hm' | hm'
        · exact h.exitOnce hm hm'
        · rw [List.mem_singleton] at hm'; cases hm'; exact absurd hm (h.dead ha t)
        · rw [List.mem_singleton] at hm; cases hm; exact absurd hm' (h.dead ha t')
        · rw [List.mem_singleton] at hm hm'; cases hm; cases hm'; rfl
      · intro x k s pr pid n e k' s' pr' pid' n' e' hm hm'
        rw [hrows] at hm hm'
        simp only [List.mem_append, List.mem_singleton, reduceCtorEq, or_false] at hm hm'
        exact h.once hm hm'

theorem initial_ok {t0 : ℤ} (h0 : 0 ≤ t0) {l : List (String × (String × Kind × ℤ) × Option ℕ)}
    {c : Ctx} (h : initial t0 l = some c) : CtxOk c t0 ∧ c.time = t0 ∧ ∀ a t, .exit a t ∉ c.rows := by
  unfold initial at h
  have key : ∀ (l : List (String × (String × Kind × ℤ) × Option ℕ)) (c0 c : Ctx), CtxOk c0 t0 →
      c0.time = t0 → (∀ a t, .exit a t ∉ c0.rows) →
      l.foldl (fun oc x => oc.bind fun c => enter c x.1 x.2.1 x.2.2) (some c0) = some c →
      CtxOk c t0 ∧ c.time = t0 ∧ ∀ a t, .exit a t ∉ c.rows := by
    intro l
    induction l with
    | nil => intro c0 c h1 h2 h3 h; simp only [List.foldl_nil, Option.some.injEq] at h; subst h; exact ⟨h1, h2, h3⟩
    | cons x l ih =>
      intro c0 c h1 h2 h3 h
      simp only [List.foldl_cons, Option.bind_some] at h
      cases he : enter c0 x.1 x.2.1 x.2.2 with
      | none =>
        rw [he] at h
        have : ∀ l : List (String × (String × Kind × ℤ) × Option ℕ),
            l.foldl (fun oc x => oc.bind fun c => enter c x.1 x.2.1 x.2.2) (none : Option Ctx) = none := by
          intro l
          induction l with
          | nil => rfl
          | cons y l ih => simpa using ih
        rw [this] at h; cases h
      | some c1 =>
        rw [he] at h
        obtain ⟨k1, k2, pid, k3⟩ := enter_spec h1 h2 he (enter_parent he)
        have kt : c1.time = t0 := by
          unfold enter at he
          cases hb : build (create c0 x.1 x.2.1.1 x.2.1.2.1 x.2.1.2.2) c0.nextId x.2.2 with
          | none => rw [hb] at he; cases he
          | some r =>
            obtain ⟨c2, r⟩ := r
            rw [hb] at he
            cases r with
            | error e => cases he
            | ok u =>
              simp only [Option.some.injEq] at he
              subst he
              have hi := h1.inv.create x.1 x.2.1.1 x.2.1.2.1 x.2.1.2.2
              have ha : (create c0 x.1 x.2.1.1 x.2.1.2.1 x.2.1.2.2).mem c0.nextId =
                  some ⟨x.1, x.2.1.1, x.2.1.2.1, x.2.1.2.2, -1, none, -1, []⟩ := by
                simp [create, Ctx.put]
              unfold build connect enterSim at hb
              simp only [ha] at hb
              split_ifs at hb with hpn
              · cases hb
              · cases hpar : x.2.2 with
                | none =>
                  simp only [hpar, ha, Option.some.injEq, Prod.mk.injEq] at hb
                  rw [← hb.1]
                  simp only [(enterNotify_frame _ _ _).2.2.1]
                  exact h2
                | some q =>
                  simp only [hpar] at hb
                  cases hq : (create c0 x.1 x.2.1.1 x.2.1.2.1 x.2.1.2.2).mem q with
                  | none => simp only [hq] at hb; cases hb
                  | some Q =>
                    simp only [hq] at hb
                    split at hb
                    · cases hb
                    · simp only [Option.some.injEq, Prod.mk.injEq] at hb
                      rw [← hb.1]
                      simp only [(enterNotify_frame _ _ _).2.2.1]
                      exact h2
        refine ih c1 c k1 kt ?_ h
        intro a t hm
        rw [k3] at hm
        simp only [List.mem_append, List.mem_singleton, reduceCtorEq, or_false] at hm
        exact h3 a t hm
  refine key l (Ctx.empty t0) c ?_ rfl (by simp [Ctx.empty]) h
  refine ⟨Inv.empty h0, ?_, ?_, ?_, ?_, ?_, ?_, ?_⟩ <;> simp [Ctx.empty]

end Cyclus.Agents
