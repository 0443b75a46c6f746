import Verif.Lemmas.Timer

/-!
# C22, C23, C24, C65, C66: the timer
-/

namespace Cyclus.Timing

open Spec

variable {σ : Type}

/-- A complete run: set up at time `t0`, then `RunSim`, ending with state `s'`. -/
def Run (W : World σ) (w : σ) (fuel : ℕ) (t0 dur : ℤ) (setup : List Op) (s' : Sim σ) : Prop :=
  runSim W fuel (start W w t0 dur setup) = some s'

/-- The relation of a complete run to its steps. -/
theorem Run.parts {W : World σ} {w : σ} {fuel : ℕ} {t0 dur : ℤ} {setup : List Op} {s' : Sim σ}
    (h : Run W w fuel t0 dur setup s') : ∃ s tail, Good W t0 s ∧ s'.t.time = s.t.time ∧
      s'.trace = s.trace ++ .finish s.t.time s.t.wantKill (s.t.time - 1) :: .snap s.t.time :: tail ∧
      calls tail = [] ∧ Fair s.t.time tail ∧
      s.t.time ≤ max t0 dur ∧
      (s.t.time = max t0 dur ∨ t0 < s.t.time ∧ s.t.wantKill = true) ∧
      (∀ now ok, Ev.op now .kill ok ∈ s.trace → now = s.t.time ∨ now + 1 = s.t.time) := by
  unfold Run runSim at h
  obtain ⟨g0, h1, h2⟩ := Good.start W w t0 dur setup
  cases hl : runLoop W fuel ((start W w t0 dur setup).t.dur - (start W w t0 dur setup).t.time).toNat
      (start W w t0 dur setup) with
  | none => rw [hl] at h; cases h
  | some s =>
    rw [hl] at h
    simp only [Option.map_some, Option.some.injEq] at h
    obtain ⟨j1, j2, j3, j4, j5, j6, j7, j8⟩ := Good.loop g0 hl
    rw [h1, h2] at j4 j5 j8
    rw [h1] at j3
    obtain ⟨tail, e1, e2, e3, e4⟩ := finish_res j1
    refine ⟨s, tail, j1, by rw [← h, e4], by rw [← h, e1], e2, e3, ?_, ?_, ?_⟩
    · omega
    · rcases j5 with j5 | j5
      · left; omega
      · right; exact j5
    · intro now ok hm
      rcases j7 now ok hm with hm' | hm'
      · have ht := g0.timesLe _ hm'
        have hge : t0 ≤ now := by
          obtain ⟨_, _, _, _, seg, q5, _, q7⟩ := calls_fold W setup
            (⟨⟨t0, dur, false, false, [], [], [], fun _ => [], []⟩, w, []⟩ : Sim σ)
          have : Ev.op now .kill ok ∈ seg := by
            have : (start W w t0 dur setup).trace = seg := by rw [start, q5]; simp
            rwa [this] at hm'
          exact ge_of_eq (q7.1 _ this)
        rw [h1] at ht
        simp only [time] at ht
        by_cases hd : dur ≤ t0
        · left; omega
        · right
          have := j8 (by omega) ⟨now, ok, hm'⟩
          omega
      · exact Or.inr hm'

theorem Run.steps {W : World σ} {w : σ} {fuel : ℕ} {t0 dur : ℤ} {setup : List Op} {s' : Sim σ}
    (h : Run W w fuel t0 dur setup s') {T : ℤ} (h0 : t0 ≤ T) (h1 : T < s'.t.time) :
    ∃ pre A B C post ticks tocks decs, StepAt W T s'.trace pre A B C post ticks tocks decs := by
  obtain ⟨s, tail, g, e1, e2, e3, e4, _⟩ := h.parts
  obtain ⟨pre, A, B, C, post, l1, l2, l3, hst⟩ := g.steps T h0 (by omega)
  refine ⟨pre, A, B, C, post ++ (.finish s.t.time s.t.wantKill (s.t.time - 1) ::
    .snap s.t.time :: tail), l1, l2, l3, ?_⟩
  rw [e2]
  apply hst.extend
  intro e he
  simp only [List.mem_cons] at he
  rcases he with rfl | rfl | he
  · simp only [time]; omega
  · simp only [time]; omega
  · have := e4.1 e he; omega

/-- Facts about the whole trace. -/
structure Whole (t0 E : ℤ) (tr : List Ev) : Prop where
  acc : ∀ now o ok, Ev.op now o ok ∈ tr → ok = accepts now o
  mono : tr.Pairwise fun a b => time a ≤ time b
  ge : ∀ e ∈ calls tr, t0 ≤ time e
  le : ∀ e ∈ tr, time e ≤ E
  last : ∀ e ∈ calls tr, time e = E → phase e ≤ 1
  ord : (calls tr).Pairwise Before

theorem Run.whole {W : World σ} {w : σ} {fuel : ℕ} {t0 dur : ℤ} {setup : List Op} {s' : Sim σ}
    (h : Run W w fuel t0 dur setup s') : Whole t0 s'.t.time s'.trace := by
  obtain ⟨s, tail, g, e1, e2, e3, e4, _⟩ := h.parts
  rw [e1, e2]
  have hc : calls (Ev.finish s.t.time s.t.wantKill (s.t.time - 1) :: .snap s.t.time :: tail) =
      [.finish s.t.time s.t.wantKill (s.t.time - 1), .snap s.t.time] := by
    have : calls (Ev.finish s.t.time s.t.wantKill (s.t.time - 1) :: .snap s.t.time :: tail) =
        .finish s.t.time s.t.wantKill (s.t.time - 1) :: .snap s.t.time :: calls tail := rfl
    rw [this, e3]
  have htail : ∀ e ∈ Ev.finish s.t.time s.t.wantKill (s.t.time - 1) :: .snap s.t.time :: tail,
      time e = s.t.time := by
    intro e he
    simp only [List.mem_cons] at he
    rcases he with rfl | rfl | he
    · rfl
    · rfl
    · exact e4.1 e he
  refine ⟨?_, ?_, ?_, ?_, ?_, ?_⟩
  · intro now o ok hm
    rcases List.mem_append.1 hm with hm | hm
    · exact g.acc now o ok hm
    · simp only [List.mem_cons, reduceCtorEq, false_or] at hm
      exact e4.2 now o ok hm
  · rw [List.pairwise_append]
    refine ⟨g.mono, ?_, ?_⟩
    · rw [List.pairwise_iff_forall_sublist]
      intro a b hab
      have ha := htail a (hab.subset (by simp))
      have hb := htail b (hab.subset (by simp))
      omega
    · intro a ha b hb
      have := g.timesLe a ha
      have := htail b hb
      omega
  · intro e he
    rw [calls_append, hc, List.mem_append] at he
    rcases he with he | he
    · exact g.callsGe e he
    · have hle := g.le
      simp only [List.mem_cons, List.not_mem_nil, or_false] at he
      rcases he with rfl | rfl <;> exact hle
  · intro e he
    rcases List.mem_append.1 he with he | he
    · exact g.timesLe e he
    · exact le_of_eq (htail e he)
  · intro e he ht
    rw [calls_append, hc, List.mem_append] at he
    rcases he with he | he
    · have := g.callsLt e he; omega
    · simp only [List.mem_cons, List.not_mem_nil, or_false] at he
      rcases he with rfl | rfl <;> simp [phase]
  · rw [calls_append, hc, List.pairwise_append]
    refine ⟨g.ord, ?_, ?_⟩
    · simp only [List.pairwise_cons, List.mem_singleton, List.not_mem_nil, List.Pairwise.nil]
      refine ⟨?_, by simp, trivial⟩
      rintro _ rfl
      exact Or.inr ⟨rfl, by simp [phase]⟩
    · intro a ha b hb
      have := g.callsLt a ha
      simp only [List.mem_cons, List.not_mem_nil, or_false] at hb
      left
      rcases hb with rfl | rfl <;> simpa [time] using this

/-! ## C22 -/

/-- Builds outside a step of the run do not occur. -/
theorem builtAt_nil {tr : List Ev} {t : ℤ} (h : ∀ e ∈ calls tr, time e = t → phase e ≠ 2) :
    builtAt tr t = [] := by
  rw [← builtAt_calls, builtAt, List.filterMap_eq_nil_iff]
  intro e he
  split
  · rename_i t' p q
    rw [if_neg]
    rintro rfl
    exact h _ he rfl rfl
  · rfl

theorem builtAt_map (t : ℤ) (l : List (String × Option ℕ)) :
    builtAt (l.map fun x => .build t x.1 x.2) t = l := by
  induction l with
  | nil => rfl
  | cons x l ih =>
    have : builtAt ((x :: l).map fun x => Ev.build t x.1 x.2) t =
        builtAt [Ev.build t x.1 x.2] t ++ builtAt (l.map fun x => Ev.build t x.1 x.2) t := by
      rw [← builtAt_append]; rfl
    rw [this, ih]
    simp [builtAt]

theorem StepAt.builds {W : World σ} {T : ℤ} {tr pre A B C post : List Ev} {l1 l2 l3 : List ℕ}
    (st : StepAt W T tr pre A B C post l1 l2 l3) : builtAt tr T = schedFor pre T := by
  rw [st.split, builtAt_append, builtAt_append, builtAt_append, builtAt_append]
  have n1 : builtAt pre T = [] := builtAt_nil fun e he h' => by
    have := st.preCalls e he; omega
  have n2 : builtAt post T = [] := builtAt_nil fun e he h' => by
    have := st.postTime e (mem_calls.1 he).1; omega
  have n3 : builtAt A T = schedFor pre T := by
    rw [← builtAt_calls, st.callsA, builtAt_append, builtAt_map]
    have : builtAt (if requested pre = true then [.snap T] else []) T = [] := by
      split_ifs <;> rfl
    rw [this, List.nil_append]
  have n4 : builtAt B T = [] := by
    rw [← builtAt_calls, st.callsB, builtAt, List.filterMap_eq_nil_iff]
    intro e he
    simp only [List.mem_append, List.mem_map, List.mem_cons, List.not_mem_nil, or_false] at he
    rcases he with ((⟨x, _, rfl⟩ | rfl | rfl) | ⟨x, _, rfl⟩) | ⟨x, _, rfl⟩ <;> rfl
  have n5 : builtAt C T = [] := by
    rw [← builtAt_calls, st.callsC, builtAt, List.filterMap_eq_nil_iff]
    intro e he
    simp only [List.mem_append, List.mem_map, List.mem_cons, List.not_mem_nil, or_false] at he
    rcases he with ⟨x, _, rfl⟩ | rfl <;> rfl
  rw [n1, n2, n3, n4, n5]; simp

/-- **C22.** What is built at a time is exactly what was scheduled (and accepted) for it, once
each and in the order of scheduling, for every time step that the run executes; nothing is built
at other times. -/
theorem C22_builds {W : World σ} {w : σ} {fuel : ℕ} {t0 dur : ℤ} {setup : List Op} {s' : Sim σ}
    (h : Run W w fuel t0 dur setup s') (t : ℤ) :
    builtAt s'.trace t = if t0 ≤ t ∧ t < s'.t.time then schedFor s'.trace t else [] := by
  have hw := h.whole
  split_ifs with ht
  · obtain ⟨pre, A, B, C, post, l1, l2, l3, st⟩ := h.steps ht.1 ht.2
    have hb : builtAt s'.trace t = schedFor pre t := st.builds
    have hs : schedFor s'.trace t = schedFor pre t := by
      rw [st.split, schedFor_append, schedFor_append, fair_sched st.fair (le_refl _)]
      have : schedFor post t = [] := by
        unfold schedFor
        rw [List.filterMap_eq_nil_iff]
        intro e he
        split
        · rename_i now p q t'
          have h1 := st.postTime _ he
          have h2 := hw.acc now _ _ (by rw [st.split]; exact List.mem_append_right _ he)
          simp only [time] at h1
          have h3 := of_decide_eq_true h2.symm
          rw [if_neg]
          split_ifs
          · omega
          · rename_i hne
            rcases h3 with h3 | h3
            · exact absurd h3 hne
            · omega
        · rfl
      rw [this]; simp
    rw [hb, hs]
  · apply builtAt_nil
    intro e he h'
    have h1 := hw.ge e he
    have h2 := hw.le e (mem_calls.1 he).1
    intro h3
    have h4 := hw.last e he
    omega

/-- **C22**, acceptance: a build is accepted iff it is for a later step (-1 means the next one). -/
theorem C22_accepts {W : World σ} {w : σ} {fuel : ℕ} {t0 dur : ℤ} {setup : List Op} {s' : Sim σ}
    (h : Run W w fuel t0 dur setup s') {now t : ℤ} {proto : String} {parent : Option ℕ} {ok : Bool}
    (hm : Ev.op now (.schedBuild proto parent t) ok ∈ s'.trace) :
    ok = true ↔ t = -1 ∨ now < t := by
  have := h.whole.acc _ _ _ hm
  rw [this]; simp [accepts]

/-! ## C23 -/

theorem decomsAt_nil {tr : List Ev} {t : ℤ} (h : ∀ e ∈ calls tr, time e = t → phase e ≠ 8) :
    decomsAt tr t = [] := by
  rw [← decomsAt_calls, decomsAt, List.filterMap_eq_nil_iff]
  intro e he
  split
  · rename_i t' p
    rw [if_neg]
    rintro rfl
    exact h _ he rfl rfl
  · rfl

theorem decomsAt_map (t : ℤ) (l : List ℕ) : decomsAt (l.map (.decom t)) t = l := by
  induction l with
  | nil => rfl
  | cons x l ih =>
    have : decomsAt ((x :: l).map (.decom t)) t =
        decomsAt [Ev.decom t x] t ++ decomsAt (l.map (.decom t)) t := by
      rw [← decomsAt_append]; rfl
    rw [this, ih]
    simp [decomsAt]

theorem StepAt.decoms {W : World σ} {T : ℤ} {tr pre A B C post : List Ev} {l1 l2 l3 : List ℕ}
    (st : StepAt W T tr pre A B C post l1 l2 l3) : decomsAt tr T = pending (pre ++ A ++ B) T := by
  rw [st.split, decomsAt_append, decomsAt_append, decomsAt_append, decomsAt_append]
  have n1 : decomsAt pre T = [] := decomsAt_nil fun e he h' => by
    have := st.preCalls e he; omega
  have n2 : decomsAt post T = [] := decomsAt_nil fun e he h' => by
    have := st.postTime e (mem_calls.1 he).1; omega
  have n3 : decomsAt A T = [] := by
    rw [← decomsAt_calls, st.callsA, decomsAt_append]
    have : decomsAt (if requested pre = true then [.snap T] else []) T = [] := by
      split_ifs <;> rfl
    rw [this, List.nil_append, decomsAt, List.filterMap_eq_nil_iff]
    intro e he
    obtain ⟨x, _, rfl⟩ := List.mem_map.1 he
    rfl
  have n4 : decomsAt B T = [] := by
    rw [← decomsAt_calls, st.callsB, decomsAt, List.filterMap_eq_nil_iff]
    intro e he
    simp only [List.mem_append, List.mem_map, List.mem_cons, List.not_mem_nil, or_false] at he
    rcases he with ((⟨x, _, rfl⟩ | rfl | rfl) | ⟨x, _, rfl⟩) | ⟨x, _, rfl⟩ <;> rfl
  have n5 : decomsAt C T = pending (pre ++ A ++ B) T := by
    rw [← decomsAt_calls, st.callsC, decomsAt_append, decomsAt_map]
    simp [decomsAt]
  rw [n1, n2, n3, n4, n5]; simp

/-- **C23.** At every executed step exactly those agents are decommissioned, each once and in the
order of scheduling, that are on the agenda for it when the decommissioning phase begins (`post`
begins with the first event of that phase); nobody is decommissioned at other times. -/
theorem C23_decoms {W : World σ} {w : σ} {fuel : ℕ} {t0 dur : ℤ} {setup : List Op} {s' : Sim σ}
    (h : Run W w fuel t0 dur setup s') (t : ℤ) :
    (t0 ≤ t → t < s'.t.time → ∃ pre e post, s'.trace = pre ++ e :: post ∧
      isCall e = true ∧ time e = t ∧ 8 ≤ phase e ∧
      (∀ f ∈ calls pre, time f < t ∨ time f = t ∧ phase f < 8) ∧
      decomsAt s'.trace t = pending pre t ∧ (decomsAt s'.trace t).Nodup) ∧
    (¬ (t0 ≤ t ∧ t < s'.t.time) → decomsAt s'.trace t = []) := by
  have hw := h.whole
  constructor
  · intro h0 h1
    obtain ⟨pre, A, B, C, post, l1, l2, l3, st⟩ := h.steps h0 h1
    obtain ⟨e, C', hC, hc, ht, hp⟩ := st.firstC
    refine ⟨pre ++ A ++ B, e, C' ++ post, ?_, hc, ht, hp, ?_, st.decoms, ?_⟩
    · rw [st.split, hC]; simp
    · intro f hf
      rw [calls_append, calls_append, List.mem_append, List.mem_append] at hf
      rcases hf with (hf | hf) | hf
      · exact Or.inl (st.preCalls f hf)
      · right
        rw [st.callsA, List.mem_append] at hf
        rcases hf with hf | hf
        · split_ifs at hf
          · rw [List.mem_singleton] at hf; subst hf; simp [time, phase]
          · cases hf
        · obtain ⟨x, _, rfl⟩ := List.mem_map.1 hf; simp [time, phase]
      · right
        rw [st.callsB] at hf
        simp only [List.mem_append, List.mem_map, List.mem_cons, List.not_mem_nil, or_false] at hf
        rcases hf with ((⟨x, _, rfl⟩ | rfl | rfl) | ⟨x, _, rfl⟩) | ⟨x, _, rfl⟩ <;>
          simp [time, phase]
    · rw [st.decoms]; exact pending_nodup _ _
  · intro hn
    apply decomsAt_nil
    intro e he h'
    have h1 := hw.ge e he
    have h2 := hw.le e (mem_calls.1 he).1
    intro h3
    have h4 := hw.last e he
    omega

/-- **C23**, acceptance. -/
theorem C23_accepts {W : World σ} {w : σ} {fuel : ℕ} {t0 dur : ℤ} {setup : List Op} {s' : Sim σ}
    (h : Run W w fuel t0 dur setup s') {now t : ℤ} {m : ℕ} {ok : Bool}
    (hm : Ev.op now (.schedDecom m t) ok ∈ s'.trace) : ok = true ↔ t = -1 ∨ now ≤ t := by
  have := h.whole.acc _ _ _ hm
  rw [this]; simp [accepts]

/-- Events that neither add an agent at time `T` nor touch an agent pending at `T`. -/
theorem pending_stable {T : ℤ} (post : List Ev) : ∀ (pre : List Ev),
    (∀ now m t, Ev.op now (.schedDecom m t) true ∈ post →
      (if t = -1 then now else t) ≠ T ∧ m ∉ pending pre T) →
    pending (pre ++ post) T = pending pre T := by
  induction post with
  | nil => intro pre _; simp
  | cons e post ih =>
    intro pre h
    have he : pending (pre ++ [e]) T = pending pre T := by
      unfold pending
      rw [agenda_snoc]
      unfold agendaStep
      split
      · rename_i now m t
        obtain ⟨h1, h2⟩ := h now m t List.mem_cons_self
        rw [List.filter_append, List.map_append]
        rw [show List.filter (fun x : ℕ × ℤ => decide (x.2 = T))
          [(m, if t = -1 then now else t)] = [] by simpa using h1]
        rw [List.map_nil, List.append_nil, List.filter_filter]
        congr 1
        apply List.filter_congr
        intro x hx
        by_cases hxT : x.2 = T
        · have : x.1 ≠ m := by
            rintro rfl
            apply h2
            rw [mem_pending, ← hxT]; exact hx
          simp [hxT, this]
        · simp [hxT]
      · rfl
    have := ih (pre ++ [e]) (fun now m t hm => by
      rw [he]; exact h now m t (List.mem_cons_of_mem _ hm))
    rw [List.append_assoc, List.singleton_append, he] at this
    exact this

/-- **C23**, exactly once (partial): if agents schedule no decommissioning while or after the
agents of the current step are decommissioned, and none of an agent that is already
decommissioned, then every agent is decommissioned exactly at the time of the last accepted request
for it.  Missing: requests made during the decommissioning phase, for which it is false
(`C23_fails_lost`, `C23_fails_twice`). -/
theorem C23_once_partial {W : World σ} {w : σ} {fuel : ℕ} {t0 dur : ℤ} {setup : List Op}
    {s' : Sim σ} (h : Run W w fuel t0 dur setup s') (hs : Sane s'.trace) (t : ℤ) :
    decomsAt s'.trace t = if t0 ≤ t ∧ t < s'.t.time then pending s'.trace t else [] := by
  have hw := h.whole
  split_ifs with ht
  · obtain ⟨pre, e, post, e1, e2, e3, e4, e5, e6, e7⟩ := (C23_decoms h t).1 ht.1 ht.2
    rw [e6]
    symm
    rw [e1]
    apply pending_stable
    intro now m t' hm
    have hm' : Ev.op now (.schedDecom m t') true ∈ post := by
      rcases List.mem_cons.1 hm with hm | hm
      · rw [← hm] at e2; simp [isCall] at e2
      · exact hm
    unfold Sane at hs
    rw [e1] at hs
    have hs2 := (List.pairwise_append.1 hs).2.1
    rw [List.pairwise_cons] at hs2
    have hnow := (hs2.1 _ hm' now m t' rfl).2
    have hmono := hw.mono
    rw [e1] at hmono
    have hmono2 := (List.pairwise_append.1 hmono).2.1
    rw [List.pairwise_cons] at hmono2
    have hge := hmono2.1 _ hm'
    change time e ≤ now at hge
    have hgt : t < now := by
      rcases lt_or_eq_of_le hge with h1 | h1
      · omega
      · exact absurd ⟨e2, h1, e4⟩ hnow
    have hacc := hw.acc now _ _ (by rw [e1]; exact List.mem_append_right _ hm)
    have hacc' := of_decide_eq_true hacc.symm
    refine ⟨?_, ?_⟩
    · split_ifs with h1
      · omega
      · rcases hacc' with h2 | h2
        · exact absurd h2 h1
        · omega
    · intro hp
      rw [← e6] at hp
      -- the agent is decommissioned at time `t`, before this request
      have hd : Ev.decom t m ∈ s'.trace := by
        unfold decomsAt at hp
        rw [List.mem_filterMap] at hp
        obtain ⟨f, hf, hff⟩ := hp
        split at hff
        · rename_i t'' a
          split_ifs at hff with h1
          cases hff; subst h1; exact hf
        · cases hff
      rw [e1, List.mem_append] at hd
      rcases hd with hd | hd
      · have := e5 _ (mem_calls.2 ⟨hd, rfl⟩)
        simp [time, phase] at this
      · rcases List.mem_cons.1 hd with hd | hd
        · exact (hs2.1 _ hm' now m t' rfl).1 t hd.symm
        · -- order of the two events in `post`
          obtain ⟨i, hi, hi'⟩ := List.getElem_of_mem hd
          obtain ⟨j, hj, hj'⟩ := List.getElem_of_mem hm'
          rcases lt_trichotomy i j with hij | hij | hij
          · have := List.pairwise_iff_getElem.1 hs2.2 i j hi hj hij now m t' hj'
            exact this.1 t hi'
          · subst hij; rw [hi'] at hj'; cases hj'
          · have := List.pairwise_iff_getElem.1 hmono2.2 j i hj hi hij
            rw [hi', hj'] at this
            simp only [time] at this
            omega
  · exact (C23_decoms h t).2 ht

/-! ## C24 -/

/-- **C24**, order: calls of the timer are ordered by time, and within a step by phase: snapshot,
build, tick, material exchange, product exchange, tock, decision, decommission, event loop. -/
theorem C24_order {W : World σ} {w : σ} {fuel : ℕ} {t0 dur : ℤ} {setup : List Op} {s' : Sim σ}
    (h : Run W w fuel t0 dur setup s') :
    (calls s'.trace).Pairwise fun a b => time a < time b ∨ time a = time b ∧ phase a ≤ phase b :=
  h.whole.ord

/-- **C24**, the contents of a step: the trace splits into `pre`, the step (`A` with snapshot and
builds, `B` from tick to decision, `C` decommissioning and event loop) and `post`.  If nobody
registers or deregisters listeners in `B`, then all listeners registered at its beginning get one
call for each registration: Python listeners first, then C++ ones, in order of registration, for
Tick and Tock; and one call in order of ids for Decision. -/
theorem C24_step {W : World σ} {w : σ} {fuel : ℕ} {t0 dur : ℤ} {setup : List Op} {s' : Sim σ}
    (h : Run W w fuel t0 dur setup s') {T : ℤ} (h0 : t0 ≤ T) (h1 : T < s'.t.time) :
    ∃ (pre A B C post : List Ev) (ticks tocks decs : List ℕ),
      s'.trace = pre ++ (A ++ B ++ C) ++ post ∧
      (∀ e ∈ calls pre, time e < T) ∧ (∀ e ∈ calls post, T < time e) ∧
      calls A = (if requested pre then [.snap T] else []) ++
        (schedFor s'.trace T).map (fun x => .build T x.1 x.2) ∧
      calls B = ticks.map (.tick T) ++ [.matl T, .prod T] ++ tocks.map (.tock T) ++
        decs.map (.decision T) ∧
      calls C = (decomsAt s'.trace T).map (.decom T) ++ [.loop T] ∧
      (Quiet B →
        ticks = (listeners (pre ++ A)).filter W.shim ++
          (listeners (pre ++ A)).filter (fun a => !W.shim a) ∧
        tocks = ticks ∧ decs.Pairwise (· < ·) ∧ ∀ a, a ∈ decs ↔ a ∈ listeners (pre ++ A)) := by
  obtain ⟨pre, A, B, C, post, l1, l2, l3, st⟩ := h.steps h0 h1
  refine ⟨pre, A, B, C, post, l1, l2, l3, st.split, st.preCalls,
    fun e he => st.postTime e (mem_calls.1 he).1, ?_, st.callsB, ?_, st.quiet⟩
  · have hb := C22_builds h T
    rw [if_pos ⟨h0, h1⟩] at hb
    rw [← hb]
    have : builtAt s'.trace T = schedFor pre T := st.builds
    rw [this]; exact st.callsA
  · rw [st.decoms]; exact st.callsC

/-- **C24**, exactly once: if in addition no listener is registered twice, Tick, Tock and Decision
reach every listener exactly once. -/
theorem C24_once_partial {W : World σ} {w : σ} {fuel : ℕ} {t0 dur : ℤ} {setup : List Op}
    {s' : Sim σ} (h : Run W w fuel t0 dur setup s') {T : ℤ} (h0 : t0 ≤ T) (h1 : T < s'.t.time) :
    ∃ (pre A B C post : List Ev) (ticks tocks decs : List ℕ),
      s'.trace = pre ++ (A ++ B ++ C) ++ post ∧
      calls B = ticks.map (.tick T) ++ [.matl T, .prod T] ++ tocks.map (.tock T) ++
        decs.map (.decision T) ∧
      (Quiet B → (listeners (pre ++ A)).Nodup →
        ticks.Perm (listeners (pre ++ A)) ∧ tocks.Perm (listeners (pre ++ A)) ∧
        decs.Perm (listeners (pre ++ A))) := by
  obtain ⟨pre, A, B, C, post, l1, l2, l3, a1, _, _, _, a5, _, a7⟩ := C24_step h h0 h1
  refine ⟨pre, A, B, C, post, l1, l2, l3, a1, a5, ?_⟩
  intro hq hn
  obtain ⟨q1, q2, q3, q4⟩ := a7 hq
  have hp : l1.Perm (listeners (pre ++ A)) := by
    rw [q1]; exact List.filter_append_perm _ _
  refine ⟨hp, by rw [q2]; exact hp, ?_⟩
  rw [List.perm_ext_iff_of_nodup (q3.imp fun h => ne_of_lt h) hn]
  exact q4

/-- **C24**, the end: the run ends at the given duration, or after the step in which somebody
called `KillSim`; the `Finish` row says which, and the last step. -/
theorem C24_end {W : World σ} {w : σ} {fuel : ℕ} {t0 dur : ℤ} {setup : List Op} {s' : Sim σ}
    (h : Run W w fuel t0 dur setup s') : ∃ early tr tail,
      s'.trace = tr ++ .finish s'.t.time early (s'.t.time - 1) :: .snap s'.t.time :: tail ∧
      (∀ t b e, Ev.finish t b e ∉ tr ++ tail) ∧ calls tail = [] ∧
      (early = true ↔ killed tr) ∧ s'.t.time ≤ max t0 dur ∧
      (early = false → s'.t.time = max t0 dur) ∧
      ∀ now ok, Ev.op now .kill ok ∈ s'.trace → now = s'.t.time ∨ now + 1 = s'.t.time := by
  obtain ⟨s, tail, g, e1, e2, e3, e4, e5, e6, e7⟩ := h.parts
  refine ⟨s.t.wantKill, s.trace, tail, by rw [e1]; exact e2, ?_, e3, g.inv.kill, by rw [e1]; exact e5,
    ?_, ?_⟩
  · intro t b e hm
    rcases List.mem_append.1 hm with hm | hm
    · exact g.finish t b e hm
    · have : Ev.finish t b e ∈ calls tail := mem_calls.2 ⟨hm, rfl⟩
      rw [e3] at this; cases this
  · intro hk
    rcases e6 with e6 | e6
    · rw [e1]; exact e6
    · rw [e6.2] at hk; cases hk
  · intro now ok hm
    rw [e1]
    rw [e2] at hm
    rcases List.mem_append.1 hm with hm | hm
    · exact e7 now ok hm
    · simp only [List.mem_cons, reduceCtorEq, false_or] at hm
      exact Or.inl (e4.1 _ hm)

/-! ## C65: snapshots -/

theorem snap_last (l : List Ev) (t : ℤ) : Ev.snap t ∈ l → Ev.snap t ∈ calls l :=
  fun h => mem_calls.2 ⟨h, rfl⟩

/-- **C65.** At every executed step a snapshot is made exactly if one was asked for since the last
snapshot, and then once, before anything else happens in the step; and there is exactly one at
the end. -/
theorem C65_snapshots {W : World σ} {w : σ} {fuel : ℕ} {t0 dur : ℤ} {setup : List Op} {s' : Sim σ}
    (h : Run W w fuel t0 dur setup s') {T : ℤ} (h0 : t0 ≤ T) (h1 : T < s'.t.time) :
    ∃ (pre rest : List Ev), s'.trace = pre ++ rest ∧ (∀ e ∈ calls pre, time e < T) ∧
      (∀ e ∈ calls rest, T ≤ time e) ∧
      (calls rest).filter (· = .snap T) = (if requested pre then [.snap T] else []) ∧
      (requested pre → (calls rest).head? = some (.snap T)) := by
  obtain ⟨pre, A, B, C, post, l1, l2, l3, st⟩ := h.steps h0 h1
  have hall := st.calls_eq.2
  have hrest : calls (A ++ B ++ C ++ post) = (if requested pre then [.snap T] else []) ++
      ((schedFor pre T).map (fun x => .build T x.1 x.2) ++ calls B ++ calls C ++ calls post) := by
    rw [calls_append, calls_append, calls_append, st.callsA]; simp
  have hother : ∀ e ∈ (schedFor pre T).map (fun x => Ev.build T x.1 x.2) ++ calls B ++ calls C ++
      calls post, e ≠ .snap T := by
    intro e he
    simp only [List.mem_append] at he
    rcases he with ((he | he) | he) | he
    · obtain ⟨x, _, rfl⟩ := List.mem_map.1 he; simp
    · rw [st.callsB] at he
      simp only [List.mem_append, List.mem_map, List.mem_cons, List.not_mem_nil, or_false] at he
      rcases he with ((⟨x, _, rfl⟩ | rfl | rfl) | ⟨x, _, rfl⟩) | ⟨x, _, rfl⟩ <;> simp
    · rw [st.callsC] at he
      simp only [List.mem_append, List.mem_map, List.mem_cons, List.not_mem_nil, or_false] at he
      rcases he with ⟨x, _, rfl⟩ | rfl <;> simp
    · rintro rfl
      have := st.postTime _ (mem_calls.1 he).1
      simp [time] at this
  refine ⟨pre, A ++ B ++ C ++ post, by rw [st.split]; simp, st.preCalls, ?_, ?_, ?_⟩
  · intro e he
    rw [calls_append, List.mem_append] at he
    rcases he with he | he
    · exact ge_of_eq (hall e he).1
    · exact le_of_lt (st.postTime e (mem_calls.1 he).1)
  · rw [hrest, List.filter_append]
    rw [show List.filter (fun e => decide (e = Ev.snap T))
      ((schedFor pre T).map (fun x => Ev.build T x.1 x.2) ++ calls B ++ calls C ++ calls post) = [] by
        rw [List.filter_eq_nil_iff]
        intro e he; simpa using hother e he]
    split_ifs <;> simp
  · intro hr
    rw [hrest, if_pos hr]
    simp

/-! ## C66: the registered listeners -/

/-- **C66.** After any set-up and any number `n` of steps, the two vectors together hold exactly
the registered listeners (one entry for each registration), and the map holds each once, sorted. -/
theorem C66_listeners {W : World σ} {w : σ} {t0 dur : ℤ} {setup : List Op} {fuel n : ℕ} {s : Sim σ}
    (h : runLoop W fuel n (start W w t0 dur setup) = some s) :
    (s.t.py ++ s.t.cpp).Perm (listeners s.trace) ∧ s.t.tickers.Pairwise (· < ·) ∧
      ∀ a, a ∈ s.t.tickers ↔ a ∈ s.t.py ++ s.t.cpp := by
  have hi := (Good.loop (Good.start W w t0 dur setup).1 h).1.inv
  have hp : (s.t.py ++ s.t.cpp).Perm (listeners s.trace) := by
    rw [hi.py, hi.cpp]; exact List.filter_append_perm _ _
  exact ⟨hp, hi.tick, fun a => by rw [hi.mem, hp.mem_iff]⟩

/-! ## Witnesses -/

/-- A world whose agents react to events according to a table. -/
def tableWorld (tbl : List (Ev × List Op)) : World Unit where
  shim := fun a => a = 7
  act := fun _ _ e => ((), (tbl.lookup e).getD [])

/-- A simulation with three agents: at time 1 one is built and registers (agent 3); agent 2 is to be
decommissioned at time 2 and asks for a snapshot; agent 1 ends the simulation at time 3. -/
def exWorld : World Unit := tableWorld
  [(.build 1 "Reactor" (some 1), [.register 3]), (.tick 0 2, [.schedDecom 2 1]),
   (.tock 1 1, [.schedDecom 2 2, .snapshot]), (.decom 2 2, [.unregister 2]), (.tick 3 1, [.kill])]

def exSetup : List Op :=
  [.register 2, .register 7, .register 1, .schedBuild "Reactor" (some 1) (-1),
   .schedBuild "Late" none 9, .schedBuild "Never" none 0]

/-- The run of the example satisfies the hypotheses; its events. -/
def exTrace : List Ev := ((runSim exWorld 9 (start exWorld () 0 6 exSetup)).map Sim.trace).getD []

example : (runSim exWorld 9 (start exWorld () 0 6 exSetup)).isSome = true ∧
    calls exTrace = [
      .tick 0 7, .tick 0 2, .tick 0 1, .matl 0, .prod 0, .tock 0 7, .tock 0 2, .tock 0 1,
      .decision 0 1, .decision 0 2, .decision 0 7, .loop 0,
      .build 1 "Reactor" (some 1), .tick 1 7, .tick 1 2, .tick 1 1, .tick 1 3, .matl 1, .prod 1,
      .tock 1 7, .tock 1 2, .tock 1 1, .tock 1 3,
      .decision 1 1, .decision 1 2, .decision 1 3, .decision 1 7, .loop 1,
      .snap 2, .tick 2 7, .tick 2 2, .tick 2 1, .tick 2 3, .matl 2, .prod 2,
      .tock 2 7, .tock 2 2, .tock 2 1, .tock 2 3,
      .decision 2 1, .decision 2 2, .decision 2 3, .decision 2 7, .decom 2 2, .loop 2,
      .tick 3 7, .tick 3 1, .tick 3 3, .matl 3, .prod 3, .tock 3 7, .tock 3 1, .tock 3 3,
      .decision 3 1, .decision 3 3, .decision 3 7, .loop 3, .finish 4 true 3, .snap 4] ∧
    builtAt exTrace 1 = [("Reactor", some 1)] ∧ decomsAt exTrace 2 = [2] ∧
    pending exTrace 2 = [2] := by
  decide +kernel

example : ((runLoop exWorld 9 3 (start exWorld () 0 6 exSetup)).map fun s =>
    (s.t.py, s.t.cpp, s.t.tickers)) = some ([7], [1, 3], [1, 3, 7]) := by
  decide +kernel

/-- Hence a run in the sense of the theorems exists, and it is sane. -/
example : ∃ s', Run exWorld () 9 0 6 exSetup s' ∧ Sane s'.trace ∧ s'.t.time = 4 := by
  have h : (runSim exWorld 9 (start exWorld () 0 6 exSetup)).isSome = true := by decide +kernel
  obtain ⟨s', hs⟩ := Option.isSome_iff_exists.1 h
  refine ⟨s', hs, ?_, ?_⟩
  · have ht : s'.trace = exTrace := by unfold exTrace; rw [hs]; rfl
    rw [ht]
    have key : exTrace.Pairwise fun e f => (match f with
        | .op now (.schedDecom m _) true =>
          (match e with | .decom _ a => a ≠ m | _ => True) ∧
            ¬ (isCall e = true ∧ time e = now ∧ 8 ≤ phase e)
        | _ => True) := by
      have hd : (List.Pairwise (fun e f => (match f with
        | Ev.op now (.schedDecom m _) true =>
          (match e with | Ev.decom _ a => decide (a ≠ m) | _ => true) &&
            !(isCall e && decide (time e = now) && decide (8 ≤ phase e))
        | _ => true) = true) exTrace) := by decide +kernel
      refine hd.imp ?_
      intro e f hef
      split
      · rename_i now m t
        simp only [Bool.and_eq_true, Bool.not_eq_true', Bool.and_eq_false_iff,
          decide_eq_false_iff_not] at hef
        refine ⟨?_, ?_⟩
        · have := hef.1
          split <;> simp_all
        · rintro ⟨a, b, c⟩
          rcases hef.2 with (h1 | h1) | h1
          · rw [a] at h1; cases h1
          · exact h1 b
          · exact h1 c
      · trivial
    refine key.imp ?_
    rintro e f hef now m t rfl
    refine ⟨?_, hef.2⟩
    rintro t' rfl
    exact hef.1 rfl
  · have : ((runSim exWorld 9 (start exWorld () 0 6 exSetup)).map fun s => s.t.time) = some 4 := by
      decide +kernel
    rw [hs] at this
    simpa using this

/-- **C23** fails for a request made while agents are being decommissioned: when agent 2 is notified
of the decommissioning of agent 1, it schedules agent 3 for the current step.  The request is
accepted, but agent 3 is never decommissioned. -/
theorem C23_fails_lost : ∃ (W : World Unit) (s' : Sim Unit) (setup : List Op),
    Run W () 9 0 3 setup s' ∧ Ev.op 0 (.schedDecom 3 (-1)) true ∈ s'.trace ∧
    (3, 0) ∈ agenda s'.trace ∧ ∀ t, Ev.decom t 3 ∉ s'.trace := by
  let W := tableWorld [(.decom 0 1, [.schedDecom 3 (-1)])]
  have h : ((runSim W 9 (start W () 0 3 [.schedDecom 1 0])).map fun s => (s.trace)) = some
      [.op 0 (.schedDecom 1 0) true, .matl 0, .prod 0, .decom 0 1, .op 0 (.schedDecom 3 (-1)) true,
       .loop 0, .matl 1, .prod 1, .loop 1, .matl 2, .prod 2, .loop 2, .finish 3 false 2,
       .snap 3] := by
    decide +kernel
  cases hs : runSim W 9 (start W () 0 3 [.schedDecom 1 0]) with
  | none => rw [hs] at h; cases h
  | some s' =>
    rw [hs] at h
    simp only [Option.map_some, Option.some.injEq] at h
    refine ⟨W, s', _, hs, ?_, ?_, ?_⟩
    · rw [h]; simp
    · rw [h]; decide +kernel
    · intro t; rw [h]; simp

/-- **C23** fails in another way: an agent that is about to be decommissioned in the current step and
is rescheduled during the decommissioning phase is decommissioned twice (it is a dangling pointer
the second time). -/
theorem C23_fails_twice : ∃ (W : World Unit) (s' : Sim Unit) (setup : List Op),
    Run W () 9 0 3 setup s' ∧ Ev.decom 0 2 ∈ s'.trace ∧ Ev.decom 1 2 ∈ s'.trace := by
  let W := tableWorld [(.decom 0 1, [.schedDecom 2 1])]
  have h : ((runSim W 9 (start W () 0 3 [.schedDecom 1 0, .schedDecom 2 0])).map
      fun s => calls s.trace) = some
      [.matl 0, .prod 0, .decom 0 1, .decom 0 2, .loop 0, .matl 1, .prod 1, .decom 1 2, .loop 1,
       .matl 2, .prod 2, .loop 2, .finish 3 false 2, .snap 3] := by
    decide +kernel
  cases hs : runSim W 9 (start W () 0 3 [.schedDecom 1 0, .schedDecom 2 0]) with
  | none => rw [hs] at h; cases h
  | some s' =>
    rw [hs] at h
    simp only [Option.map_some, Option.some.injEq] at h
    refine ⟨W, s', _, hs, ?_, ?_⟩
    · exact (mem_calls.1 (by rw [h]; simp)).1
    · exact (mem_calls.1 (by rw [h]; simp)).1

/-- **C22**: a build happens for a parent that has been decommissioned before (the pointer passed to
`Build` dangles). -/
theorem C22_fails_parent : ∃ (W : World Unit) (s' : Sim Unit) (setup : List Op),
    Run W () 9 0 3 setup s' ∧ ∃ a b c, s'.trace = a ++ .decom 0 1 :: b ++
      .build 2 "Reactor" (some 1) :: c := by
  let W := tableWorld []
  have h : ((runSim W 9 (start W () 0 3 [.schedDecom 1 0, .schedBuild "Reactor" (some 1) 2])).map
      fun s => s.trace) = some
      ([.op 0 (.schedDecom 1 0) true, .op 0 (.schedBuild "Reactor" (some 1) 2) true, .matl 0,
       .prod 0] ++ .decom 0 1 :: [.loop 0, .matl 1, .prod 1, .loop 1] ++
       .build 2 "Reactor" (some 1) :: [.matl 2, .prod 2, .loop 2, .finish 3 false 2, .snap 3]) := by
    decide +kernel
  cases hs : runSim W 9 (start W () 0 3 [.schedDecom 1 0, .schedBuild "Reactor" (some 1) 2]) with
  | none => rw [hs] at h; cases h
  | some s' =>
    rw [hs] at h
    simp only [Option.map_some, Option.some.injEq] at h
    exact ⟨W, s', _, hs, _, _, _, h⟩

/-- **C24** fails if a listener deregisters another one during Tick: listener 3, registered
throughout the step, gets no Tick. -/
theorem C24_fails_skip : ∃ (W : World Unit) (s' : Sim Unit) (setup : List Op),
    Run W () 9 0 1 setup s' ∧ 3 ∈ listeners s'.trace ∧ 3 ∈ listeners (s'.trace.take 3) ∧
    (∀ t, Ev.op t (.unregister 3) true ∉ s'.trace) ∧ ∀ t, Ev.tick t 3 ∉ s'.trace := by
  let W := tableWorld [(.tick 0 1, [.unregister 1])]
  have h : ((runSim W 9 (start W () 0 1 [.register 1, .register 3, .register 2])).map
      fun s => s.trace) = some
      [.op 0 (.register 1) true, .op 0 (.register 3) true, .op 0 (.register 2) true, .tick 0 1,
       .op 0 (.unregister 1) true, .tick 0 2, .matl 0, .prod 0, .tock 0 3, .tock 0 2,
       .decision 0 2, .decision 0 3, .loop 0, .finish 1 false 0, .snap 1] := by
    decide +kernel
  cases hs : runSim W 9 (start W () 0 1 [.register 1, .register 3, .register 2]) with
  | none => rw [hs] at h; cases h
  | some s' =>
    rw [hs] at h
    simp only [Option.map_some, Option.some.injEq] at h
    refine ⟨W, s', _, hs, ?_, ?_, ?_, ?_⟩
    · rw [h]; decide +kernel
    · rw [h]; decide +kernel
    · intro t; rw [h]; simp
    · intro t; rw [h]; simp

/-- **C24**: a listener that is registered twice gets every Tick twice, but one Decision. -/
theorem C24_fails_twice : ∃ (W : World Unit) (s' : Sim Unit) (setup : List Op),
    Run W () 9 0 1 setup s' ∧
    calls s'.trace = [.tick 0 1, .tick 0 1, .matl 0, .prod 0, .tock 0 1, .tock 0 1, .decision 0 1,
      .loop 0, .finish 1 false 0, .snap 1] := by
  let W := tableWorld []
  have h : ((runSim W 9 (start W () 0 1 [.register 1, .register 1])).map
      fun s => calls s.trace) = some
      [.tick 0 1, .tick 0 1, .matl 0, .prod 0, .tock 0 1, .tock 0 1, .decision 0 1,
      .loop 0, .finish 1 false 0, .snap 1] := by
    decide +kernel
  cases hs : runSim W 9 (start W () 0 1 [.register 1, .register 1]) with
  | none => rw [hs] at h; cases h
  | some s' =>
    rw [hs] at h
    simp only [Option.map_some, Option.some.injEq] at h
    exact ⟨W, s', _, hs, h⟩

end Cyclus.Timing
