import Verif.Model.MockSim
import Mathlib.Data.List.Nodup
import Mathlib.Data.List.Induction

/-!
# Lemmas about mock simulations
-/

namespace Cyclus.MockSim

/-- The entry of the decommission queue that the building of an agent makes. -/
def decOf (now : ℤ) (c : Who × ℤ) : Option (ℤ × Who) :=
  if 0 ≤ c.2 then some (if c.2 = 0 then now else now + c.2 - 1, c.1) else none

/-- The building of an agent which has no entry in the queue. -/
theorem build_ok (own : Bool) (w : Who) (life : ℤ) (s : State)
    (hw : ∀ d ∈ s.decoms, d.2 ≠ w) (ht : 0 ≤ s.time) (h0 : own = true → life = 0 → s.time = 0) :
    build own w life s = .ok { s with
      entries := s.entries ++ [(w, s.time)]
      decoms := s.decoms ++ (if own then (decOf s.time (w, life)).toList else []) } := by
  unfold build
  simp only
  by_cases ho : own = true
  · subst ho
    by_cases hl : 0 ≤ life
    · rw [if_pos ⟨rfl, hl⟩]
      have hf : s.decoms.filter (fun d => d.2 ≠ w) = s.decoms := by
        rw [List.filter_eq_self]
        intro d hd
        simpa using hw d hd
      unfold schedDecom exitTime decOf
      simp only [hf, if_true, hl]
      by_cases hz : life = 0
      · have := h0 rfl hz
        subst hz
        simp [this]
      · have e1 : ¬ life = -1 := by omega
        have e2 : ¬ s.time + life - 1 = -1 := by omega
        have e3 : ¬ s.time + life - 1 < s.time := by omega
        simp [e1, e2, e3, hz]
    · rw [if_neg (fun h => hl h.2)]
      simp [decOf, hl]
  · rw [if_neg (fun h => ho h.1)]
    simp [ho]

/-- The building of several agents. -/
theorem buildAll_ok (l : List Conf) (s : State)
    (hn : (s.decoms.map Prod.snd ++ l.map Conf.proto).Nodup) (ht : 0 ≤ s.time)
    (h0 : ∀ c ∈ l, c.life = 0 → s.time = 0) :
    l.foldlM (fun s c => build true c.proto c.life s) s = .ok { s with
      entries := s.entries ++ l.map fun c => (c.proto, s.time)
      decoms := s.decoms ++ l.filterMap fun c => decOf s.time (c.proto, c.life) } := by
  induction l generalizing s with
  | nil => simp; rfl
  | cons c l ih =>
    have hw : ∀ d ∈ s.decoms, d.2 ≠ c.proto := by
      intro d hd he
      rw [List.nodup_append] at hn
      exact hn.2.2 _ (List.mem_map.2 ⟨_, hd, rfl⟩) _ (by simp) he
    rw [List.foldlM_cons, build_ok true c.proto c.life s hw ht (fun _ => h0 c (by simp))]
    show List.foldlM _ _ l = _
    refine (ih _ ?_ ?_ ?_).trans ?_
    · simp only [if_true, List.map_append]
      have : (s.decoms.map Prod.snd ++ ([c.proto] ++ l.map Conf.proto)).Nodup := by simpa using hn
      rw [← List.append_assoc] at this
      refine this.sublist (List.Sublist.append_right (List.Sublist.append_left ?_ _) _)
      unfold decOf
      split <;> simp
    · exact ht
    · exact fun c' hc => h0 c' (by simp [hc])
    · cases h : decOf s.time (c.proto, c.life) <;> simp [h]

theorem decOf_fst {now : ℤ} {c : Who × ℤ} {d : ℤ × Who} (h : decOf now c = some d) :
    d.2 = c.1 ∧ now ≤ d.1 := by
  unfold decOf at h
  split_ifs at h with h1 h2
  · cases h; simp
  · cases h; simp; omega

/-- The state after the mock agents have been added. -/
theorem setup_ok (cs : List Conf) (hs : ∀ c ∈ cs, 0 ≤ c.start) (hn : (cs.map Conf.proto).Nodup) :
    cs.foldlM finalize init = .ok
      { time := 0
        protos := cs.map fun c => (c.proto, c.prototype)
        builds := (cs.filter fun c => c.start ≠ 0).map fun c => (c.start, c)
        decoms := (cs.filter fun c => c.start = 0).filterMap fun c => decOf 0 (c.proto, c.life)
        entries := (cs.filter fun c => c.start = 0).map fun c => (c.proto, 0)
        exits := [] } := by
  induction cs using List.reverseRec with
  | nil => rfl
  | append_singleton cs c ih =>
    rw [List.foldlM_append, ih (fun c' h => hs c' (by simp [h]))
      (hn.sublist (by simp))]
    show List.foldlM finalize _ [c] = _
    rw [List.foldlM_cons]
    have hc := hs c (by simp)
    have hne : ∀ c' ∈ cs, c'.proto ≠ c.proto := by
      intro c' h
      rw [List.map_append, List.nodup_append] at hn
      exact hn.2.2 _ (List.mem_map.2 ⟨_, h, rfl⟩) _ (by simp)
    unfold finalize
    simp only
    by_cases h0 : c.start = 0
    · rw [if_pos h0, build_ok true c.proto c.life]
      · show Except.ok _ = _
        cases h : decOf 0 (c.proto, c.life) <;> simp [h0, h, List.filter_append]
      · intro d hd
        simp only [List.mem_filterMap, List.mem_filter] at hd
        obtain ⟨c', ⟨hc', -⟩, hd⟩ := hd
        rw [(decOf_fst hd).1]
        exact hne c' hc'
      · exact le_refl _
      · intros; rfl
    · rw [if_neg h0]
      unfold schedBuild
      have e1 : ¬ c.start = -1 := by omega
      have e2 : ¬ c.start ≤ 0 := by omega
      simp only [e1, e2, if_false]
      show Except.ok _ = _
      simp [h0, List.filter_append]

/-- What holds after `k` steps. -/
structure Inv (cs : List Conf) (own : Bool) (L : ℤ) (k : ℕ) (s : State) : Prop where
  time : s.time = k
  protos : s.protos = cs.map fun c => (c.proto, c.prototype)
  builds : s.builds = (cs.filter fun c => c.start ≠ 0).map fun c => (c.start, c)
  entries : ∀ w t, (w, t) ∈ s.entries ↔ (w = .tested ∧ t = 0) ∨
    ∃ c ∈ cs, w = c.proto ∧ t = c.start ∧ (t = 0 ∨ t < k)
  decoms : ∀ w t, (t, w) ∈ s.decoms ↔ (own = true ∧ decOf 0 (.tested, L) = some (t, w)) ∨
    ∃ c ∈ cs, (c.start = 0 ∨ c.start < k) ∧ decOf c.start (c.proto, c.life) = some (t, w)
  exits : ∀ w t, (w, t) ∈ s.exits ↔ (t, w) ∈ s.decoms ∧ t < k
  nodup : (s.decoms.map Prod.snd).Nodup
  once : (s.exits.map Prod.fst).Nodup
  enteredOnce : (s.entries.map Prod.fst).Nodup

variable {cs : List Conf} {own : Bool} {L : ℤ}

theorem start_inv (hs : ∀ c ∈ cs, 0 ≤ c.start) (hn : (cs.map Conf.proto).Nodup)
    (ht : ∀ c ∈ cs, c.proto ≠ .tested) :
    ∃ s, (cs.foldlM finalize init >>= build own .tested L) = .ok s ∧ Inv cs own L 0 s := by
  rw [setup_ok cs hs hn]
  refine ⟨_, build_ok own .tested L _ ?_ (le_refl _) (fun _ _ => rfl), ?_⟩
  · intro d hd
    simp only [List.mem_filterMap, List.mem_filter] at hd
    obtain ⟨c', ⟨hc', -⟩, hd⟩ := hd
    rw [(decOf_fst hd).1]
    exact ht c' hc'
  · have hsub : (((cs.filter fun c => c.start = 0).filterMap fun c =>
        decOf 0 (c.proto, c.life)).map Prod.snd).Sublist (cs.map Conf.proto) := by
      have : ∀ l : List Conf, ((l.filterMap fun c =>
          decOf 0 (c.proto, c.life)).map Prod.snd).Sublist (l.map Conf.proto) := by
        intro l
        induction l with
        | nil => simp
        | cons c l ih =>
          cases h : decOf 0 (c.proto, c.life) with
          | none => simp [h]; exact ih.cons _
          | some d => simp [h, (decOf_fst h).1]; exact ih
      exact (this _).trans ((List.filter_sublist).map _)
    refine ⟨rfl, rfl, rfl, ?_, ?_, ?_, ?_, ?_, ?_⟩
    · intro w t
      simp only [List.mem_append, List.mem_map, List.mem_filter, decide_eq_true_eq, Prod.mk.injEq,
        List.mem_singleton]
      constructor
      · rintro (⟨c, ⟨hc, h0⟩, rfl, rfl⟩ | ⟨rfl, rfl⟩)
        · exact .inr ⟨c, hc, rfl, h0.symm, .inl rfl⟩
        · exact .inl ⟨rfl, rfl⟩
      · rintro (⟨rfl, rfl⟩ | ⟨c, hc, rfl, rfl, h⟩)
        · exact .inr ⟨rfl, rfl⟩
        · have := hs c hc
          have h0 : c.start = 0 := by push_cast at h; omega
          exact .inl ⟨c, ⟨hc, h0⟩, rfl, h0.symm⟩
    · intro w t
      simp only [List.mem_append, List.mem_filterMap, List.mem_filter, decide_eq_true_eq]
      constructor
      · rintro (⟨c, ⟨hc, h0⟩, hd⟩ | h)
        · exact .inr ⟨c, hc, .inl h0, by rw [h0]; exact hd⟩
        · cases own <;> simp at h
          exact .inl ⟨rfl, h⟩
      · rintro (⟨ho, h⟩ | ⟨c, hc, h, hd⟩)
        · subst ho; right; simpa using h
        · have := hs c hc
          have h0 : c.start = 0 := by push_cast at h; omega
          exact .inl ⟨c, ⟨hc, h0⟩, by rw [h0] at hd; exact hd⟩
    · intro w t
      simp only [List.not_mem_nil, false_iff]
      rintro ⟨h, h0⟩
      have : 0 ≤ t := by
        simp only [List.mem_append, List.mem_filterMap, List.mem_filter] at h
        rcases h with ⟨c, -, hd⟩ | h
        · exact (decOf_fst hd).2
        · cases own <;> simp at h
          exact (decOf_fst h).2
      push_cast at h0
      omega
    · rw [List.map_append, List.nodup_append]
      refine ⟨hn.sublist hsub, ?_, ?_⟩
      · cases own <;> simp [decOf]
        split <;> simp
      · intro a ha b hb hab
        obtain ⟨c, hc, rfl⟩ := List.mem_map.1 (hsub.subset ha)
        have : b = .tested := by
          cases own <;> simp [decOf] at hb
          exact hb.2.symm
        exact ht c hc (hab.trans this)
    · simp
    · simp only [List.map_append, List.map_map, List.map_cons, List.map_nil]
      rw [List.nodup_append]
      refine ⟨hn.sublist ((List.filter_sublist).map _), by simp, ?_⟩
      intro a ha b hb hab
      obtain ⟨c, hc, rfl⟩ := List.mem_map.1 ha
      simp only [List.mem_singleton] at hb
      exact ht c (List.mem_filter.1 hc).1 (hab.trans hb)

theorem step_inv (hs : ∀ c ∈ cs, 0 ≤ c.start) (hn : (cs.map Conf.proto).Nodup)
    (ht : ∀ c ∈ cs, c.proto ≠ .tested) (hl : ∀ c ∈ cs, c.life = 0 → c.start = 0) {k : ℕ} {s : State}
    (h : Inv cs own L k s) : ∃ s', step s = .ok s' ∧ Inv cs own L (k + 1) s' := by
  obtain ⟨l, hl'⟩ : ∃ l, l = (s.builds.filter fun b => b.1 = s.time).map Prod.snd := ⟨_, rfl⟩
  have hmem : ∀ c, c ∈ l ↔ c ∈ cs ∧ c.start ≠ 0 ∧ c.start = k := by
    intro c
    rw [hl', h.builds, h.time]
    simp only [List.mem_map, List.mem_filter, decide_eq_true_eq, Prod.exists, ne_eq]
    constructor
    · rintro ⟨a, b, ⟨⟨c', ⟨hc', h0⟩, heq⟩, hk⟩, rfl⟩
      cases heq
      exact ⟨hc', by simpa using h0, hk⟩
    · rintro ⟨hc, h0, hk⟩
      exact ⟨_, c, ⟨⟨c, ⟨hc, by simpa using h0⟩, rfl⟩, hk⟩, rfl⟩
  have hsub : l.Sublist cs := by
    have h2 : l.Sublist (s.builds.map Prod.snd) := by
      rw [hl']; exact (List.filter_sublist).map _
    refine h2.trans ?_
    rw [h.builds, List.map_map]
    have : (Prod.snd ∘ fun c : Conf => (c.start, c)) = id := rfl
    rw [this, List.map_id]
    exact List.filter_sublist
  have hinj := List.inj_on_of_nodup_map hn
  have hdis : ∀ d ∈ s.decoms, ∀ c ∈ l, d.2 ≠ c.proto := by
    rintro ⟨t, w⟩ hd c hc he
    obtain ⟨hc1, hc2, hc3⟩ := (hmem c).1 hc
    rcases (h.decoms w t).1 hd with ⟨-, hd⟩ | ⟨c', hc', hk, hd⟩
    · have := (decOf_fst hd).1
      simp only at this he
      exact ht c hc1 (he.symm.trans this)
    · have := (decOf_fst hd).1
      simp only at this he
      have := hinj hc' hc1 (this.symm.trans he)
      subst this
      omega
  have hnod : (s.decoms.map Prod.snd ++ l.map Conf.proto).Nodup := by
    rw [List.nodup_append]
    refine ⟨h.nodup, hn.sublist (hsub.map _), ?_⟩
    intro a ha b hb hab
    obtain ⟨d, hd, rfl⟩ := List.mem_map.1 ha
    obtain ⟨c, hc, rfl⟩ := List.mem_map.1 hb
    exact hdis d hd c hc hab
  have hb : doBuild s = .ok { s with
      entries := s.entries ++ l.map fun c => (c.proto, s.time)
      decoms := s.decoms ++ l.filterMap fun c => decOf s.time (c.proto, c.life) } := by
    unfold doBuild
    rw [← hl']
    refine buildAll_ok l s hnod (by rw [h.time]; positivity) ?_
    intro c hc hz
    obtain ⟨hc1, hc2, hc3⟩ := (hmem c).1 hc
    exact absurd (hl c hc1 hz) hc2
  have hstep : step s = .ok { s with
      entries := s.entries ++ l.map fun c => (c.proto, s.time)
      decoms := s.decoms ++ l.filterMap fun c => decOf s.time (c.proto, c.life)
      exits := s.exits ++ ((s.decoms ++ l.filterMap fun c =>
        decOf s.time (c.proto, c.life)).filter fun d => d.1 = s.time).map fun d => (d.2, s.time)
      time := s.time + 1 } := by
    unfold step
    rw [hb]
    rfl
  have hfm : ((l.filterMap fun c => decOf s.time (c.proto, c.life)).map Prod.snd).Sublist
      (l.map Conf.proto) := by
    clear hb hstep hnod hdis hsub hmem hl'
    induction l with
    | nil => simp
    | cons c l ih =>
      cases h : decOf s.time (c.proto, c.life) with
      | none => simp [h]; exact ih.cons _
      | some d => simp [h, (decOf_fst h).1]; exact ih
  have hdn : ((s.decoms ++ l.filterMap fun c => decOf s.time (c.proto, c.life)).map
      Prod.snd).Nodup := by
    rw [List.map_append]
    exact hnod.sublist (List.Sublist.append_left hfm _)
  have hdec : ∀ w t, (t, w) ∈ (s.decoms ++ l.filterMap fun c => decOf s.time (c.proto, c.life)) ↔
      (own = true ∧ decOf 0 (.tested, L) = some (t, w)) ∨
      ∃ c ∈ cs, (c.start = 0 ∨ c.start < (k + 1 : ℕ)) ∧
        decOf c.start (c.proto, c.life) = some (t, w) := by
    intro w t
    rw [List.mem_append, h.decoms, List.mem_filterMap, h.time]
    constructor
    · rintro ((h1 | ⟨c, hc, hk, hd⟩) | ⟨c, hc, hd⟩)
      · exact .inl h1
      · exact .inr ⟨c, hc, by push_cast; omega, hd⟩
      · obtain ⟨hc1, hc2, hc3⟩ := (hmem c).1 hc
        exact .inr ⟨c, hc1, by push_cast; omega, by rw [hc3]; exact hd⟩
    · rintro (h1 | ⟨c, hc, hk, hd⟩)
      · exact .inl (.inl h1)
      · by_cases hk' : c.start = 0 ∨ c.start < k
        · exact .inl (.inr ⟨c, hc, hk', hd⟩)
        · have hck : c.start = k := by push_cast at hk; omega
          exact .inr ⟨c, (hmem c).2 ⟨hc, by omega, hck⟩, by rw [hck] at hd; exact hd⟩
  have hex : ∀ w t, (w, t) ∈ (s.exits ++ ((s.decoms ++ l.filterMap fun c =>
        decOf s.time (c.proto, c.life)).filter fun d => d.1 = s.time).map fun d => (d.2, s.time)) ↔
      (t, w) ∈ (s.decoms ++ l.filterMap fun c => decOf s.time (c.proto, c.life)) ∧
        t < (k + 1 : ℕ) := by
    intro w t
    rw [List.mem_append, h.exits]
    simp only [List.mem_map, List.mem_filter, decide_eq_true_eq, Prod.mk.injEq, Prod.exists]
    constructor
    · rintro (⟨hd, hk⟩ | ⟨a, b, ⟨hd, hk⟩, rfl, rfl⟩)
      · exact ⟨List.mem_append_left _ hd, by push_cast; omega⟩
      · subst hk
        exact ⟨hd, by rw [h.time]; push_cast; omega⟩
    · rintro ⟨hd, hk⟩
      by_cases hk' : t = k
      · subst hk'
        exact .inr ⟨_, w, ⟨hd, h.time.symm⟩, rfl, h.time⟩
      · left
        have hlt : t < k := by push_cast at hk; omega
        refine ⟨?_, hlt⟩
        rcases List.mem_append.1 hd with hd | hd
        · exact hd
        · obtain ⟨c, -, hd⟩ := List.mem_filterMap.1 hd
          have := (decOf_fst hd).2
          rw [h.time] at this
          simp only at this
          omega
  refine ⟨_, hstep, ⟨by simp [h.time], h.protos, h.builds, ?_, hdec, hex, hdn, ?_, ?_⟩⟩
  · intro w t
    rw [List.mem_append, h.entries, h.time]
    simp only [List.mem_map, Prod.mk.injEq]
    constructor
    · rintro ((h1 | ⟨c, hc, hw, hst, hk⟩) | ⟨c, hc, rfl, rfl⟩)
      · exact .inl h1
      · exact .inr ⟨c, hc, hw, hst, by push_cast; omega⟩
      · obtain ⟨hc1, hc2, hc3⟩ := (hmem c).1 hc
        exact .inr ⟨c, hc1, rfl, hc3.symm, by push_cast; omega⟩
    · rintro (h1 | ⟨c, hc, rfl, rfl, hk⟩)
      · exact .inl (.inl h1)
      · by_cases hk' : c.start = 0 ∨ c.start < k
        · exact .inl (.inr ⟨c, hc, rfl, rfl, hk'⟩)
        · have hck : c.start = k := by push_cast at hk; omega
          exact .inr ⟨c, (hmem c).2 ⟨hc, by omega, hck⟩, rfl, hck.symm⟩
  · rw [List.map_append, List.nodup_append]
    refine ⟨h.once, ?_, ?_⟩
    · rw [List.map_map]
      exact hdn.sublist ((List.filter_sublist).map _)
    · intro a ha b hb' hab
      subst hab
      obtain ⟨⟨w, t⟩, hd, rfl⟩ := List.mem_map.1 ha
      obtain ⟨⟨w', t'⟩, hd', he⟩ := List.mem_map.1 hb'
      simp only at he
      subst he
      have h1 := (h.exits _ _).1 hd
      obtain ⟨⟨a, b⟩, hd'', he⟩ := List.mem_map.1 hd'
      cases he
      have h2 := (List.mem_filter.1 hd'')
      have h3 := List.inj_on_of_nodup_map hdn (List.mem_append_left _ h1.1) h2.1 rfl
      have h4 : a = s.time := by simpa using h2.2
      rw [h.time] at h4
      have h5 : t = a := congrArg Prod.fst h3
      have := h1.2
      omega
  · rw [List.map_append, List.map_map, List.nodup_append]
    refine ⟨h.enteredOnce, hn.sublist (hsub.map _), ?_⟩
    intro a ha b hb' hab
    subst hab
    obtain ⟨⟨w, t⟩, hd, rfl⟩ := List.mem_map.1 ha
    obtain ⟨c, hc, he⟩ := List.mem_map.1 hb'
    simp only [Function.comp] at he
    obtain ⟨hc1, hc2, hc3⟩ := (hmem c).1 hc
    rcases (h.entries w t).1 hd with ⟨h1, -⟩ | ⟨c', hc', h1, h2, h3⟩
    · exact ht c hc1 (he.trans h1)
    · have := hinj hc1 hc' (he.trans h1)
      subst this
      omega

theorem steps_inv (hs : ∀ c ∈ cs, 0 ≤ c.start) (hn : (cs.map Conf.proto).Nodup)
    (ht : ∀ c ∈ cs, c.proto ≠ .tested) (hl : ∀ c ∈ cs, c.life = 0 → c.start = 0) (n : ℕ) {k : ℕ}
    {s : State} (h : Inv cs own L k s) : ∃ s', steps n s = .ok s' ∧ Inv cs own L (k + n) s' := by
  induction n generalizing k s with
  | zero => exact ⟨s, rfl, h⟩
  | succ n ih =>
    obtain ⟨s1, h1, h2⟩ := step_inv hs hn ht hl h
    obtain ⟨s2, h3, h4⟩ := ih h2
    refine ⟨s2, ?_, ?_⟩
    · unfold steps
      rw [h1]
      exact h3
    · rw [show k + (n + 1) = k + 1 + n by omega]
      exact h4

theorem run_inv (hs : ∀ c ∈ cs, 0 ≤ c.start) (hn : (cs.map Conf.proto).Nodup)
    (ht : ∀ c ∈ cs, c.proto ≠ .tested) (hl : ∀ c ∈ cs, c.life = 0 → c.start = 0) (n : ℕ) :
    ∃ s, run cs own L n = .ok s ∧ Inv cs own L n s := by
  obtain ⟨s0, h0, hi⟩ := start_inv (own := own) (L := L) hs hn ht
  obtain ⟨s1, h1, h2⟩ := steps_inv hs hn ht hl n hi
  refine ⟨s1, ?_, by simpa using h2⟩
  unfold run
  rw [setup_ok cs hs hn] at h0 ⊢
  show (build own .tested L _ >>= steps n) = _
  have h0' : build own .tested L _ = .ok s0 := h0
  rw [h0']
  exact h1

end Cyclus.MockSim
