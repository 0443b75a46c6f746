import Verif.Model.Threads

/-!
# C107: ticks and tocks in several threads record what one thread records

The specification says what each call adds to the recorded data and to the queues, and what an interleaving of
the calls of several threads is.
-/

namespace Cyclus.Par

/-! ## Specification -/

/-- The datum that a call records. -/
def datumOf (now : ℤ) : Call → Option Datum
  | .schedBuild parent proto t => some ("BuildSchedule", [.int parent, .str proto, .int now, .int t])
  | .schedDecom agent t => some ("DecomSchedule", [.int agent, .int now, .int t])
  | .datum title vals => some (title, vals)
  | .bump => none

/-- The build that a call schedules. -/
def buildOf : Call → Option (ℤ × String × ℤ)
  | .schedBuild parent proto t => some (t, proto, parent)
  | _ => none

/-- The decommissionings after a call: the last call for an agent counts. -/
def decomsAfter (q : List (ℤ × ℤ)) : Call → List (ℤ × ℤ)
  | .schedDecom agent t => q.filter (·.2 ≠ agent) ++ [(t, agent)]
  | _ => q

/-- The call does not ask for the past. -/
def Valid (now : ℤ) : Call → Prop
  | .schedBuild _ _ t => now < t
  | .schedDecom _ t => now ≤ t
  | _ => True

/-- The recorded data: what the backends got and what is buffered. -/
def Shared.recorded (sh : Shared) : List Datum := sh.got ++ sh.slots.take sh.index

/-- Before and after parallel regions: no critical section, and room for a datum. -/
def Shared.Ready (sh : Shared) : Prop := sh.index < sh.slots.length ∧ sh.lock = none ∧ sh.dead = false

/-- An order of the calls of all threads (numbered) that keeps the order of each thread. -/
def Interleaving (progs : List (List Call)) (order : List (ℕ × Call)) : Prop :=
  ∀ i, (order.filter (·.1 = i)).map Prod.snd = progs[i]?.getD []

/-- The calls were executed one after the other in this order. -/
def OneByOne (now : ℤ) (before after : Shared) (order : List Call) : Prop :=
  after.recorded = before.recorded ++ order.filterMap (datumOf now) ∧
  after.builds = before.builds ++ order.filterMap buildOf ∧
  after.decoms = order.foldl decomsAfter before.decoms ∧
  after.nextId = before.nextId + order.count .bump

/-! ## One call -/

/-- Steps of one thread without others. -/
def runSteps (now : ℤ) (i : ℕ) : List Step → Shared × Regs → Option (Shared × Regs)
  | [], p => some p
  | s :: ss, p => match act now i s p.1 p.2 with
    | none => none
    | some q => runSteps now i ss q

theorem runSteps_append (now : ℤ) (i : ℕ) : ∀ (a b : List Step) (p : Shared × Regs),
    runSteps now i (a ++ b) p = (runSteps now i a p).bind (runSteps now i b)
  | [], _, _ => rfl
  | s :: a, b, p => by
    simp only [List.cons_append, runSteps]
    cases act now i s p.1 p.2 with
    | none => rfl
    | some q => exact runSteps_append now i a b q

theorem modify_mid {α : Type} (A B : List α) (d : α) (f : α → α) :
    (A ++ d :: B).modify A.length f = A ++ f d :: B := by
  induction A with
  | nil => rfl
  | cons a A ih => simp [ih]

theorem addVals (now : ℤ) (i : ℕ) : ∀ (vals : List Val) (sh : Shared) (r : Regs) (A B : List Datum)
    (d : Datum), sh.slots = A ++ d :: B → r.slot = A.length →
    runSteps now i (vals.map .addVal) (sh, r) = some ({ sh with slots := A ++ (d.1, d.2 ++ vals) :: B }, r)
  | [], sh, r, A, B, d, h, _ => by
    simp only [List.map_nil, runSteps, List.append_nil]
    rw [← h]
  | v :: vals, sh, r, A, B, d, h, hr => by
    simp only [List.map_cons, runSteps, act]
    rw [h, hr, modify_mid]
    rw [addVals now i vals _ r A B (d.1, d.2 ++ [v]) rfl hr]
    simp

theorem datumSteps_run (now : ℤ) (i : ℕ) (title : String) (vals : List Val) (sh : Shared) (r : Regs)
    (h : sh.index < sh.slots.length) :
    ∃ slots index got r', runSteps now i (datumSteps title vals) (sh, r) =
        some ({ sh with slots := slots, index := index, got := got }, r') ∧ index < slots.length ∧
      got ++ slots.take index = sh.got ++ sh.slots.take sh.index ++ [(title, vals)] ∧ r'.ids = r.ids := by
  obtain ⟨A, d, B, hs, hA⟩ : ∃ A d B, sh.slots = A ++ d :: B ∧ A.length = sh.index := by
    refine ⟨sh.slots.take sh.index, sh.slots[sh.index], sh.slots.drop (sh.index + 1), ?_, ?_⟩
    · rw [← List.drop_eq_getElem_cons h, List.take_append_drop]
    · simp; omega
  have h1 : runSteps now i [.loadSlot, .setTitle title, .clear, .loadIndex, .storeIndex] (sh, r) =
      some ({ sh with slots := A ++ (title, []) :: B, index := sh.index + 1 },
        { r with slot := sh.index, reg := sh.index }) := by
    simp only [runSteps, act, h, if_true]
    rw [hs, ← hA, modify_mid, modify_mid]
  unfold datumSteps
  rw [List.append_assoc, runSteps_append, h1, Option.bind_some, runSteps_append,
    addVals now i vals _ _ A B (title, []) rfl (by simp [hA])]
  simp only [Option.bind_some, runSteps, act, List.nil_append]
  have htake : sh.slots.take sh.index = A := by rw [hs, ← hA, List.take_left]
  have hlen : (A ++ (title, vals) :: B).length = sh.slots.length := by rw [hs]; simp
  by_cases hc : (A ++ (title, vals) :: B).length ≤ sh.index + 1
  · rw [if_pos hc]
    refine ⟨_, _, _, _, rfl, by simp, ?_, rfl⟩
    have hB : B = [] := by
      rw [← hA, List.length_append, List.length_cons] at hc
      exact List.length_eq_zero_iff.mp (by omega)
    simp [hB, htake]
  · rw [if_neg hc]
    refine ⟨_, _, _, _, rfl, by omega, ?_, rfl⟩
    rw [htake, ← hA]
    have : (A ++ (title, vals) :: B).take (A.length + 1) = A ++ [(title, vals)] := by
      rw [show A ++ (title, vals) :: B = (A ++ [(title, vals)]) ++ B by simp]
      exact List.take_left' (by simp)
    rw [this, List.append_assoc]

/-- A whole call, when nobody interferes. -/
theorem body_run (now : ℤ) (i : ℕ) {c : Call} (hv : Valid now c) {sh : Shared} (r : Regs)
    (h : sh.index < sh.slots.length) (hd : sh.dead = false) :
    ∃ sh' r', runSteps now i (body now c) (sh, r) = some (sh', r') ∧ sh'.index < sh'.slots.length ∧
      sh'.dead = false ∧ sh'.lock = sh.lock ∧ OneByOne now sh sh' [c] ∧
      r'.ids = r.ids ++ (if c = .bump then [sh.nextId] else []) := by
  cases c with
  | schedBuild parent proto t =>
    have hv' : ¬ t ≤ now := by simpa [Valid] using hv
    obtain ⟨slots, index, got, r', h1, h2, h3, h4⟩ := datumSteps_run now i "BuildSchedule"
      [.int parent, .str proto, .int now, .int t] { sh with builds := sh.builds ++ [(t, proto, parent)] } r h
    have hb : runSteps now i (body now (.schedBuild parent proto t)) (sh, r) = runSteps now i
        (datumSteps "BuildSchedule" [.int parent, .str proto, .int now, .int t])
        ({ sh with builds := sh.builds ++ [(t, proto, parent)] }, r) := by
      simp only [body, runSteps, act, hv', if_false]
    exact ⟨_, r', hb.trans h1, h2, hd, rfl, ⟨h3, rfl, rfl, rfl⟩, by simpa using h4⟩
  | schedDecom agent t =>
    have hv' : ¬ t < now := by simpa [Valid] using hv
    obtain ⟨slots, index, got, r', h1, h2, h3, h4⟩ := datumSteps_run now i "DecomSchedule"
      [.int agent, .int now, .int t]
      { sh with decoms := sh.decoms.filter (·.2 ≠ agent) ++ [(t, agent)] } r h
    have hb : runSteps now i (body now (.schedDecom agent t)) (sh, r) = runSteps now i
        (datumSteps "DecomSchedule" [.int agent, .int now, .int t])
        ({ sh with decoms := sh.decoms.filter (·.2 ≠ agent) ++ [(t, agent)] }, r) := by
      simp only [body, runSteps, act, hv', if_false]
    exact ⟨_, r', hb.trans h1, h2, hd, rfl, ⟨h3, by simp [buildOf], rfl, rfl⟩, by simpa using h4⟩
  | datum title vals =>
    obtain ⟨slots, index, got, r', h1, h2, h3, h4⟩ := datumSteps_run now i title vals sh r h
    exact ⟨_, r', h1, h2, hd, rfl, ⟨h3, by simp [buildOf], rfl, rfl⟩, by simpa using h4⟩
  | bump =>
    refine ⟨_, _, rfl, h, hd, rfl, ⟨?_, ?_, rfl, ?_⟩, by simp⟩
    · simp [Shared.recorded, datumOf]
    · simp [buildOf]
    · simp

theorem steps_run (now : ℤ) (i : ℕ) {c : Call} (hv : Valid now c) {sh : Shared} (r : Regs) (h : sh.Ready) :
    ∃ sh' r', runSteps now i (c.steps now) (sh, r) = some (sh', r') ∧ sh'.Ready ∧ OneByOne now sh sh' [c] ∧
      r'.ids = r.ids ++ (if c = .bump then [sh.nextId] else []) := by
  obtain ⟨h1, h2, h3⟩ := h
  unfold Call.steps
  by_cases hc : c.critical = true
  · rw [if_pos hc]
    obtain ⟨sh', r', k1, k2, k3, k4, k5, k6⟩ := body_run now i hv (sh := { sh with lock := some i }) r h1 h3
    refine ⟨{ sh' with lock := none }, r', ?_, ⟨k2, rfl, k3⟩, k5, k6⟩
    rw [List.cons_append]
    simp only [runSteps, act]
    rw [runSteps_append, k1]
    rfl
  · rw [if_neg hc]
    obtain ⟨sh', r', k1, k2, k3, k4, k5, k6⟩ := body_run now i hv r h1 h3
    exact ⟨sh', r', k1, ⟨k2, by rw [k4, h2], k3⟩, k5, k6⟩

theorem act_dead {now : ℤ} {i : ℕ} {s : Step} {sh : Shared} {r : Regs} {q : Shared × Regs}
    (h : act now i s sh r = some q) (hd : sh.dead = true) : q.1.dead = true := by
  cases s <;> simp only [act] at h <;> (try split at h) <;> simp at h <;> subst h <;> first | exact hd | rfl

theorem runSteps_dead {now : ℤ} {i : ℕ} : ∀ {ss : List Step} {p q : Shared × Regs},
    runSteps now i ss p = some q → q.1.dead = false → p.1.dead = false
  | [], p, q, h, hd => by
    simp only [runSteps, Option.some.injEq] at h
    rw [h]; exact hd
  | s :: ss, p, q, h, hd => by
    simp only [runSteps] at h
    cases ha : act now i s p.1 p.2 with
    | none => simp [ha] at h
    | some q' =>
      rw [ha] at h
      have := runSteps_dead h hd
      by_contra hp
      rw [act_dead ha (by simpa using hp)] at this
      exact absurd this (by simp)

theorem act_lock {now : ℤ} {i : ℕ} {s : Step} {sh : Shared} {r : Regs} {q : Shared × Regs}
    (h : act now i s sh r = some q) (h1 : s ≠ .lock) (h2 : s ≠ .unlock) : q.1.lock = sh.lock := by
  cases s <;> simp only [act] at h <;> (try split at h) <;> simp at h <;> subst h <;>
    first | rfl | exact absurd rfl h1 | exact absurd rfl h2

theorem runSteps_lock {now : ℤ} {i : ℕ} : ∀ {ss : List Step} {p q : Shared × Regs},
    runSteps now i ss p = some q → (∀ s ∈ ss, s ≠ .lock ∧ s ≠ .unlock) → q.1.lock = p.1.lock
  | [], p, q, h, _ => by
    simp only [runSteps, Option.some.injEq] at h
    rw [h]
  | s :: ss, p, q, h, hs => by
    simp only [runSteps] at h
    cases ha : act now i s p.1 p.2 with
    | none => simp [ha] at h
    | some q' =>
      rw [ha] at h
      rw [runSteps_lock h (fun t ht => hs t (List.mem_cons_of_mem _ ht)),
        act_lock ha (hs s (by simp)).1 (hs s (by simp)).2]

theorem datumSteps_free (title : String) (vals : List Val) :
    ∀ s ∈ datumSteps title vals, s ≠ .lock ∧ s ≠ .unlock := by
  intro s hs
  simp only [datumSteps, List.mem_append, List.mem_cons, List.not_mem_nil, or_false, List.mem_map] at hs
  rcases hs with ((h | h | h | h | h) | ⟨v, -, rfl⟩) | h <;> (try subst h) <;> simp

theorem body_free (now : ℤ) (c : Call) : ∀ s ∈ body now c, s ≠ .lock ∧ s ≠ .unlock := by
  intro s hs
  cases c <;> simp only [body, List.mem_cons] at hs
  · rcases hs with rfl | hs
    · simp
    · exact datumSteps_free _ _ s hs
  · rcases hs with rfl | hs
    · simp
    · exact datumSteps_free _ _ s hs
  · exact datumSteps_free _ _ s hs
  · rcases hs with rfl | rfl | rfl | hs
    · simp
    · simp
    · simp
    · simp at hs

theorem steps_ne_nil (now : ℤ) (c : Call) : c.steps now ≠ [] := by
  cases c <;> simp [Call.steps, Call.critical, body, datumSteps]

/-- In the middle of a critical call, the thread has the lock. -/
theorem mid_lock {now : ℤ} {i : ℕ} {c : Call} {pre suf : List Step} {p q : Shared × Regs}
    (hs : c.steps now = pre ++ suf) (hp : pre ≠ []) (hq : suf ≠ []) (hr : runSteps now i pre p = some q)
    (hc : c.critical = true) : q.1.lock = some i := by
  unfold Call.steps at hs
  rw [if_pos hc] at hs
  obtain ⟨a, pre', rfl⟩ := List.exists_cons_of_ne_nil hp
  rw [List.cons_append, List.cons_append, List.cons.injEq] at hs
  obtain ⟨rfl, hs⟩ := hs
  obtain ⟨suf', b, rfl⟩ : ∃ suf' b, suf = suf' ++ [b] := by
    refine ⟨suf.dropLast, suf.getLast hq, (List.dropLast_concat_getLast hq).symm⟩
  rw [← List.append_assoc] at hs
  obtain ⟨hs, -⟩ := List.append_inj' hs rfl
  simp only [runSteps, act] at hr
  rw [runSteps_lock hr fun s hm => body_free now c s (by rw [hs]; exact List.mem_append_left _ hm)]

/-- In the middle of a call, the next step is not to enter a critical section. -/
theorem mid_not_lock {now : ℤ} {c : Call} {pre suf : List Step} {s : Step}
    (hs : c.steps now = pre ++ s :: suf) (hp : pre ≠ []) : s ≠ .lock := by
  obtain ⟨a, pre', rfl⟩ := List.exists_cons_of_ne_nil hp
  have hm : s ∈ (c.steps now).tail := by rw [hs]; simp
  unfold Call.steps at hm
  split at hm
  · simp only [List.cons_append, List.tail_cons, List.mem_append, List.mem_singleton] at hm
    rcases hm with hm | rfl
    · exact (body_free now c s hm).1
    · simp
  · exact (body_free now c s (List.mem_of_mem_tail hm)).1

theorem OneByOne.refl (now : ℤ) (sh : Shared) : OneByOne now sh sh [] := by
  simp [OneByOne]

theorem OneByOne.snoc {now : ℤ} {a b c : Shared} {order : List Call} {x : Call} (h : OneByOne now a b order)
    (h' : OneByOne now b c [x]) : OneByOne now a c (order ++ [x]) := by
  obtain ⟨h1, h2, h3, h4⟩ := h
  obtain ⟨k1, k2, k3, k4⟩ := h'
  refine ⟨?_, ?_, ?_, ?_⟩
  · rw [k1, h1, List.filterMap_append, List.append_assoc]
  · rw [k2, h2, List.filterMap_append, List.append_assoc]
  · rw [k3, h3, List.foldl_append]
  · rw [k4, h4, List.count_append, Nat.add_assoc]

/-! ## All threads -/

/-- When threads do not interfere: all calls are critical sections, or there is one thread. -/
def Safe (progs : List (List Call)) : Prop :=
  (∀ cs ∈ progs, ∀ c ∈ cs, c.critical = true) ∨ progs.length ≤ 1

/-- The ids taken by the calls. -/
def idsOf (sh0 : Shared) (order : List (ℕ × Call)) : List ℕ :=
  (List.range ((order.map Prod.snd).count .bump)).map (sh0.nextId + ·)

/-- Between calls: those in `order` are executed, thread `i` has still to execute `rest i`. -/
structure Between (now : ℤ) (sh0 : Shared) (progs : List (List Call)) (c : Cfg) (order : List (ℕ × Call))
    (rest : ℕ → List Call) : Prop where
  len : c.ths.length = progs.length
  split : ∀ i, (order.filter (·.1 = i)).map Prod.snd ++ rest i = progs[i]?.getD []
  todo : ∀ (i : ℕ) th, c.ths[i]? = some th → th.todo = program now (rest i)
  ids : ∀ (i : ℕ) th, c.ths[i]? = some th → th.regs.ids = idsOf sh0 order
  ready : c.sh.Ready
  seq : OneByOne now sh0 c.sh (order.map Prod.snd)

/-- Thread `k` is in the middle of a call: everything is as if it had started from `c0` alone. -/
structure Amid (now : ℤ) (c0 c : Cfg) (k : ℕ) (x : Call) (pre suf : List Step) (more : List Call) : Prop where
  steps : x.steps now = pre ++ suf
  begun : pre ≠ []
  open' : suf ≠ []
  same : ∀ j, j ≠ k → c.ths[j]? = c0.ths[j]?
  len : c.ths.length = c0.ths.length
  here : ∃ th0 th, c0.ths[k]? = some th0 ∧ c.ths[k]? = some th ∧ th.todo = suf ++ program now more ∧
    runSteps now k pre (c0.sh, th0.regs) = some (c.sh, th.regs)

/-- The invariant. -/
def Inv (now : ℤ) (sh0 : Shared) (progs : List (List Call)) (c : Cfg) : Prop :=
  (∃ order rest, Between now sh0 progs c order rest) ∨
  ∃ c0 order rest k x pre suf more, Between now sh0 progs c0 order rest ∧ rest k = x :: more ∧
    Amid now c0 c k x pre suf more

theorem mem_of_rest {progs : List (List Call)} {order : List (ℕ × Call)} {rest : ℕ → List Call} {i : ℕ}
    (h : (order.filter (·.1 = i)).map Prod.snd ++ rest i = progs[i]?.getD []) {x : Call} (hx : x ∈ rest i) :
    ∃ cs ∈ progs, x ∈ cs := by
  have hm : x ∈ progs[i]?.getD [] := by rw [← h]; exact List.mem_append_right _ hx
  cases hp : progs[i]? with
  | none => rw [hp] at hm; simp at hm
  | some cs =>
    rw [hp] at hm
    exact ⟨cs, List.mem_of_getElem? hp, hm⟩

/-- The end of a call. -/
theorem Between.finish {now : ℤ} {sh0 : Shared} {progs : List (List Call)} {c0 c : Cfg}
    {order : List (ℕ × Call)} {rest : ℕ → List Call} (hb : Between now sh0 progs c0 order rest)
    (hv : ∀ cs ∈ progs, ∀ x ∈ cs, Valid now x) (hsafe : Safe progs) {k : ℕ} {x : Call} {more : List Call}
    (hr : rest k = x :: more) (hlen : c.ths.length = c0.ths.length)
    (hsame : ∀ j, j ≠ k → c.ths[j]? = c0.ths[j]?) {th0 th : Th} (h0 : c0.ths[k]? = some th0)
    (h1 : c.ths[k]? = some th) (htodo : th.todo = program now more)
    (hrun : runSteps now k (x.steps now) (c0.sh, th0.regs) = some (c.sh, th.regs)) :
    Between now sh0 progs c (order ++ [(k, x)]) (Function.update rest k more) := by
  obtain ⟨cs, hcs, hx⟩ := mem_of_rest (hb.split k) (x := x) (by rw [hr]; simp)
  obtain ⟨sh', r', e1, e2, e3, e4⟩ := steps_run now k (hv cs hcs x hx) th0.regs hb.ready
  rw [hrun] at e1
  simp only [Option.some.injEq, Prod.mk.injEq] at e1
  obtain ⟨rfl, rfl⟩ := e1
  have hbump : ∀ j, j ≠ k → j < progs.length → x ≠ .bump := by
    intro j hj hjl
    rcases hsafe with h | h
    · rintro rfl
      exact absurd (h cs hcs _ hx) (by simp [Call.critical])
    · have hk : k < c0.ths.length := by
        by_contra hk
        rw [List.getElem?_eq_none (by omega)] at h0
        simp at h0
      rw [hb.len] at hk
      omega
  refine ⟨by rw [hlen, hb.len], ?_, ?_, ?_, e2, ?_⟩
  · intro i
    rw [← hb.split i, List.filter_append, List.map_append]
    by_cases hik : i = k
    · subst hik
      simp [hr]
    · have : ¬ k = i := fun h => hik h.symm
      simp [this, Function.update_of_ne hik]
  · intro i th' hth
    by_cases hik : i = k
    · subst hik
      rw [h1] at hth
      simp only [Option.some.injEq] at hth
      subst hth
      simpa using htodo
    · rw [hsame i hik] at hth
      rw [Function.update_of_ne hik]
      exact hb.todo i th' hth
  · intro i th' hth
    by_cases hik : i = k
    · subst hik
      rw [h1] at hth
      simp only [Option.some.injEq] at hth
      subst hth
      rw [e4, hb.ids i th0 h0]
      by_cases hxb : x = .bump
      · subst hxb
        have hn := hb.seq.2.2.2
        simp [idsOf, List.range_succ, hn]
      · have : List.count .bump [x] = 0 := by
          rw [List.count_eq_zero]
          simpa using fun h => hxb h.symm
        simp [idsOf, hxb, this]
    · rw [hsame i hik] at hth
      rw [hb.ids i th' hth]
      have hil : i < progs.length := by
        rw [← hb.len]
        by_contra hk
        rw [List.getElem?_eq_none (by omega)] at hth
        simp at hth
      have hxb := hbump i hik hil
      have : List.count .bump [x] = 0 := by
        rw [List.count_eq_zero]
        simpa using fun h => hxb h.symm
      simp [idsOf, this]
  · rw [List.map_append]
    exact hb.seq.snoc e3

theorem get_lt {c : Cfg} {k : ℕ} {th : Th} (h : c.ths[k]? = some th) : k < c.ths.length := by
  by_contra hk
  rw [List.getElem?_eq_none (by omega)] at h
  simp at h

/-- One more step of the thread that is in a call. -/
theorem Amid.advance {now : ℤ} {sh0 : Shared} {progs : List (List Call)} {c0 c : Cfg}
    {order : List (ℕ × Call)} {rest : ℕ → List Call} (hb : Between now sh0 progs c0 order rest)
    (hv : ∀ cs ∈ progs, ∀ x ∈ cs, Valid now x) (hsafe : Safe progs) {k : ℕ} {x : Call} {more : List Call}
    (hr : rest k = x :: more) {pre suf : List Step} {s : Step} (hs : x.steps now = pre ++ s :: suf)
    (hsame : ∀ j, j ≠ k → c.ths[j]? = c0.ths[j]?) (hlen : c.ths.length = c0.ths.length) {th0 th : Th}
    (h0 : c0.ths[k]? = some th0) (h1 : c.ths[k]? = some th)
    (hrun : runSteps now k pre (c0.sh, th0.regs) = some (c.sh, th.regs)) :
    ∃ sh regs, act now k s c.sh th.regs = some (sh, regs) ∧
      Inv now sh0 progs ⟨sh, c.ths.set k ⟨regs, suf ++ program now more⟩⟩ := by
  obtain ⟨cs, hcs, hx⟩ := mem_of_rest (hb.split k) (x := x) (by rw [hr]; simp)
  obtain ⟨sh', r', e1, -⟩ := steps_run now k (hv cs hcs x hx) th0.regs hb.ready
  rw [hs, runSteps_append, hrun, Option.bind_some] at e1
  simp only [runSteps] at e1
  cases ha : act now k s c.sh th.regs with
  | none => simp [ha] at e1
  | some q =>
    obtain ⟨sh, regs⟩ := q
    refine ⟨sh, regs, rfl, ?_⟩
    have hk := get_lt h1
    have hrun' : runSteps now k (pre ++ [s]) (c0.sh, th0.regs) = some (sh, regs) := by
      rw [runSteps_append, hrun, Option.bind_some]
      simp only [runSteps, ha]
    have hget : (c.ths.set k ⟨regs, suf ++ program now more⟩)[k]? = some ⟨regs, suf ++ program now more⟩ := by
      rw [List.getElem?_set_self hk]
    have hsame' : ∀ j, j ≠ k → (c.ths.set k ⟨regs, suf ++ program now more⟩)[j]? = c0.ths[j]? := by
      intro j hj
      rw [List.getElem?_set_ne (fun h => hj h.symm)]
      exact hsame j hj
    by_cases hsuf : suf = []
    · subst hsuf
      exact Or.inl ⟨_, _, hb.finish (c := ⟨sh, _⟩) hv hsafe hr (by simpa using hlen) hsame' h0 hget rfl
        (by rw [hs]; exact hrun')⟩
    · exact Or.inr ⟨c0, order, rest, k, x, pre ++ [s], suf, more, hb, hr,
        ⟨by simp [hs], by simp, hsuf, hsame', by simpa using hlen, th0, _, h0, hget, rfl, hrun'⟩⟩

theorem program_cons (now : ℤ) (x : Call) (more : List Call) :
    program now (x :: more) = x.steps now ++ program now more := by simp [program]

/-- Every turn keeps the invariant. -/
theorem turn_inv {now : ℤ} {sh0 : Shared} {progs : List (List Call)}
    (hv : ∀ cs ∈ progs, ∀ x ∈ cs, Valid now x) (hsafe : Safe progs) {c : Cfg} (hc : Inv now sh0 progs c) (i : ℕ) :
    ∃ c', turn now i c = some c' ∧ Inv now sh0 progs c' := by
  unfold turn
  by_cases hdead : c.sh.dead = true
  · rw [if_pos hdead]; exact ⟨c, rfl, hc⟩
  rw [if_neg hdead]
  cases hth : c.ths[i]? with
  | none => exact ⟨c, rfl, hc⟩
  | some th =>
    cases htodo : th.todo with
    | nil => simp only [htodo]; exact ⟨c, rfl, hc⟩
    | cons s todo =>
      simp only [htodo]
      have hc' := hc
      rcases hc with ⟨order, rest, hb⟩ | ⟨c0, order, rest, k, x, pre, suf, more, hb, hr, ha⟩
      · -- a call begins
        have ht := hb.todo i th hth
        cases hr : rest i with
        | nil => rw [hr, htodo] at ht; simp [program] at ht
        | cons x more =>
          rw [hr, htodo, program_cons] at ht
          obtain ⟨s', suf, hs⟩ := List.exists_cons_of_ne_nil (steps_ne_nil now x)
          rw [hs, List.cons_append, List.cons.injEq] at ht
          obtain ⟨rfl, rfl⟩ := ht
          obtain ⟨sh, regs, h1, h2⟩ := Amid.advance (pre := []) (c := c) hb hv hsafe hr hs (fun _ _ => rfl) rfl hth
            hth rfl
          rw [if_neg (by rw [hb.ready.2.1]; simp), h1]
          exact ⟨_, rfl, h2⟩
      · obtain ⟨th0, thk, k1, k2, k3, k4⟩ := ha.here
        by_cases hik : i = k
        · -- the call goes on
          subst hik
          rw [hth] at k2
          simp only [Option.some.injEq] at k2
          subst k2
          obtain ⟨s', suf', hsuf⟩ := List.exists_cons_of_ne_nil ha.open'
          rw [htodo, hsuf, List.cons_append, List.cons.injEq] at k3
          obtain ⟨rfl, rfl⟩ := k3
          have hs := ha.steps
          rw [hsuf] at hs
          obtain ⟨sh, regs, h1, h2⟩ := Amid.advance (c := c) hb hv hsafe hr hs ha.same ha.len k1 hth k4
          rw [if_neg (fun h => mid_not_lock hs ha.begun h.1), h1]
          exact ⟨_, rfl, h2⟩
        · -- another thread waits
          rcases hsafe with hcrit | hone
          · rw [ha.same i hik] at hth
            have ht := hb.todo i th hth
            cases hri : rest i with
            | nil => rw [hri, htodo] at ht; simp [program] at ht
            | cons y more' =>
              rw [hri, htodo, program_cons] at ht
              obtain ⟨cs, hcs, hy⟩ := mem_of_rest (hb.split i) (x := y) (by rw [hri]; simp)
              obtain ⟨cs', hcs', hx⟩ := mem_of_rest (hb.split k) (x := x) (by rw [hr]; simp)
              have hs : s = .lock := by
                simp only [Call.steps, hcrit cs hcs y hy, if_true, List.cons_append, List.cons.injEq] at ht
                exact ht.1
              have hl : c.sh.lock = some k := mid_lock ha.steps ha.begun ha.open' k4 (hcrit cs' hcs' x hx)
              rw [if_pos ⟨hs, by simp [hl]⟩]
              exact ⟨c, rfl, hc'⟩
          · have a1 := get_lt hth
            have a2 := get_lt k2
            have := hb.len
            have := ha.len
            omega

theorem exec_inv {now : ℤ} {sh0 : Shared} {progs : List (List Call)}
    (hv : ∀ cs ∈ progs, ∀ x ∈ cs, Valid now x) (hsafe : Safe progs) : ∀ (sched : List ℕ) {c : Cfg},
    Inv now sh0 progs c → ∃ c', exec now sched c = some c' ∧ Inv now sh0 progs c'
  | [], c, h => ⟨c, rfl, h⟩
  | i :: is, c, h => by
    obtain ⟨c1, e1, h1⟩ := turn_inv hv hsafe h i
    obtain ⟨c2, e2, h2⟩ := exec_inv hv hsafe is h1
    exact ⟨c2, by simp [exec, e1, e2], h2⟩

theorem start_inv {now : ℤ} {sh0 : Shared} (progs : List (List Call)) (h : sh0.Ready) :
    Inv now sh0 progs (start now sh0 progs) := by
  refine Or.inl ⟨[], fun i => progs[i]?.getD [], ⟨by simp [start], by simp, ?_, ?_, h, OneByOne.refl _ _⟩⟩
  · intro i th hth
    simp only [start, List.getElem?_map, Option.map_eq_some_iff] at hth
    obtain ⟨cs, h1, rfl⟩ := hth
    simp [h1]
  · intro i th hth
    simp only [start, List.getElem?_map, Option.map_eq_some_iff] at hth
    obtain ⟨cs, h1, rfl⟩ := hth
    simp [idsOf]

theorem inv_dead {now : ℤ} {sh0 : Shared} {progs : List (List Call)}
    (hv : ∀ cs ∈ progs, ∀ x ∈ cs, Valid now x) {c : Cfg} (hc : Inv now sh0 progs c) : c.sh.dead = false := by
  rcases hc with ⟨order, rest, hb⟩ | ⟨c0, order, rest, k, x, pre, suf, more, hb, hr, ha⟩
  · exact hb.ready.2.2
  · obtain ⟨th0, thk, k1, k2, k3, k4⟩ := ha.here
    obtain ⟨cs, hcs, hx⟩ := mem_of_rest (hb.split k) (x := x) (by rw [hr]; simp)
    obtain ⟨sh', r', e1, e2, -⟩ := steps_run now k (hv cs hcs x hx) th0.regs hb.ready
    rw [ha.steps, runSteps_append, k4, Option.bind_some] at e1
    exact runSteps_dead e1 e2.2.2

theorem inv_done {now : ℤ} {sh0 : Shared} {progs : List (List Call)} {c : Cfg} (hc : Inv now sh0 progs c)
    (hd : c.done) : ∃ order, Interleaving progs order ∧ c.sh.Ready ∧
      OneByOne now sh0 c.sh (order.map Prod.snd) ∧ ∀ th ∈ c.ths, th.regs.ids = idsOf sh0 order := by
  rcases hc with ⟨order, rest, hb⟩ | ⟨c0, order, rest, k, x, pre, suf, more, hb, hr, ha⟩
  · refine ⟨order, fun i => ?_, hb.ready, hb.seq, ?_⟩
    · have hs := hb.split i
      cases hth : c.ths[i]? with
      | none =>
        have : progs[i]? = none := by
          rw [List.getElem?_eq_none_iff] at hth ⊢
          rw [← hb.len]; exact hth
        rw [this] at hs ⊢
        simp only [Option.getD_none, List.append_eq_nil_iff] at hs
        exact hs.1
      | some th =>
        have ht := hb.todo i th hth
        rw [hd th (List.mem_of_getElem? hth)] at ht
        have hri : rest i = [] := by
          cases hri : rest i with
          | nil => rfl
          | cons y more =>
            rw [hri, program_cons] at ht
            exact absurd (List.append_eq_nil_iff.mp ht.symm).1 (steps_ne_nil now y)
        rw [hri, List.append_nil] at hs
        exact hs
    · intro th hm
      obtain ⟨i, hi⟩ := List.getElem?_of_mem hm
      exact hb.ids i th hi
  · obtain ⟨th0, thk, k1, k2, k3, k4⟩ := ha.here
    rw [hd thk (List.mem_of_getElem? k2)] at k3
    exact absurd (List.append_eq_nil_iff.mp k3.symm).1 ha.open'

/-- The steps that are left. -/
def work (c : Cfg) : ℕ := (c.ths.map (·.todo.length)).sum

theorem sum_set : ∀ (l : List Th) (i : ℕ) (th th' : Th), l[i]? = some th →
    th'.todo.length < th.todo.length →
    ((l.set i th').map (·.todo.length)).sum < (l.map (·.todo.length)).sum
  | [], _, _, _, h, _ => by simp at h
  | a :: l, 0, th, th', h, hlt => by
    simp only [List.getElem?_cons_zero, Option.some.injEq] at h
    subst h
    simpa using hlt
  | a :: l, i + 1, th, th', h, hlt => by
    simp only [List.getElem?_cons_succ] at h
    have := sum_set l i th th' h hlt
    simpa using this

theorem todo_of_work : ∀ (l : List Th), (l.map (·.todo.length)).sum = 0 → ∀ th ∈ l, th.todo.length = 0
  | [], _, _, hm => by simp at hm
  | a :: l, h, th, hm => by
    simp only [List.map_cons, List.sum_cons, Nat.add_eq_zero_iff] at h
    rcases List.mem_cons.mp hm with rfl | hm
    · exact h.1
    · exact todo_of_work l h.2 th hm

/-- Some thread can go on. -/
theorem inv_progress {now : ℤ} {sh0 : Shared} {progs : List (List Call)}
    (hv : ∀ cs ∈ progs, ∀ x ∈ cs, Valid now x) (hsafe : Safe progs) {c : Cfg} (hc : Inv now sh0 progs c)
    (hd : ¬ c.done) : ∃ i c', turn now i c = some c' ∧ work c' < work c := by
  have hdead := inv_dead hv hc
  -- a thread that is not blocked
  have key : ∃ (i : ℕ) (th : Th) (s : Step) (todo : List Step), c.ths[i]? = some th ∧ th.todo = s :: todo ∧
      ¬ (s = .lock ∧ c.sh.lock ≠ none) := by
    rcases hc with ⟨order, rest, hb⟩ | ⟨c0, order, rest, k, x, pre, suf, more, hb, hr, ha⟩
    · simp only [Cfg.done, not_forall] at hd
      obtain ⟨th, hm, hne⟩ := hd
      obtain ⟨i, hi⟩ := List.getElem?_of_mem hm
      obtain ⟨s, todo, hs⟩ := List.exists_cons_of_ne_nil hne
      exact ⟨i, th, s, todo, hi, hs, by rw [hb.ready.2.1]; simp⟩
    · obtain ⟨th0, thk, k1, k2, k3, k4⟩ := ha.here
      obtain ⟨s, suf', hsuf⟩ := List.exists_cons_of_ne_nil ha.open'
      rw [hsuf] at k3
      have hs := ha.steps
      rw [hsuf] at hs
      exact ⟨k, thk, s, _, k2, k3, fun h => mid_not_lock hs ha.begun h.1⟩
  obtain ⟨i, th, s, todo, hi, hs, hnb⟩ := key
  obtain ⟨c', h1, -⟩ := turn_inv hv hsafe hc i
  refine ⟨i, c', h1, ?_⟩
  unfold turn at h1
  rw [if_neg (by simp [hdead]), hi] at h1
  simp only [hs] at h1
  rw [if_neg hnb] at h1
  split at h1
  · exact absurd h1 (by simp)
  · simp only [Option.some.injEq] at h1
    subst h1
    exact sum_set _ _ _ _ hi (by simp [hs])

theorem inv_finish {now : ℤ} {sh0 : Shared} {progs : List (List Call)}
    (hv : ∀ cs ∈ progs, ∀ x ∈ cs, Valid now x) (hsafe : Safe progs) : ∀ (n : ℕ) {c : Cfg},
    work c ≤ n → Inv now sh0 progs c → ∃ sched c', exec now sched c = some c' ∧ c'.done
  | 0, c, hw, _ => by
    refine ⟨[], c, rfl, ?_⟩
    intro th hm
    have h0 : work c = 0 := by omega
    exact List.length_eq_zero_iff.mp (todo_of_work c.ths h0 th hm)
  | n + 1, c, hw, hc => by
    by_cases hd : c.done
    · exact ⟨[], c, rfl, hd⟩
    · obtain ⟨i, c1, h1, h2⟩ := inv_progress hv hsafe hc hd
      obtain ⟨c1', h1', hc1⟩ := turn_inv hv hsafe hc i
      rw [h1] at h1'
      simp only [Option.some.injEq] at h1'
      subst h1'
      obtain ⟨sched, c2, h3, h4⟩ := inv_finish hv hsafe n (by omega) hc1
      exact ⟨i :: sched, c2, by simp [exec, h1, h3], h4⟩

namespace C107

/-! ## The theorems -/

/-- **C107** (partial): if the listeners only schedule builds and decommissionings, then however many threads
there are and however they take turns: nothing undefined happens, the threads never block each other, and when
they are done, the data and the queues are those of executing the calls one by one in some order that keeps
the order of each thread.  Missing: other calls, whose data are lost or mixed (`C107_fails_datum`,
`C107_fails_count`, `C107_fails_mixed`), ids (`C107_fails_ids`), an order that does not depend on the threads
(`C107_fails_order`), and exceptions (`C107_fails_throw`). -/
theorem C107_critical_partial (now : ℤ) (sh : Shared) (progs : List (List Call)) (h : sh.Ready)
    (hv : ∀ cs ∈ progs, ∀ x ∈ cs, Valid now x)
    (hcrit : ∀ cs ∈ progs, ∀ x ∈ cs, (∃ a p t, x = .schedBuild a p t) ∨ ∃ a t, x = .schedDecom a t)
    (sched : List ℕ) :
    ∃ c, exec now sched (start now sh progs) = some c ∧ c.sh.dead = false ∧
      (∃ sched' c', exec now sched' c = some c' ∧ c'.done) ∧
      (c.done → ∃ order, Interleaving progs order ∧ c.sh.Ready ∧
        OneByOne now sh c.sh (order.map Prod.snd)) := by
  have hsafe : Safe progs := Or.inl fun cs hcs x hx => by
    rcases hcrit cs hcs x hx with ⟨a, p, t, rfl⟩ | ⟨a, t, rfl⟩ <;> rfl
  obtain ⟨c, h1, h2⟩ := exec_inv hv hsafe sched (start_inv (now := now) progs h)
  refine ⟨c, h1, inv_dead hv h2, inv_finish hv hsafe _ le_rfl h2, fun hd => ?_⟩
  obtain ⟨order, k1, k2, k3, -⟩ := inv_done h2 hd
  exact ⟨order, k1, k2, k3⟩

theorem interleaving_perm {progs : List (List Call)} {order order' : List (ℕ × Call)}
    (h : Interleaving progs order) (h' : Interleaving progs order') : order.Perm order' := by
  rw [List.perm_iff_count]
  have key : ∀ o : List (ℕ × Call), ∀ p : ℕ × Call,
      o.count p = (((o.filter (·.1 = p.1)).map Prod.snd).map fun x => (p.1, x)).count p := by
    intro o p
    have h1 : ((o.filter (·.1 = p.1)).map Prod.snd).map (fun x => (p.1, x)) = o.filter (·.1 = p.1) := by
      rw [List.map_map]
      conv_rhs => rw [← List.map_id (o.filter (·.1 = p.1))]
      apply List.map_congr_left
      intro q hq
      have hq' : q.1 = p.1 := by simpa using (List.mem_filter.mp hq).2
      simp [← hq']
    rw [h1, List.count_filter (by simp)]
  intro p
  rw [key order p, key order' p, h p.1, h' p.1]

/-- **C107**: under the same hypotheses, whatever turns the threads take, the same data are recorded and the same
builds scheduled, up to their order. -/
theorem C107_same_data (now : ℤ) (sh : Shared) (progs : List (List Call)) (h : sh.Ready)
    (hv : ∀ cs ∈ progs, ∀ x ∈ cs, Valid now x)
    (hcrit : ∀ cs ∈ progs, ∀ x ∈ cs, (∃ a p t, x = .schedBuild a p t) ∨ ∃ a t, x = .schedDecom a t)
    (sched sched' : List ℕ) (c c' : Cfg) (hc : exec now sched (start now sh progs) = some c)
    (hc' : exec now sched' (start now sh progs) = some c') (hd : c.done) (hd' : c'.done) :
    c.sh.recorded.Perm c'.sh.recorded ∧ c.sh.builds.Perm c'.sh.builds := by
  obtain ⟨d, h1, -, -, h2⟩ := C107_critical_partial now sh progs h hv hcrit sched
  obtain ⟨d', h1', -, -, h2'⟩ := C107_critical_partial now sh progs h hv hcrit sched'
  rw [hc] at h1
  rw [hc'] at h1'
  simp only [Option.some.injEq] at h1 h1'
  subst h1 h1'
  obtain ⟨o, i1, -, r1, b1, -⟩ := h2 hd
  obtain ⟨o', i2, -, r2, b2, -⟩ := h2' hd'
  have hp := (interleaving_perm i1 i2).map Prod.snd
  rw [r1, r2, b1, b2]
  exact ⟨(hp.filterMap _).append_left _, (hp.filterMap _).append_left _⟩

/-- **C107**: with one thread, all calls have their effects one after the other, and ids are taken one after
the other. -/
theorem C107_one_thread (now : ℤ) (sh : Shared) (cs : List Call) (h : sh.Ready)
    (hv : ∀ x ∈ cs, Valid now x) (sched : List ℕ) :
    ∃ c, exec now sched (start now sh [cs]) = some c ∧ c.sh.dead = false ∧
      (∃ sched' c', exec now sched' c = some c' ∧ c'.done) ∧
      (c.done → c.sh.Ready ∧ OneByOne now sh c.sh cs ∧
        ∀ th ∈ c.ths, th.regs.ids = (List.range (cs.count .bump)).map (sh.nextId + ·)) := by
  have hv' : ∀ cs' ∈ [cs], ∀ x ∈ cs', Valid now x := by simpa using hv
  have hsafe : Safe [cs] := Or.inr (by simp)
  obtain ⟨c, h1, h2⟩ := exec_inv hv' hsafe sched (start_inv (now := now) [cs] h)
  refine ⟨c, h1, inv_dead hv' h2, inv_finish hv' hsafe _ le_rfl h2, fun hd => ?_⟩
  obtain ⟨order, k1, k2, k3, k4⟩ := inv_done h2 hd
  have ho : order.map Prod.snd = cs := by
    have h0 := k1 0
    have hall : order.filter (·.1 = 0) = order := by
      rw [List.filter_eq_self]
      intro p hp
      by_contra hne
      have hp0 : p.1 ≠ 0 := by simpa using hne
      have hi := k1 p.1
      obtain ⟨n, hn⟩ := Nat.exists_eq_succ_of_ne_zero hp0
      rw [hn] at hi
      simp only [Nat.succ_eq_add_one, List.getElem?_cons_succ, List.getElem?_nil, Option.getD_none,
        List.map_eq_nil_iff, List.filter_eq_nil_iff] at hi
      exact hi p hp (by simp [hn])
    rw [hall] at h0
    simpa using h0
  rw [ho] at k3
  refine ⟨k2, k3, fun th hth => ?_⟩
  rw [k4 th hth, idsOf, ho]

/-! ## Where the property fails -/

instance (c : Cfg) : Decidable c.done := inferInstanceAs (Decidable (∀ th ∈ c.ths, th.todo = []))

/-- A recorder with four free slots, before a region at time 0. -/
def fresh : Shared := ⟨List.replicate 4 ("", []), 0, [], [], [], 1, none, false⟩

/-- The property does not hold for data recorded outside of critical sections, as `RecordTimeSeries` and the
explicit inventories do: two threads get the same slot, so that one datum is lost, the other has the values of
both, and a slot that nobody wrote is recorded. -/
theorem C107_fails_datum : ∃ sched c,
    exec 0 sched (start 0 fresh [[.datum "TimeSeriesPower" [.int 1]], [.datum "TimeSeriesSwu" [.int 2]]]) =
      some c ∧ c.done ∧
    c.sh.recorded = [("TimeSeriesSwu", [.int 1, .int 2]), ("", [])] :=
  ⟨[0, 1, 0, 0, 1, 1, 0, 0, 1, 1, 0, 1, 0, 1], _, rfl, by decide +kernel, by decide +kernel⟩

/-- Nor is every datum counted: with other turns, one increment of the index is lost, and a single datum is
recorded. -/
theorem C107_fails_count : ∃ sched c,
    exec 0 sched (start 0 fresh [[.datum "TimeSeriesPower" [.int 1]], [.datum "TimeSeriesSwu" [.int 2]]]) =
      some c ∧ c.done ∧ c.sh.recorded = [("TimeSeriesSwu", [.int 1, .int 2])] :=
  ⟨[0, 1, 0, 0, 1, 1, 0, 1, 0, 1, 0, 1, 0, 1], _, rfl, by decide +kernel, by decide +kernel⟩

/-- The property does not hold for critical sections either if another thread records outside of them. -/
theorem C107_fails_mixed : ∃ sched c,
    exec 0 sched (start 0 fresh [[.schedBuild 7 "reactor" 5], [.datum "TimeSeriesPower" [.int 2]]]) =
      some c ∧ c.done ∧ c.sh.builds = [(5, "reactor", 7)] ∧
    ∀ d ∈ c.sh.recorded, d.1 ≠ "BuildSchedule" :=
  ⟨[0, 0, 0, 1, 0, 0, 0, 0, 0, 0, 0, 0, 0, 0, 1, 1, 1, 1, 1, 1], _, rfl, by decide +kernel, by decide +kernel, by decide +kernel⟩

/-- The property does not hold for ids: two resources get the same state id. -/
theorem C107_fails_ids : ∃ sched c, exec 0 sched (start 0 fresh [[.bump], [.bump]]) = some c ∧ c.done ∧
    c.ths.map (·.regs.ids) = [[1], [1]] :=
  ⟨[0, 1, 0, 1, 0, 1], _, rfl, by decide +kernel, by decide +kernel⟩

/-- The property does not hold for the order: the same calls give the builds of the next time step in another
order, and hence other ids to the agents. -/
theorem C107_fails_order : ∃ sched sched' c c',
    exec 0 sched (start 0 fresh [[.schedBuild 7 "reactor" 1], [.schedBuild 8 "mine" 1]]) = some c ∧
    exec 0 sched' (start 0 fresh [[.schedBuild 7 "reactor" 1], [.schedBuild 8 "mine" 1]]) = some c' ∧
    c.done ∧ c'.done ∧ c.sh.builds = [(1, "reactor", 7), (1, "mine", 8)] ∧
    c'.sh.builds = [(1, "mine", 8), (1, "reactor", 7)] :=
  ⟨List.replicate 13 0 ++ List.replicate 13 1, List.replicate 13 1 ++ List.replicate 13 0, _, _, rfl, rfl,
    by decide +kernel, by decide +kernel, by decide +kernel, by decide +kernel⟩

/-- The property does not hold for exceptions: a build scheduled for the past ends the program in the middle of
the region, where the same call outside of it throws a `ValueError`; data that are not yet with the backends
are lost. -/
theorem C107_fails_throw : ∃ sched c,
    exec 0 sched (start 0 fresh [[.datum "TimeSeriesPower" [.int 1], .schedBuild 7 "reactor" 0]]) =
      some c ∧ c.sh.dead = true ∧ c.sh.got = [] ∧
    ∀ sched', exec 0 sched' c = some c := by
  refine ⟨List.replicate 9 0, _, rfl, by decide +kernel, by decide +kernel, ?_⟩
  intro sched'
  induction sched' with
  | nil => rfl
  | cons i is ih => exact ih

/-! ## Examples -/

/-- Hypotheses of `C107_critical_partial`, and an execution that ends. -/
example : fresh.Ready ∧ (∀ cs ∈ [[Call.schedBuild 7 "reactor" 1, .schedDecom 3 0], [.schedBuild 8 "mine" 4]],
    ∀ x ∈ cs, Valid 0 x) := by
  refine ⟨⟨by decide +kernel, rfl, rfl⟩, ?_⟩
  simp [Valid]

example : ∃ sched c, exec 0 sched (start 0 fresh
    [[.schedBuild 7 "reactor" 1, .schedDecom 3 0], [.schedBuild 8 "mine" 4]]) = some c ∧ c.done ∧
    c.sh.recorded = [("BuildSchedule", [.int 7, .str "reactor", .int 0, .int 1]),
      ("BuildSchedule", [.int 8, .str "mine", .int 0, .int 4]),
      ("DecomSchedule", [.int 3, .int 0, .int 0])] :=
  ⟨[0, 1] ++ List.replicate 11 0 ++ [1, 0, 1] ++ List.replicate 20 1 ++ List.replicate 20 0, _, rfl, by decide +kernel,
    by decide +kernel⟩

end C107

end Cyclus.Par
