import Verif.Spec.CycppScan

/-!
# The stacks of the preprocessor follow the blocks
-/

namespace Cyclus.CycppScan

variable {τ α : Type}

/-- The accumulator at a place. -/
structure At (e : Env) (s : State τ α) : Prop where
  depth : s.depth = e.level
  nss : nsNames s.namespaces = some e.nss
  classes : s.classes.reverse.map (·.2) = e.classes
  usings : s.usings = e.usings
  aliases : s.aliases = e.aliases
  ann : s.ann = none
  lowC : ∀ x ∈ s.classes, x.1 < s.depth
  lowN : ∀ x ∈ s.namespaces, x.1 < s.depth
  lowU : ∀ x ∈ s.usings, x.1 ≤ s.depth
  lowA : ∀ x ∈ s.aliases, x.1 ≤ s.depth

/-- The tables of an accumulator. -/
def State.store (s : State τ α) : Store τ α := ⟨s.supers, s.context⟩

/-- The accumulator with other tables, namespaces used and aliases. -/
def State.withStore (s : State τ α) (e : Env) (t : Store τ α) : State τ α :=
  { s with usings := e.usings, aliases := e.aliases, supers := t.supers, context := t.context }

theorem at_scope {e : Env} {s : State τ α} (h : At e s) : scopeOf s = .ok e.scope := by
  simp [scopeOf, h.nss, h.classes, Env.scope]

theorem popAt_low {β : Type} {d : ℤ} {l : List (ℤ × β)} (h : ∀ x ∈ l, x.1 < d) : popAt d l = l := by
  cases l with
  | nil => rfl
  | cons p l =>
    have := h p (by simp)
    simp only [popAt]
    rw [if_neg (by omega)]

theorem run_append (canon : List (ℤ × Str) → List (ℤ × Str × Str) → Str → Except Err τ) (fuel : ℕ)
    (a b : List (Stmt α × Sep)) (s : State τ α) :
    run canon fuel (a ++ b) s = (run canon fuel a s).bind (run canon fuel b) := by
  induction a generalizing s with
  | nil => rfl
  | cons x a ih =>
    simp only [List.cons_append, run]
    cases accumulate canon fuel x s with
    | error e => rfl
    | ok s' => exact ih s'

theorem applyAll_append (canon : List (ℤ × Str) → List (ℤ × Str × Str) → Str → Except Err τ) (fuel : ℕ)
    (a b : List (Event α)) (t : Store τ α) :
    applyAll canon fuel (a ++ b) t = (applyAll canon fuel a t).bind (applyAll canon fuel b) := by
  induction a generalizing t with
  | nil => rfl
  | cons x a ih =>
    simp only [List.cons_append, applyAll]
    cases x.apply canon fuel t with
    | error e => rfl
    | ok t' => exact ih t'

/-- Reverting changes nothing at a place if no block ends. -/
theorem revert_other {e : Env} {s : State τ α} (h : At e s) : revert .other s = s := by
  simp [revert, popAt_low h.lowC, popAt_low h.lowN]

theorem low_insertNew {β : Type} [DecidableEq β] {d : ℤ} {l : List (ℤ × β)} {y : β} (h : ∀ x ∈ l, x.1 ≤ d) :
    ∀ x ∈ insertNew (d, y) l, x.1 ≤ d := by
  intro x hx
  unfold insertNew at hx
  split at hx
  · exact h x hx
  · rcases List.mem_append.mp hx with hx | hx
    · exact h x hx
    · rw [List.mem_singleton] at hx
      subst hx
      exact le_refl _

theorem at_use {e : Env} {s : State τ α} (h : At e s) (n : Str) :
    At (e.use n) { s with usings := insertNew (s.depth, n) s.usings } :=
  ⟨h.depth, h.nss, h.classes, by simp [Env.use, h.depth, h.usings], h.aliases, h.ann, h.lowC, h.lowN,
    low_insertNew h.lowU, h.lowA⟩

theorem at_call {e : Env} {s : State τ α} (h : At e s) (n a : Str) :
    At (e.call n a) { s with aliases := insertNew (s.depth, n, a) s.aliases } :=
  ⟨h.depth, h.nss, h.classes, h.usings, by simp [Env.call, h.depth, h.aliases], h.ann, h.lowC, h.lowN, h.lowU,
    low_insertNew h.lowA⟩

theorem at_calls {e : Env} {s : State τ α} (h : At e s) (t : Str) (ns : List Str) :
    At (ns.foldl (fun e a => e.call t a) e)
      { s with aliases := ns.foldl (fun l a => insertNew (s.depth, t, a) l) s.aliases } := by
  induction ns generalizing e s with
  | nil => exact h
  | cons n ns ih => exact ih (at_call h t n)

/-- The accumulator with other tables is at the same place. -/
theorem at_with {e e' : Env} {s : State τ α} (h : At e s) (t : Store τ α) (hl : e'.level = e.level)
    (hn : e'.nss = e.nss) (hc : e'.classes = e.classes) (hu : ∀ x ∈ e'.usings, x.1 ≤ (e.level : ℤ))
    (ha : ∀ x ∈ e'.aliases, x.1 ≤ (e.level : ℤ)) : At e' (s.withStore e' t) :=
  ⟨by rw [hl]; exact h.depth, by rw [hn]; exact h.nss, by rw [hc]; exact h.classes, rfl, rfl, h.ann, h.lowC, h.lowN,
    by intro x hx; have := hu x hx; simp only [State.withStore, h.depth]; exact this,
    by intro x hx; have := ha x hx; simp only [State.withStore, h.depth]; exact this⟩

/-! ## Items that leave the place as it is -/

/-- What an item adds to the namespaces used and the aliases. -/
structure Grows (e e' : Env) : Prop where
  level : e'.level = e.level
  nss : e'.nss = e.nss
  classes : e'.classes = e.classes
  usings : ∃ l, e'.usings = e.usings ++ l ∧ ∀ x ∈ l, x.1 = (e.level : ℤ)
  aliases : ∃ l, e'.aliases = e.aliases ++ l ∧ ∀ x ∈ l, x.1 = (e.level : ℤ)

theorem Grows.refl (e : Env) : Grows e e :=
  ⟨rfl, rfl, rfl, ⟨[], by simp, by simp⟩, ⟨[], by simp, by simp⟩⟩

theorem Grows.trans {a b c : Env} (h : Grows a b) (k : Grows b c) : Grows a c := by
  obtain ⟨l, hl, hl'⟩ := h.usings
  obtain ⟨m, hm, hm'⟩ := k.usings
  obtain ⟨p, hp, hp'⟩ := h.aliases
  obtain ⟨q, hq, hq'⟩ := k.aliases
  refine ⟨by rw [k.level, h.level], by rw [k.nss, h.nss], by rw [k.classes, h.classes],
    ⟨l ++ m, by rw [hm, hl, List.append_assoc], ?_⟩, ⟨p ++ q, by rw [hq, hp, List.append_assoc], ?_⟩⟩
  · intro x hx
    rcases List.mem_append.mp hx with hx | hx
    · exact hl' x hx
    · rw [hm' x hx, h.level]
  · intro x hx
    rcases List.mem_append.mp hx with hx | hx
    · exact hp' x hx
    · rw [hq' x hx, h.level]

theorem insertNew_grows {β : Type} [DecidableEq β] (d : ℤ) (y : β) (l : List (ℤ × β)) :
    ∃ m, insertNew (d, y) l = l ++ m ∧ ∀ x ∈ m, x.1 = d := by
  unfold insertNew
  split
  · exact ⟨[], by simp, by simp⟩
  · exact ⟨[(d, y)], rfl, by simp⟩

theorem grows_use (e : Env) (n : Str) : Grows e (e.use n) :=
  ⟨rfl, rfl, rfl, insertNew_grows _ _ _, ⟨[], by simp [Env.use], by simp⟩⟩

theorem grows_call (e : Env) (n a : Str) : Grows e (e.call n a) :=
  ⟨rfl, rfl, rfl, ⟨[], by simp [Env.call], by simp⟩, insertNew_grows _ _ _⟩

theorem grows_calls (e : Env) (t : Str) (ns : List Str) : Grows e (ns.foldl (fun e a => e.call t a) e) := by
  induction ns generalizing e with
  | nil => exact .refl e
  | cons n ns ih => exact (grows_call e t n).trans (ih _)

theorem grows_item (e : Env) (i : Item α) : Grows e (afterItem e i) := by
  cases i with
  | usingNs n => exact grows_use e n
  | nsAlias a n => exact grows_call e n a
  | typedef t ns => exact grows_calls e t ns
  | usingName n =>
    simp only [afterItem]
    cases lastPart n with
    | none => exact .refl e
    | some a => exact grows_call e n a
  | _ => exact .refl e

theorem grows_after (e : Env) (is : List (Item α)) : Grows e (after e is) := by
  induction is generalizing e with
  | nil => exact .refl e
  | cons i is ih => exact (grows_item e i).trans (ih _)

/-- What is left of the additions of a block when it ends. -/
theorem filter_back {β : Type} {d : ℤ} {l m : List (ℤ × β)} (hl : ∀ x ∈ l, x.1 ≤ d) (hm : ∀ x ∈ m, x.1 = d + 1) :
    (l ++ m).filter (fun x => x.1 ≤ d) = l := by
  rw [List.filter_append, List.filter_eq_self.mpr (by simpa using fun a b h => hl (a, b) h),
    List.filter_eq_nil_iff.mpr (by intro x hx; have := hm x hx; simp; omega), List.append_nil]

/-- A block: what is opened is closed again. -/
theorem block_back {e e1 : Env} {s s1 : State τ α} (h : At e s) (h1 : At e1 s1) (t : Store τ α)
    (is : List (Item α)) (hl : e1.level = e.level + 1) (hu : e1.usings = e.usings) (ha : e1.aliases = e.aliases)
    (hc : popAt s.depth s1.classes = s.classes) (hn : popAt s.depth s1.namespaces = s.namespaces) :
    revert .closed { s1.withStore (after e1 is) t with depth := (s1.withStore (after e1 is) t).depth - 1 } =
      s.withStore e t := by
  have hd : s1.depth - 1 = s.depth := by rw [h1.depth, hl, h.depth]; push_cast; omega
  obtain ⟨m, hm, hm'⟩ := (grows_after e1 is).usings
  obtain ⟨p, hp, hp'⟩ := (grows_after e1 is).aliases
  simp only [revert, State.withStore, hd, hc, hn, if_true]
  rw [hm, hp, hu, ha, filter_back (by rw [← h.usings]; exact h.lowU)
      (by intro x hx; rw [hm' x hx, hl, h.depth]; push_cast; rfl),
    filter_back (by rw [← h.aliases]; exact h.lowA)
      (by intro x hx; rw [hp' x hx, hl, h.depth]; push_cast; rfl)]
  simp [h.ann, h1.ann]

section
variable (canon : List (ℤ × Str) → List (ℤ × Str × Str) → Str → Except Err τ) (fuel : ℕ)

theorem withStore_self {e : Env} {s : State τ α} (h : At e s) : s.withStore e s.store = s := by
  cases s
  simp [State.withStore, State.store, ← h.usings, ← h.aliases]

/-- The accumulator after the head of a class. -/
theorem onClass_eq {e : Env} {s : State τ α} (h : At e s) (n : Str) (bs : List Str) :
    onClass fuel n bs s =
      ((Event.cls (e.inClass n) bs : Event α).apply canon fuel s.store).map fun t =>
        { s with classes := (s.depth, n) :: s.classes, supers := t.supers, context := t.context } := by
  have hs : scopeOf { s with classes := (s.depth, n) :: s.classes } = .ok (e.inClass n).scope := by
    simp [scopeOf, h.nss, Env.inClass, Env.scope, ← h.classes]
  simp only [onClass, bind, Except.bind, hs, Event.apply, State.store, Env.name]
  simp only [Env.inClass, ← h.usings, ← h.aliases]
  cases addSupers (canonizeClass (knows (put (join (Env.scope _)) _ _)) _ _ _ fuel true) _ bs with
  | error x => rfl
  | ok sc => rfl

/-- The accumulator after a declaration with a pragma. -/
theorem onDecl_eq {e : Env} {s : State τ α} (h : At e s) (a : Pragma α) (ty x : Str) :
    onDecl canon fuel ty x { s with ann := some a } =
      ((Event.var e a ty x : Event α).apply canon fuel s.store).map fun t => s.withStore e t := by
  have hs : className { s with ann := some a } = .ok e.name := by
    simp [className, scopeOf, h.nss, h.classes, Env.name, Env.scope, Except.map]
  have hc : s.classes.isEmpty = e.classes.isEmpty := by
    rw [← h.classes]; simp
  simp only [onDecl, bind, Except.bind, hs, Event.apply, State.store, hc]
  cases e.classes.isEmpty with
  | true => rfl
  | false =>
    simp only [Bool.false_eq_true, if_false]
    cases ensure fuel e.name s.supers s.context with
    | error x => rfl
    | ok c =>
      simp only [h.usings, h.aliases]
      cases canon e.usings e.aliases ty with
      | error x => rfl
      | ok ty => simp [Except.map, State.withStore, h.ann, h.usings, h.aliases]

/-- A statement that ends without a block and that changes the place only. -/
theorem run_plain {e e' : Env} {s s' : State τ α} {st : Stmt α} (ht : transform canon fuel st s = .ok s')
    (h' : At e' s') (hs : s'.store = s.store) (hd : s'.classes = s.classes) (hn : s'.namespaces = s.namespaces)
    (hl : s'.depth = s.depth) (h : At e s) :
    run canon fuel [(st, .other)] s = .ok (s.withStore e' s.store) := by
  simp only [run, accumulate, ht, newDepth]
  have : ({ s' with depth := s'.depth } : State τ α) = s' := rfl
  rw [this, revert_other h']
  have h1 : s'.supers = s.supers := congrArg Store.supers hs
  have h2 : s'.context = s.context := congrArg Store.context hs
  have h3 : s'.ann = s.ann := by rw [h.ann, h'.ann]
  have h4 := h'.usings
  have h5 := h'.aliases
  cases s'
  simp only at hd hn hl h1 h2 h3 h4 h5
  simp only [State.withStore, State.store, hd, hn, hl, h1, h2, h3, h4, h5]

theorem at_deeper {e : Env} {s : State τ α} (h : At e s) : At e.deeper { s with depth := s.depth + 1 } :=
  ⟨by simp [Env.deeper, h.depth], h.nss, h.classes, h.usings, h.aliases, h.ann,
    fun x hx => by have := h.lowC x hx; simp only; omega, fun x hx => by have := h.lowN x hx; simp only; omega,
    fun x hx => by have := h.lowU x hx; simp only; omega, fun x hx => by have := h.lowA x hx; simp only; omega⟩

theorem at_ns {e : Env} {s : State τ α} (h : At e s) (n : Str) :
    At (e.inNs n).deeper { s with namespaces := (s.depth, some n) :: s.namespaces, depth := s.depth + 1 } := by
  refine ⟨by simp [Env.deeper, Env.inNs, h.depth], by simp [nsNames, h.nss, Env.deeper, Env.inNs], h.classes, h.usings,
    h.aliases, h.ann, fun x hx => ?_, fun x hx => ?_, fun x hx => ?_, fun x hx => ?_⟩
  · have := h.lowC x hx; simp only; omega
  · rcases List.mem_cons.mp hx with rfl | hx
    · simp
    · have := h.lowN x hx; simp only; omega
  · have := h.lowU x hx; simp only; omega
  · have := h.lowA x hx; simp only; omega

theorem at_cls {e : Env} {s : State τ α} (h : At e s) (n : Str) (t : Store τ α) :
    At (e.inClass n).deeper { s with
      classes := (s.depth, n) :: s.classes, supers := t.supers, context := t.context, depth := s.depth + 1 } := by
  refine ⟨by simp [Env.deeper, Env.inClass, h.depth], h.nss, by simp [Env.deeper, Env.inClass, ← h.classes], h.usings,
    h.aliases, h.ann, fun x hx => ?_, fun x hx => ?_, fun x hx => ?_, fun x hx => ?_⟩
  · rcases List.mem_cons.mp hx with rfl | hx
    · simp
    · have := h.lowC x hx; simp only; omega
  · have := h.lowN x hx; simp only; omega
  · have := h.lowU x hx; simp only; omega
  · have := h.lowA x hx; simp only; omega

/-- A block after its head. -/
theorem run_block {e e1 : Env} {s s1 : State τ α} (h : At e s) (h1 : At e1 s1) (b : List (Item α))
    (ih : run canon fuel (flat b) s1 =
      (applyAll canon fuel (events e1 b) s1.store).map fun t => s1.withStore (after e1 b) t)
    (hl : e1.level = e.level + 1) (hu : e1.usings = e.usings) (ha : e1.aliases = e.aliases)
    (hc : popAt s.depth s1.classes = s.classes) (hn : popAt s.depth s1.namespaces = s.namespaces) :
    run canon fuel (flat b ++ [(.other, .closed)]) s1 =
      (applyAll canon fuel (events e1 b) s1.store).map fun t => s.withStore e t := by
  rw [run_append, ih]
  cases applyAll canon fuel (events e1 b) s1.store with
  | error x => rfl
  | ok t =>
    have := block_back h h1 t b hl hu ha hc hn
    simp only [Except.map, Except.bind, run, accumulate, transform, newDepth]
    exact congrArg Except.ok this

theorem popAt_head {β : Type} (d : ℤ) (x : β) (l : List (ℤ × β)) : popAt d ((d, x) :: l) = l := by
  simp [popAt]

mutual

theorem run_flatItem {e : Env} {s : State τ α} (h : At e s) : (i : Item α) →
    run canon fuel (flatItem i) s =
      (applyAll canon fuel (eventsItem e i) s.store).map fun t => s.withStore (afterItem e i) t
  | .ns n b => by
    have h1 := at_ns h n
    have := run_block canon fuel h h1 b (run_flat h1 b) rfl rfl rfl (popAt_low h.lowC) (popAt_head _ _ _)
    simp only [flatItem, run, accumulate, transform, newDepth, revert]
    rw [popAt_low h1.lowC, popAt_low h1.lowN]
    simpa [eventsItem, afterItem, State.store] using this
  | .cls n bs b => by
    simp only [flatItem, run, accumulate, transform, newDepth, revert, onClass_eq canon fuel h, eventsItem, applyAll,
      afterItem]
    cases (Event.cls (e.inClass n) bs : Event α).apply canon fuel s.store with
    | error x => rfl
    | ok t =>
      have h1 := at_cls h n t
      have := run_block canon fuel h h1 b (run_flat h1 b) rfl rfl rfl (popAt_head _ _ _) (popAt_low h.lowN)
      simp only [Except.map]
      rw [popAt_low h1.lowC, popAt_low h1.lowN]
      exact this
  | .fwd n => by
    simp only [flatItem, run, accumulate, transform, newDepth, revert, onClass_eq canon fuel h, eventsItem, applyAll,
      afterItem]
    cases (Event.cls (e.inClass n) [] : Event α).apply canon fuel s.store with
    | error x => rfl
    | ok t =>
      simp [Except.map, popAt_head, popAt_low h.lowN, State.withStore, h.usings, h.aliases]
  | .block b => by
    have h1 := at_deeper h
    have := run_block canon fuel h h1 b (run_flat h1 b) rfl rfl rfl (popAt_low h.lowC) (popAt_low h.lowN)
    simp only [flatItem, run, accumulate, transform, newDepth, revert]
    rw [popAt_low h1.lowC, popAt_low h1.lowN]
    simpa [eventsItem, afterItem, State.store] using this
  | .usingNs n => by
    simp only [flatItem, eventsItem, applyAll, Except.map, afterItem]
    exact run_plain canon fuel rfl (at_use h n) rfl rfl rfl rfl h
  | .nsAlias a n => by
    simp only [flatItem, eventsItem, applyAll, Except.map, afterItem]
    exact run_plain canon fuel rfl (at_call h n a) rfl rfl rfl rfl h
  | .typedef t ns => by
    simp only [flatItem, eventsItem, applyAll, Except.map, afterItem]
    exact run_plain canon fuel rfl (at_calls h t ns) rfl rfl rfl rfl h
  | .usingName n => by
    simp only [flatItem, eventsItem, applyAll, Except.map, afterItem]
    cases hn : lastPart n with
    | none => exact run_plain canon fuel (by simp only [transform, hn]) h rfl rfl rfl rfl h
    | some a => exact run_plain canon fuel (by simp only [transform, hn]) (at_call h n a) rfl rfl rfl rfl h
  | .var a t x => by
    have hr : revert .other { s with ann := some a, depth := s.depth } = { s with ann := some a } := by
      simp [revert, popAt_low h.lowC, popAt_low h.lowN]
    simp only [flatItem, run, accumulate, transform, newDepth, hr, onDecl_eq canon fuel h, eventsItem, applyAll,
      afterItem]
    cases (Event.var e a t x : Event α).apply canon fuel s.store with
    | error x => rfl
    | ok t =>
      simp [Except.map, revert, popAt_low h.lowC, popAt_low h.lowN, State.withStore]
  | .plain t x => by
    simp only [flatItem, eventsItem, applyAll, Except.map, afterItem]
    exact run_plain canon fuel (by simp only [transform, onDecl, h.ann]) h rfl rfl rfl rfl h
  | .other => by
    simp only [flatItem, eventsItem, applyAll, Except.map, afterItem]
    exact run_plain canon fuel rfl h rfl rfl rfl rfl h

theorem run_flat {e : Env} {s : State τ α} (h : At e s) : (is : List (Item α)) →
    run canon fuel (flat is) s =
      (applyAll canon fuel (events e is) s.store).map fun t => s.withStore (after e is) t
  | [] => by
    simp only [flat, run, events, applyAll, after, Except.map, withStore_self h]
  | i :: is => by
    simp only [flat, events, after]
    rw [run_append, applyAll_append, run_flatItem h i]
    cases applyAll canon fuel (eventsItem e i) s.store with
    | error x => rfl
    | ok t =>
      obtain ⟨l, hl, hl'⟩ := (grows_item e i).usings
      obtain ⟨m, hm, hm'⟩ := (grows_item e i).aliases
      have h1 : At (afterItem e i) (s.withStore (afterItem e i) t) := by
        refine at_with h t (grows_item e i).level (grows_item e i).nss (grows_item e i).classes ?_ ?_
        · intro x hx
          rw [hl] at hx
          rcases List.mem_append.mp hx with hx | hx
          · have := h.lowU x (by rw [h.usings]; exact hx)
            rw [h.depth] at this; exact this
          · exact (hl' x hx).le
        · intro x hx
          rw [hm] at hx
          rcases List.mem_append.mp hx with hx | hx
          · have := h.lowA x (by rw [h.aliases]; exact hx)
            rw [h.depth] at this; exact this
          · exact (hm' x hx).le
      have := run_flat h1 is
      simp only [Except.map, Except.bind] at this ⊢
      rw [this]
      rfl

end

end

/-! ## Dictionaries -/

theorem lookup_put_self {β : Type} (k : Str) (v : β) (l : List (Str × β)) : (put k v l).lookup k = some v := by
  induction l with
  | nil => simp [put, List.lookup]
  | cons p l ih =>
    simp only [put]
    split
    · simp [List.lookup]
    · rename_i h
      rw [List.lookup_cons]
      have : (k == p.1) = false := by simpa [beq_eq_false_iff_ne] using fun e => h e.symm
      simp [this, ih]

theorem lookup_put_ne {β : Type} {k j : Str} (h : j ≠ k) (v : β) (l : List (Str × β)) :
    (put k v l).lookup j = l.lookup j := by
  have hjk : (j == k) = false := by simpa [beq_eq_false_iff_ne] using h
  induction l with
  | nil => simp [put, List.lookup, hjk]
  | cons p l ih =>
    simp only [put]
    split
    · rename_i e
      rw [List.lookup_cons, List.lookup_cons, e]
      simp [hjk]
    · rw [List.lookup_cons, List.lookup_cons, ih]

theorem mem_put {β : Type} {k : Str} {v : β} {l : List (Str × β)} {p : Str × β} (h : p ∈ put k v l) :
    p = (k, v) ∨ p ∈ l := by
  induction l with
  | nil => left; simpa [put] using h
  | cons q l ih =>
    simp only [put] at h
    split at h
    · rcases List.mem_cons.mp h with h | h
      · exact .inl h
      · exact .inr (List.mem_cons_of_mem _ h)
    · rcases List.mem_cons.mp h with h | h
      · exact .inr (by simp [h])
      · rcases ih h with h | h
        · exact .inl h
        · exact .inr (List.mem_cons_of_mem _ h)

theorem put_new {β : Type} {k : Str} {v : β} {l : List (Str × β)} (h : ∀ p ∈ l, p.1 ≠ k) :
    put k v l = l ++ [(k, v)] := by
  induction l with
  | nil => rfl
  | cons p l ih =>
    simp only [put]
    rw [if_neg (h p (by simp)), ih fun q hq => h q (List.mem_cons_of_mem _ hq)]
    rfl

theorem length_put {β : Type} (k : Str) (v : β) (l : List (Str × β)) : l.length ≤ (put k v l).length := by
  induction l with
  | nil => simp
  | cons p l ih =>
    simp only [put]
    split
    · simp
    · simpa using ih

theorem knows_put {k c : Str} {v : List Str} {l : List (Str × List Str)} :
    knows (put k v l) c = true ↔ c = k ∨ knows l c = true := by
  unfold knows
  induction l with
  | nil => simp [put, eq_comm]
  | cons p l ih =>
    simp only [put]
    split
    · rename_i e
      simp only [List.any_cons, Bool.or_eq_true, decide_eq_true_eq, e]
      constructor
      · rintro (h | h)
        · exact .inl h.symm
        · exact .inr (.inr h)
      · rintro (h | h | h)
        · exact .inl h.symm
        · exact .inl h
        · exact .inr h
    · simp only [List.any_cons, Bool.or_eq_true, decide_eq_true_eq, ih]
      tauto

/-! ## The table of entries of a class -/

theorem stateVars_append (a b : List (Str × Entry τ α)) : stateVars (a ++ b) = stateVars a ++ stateVars b := by
  simp [stateVars]

theorem indices_append (a b : List (Str × Entry τ α)) : indices (a ++ b) = indices a ++ indices b := by
  simp [indices]

/-- A pointer that takes the place of no variable. -/
theorem put_pointer {k x : Str} {l : List (Str × Entry τ α)}
    (h : ∀ p ∈ l, p.1 = k → ∃ y, p.2 = .pointer y) :
    stateVars (put k (.pointer x) l) = stateVars l ∧ indices (put k (.pointer x) l) = indices l := by
  induction l with
  | nil => exact ⟨rfl, rfl⟩
  | cons p l ih =>
    obtain ⟨i1, i2⟩ := ih fun q hq => h q (List.mem_cons_of_mem _ hq)
    simp only [put]
    split
    · rename_i e
      obtain ⟨y, hy⟩ := h p (by simp) e
      simp [stateVars, indices, hy]
    · simp only [stateVars, indices, List.filterMap_cons] at i1 i2 ⊢
      constructor
      · split
        · exact i1
        · rw [i1]
      · split
        · exact i2
        · rw [i2]

section
variable (canon : List (ℤ × Str) → List (ℤ × Str × Str) → Str → Except Err τ) (fuel : ℕ)

/-- The variables of a class that are found in the order of their declarations. -/
def found (ds : List (Env × Pragma α × Str × Str)) : List (Str × τ × Pragma α) :=
  ds.filterMap fun d => ((canon d.1.usings d.1.aliases d.2.2.1).toOption).map fun ty => (d.2.2.2, ty, d.2.1)

/-- The entries are those of the declarations so far. -/
structure Good (ds : List (Env × Pragma α × Str × Str)) (l : List (Str × Entry τ α)) : Prop where
  vars : stateVars l = found canon ds
  ok : ∀ d ∈ ds, ∃ ty, canon d.1.usings d.1.aliases d.2.2.1 = .ok ty
  isVar : ∀ k ty i a, (k, Entry.var ty i a) ∈ l → k ∈ ds.map (·.2.2.2)
  isPtr : ∀ k x, (k, Entry.pointer x) ∈ l → ∃ d ∈ ds, d.2.1.label = some k
  order : (indices l).Pairwise (· < ·)
  bound : ∀ i ∈ indices l, i < l.length

theorem good_nil : Good (τ := τ) (α := α) canon [] [] :=
  ⟨rfl, by simp, by simp, by simp, by simp [indices], by simp [indices]⟩

theorem good_add {ds : List (Env × Pragma α × Str × Str)} {l : List (Str × Entry τ α)} (h : Good canon ds l)
    (d : Env × Pragma α × Str × Str) (hc : Clean (ds ++ [d])) {ty : τ}
    (ht : canon d.1.usings d.1.aliases d.2.2.1 = .ok ty) :
    Good canon (ds ++ [d]) (addVar d.2.2.2 ty d.2.1 l) := by
  obtain ⟨nd, nl⟩ := hc
  have hnew : ∀ p ∈ l, p.1 ≠ d.2.2.2 := by
    rintro ⟨k, e⟩ hp hk
    simp only at hk
    cases e with
    | var t i a =>
      have := h.isVar k t i a hp
      rw [List.map_append, List.nodup_append] at nd
      exact nd.2.2 k this d.2.2.2 (by simp) hk
    | pointer x =>
      obtain ⟨d', hd', hl⟩ := h.isPtr k x hp
      refine nl d' (by simp [hd']) k hl ?_
      simp [hk]
  have hput := put_new (v := Entry.var ty l.length d.2.1) hnew
  have base : Good canon (ds ++ [d]) (l ++ [(d.2.2.2, Entry.var ty l.length d.2.1)]) := by
    refine ⟨?_, ?_, ?_, ?_, ?_, ?_⟩
    · rw [stateVars_append, h.vars]
      simp [stateVars, found, ht, Except.toOption]
    · intro d' hd'
      rcases List.mem_append.mp hd' with hd' | hd'
      · exact h.ok d' hd'
      · rw [List.mem_singleton] at hd'
        subst hd'
        exact ⟨ty, ht⟩
    · intro k t i a hk
      rcases List.mem_append.mp hk with hk | hk
      · have := h.isVar k t i a hk
        rw [List.map_append]
        exact List.mem_append_left _ this
      · simp only [List.mem_singleton, Prod.mk.injEq] at hk
        simp [hk.1]
    · intro k x hk
      rcases List.mem_append.mp hk with hk | hk
      · obtain ⟨d', hd', hl⟩ := h.isPtr k x hk
        exact ⟨d', by simp [hd'], hl⟩
      · simp at hk
    · rw [indices_append, List.pairwise_append]
      refine ⟨h.order, by simp [indices], ?_⟩
      intro i hi j hj
      simp only [indices, List.filterMap_cons, List.filterMap_nil, List.mem_singleton] at hj
      rw [hj]
      exact h.bound i hi
    · intro i hi
      rw [indices_append] at hi
      rw [List.length_append]
      rcases List.mem_append.mp hi with hi | hi
      · have := h.bound i hi
        omega
      · simp only [indices, List.filterMap_cons, List.filterMap_nil, List.mem_singleton] at hi
        rw [hi]
        simp
  unfold addVar
  simp only [hput]
  cases hl : d.2.1.label with
  | none => exact base
  | some k =>
    have hp : ∀ p ∈ l ++ [(d.2.2.2, Entry.var ty l.length d.2.1)], p.1 = k → ∃ y, p.2 = .pointer y := by
      rintro ⟨k', e⟩ hp hk
      simp only at hk
      subst hk
      cases e with
      | pointer y => exact ⟨y, rfl⟩
      | var t i a => exact absurd (base.isVar k' t i a hp) (nl d (by simp) k' hl)
    obtain ⟨e1, e2⟩ := put_pointer (x := d.2.2.2) hp
    refine ⟨by rw [e1]; exact base.vars, base.ok, ?_, ?_, by rw [e2]; exact base.order, ?_⟩
    · intro k' t i a hk
      rcases mem_put hk with hk | hk
      · simp at hk
      · exact base.isVar k' t i a hk
    · intro k' x hk
      rcases mem_put hk with hk | hk
      · simp only [Prod.mk.injEq] at hk
        exact ⟨d, by simp, by rw [hk.1, hl]⟩
      · exact base.isPtr k' x hk
    · intro i hi
      rw [e2] at hi
      exact lt_of_lt_of_le (base.bound i hi) (length_put _ _ _)

theorem entriesOf_put (cn k : Str) (c : Class τ α) (l : List (Str × Class τ α)) :
    entriesOf cn (put k c l) = if k = cn then c.vars else entriesOf cn l := by
  unfold entriesOf
  by_cases e : k = cn
  · subst e
    rw [lookup_put_self, if_pos rfl]
  · rw [lookup_put_ne (fun h => e h.symm), if_neg e]

theorem ensure_vars {fuel : ℕ} {cn : Str} {supers : List (Str × List Str)} {context : List (Str × Class τ α)}
    {c : Class τ α} (h : ensure fuel cn supers context = .ok c) : c.vars = entriesOf cn context := by
  unfold ensure at h
  unfold entriesOf
  cases hl : context.lookup cn with
  | some c' =>
    rw [hl] at h
    cases h
    rfl
  | none =>
    rw [hl] at h
    simp only at h
    split at h
    · cases h
    · split at h
      · cases h
      · cases h
        rfl

theorem good_fold {cn : Str} (vs : List (Event α)) {t t' : Store τ α} (h : applyAll canon fuel vs t = .ok t')
    {ds : List (Env × Pragma α × Str × Str)} (hc : Clean (ds ++ varsOf cn vs))
    (hg : Good canon ds (entriesOf cn t.context)) :
    Good canon (ds ++ varsOf cn vs) (entriesOf cn t'.context) := by
  induction vs generalizing t ds with
  | nil =>
    simp only [applyAll, Except.ok.injEq] at h
    subst h
    simpa [varsOf] using hg
  | cons v vs ih =>
    simp only [applyAll] at h
    split at h
    · cases h
    · rename_i t1 h1
      cases v with
      | cls e bs =>
        simp only [Event.apply] at h1
        split at h1
        · cases h1
        · cases h1
          exact ih h hc hg
      | var e a ty x =>
        simp only [Event.apply] at h1
        split at h1
        · cases h1
        · split at h1
          · cases h1
          · rename_i c hctx
            split at h1
            · cases h1
            · rename_i ty' hty
              cases h1
              simp only [varsOf] at hc ⊢
              by_cases hn : e.name = cn
              · rw [if_pos hn] at hc ⊢
                have happ : ds ++ (e, a, ty, x) :: varsOf cn vs = (ds ++ [(e, a, ty, x)]) ++ varsOf cn vs := by simp
                rw [happ] at hc ⊢
                refine ih h hc ?_
                simp only [entriesOf_put, if_pos hn]
                have hcv : c.vars = entriesOf cn t.context := by
                  subst hn
                  exact ensure_vars hctx
                rw [hcv]
                refine good_add canon hg (e, a, ty, x) ?_ hty
                constructor
                · have := hc.1
                  rw [List.map_append] at this
                  exact (List.nodup_append.mp this).1
                · intro d hd l hl hm
                  refine hc.2 d (by simp only [List.mem_append] at hd ⊢; exact .inl hd) l hl ?_
                  rw [List.map_append]
                  exact List.mem_append_left _ hm
              · rw [if_neg hn] at hc ⊢
                refine ih h hc ?_
                simp only [entriesOf_put, if_neg hn]
                exact hg

/-- The aliases lead to their variables. -/
theorem ptr_add {ds : List (Env × Pragma α × Str × Str)} {l : List (Str × Entry τ α)} (ty : τ)
    (d : Env × Pragma α × Str × Str) (hc : Clean (ds ++ [d]))
    (hl : ((ds ++ [d]).filterMap (·.2.1.label)).Nodup)
    (h : ∀ d ∈ ds, ∀ k, d.2.1.label = some k → l.lookup k = some (.pointer d.2.2.2)) :
    ∀ d' ∈ ds ++ [d], ∀ k, d'.2.1.label = some k →
      (addVar d.2.2.2 ty d.2.1 l).lookup k = some (.pointer d'.2.2.2) := by
  intro d' hd' k hk
  have hne : k ≠ d.2.2.2 := by
    intro e
    exact hc.2 d' hd' k hk (by simp [e])
  unfold addVar
  rcases List.mem_append.mp hd' with hd | hd
  · cases hlab : d.2.1.label with
    | none =>
      simp only
      rw [lookup_put_ne hne]
      exact h d' hd k hk
    | some j =>
      have hj : k ≠ j := by
        intro e
        rw [List.filterMap_append, List.nodup_append] at hl
        refine hl.2.2 k (List.mem_filterMap.mpr ⟨d', hd, hk⟩) j ?_ e
        simp [hlab]
      simp only
      rw [lookup_put_ne hj, lookup_put_ne hne]
      exact h d' hd k hk
  · rw [List.mem_singleton] at hd
    subst hd
    simp only [hk]
    exact lookup_put_self _ _ _

theorem ptr_fold {cn : Str} (vs : List (Event α)) {t t' : Store τ α} (h : applyAll canon fuel vs t = .ok t')
    {ds : List (Env × Pragma α × Str × Str)} (hc : Clean (ds ++ varsOf cn vs))
    (hl : ((ds ++ varsOf cn vs).filterMap (·.2.1.label)).Nodup)
    (hg : ∀ d ∈ ds, ∀ k, d.2.1.label = some k → (entriesOf cn t.context).lookup k = some (.pointer d.2.2.2)) :
    ∀ d ∈ ds ++ varsOf cn vs, ∀ k, d.2.1.label = some k →
      (entriesOf cn t'.context).lookup k = some (.pointer d.2.2.2) := by
  induction vs generalizing t ds with
  | nil =>
    simp only [applyAll, Except.ok.injEq] at h
    subst h
    simpa [varsOf] using hg
  | cons v vs ih =>
    simp only [applyAll] at h
    split at h
    · cases h
    · rename_i t1 h1
      cases v with
      | cls e bs =>
        simp only [Event.apply] at h1
        split at h1
        · cases h1
        · cases h1
          exact ih h hc hl hg
      | var e a ty x =>
        simp only [Event.apply] at h1
        split at h1
        · cases h1
        · split at h1
          · cases h1
          · rename_i c hctx
            split at h1
            · cases h1
            · rename_i ty' hty
              cases h1
              simp only [varsOf] at hc hl ⊢
              by_cases hn : e.name = cn
              · rw [if_pos hn] at hc hl ⊢
                have happ : ds ++ (e, a, ty, x) :: varsOf cn vs = (ds ++ [(e, a, ty, x)]) ++ varsOf cn vs := by simp
                rw [happ] at hc hl ⊢
                refine ih h hc hl ?_
                simp only [entriesOf_put, if_pos hn]
                have hcv : c.vars = entriesOf cn t.context := by
                  subst hn
                  exact ensure_vars hctx
                rw [hcv]
                refine ptr_add ty' (e, a, ty, x) ⟨?_, ?_⟩ ?_ hg
                · have := hc.1
                  rw [List.map_append] at this
                  exact (List.nodup_append.mp this).1
                · intro d hd l hl hm
                  refine hc.2 d (by simp only [List.mem_append] at hd ⊢; exact .inl hd) l hl ?_
                  rw [List.map_append]
                  exact List.mem_append_left _ hm
                · rw [List.filterMap_append] at hl
                  exact (List.nodup_append.mp hl).1
              · rw [if_neg hn] at hc hl ⊢
                refine ih h hc hl ?_
                simp only [entriesOf_put, if_neg hn]
                exact hg

/-! ## Classes and parents -/

theorem firstHit_some {β : Type} {f : β → Option (Option Str)} {l : List β} {r : Str}
    (h : firstHit f l = some (some r)) : ∃ x ∈ l, f x = some (some r) := by
  induction l with
  | nil => simp [firstHit] at h
  | cons x l ih =>
    simp only [firstHit] at h
    split at h
    · cases h
    · rename_i r' hr
      cases h
      exact ⟨x, by simp, hr⟩
    · obtain ⟨y, hy, hr⟩ := ih h
      exact ⟨y, List.mem_cons_of_mem _ hy, hr⟩

/-- What is found is known. -/
theorem canonize_known {known : Str → Bool} {scope usings : List Str} {aliases : List (Str × Str)} {fuel : ℕ}
    {us : Bool} {c r : Str} (h : canonizeClass known scope usings aliases fuel us c = some (some r)) :
    known r = true := by
  induction fuel generalizing us c r with
  | zero => simp [canonizeClass] at h
  | succ n ih =>
    simp only [canonizeClass] at h
    split at h
    · rename_i hk
      cases h
      exact hk
    · split at h
      · rename_i r' hr
        cases h
        exact List.find?_some hr
      · split at h
        · cases h
        · rename_i r' hr
          cases h
          split at hr
          · obtain ⟨ns, -, hns⟩ := firstHit_some hr
            exact ih hns
          · cases hr
        · obtain ⟨na, -, hna⟩ := firstHit_some h
          split at hna
          · cases hna
          · split at hna
            · cases hna
            · cases hna
            · split at hna
              · rename_i hk
                cases hna
                exact hk
              · cases hna

theorem addSupers_mem {find : Str → Option (Option Str)} {bs sc sc' : List Str}
    (h : addSupers find sc bs = .ok sc') (r : Str) :
    r ∈ sc' ↔ r ∈ sc ∨ ∃ b ∈ bs, find b = some (some r) := by
  induction bs generalizing sc with
  | nil =>
    simp only [addSupers, Except.ok.injEq] at h
    simp [h]
  | cons b bs ih =>
    simp only [addSupers] at h
    split at h
    · cases h
    · rename_i hb
      rw [ih h]
      simp [hb]
    · rename_i r' hb
      rw [ih h]
      have : r ∈ insertNew r' sc ↔ r ∈ sc ∨ r = r' := by
        unfold insertNew
        split
        · constructor
          · exact .inl
          · rintro (h | rfl) <;> assumption
        · simp
      rw [this]
      simp only [List.mem_cons, exists_eq_or_imp, hb, Option.some.injEq]
      constructor
      · rintro ((h | h) | h)
        · exact .inl h
        · exact .inr (.inl h.symm)
        · exact .inr (.inr h)
      · rintro (h | h | h)
        · exact .inl (.inl h)
        · exact .inl (.inr h.symm)
        · exact .inr h

theorem lookup_mem {β : Type} {l : List (Str × β)} {k : Str} {v : β} (h : l.lookup k = some v) : (k, v) ∈ l := by
  induction l with
  | nil => simp [List.lookup] at h
  | cons p l ih =>
    rw [List.lookup_cons] at h
    split at h
    · rename_i e
      cases h
      have : k = p.1 := by simpa using e
      simp [this]
    · exact List.mem_cons_of_mem _ (ih h)

theorem supers_fold (vs : List (Event α)) {t t' : Store τ α} (h : applyAll canon fuel vs t = .ok t')
    (hp : ∀ p ∈ t.supers, ∀ r ∈ p.2, knows t.supers r = true) :
    (∀ c, knows t'.supers c = true ↔ knows t.supers c = true ∨ c ∈ declared vs) ∧
      ∀ p ∈ t'.supers, ∀ r ∈ p.2, knows t'.supers r = true := by
  induction vs generalizing t with
  | nil =>
    simp only [applyAll, Except.ok.injEq] at h
    subst h
    exact ⟨by simp [declared], hp⟩
  | cons v vs ih =>
    simp only [applyAll] at h
    split at h
    · cases h
    · rename_i t1 h1
      cases v with
      | cls e bs =>
        simp only [Event.apply] at h1
        split at h1
        · cases h1
        · rename_i sc hsc
          cases h1
          obtain ⟨k1, k2⟩ := ih h (by
            intro p hpm r hr
            simp only [knows_put]
            have hold : ∀ q ∈ put e.name ((t.supers.lookup e.name).getD []) t.supers, ∀ r ∈ q.2,
                knows t.supers r = true := by
              intro q hq r hr
              rcases mem_put hq with rfl | hq
              · cases hl : t.supers.lookup e.name with
                | none => rw [hl] at hr; simp at hr
                | some ps =>
                  rw [hl] at hr
                  exact hp (e.name, ps) (lookup_mem hl) r hr
              · exact hp q hq r hr
            rcases mem_put hpm with rfl | hpm
            · rcases (addSupers_mem hsc r).mp hr with hr | ⟨b, -, hb⟩
              · cases hl : t.supers.lookup e.name with
                | none => rw [hl] at hr; simp at hr
                | some ps =>
                  rw [hl] at hr
                  exact .inr (.inr (hp (e.name, ps) (lookup_mem hl) r hr))
              · have := canonize_known hb
                rw [knows_put] at this
                exact .inr this
            · exact .inr (.inr (hold p hpm r hr)))
          refine ⟨fun c => ?_, k2⟩
          rw [k1 c]
          simp only [knows_put, declared, List.mem_cons]
          tauto
      | var e a ty x =>
        simp only [Event.apply] at h1
        split at h1
        · cases h1
        · split at h1
          · cases h1
          · split at h1
            · cases h1
            · cases h1
              have h' := ih h hp
              exact h'

/-! ## Ancestors -/

theorem gather_mem {f : Str → Option (List Str)} {vs l : List Str} (h : gather f vs = some l) (r : Str) :
    r ∈ l ↔ r ∈ vs ∨ ∃ v ∈ vs, ∃ m, f v = some m ∧ r ∈ m := by
  induction vs generalizing l with
  | nil =>
    simp only [gather, Option.some.injEq] at h
    simp [← h]
  | cons v vs ih =>
    simp only [gather] at h
    split at h
    · cases h
    · rename_i m hm
      split at h
      · cases h
      · rename_i q hq
        cases h
        simp only [List.mem_cons, List.mem_append, ih hq, exists_eq_or_imp, hm, Option.some.injEq, exists_eq_left']
        tauto

theorem gather_some {f : Str → Option (List Str)} {vs : List Str} (h : ∀ v ∈ vs, ∃ m, f v = some m) :
    ∃ l, gather f vs = some l := by
  induction vs with
  | nil => exact ⟨[], rfl⟩
  | cons v vs ih =>
    obtain ⟨m, hm⟩ := h v (by simp)
    obtain ⟨l, hl⟩ := ih fun w hw => h w (List.mem_cons_of_mem _ hw)
    exact ⟨v :: (m ++ l), by simp [gather, hm, hl]⟩

theorem gather_each {f : Str → Option (List Str)} {vs l : List Str} (h : gather f vs = some l) :
    ∀ v ∈ vs, ∃ m, f v = some m := by
  induction vs generalizing l with
  | nil => simp
  | cons v vs ih =>
    simp only [gather] at h
    split at h
    · cases h
    · rename_i m hm
      split at h
      · cases h
      · rename_i q hq
        intro w hw
        rcases List.mem_cons.mp hw with rfl | hw
        · exact ⟨m, hm⟩
        · exact ih hq w hw

theorem parent_iff {supers : List (Str × List Str)} {c p : Str} :
    p ∈ (supers.lookup c).getD [] ↔ Parent supers c p := by
  unfold Parent
  cases supers.lookup c with
  | none => simp
  | some ps => simp

theorem ancestors_mem {supers : List (Str × List Str)} {fuel : ℕ} {c : Str} {l : List Str}
    (h : ancestors supers fuel c = some l) (r : Str) : r ∈ l ↔ Relation.TransGen (Parent supers) c r := by
  induction fuel generalizing c l with
  | zero => simp [ancestors] at h
  | succ n ih =>
    simp only [ancestors] at h
    rw [gather_mem h, Relation.TransGen.head'_iff]
    constructor
    · rintro (hr | ⟨v, hv, m, hm, hr⟩)
      · exact ⟨r, parent_iff.mp hr, .refl⟩
      · exact ⟨v, parent_iff.mp hv, ((ih hm).mp hr).to_reflTransGen⟩
    · rintro ⟨v, hv, hr⟩
      obtain ⟨m, hm⟩ := gather_each h v (parent_iff.mpr hv)
      rcases Relation.reflTransGen_iff_eq_or_transGen.mp hr with rfl | hr
      · exact .inl (parent_iff.mpr hv)
      · exact .inr ⟨v, parent_iff.mpr hv, m, hm, (ih hm).mpr hr⟩

theorem ancestors_some {supers : List (Str × List Str)} {rank : Str → ℕ}
    (hr : ∀ c p, Parent supers c p → rank p < rank c) (fuel : ℕ) (c : Str) (hf : rank c < fuel) :
    ∃ l, ancestors supers fuel c = some l := by
  induction fuel generalizing c with
  | zero => omega
  | succ n ih =>
    simp only [ancestors]
    exact gather_some fun v hv => ih v (by have := hr c v (parent_iff.mp hv); omega)

theorem ancestors_down {supers : List (Str × List Str)} {c p : Str} (h : Relation.TransGen (Parent supers) c p)
    {n : ℕ} {l : List Str} (hl : ancestors supers n c = some l) :
    ∃ m < n, ∃ k, ancestors supers m p = some k := by
  induction h using Relation.TransGen.head_induction_on generalizing n l with
  | single hp =>
    cases n with
    | zero => simp [ancestors] at hl
    | succ n =>
      obtain ⟨k, hk⟩ := gather_each hl _ (parent_iff.mpr hp)
      exact ⟨n, by omega, k, hk⟩
  | head hp _ ih =>
    cases n with
    | zero => simp [ancestors] at hl
    | succ n =>
      obtain ⟨k, hk⟩ := gather_each hl _ (parent_iff.mpr hp)
      obtain ⟨m, hm, r⟩ := ih hk
      exact ⟨m, by omega, r⟩

theorem ancestors_cycle {supers : List (Str × List Str)} {c : Str} (h : Relation.TransGen (Parent supers) c c)
    (n : ℕ) : ancestors supers n c = none := by
  induction n using Nat.strong_induction_on with
  | _ n ih =>
    cases hn : ancestors supers n c with
    | none => rfl
    | some l =>
      obtain ⟨m, hm, k, hk⟩ := ancestors_down h hn
      rw [ih m hm] at hk
      cases hk

/-! ## What a name means -/

theorem find_tries {known : Str → Bool} {scope : List Str} {c : Str} :
    match (tries scope c).find? known with
    | some r => ∃ n, 0 < n ∧ n ≤ scope.length ∧ r = within (join (scope.take n)) c ∧ known r = true ∧
        ∀ m, n < m → m ≤ scope.length → known (within (join (scope.take m)) c) = false
    | none => ∀ m, 0 < m → m ≤ scope.length → known (within (join (scope.take m)) c) = false := by
  unfold tries
  suffices H : ∀ k, k ≤ scope.length →
      (∀ m, k < m → m ≤ scope.length → known (within (join (scope.take m)) c) = false) →
      match ((List.range k).reverse.map fun i => within (join (scope.take (i + 1))) c).find? known with
      | some r => ∃ n, 0 < n ∧ n ≤ scope.length ∧ r = within (join (scope.take n)) c ∧ known r = true ∧
        ∀ m, n < m → m ≤ scope.length → known (within (join (scope.take m)) c) = false
      | none => ∀ m, 0 < m → m ≤ scope.length → known (within (join (scope.take m)) c) = false by
    exact H scope.length (le_refl _) (fun m h1 h2 => by omega)
  intro k
  induction k with
  | zero =>
    intro _ h
    simpa using h
  | succ k ih =>
    intro hk h
    rw [List.range_succ, List.reverse_append, List.reverse_singleton, List.singleton_append, List.map_cons,
      List.find?_cons]
    cases hkn : known (within (join (scope.take (k + 1))) c) with
    | true =>
      simp only
      exact ⟨k + 1, by omega, hk, rfl, hkn, h⟩
    | false =>
      simp only
      refine ih (by omega) fun m h1 h2 => ?_
      by_cases e : m = k + 1
      · subst e; exact hkn
      · exact h m (by omega) h2

theorem strip_bare {c : Str} (h : Bare c) : Cycpp.strip (· = ':') c = c := by
  obtain ⟨h1, h2, h3⟩ := h
  unfold Cycpp.strip
  have e1 : c.dropWhile (fun x => decide (x = ':')) = c := by
    cases c with
    | nil => rfl
    | cons x c =>
      rw [List.dropWhile_cons_of_neg]
      simpa using h2
  rw [e1]
  have e2 : c.reverse.dropWhile (fun x => decide (x = ':')) = c.reverse := by
    cases hr : c.reverse with
    | nil => rfl
    | cons x r =>
      rw [List.dropWhile_cons_of_neg]
      have : c.getLast? = some x := by
        rw [← List.head?_reverse, hr]; rfl
      rw [this] at h3
      simpa using h3
  rw [e2, List.reverse_reverse]

theorem strip_within {u c : Str} (h : Bare c) :
    Cycpp.strip (· = ':') (within u c) = c ∨ ∃ p, Cycpp.strip (· = ':') (within u c) = within p c := by
  have back : ∀ s : Str, ((s ++ c).reverse.dropWhile (fun x => decide (x = ':'))).reverse = s ++ c := by
    intro s
    obtain ⟨h1, h2, h3⟩ := h
    cases hr : (s ++ c).reverse with
    | nil =>
      rw [List.reverse_eq_nil_iff] at hr
      rw [hr]; rfl
    | cons x r =>
      rw [List.dropWhile_cons_of_neg]
      · rw [← hr, List.reverse_reverse]
      · have : c.getLast? = some x := by
          have e : (s ++ c).getLast? = some x := by rw [← List.head?_reverse, hr]; rfl
          rwa [List.getLast?_append, List.getLast?_eq_some_getLast h1, Option.some_or, ← List.getLast?_eq_some_getLast h1] at e
        rw [this] at h3
        simpa using h3
  unfold Cycpp.strip within
  induction u with
  | nil =>
    left
    have : (([] : Str) ++ ':' :: ':' :: c).dropWhile (fun x => decide (x = ':')) = [] ++ c := by
      simp only [List.nil_append]
      rw [List.dropWhile_cons_of_pos (by simp), List.dropWhile_cons_of_pos (by simp)]
      cases c with
      | nil => rfl
      | cons x c =>
        rw [List.dropWhile_cons_of_neg]
        simpa using h.2.1
    rw [this, back]
    rfl
  | cons x u ih =>
    by_cases hx : x = ':'
    · rw [List.cons_append, List.dropWhile_cons_of_pos (by simpa using hx)]
      exact ih
    · right
      refine ⟨x :: u, ?_⟩
      rw [List.cons_append, List.dropWhile_cons_of_neg (by simpa using hx)]
      have := back (x :: u ++ [':', ':'])
      simpa using this

end

end Cyclus.CycppScan
