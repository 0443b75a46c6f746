import Verif.Model.ResMap
import Verif.Lemmas.CompMath
import Mathlib.Tactic.Linarith

/-!
# Property C82: maps of resources
-/

namespace Cyclus.ResMap

/-! ### Specification -/

/-- The sum of the quantities of the resources in a list of entries; null pointers count nothing. -/
def held (heap : ℕ → ℚ) (res : List (ℕ × Option ℕ)) : ℚ :=
  (res.map fun e => match e.2 with | some r => heap r | none => 0).sum

/-- No entry is a null pointer. -/
def NoNull (res : List (ℕ × Option ℕ)) : Prop := ∀ e ∈ res, e.2 ≠ none

/-- Histories in which resources that are in the map change, and references obtained earlier are
written through, only while the map has been accessed since the last `quantity()` or `erase()`. -/
inductive Run (oid : ℕ → ℤ) (heap : ℕ → ℚ) : St → Prop
  | init : Run oid heap (init heap)
  | step {s t : St} (op : Op) : Run oid heap s → step oid s op = some t →
      (∀ r q, op = .change r q → s.dirty = true ∨ ∀ e ∈ s.res, e.2 ≠ some r) →
      (∀ k p, op = .assignRef k p → s.dirty = true) → Run oid heap t

/-! ### Quantity -/

theorem quantities_eq {heap : ℕ → ℚ} {l : List (ℕ × Option ℕ)} :
    (∀ qs, quantities heap l = some qs → NoNull l ∧ qs.sum = held heap l) ∧
    (NoNull l → ∃ qs, quantities heap l = some qs) := by
  induction l with
  | nil => simp [quantities, NoNull, held]
  | cons e l ih =>
    obtain ⟨k, _ | r⟩ := e
    · refine ⟨by simp [quantities], fun h => absurd rfl (h (k, none) (by simp))⟩
    · obtain ⟨h1, h2⟩ := ih
      constructor
      · intro qs h
        simp only [quantities, Option.map_eq_some_iff] at h
        obtain ⟨qs', h', rfl⟩ := h
        obtain ⟨a, b⟩ := h1 qs' h'
        refine ⟨fun e he => ?_, by simp [held, b]⟩
        rcases List.mem_cons.1 he with rfl | he
        · simp
        · exact a e he
      · intro h
        obtain ⟨qs, hq⟩ := h2 fun e he => h e (by simp [he])
        exact ⟨heap r :: qs, by simp [quantities, hq]⟩

theorem updateQuantity_spec (s : St) :
    (∀ t, updateQuantity s = some t → NoNull s.res ∧ t.qty = held s.heap s.res ∧
      t.res = s.res ∧ t.heap = s.heap ∧ t.dirty = false ∧ t.ids = s.ids) ∧
    (NoNull s.res → ∃ t, updateQuantity s = some t) := by
  unfold updateQuantity
  by_cases h : s.res.length = 0
  · rw [if_pos h]
    have h0 : s.res = [] := List.length_eq_zero_iff.1 h
    simp [h0, NoNull, held]
  · rw [if_neg h]
    constructor
    · intro t ht
      obtain ⟨qs, hq, rfl⟩ := Option.map_eq_some_iff.1 ht
      obtain ⟨a, b⟩ := quantities_eq.1 qs hq
      exact ⟨a, by rw [← b]; exact CompMath.kahanSum_eq qs, rfl, rfl, rfl, rfl⟩
    · intro hn
      obtain ⟨qs, hq⟩ := quantities_eq.2 hn
      exact ⟨_, by rw [hq]; rfl⟩

/-- The cached quantity is right whenever it will be used. -/
theorem run_clean {oid : ℕ → ℤ} {heap : ℕ → ℚ} {s : St} (h : Run oid heap s) :
    s.dirty = false → NoNull s.res ∧ s.qty = held s.heap s.res := by
  induction h with
  | init => simp [init]
  | @step s t op _ hst hc hr ih =>
    cases op with
    | quantity =>
      simp only [step, quantity] at hst
      split at hst
      · obtain ⟨x, hx, rfl⟩ := Option.map_eq_some_iff.1 hst
        obtain ⟨u, hu, rfl⟩ := Option.map_eq_some_iff.1 hx
        obtain ⟨a, b, c, d, -, -⟩ := (updateQuantity_spec s).1 u hu
        intro _
        simp only [c, d]
        exact ⟨a, b⟩
      · simp only [Option.map_some, Option.some.injEq] at hst
        subst hst
        exact ih
    | index k =>
      simp only [step, index, Option.some.injEq] at hst
      split at hst <;> subst hst <;> simp
    | assign k p => simp only [step, assign, Option.some.injEq] at hst; subst hst; simp
    | assignRef k p =>
      simp only [step, assignRef, Option.some.injEq] at hst
      subst hst
      simp [hr k p rfl]
    | iterate => simp only [step, iterate, Option.some.injEq] at hst; subst hst; simp
    | erase k =>
      simp only [step, eraseKey] at hst
      obtain ⟨x, hx, rfl⟩ := Option.map_eq_some_iff.1 hst
      obtain ⟨u, hu, rfl⟩ := Option.map_eq_some_iff.1 hx
      obtain ⟨a, b, c, d, -, -⟩ := (updateQuantity_spec _).1 u hu
      intro _
      simp only [c, d]
      exact ⟨a, b⟩
    | clear => simp only [step, clear, Option.some.injEq] at hst; subst hst; simp
    | objIds =>
      simp only [step, objIds] at hst
      obtain ⟨x, hx, rfl⟩ := Option.map_eq_some_iff.1 hst
      obtain ⟨u, hu, rfl⟩ := Option.map_eq_some_iff.1 hx
      exact ih
    | setObjIds is => simp only [step, setObjIds, Option.some.injEq] at hst; subst hst; simp
    | setValues vals => simp only [step, setValues, Option.some.injEq] at hst; subst hst; simp
    | pop k =>
      simp only [step, pop, Option.some.injEq] at hst
      split at hst
      · subst hst; exact ih
      · subst hst; simp
    | change r q =>
      simp only [step, Option.some.injEq] at hst
      subst hst
      intro hd
      rcases hc r q rfl with h | h
      · simp only at hd; rw [h] at hd; simp at hd
      · obtain ⟨a, b⟩ := ih hd
        refine ⟨a, ?_⟩
        simp only [b, held]
        congr 1
        refine List.map_congr_left fun e he => ?_
        have := h e he
        cases hp : e.2 with
        | none => rfl
        | some x =>
          simp only
          rw [if_neg]
          rintro rfl
          exact this hp

/-- **C82 (partial).**  `quantity()` is the sum of the quantities of the resources in the map, after
every history in which resources in the map change only after it was accessed; it fails only for null
pointers and changes neither the map nor the resources.  Missing: changes of resources in the map
after `quantity()` was called (`C82_fails_stale`, `C82_fails_reference`). -/
theorem C82_quantity_partial {oid : ℕ → ℤ} {heap : ℕ → ℚ} {s : St} (h : Run oid heap s) :
    (∀ t q, quantity s = some (t, q) → q = held s.heap s.res ∧ t.res = s.res ∧ t.heap = s.heap) ∧
    (quantity s = none ↔ ∃ e ∈ s.res, e.2 = none) := by
  have hr := run_clean h
  by_cases hd : s.dirty = true
  · have hq : quantity s = (updateQuantity s).map fun t => (t, t.qty) := by
      rw [quantity, if_pos hd]
    obtain ⟨h1, h2⟩ := updateQuantity_spec s
    rw [hq]
    refine ⟨fun t q ht => ?_, ?_⟩
    · obtain ⟨u, hu, he⟩ := Option.map_eq_some_iff.1 ht
      simp only [Prod.mk.injEq] at he
      obtain ⟨rfl, rfl⟩ := he
      obtain ⟨-, b, c, d, -⟩ := h1 u hu
      exact ⟨b, c, d⟩
    · simp only [Option.map_eq_none_iff]
      constructor
      · intro hn
        by_contra hcon
        push Not at hcon
        obtain ⟨t, ht⟩ := h2 hcon
        rw [ht] at hn
        simp at hn
      · rintro ⟨e, he, hnull⟩
        by_contra hcon
        obtain ⟨t, ht⟩ := Option.ne_none_iff_exists'.1 hcon
        exact (h1 t ht).1 e he hnull
  · simp only [Bool.not_eq_true] at hd
    obtain ⟨a, b⟩ := hr hd
    rw [quantity, if_neg (by simp [hd])]
    refine ⟨fun t q ht => ?_, ?_⟩
    · simp only [Option.some.injEq, Prod.mk.injEq] at ht
      obtain ⟨rfl, rfl⟩ := ht
      exact ⟨b, rfl, rfl⟩
    · simp only [reduceCtorEq, false_iff, not_exists, not_and]
      exact a

/-! ### The map -/

theorem find_setKey {α : Type} (l : List (ℕ × α)) (k : ℕ) (x : α) (j : ℕ) :
    find (setKey l k x) j = if j = k then some x else find l j := by
  induction l with
  | nil =>
    simp only [setKey, find]
    by_cases h : k = j
    · rw [if_pos h, if_pos h.symm]
    · rw [if_neg h, if_neg (Ne.symm h)]
  | cons e l ih =>
    obtain ⟨a, y⟩ := e
    simp only [setKey]
    by_cases hak : a = k
    · rw [if_pos hak]
      simp only [find]
      subst hak
      by_cases hj : a = j
      · rw [if_pos hj, if_pos hj.symm]
      · rw [if_neg hj, if_neg (Ne.symm hj), if_neg hj]
    · rw [if_neg hak]
      simp only [find]
      rw [ih]
      by_cases hj : a = j
      · rw [if_pos hj, if_pos hj, if_neg]
        rintro rfl
        exact hak hj
      · rw [if_neg hj, if_neg hj]

theorem find_remove {α : Type} (l : List (ℕ × α)) (k j : ℕ) :
    find (remove l k) j = if j = k then none else find l j := by
  induction l with
  | nil => simp [remove, find]
  | cons e l ih =>
    obtain ⟨a, y⟩ := e
    unfold remove at ih ⊢
    by_cases hak : a = k
    · rw [List.filter_cons_of_neg (by simp [hak]), ih]
      simp only [find]
      by_cases hj : j = k
      · rw [if_pos hj, if_pos hj]
      · rw [if_neg hj, if_neg hj, if_neg]
        rintro rfl
        exact hj hak
    · rw [List.filter_cons_of_pos (by simp [hak])]
      simp only [find]
      rw [ih]
      by_cases hj : a = j
      · rw [if_pos hj, if_pos hj, if_neg]
        rintro rfl
        exact hak hj
      · rw [if_neg hj, if_neg hj]

/-- **C82.**  Assignment sets one key; `Pop` returns and removes the resource of one key or throws a
`KeyError` and changes nothing; `erase` removes one key; all other keys keep their resource.  `clear` removes all. -/
theorem C82_keys (s : St) (k : ℕ) (p : Option ℕ) (j : ℕ) :
    find (assign s k p).res j = (if j = k then some p else find s.res j) ∧
    (find s.res k = none → pop s k = (s, .error .key)) ∧
    (∀ x, find s.res k = some x → (pop s k).2 = .ok x ∧
      find (pop s k).1.res j = if j = k then none else find s.res j) ∧
    (∀ t n, eraseKey s k = some (t, n) → find t.res j = if j = k then none else find s.res j) ∧
    find (clear s).res j = none := by
  refine ⟨find_setKey _ _ _ _, fun h => ?_, fun x h => ?_, fun t n h => ?_, rfl⟩
  · simp [pop, h]
  · simp [pop, h, find_remove]
  · obtain ⟨u, hu, he⟩ := Option.map_eq_some_iff.1 h
    simp only [Prod.mk.injEq] at he
    obtain ⟨rfl, -⟩ := he
    rw [((updateQuantity_spec _).1 u hu).2.2.1]
    exact find_remove _ _ _

/-! ### Restart -/

theorem idsOf_eq {oid : ℕ → ℤ} {l : List (ℕ × Option ℕ)} {is : List (ℕ × ℤ)}
    (h : idsOf oid l = some is) :
    NoNull l ∧ ∀ k o, (k, o) ∈ is ↔ ∃ r, (k, some r) ∈ l ∧ oid r = o := by
  induction l generalizing is with
  | nil => simp only [idsOf, Option.some.injEq] at h; subst h; simp [NoNull]
  | cons e l ih =>
    obtain ⟨a, _ | r⟩ := e
    · simp [idsOf] at h
    · simp only [idsOf, Option.map_eq_some_iff] at h
      obtain ⟨is', h', rfl⟩ := h
      obtain ⟨h1, h2⟩ := ih h'
      refine ⟨fun e he => ?_, fun k o => ?_⟩
      · rcases List.mem_cons.1 he with rfl | he
        · simp
        · exact h1 e he
      · simp only [List.mem_cons, Prod.mk.injEq, Option.some.injEq]
        rw [h2 k o]
        constructor
        · rintro (⟨rfl, rfl⟩ | ⟨x, hx, rfl⟩)
          · exact ⟨r, Or.inl ⟨rfl, rfl⟩, rfl⟩
          · exact ⟨x, Or.inr hx, rfl⟩
        · rintro ⟨x, ⟨rfl, rfl⟩ | hx, rfl⟩
          · exact Or.inl ⟨rfl, rfl⟩
          · exact Or.inr ⟨x, hx, rfl⟩

theorem reverseMap_spec (is : List (ℕ × ℤ))
    (hinj : ∀ k k' o, (k, o) ∈ is → (k', o) ∈ is → k = k') {k : ℕ} {o : ℤ} (h : (k, o) ∈ is) :
    reverseMap is o = k := by
  have key : ∀ (is : List (ℕ × ℤ)) (m : ℤ → ℕ),
      (∀ k, (k, o) ∈ is → is.foldl (fun m e => fun o => if o = e.2 then e.1 else m o) m o
        ∈ (is.filter fun e => e.2 = o).map Prod.fst) ∧
      ((∀ k, (k, o) ∉ is) → is.foldl (fun m e => fun o => if o = e.2 then e.1 else m o) m o
        = m o) := by
    intro is
    induction is with
    | nil => intro m; simp
    | cons e is ih =>
      obtain ⟨a, b⟩ := e
      intro m
      obtain ⟨i1, i2⟩ := ih (fun o => if o = b then a else m o)
      rw [List.foldl_cons]
      constructor
      · intro k hk
        by_cases hex : ∃ k, (k, o) ∈ is
        · obtain ⟨k', hk'⟩ := hex
          have := i1 k' hk'
          obtain ⟨x, hx, hx'⟩ := List.mem_map.1 this
          rw [← hx']
          refine List.mem_map_of_mem ?_
          simp only [List.mem_filter] at hx ⊢
          exact ⟨List.mem_cons_of_mem _ hx.1, hx.2⟩
        · push Not at hex
          rw [i2 hex]
          rcases List.mem_cons.1 hk with hk | hk
          · simp only [Prod.mk.injEq] at hk
            rw [if_pos hk.2]
            simp [hk.2]
          · exact absurd hk (hex k)
      · intro hno
        rw [i2 fun k hk => hno k (List.mem_cons_of_mem _ hk)]
        rw [if_neg]
        rintro rfl
        exact hno a (by simp)
  have := (key is fun _ => 0).1 k h
  unfold reverseMap
  obtain ⟨x, hx, hx'⟩ := List.mem_map.1 this
  simp only [List.mem_filter, decide_eq_true_eq] at hx
  rw [← hx']
  refine hinj x.1 k o ?_ h
  rw [← hx.2]
  exact hx.1

theorem find_mem {α : Type} {l : List (ℕ × α)} {k : ℕ} {x : α} (h : find l k = some x) :
    (k, x) ∈ l := by
  induction l with
  | nil => simp [find] at h
  | cons e l ih =>
    obtain ⟨a, y⟩ := e
    simp only [find] at h
    split at h
    · rename_i ha; cases h; subst ha; simp
    · exact List.mem_cons_of_mem _ (ih h)

theorem mem_find {α : Type} {l : List (ℕ × α)} (hn : (l.map Prod.fst).Nodup) {k : ℕ} {x : α}
    (h : (k, x) ∈ l) : find l k = some x := by
  induction l with
  | nil => simp at h
  | cons e l ih =>
    obtain ⟨a, y⟩ := e
    simp only [List.map_cons, List.nodup_cons] at hn
    simp only [find]
    rcases List.mem_cons.1 h with h | h
    · simp only [Prod.mk.injEq] at h
      rw [if_pos h.1.symm, h.2]
    · rw [if_neg, ih hn.2 h]
      rintro rfl
      exact hn.1 (List.mem_map_of_mem (f := Prod.fst) h)

theorem find_foldl (f : ℕ → ℕ) (vals : List ℕ) (hinj : ∀ r ∈ vals, ∀ r' ∈ vals, f r = f r' → r = r')
    (m : List (ℕ × Option ℕ)) (j : ℕ) :
    (∀ r ∈ vals, f r = j → find (vals.foldl (fun m r => setKey m (f r) (some r)) m) j
      = some (some r)) ∧
    ((∀ r ∈ vals, f r ≠ j) → find (vals.foldl (fun m r => setKey m (f r) (some r)) m) j
      = find m j) := by
  induction vals generalizing m with
  | nil => simp
  | cons a vals ih =>
    obtain ⟨i1, i2⟩ := ih (fun r hr r' hr' => hinj r (by simp [hr]) r' (by simp [hr']))
      (setKey m (f a) (some a))
    rw [List.foldl_cons]
    constructor
    · intro r hr hj
      by_cases hex : ∃ r' ∈ vals, f r' = j
      · obtain ⟨r', hr', hj'⟩ := hex
        have : r = r' := hinj r hr r' (by simp [hr']) (hj.trans hj'.symm)
        subst this
        exact i1 r hr' hj'
      · push Not at hex
        rw [i2 hex, find_setKey]
        rcases List.mem_cons.1 hr with rfl | hr
        · rw [if_pos hj.symm]
        · exact absurd hj (hex r hr)
    · intro hno
      rw [i2 fun r hr => hno r (by simp [hr]), find_setKey, if_neg]
      exact fun h => hno a (by simp) h.symm

/-- **C82 (partial).**  Restart: the object ids of a map, given to an empty map together with the
restored resources in any order, put every resource back under its key.  Missing: maps that hold one
resource under two keys (`C82_fails_shared`). -/
theorem C82_restart_partial {oid oid' : ℕ → ℤ} {s t : St} {is : List (ℕ × ℤ)}
    (hn : (s.res.map Prod.fst).Nodup)
    (hdist : ∀ k k' r r', (k, some r) ∈ s.res → (k', some r') ∈ s.res → oid r = oid r' → k = k')
    (hs : objIds oid s = some (t, is)) {vals : List ℕ}
    (hvals : ∀ r r', r ∈ vals → r' ∈ vals → oid' r = oid' r' → r = r')
    (hall : ∀ o, (∃ r ∈ vals, oid' r = o) ↔ ∃ k r, (k, some r) ∈ s.res ∧ oid r = o)
    {u : St} (hu : u.res = []) (k : ℕ) :
    (find (setValues oid' (setObjIds u is) vals).res k).map (Option.map oid')
      = (find s.res k).map (Option.map oid) := by
  obtain ⟨is', h', he⟩ := Option.map_eq_some_iff.1 hs
  simp only [Prod.mk.injEq] at he
  obtain ⟨-, rfl⟩ := he
  obtain ⟨hnull, hmem⟩ := idsOf_eq h'
  have hinj : ∀ k k' o, (k, o) ∈ is' → (k', o) ∈ is' → k = k' := by
    intro k k' o h1 h2
    obtain ⟨r, hr, e1⟩ := (hmem _ _).1 h1
    obtain ⟨r', hr', e2⟩ := (hmem _ _).1 h2
    exact hdist k k' r r' hr hr' (e1.trans e2.symm)
  have hrev : ∀ k r, (k, some r) ∈ s.res → reverseMap is' (oid r) = k := fun k r hr =>
    reverseMap_spec is' hinj ((hmem _ _).2 ⟨r, hr, rfl⟩)
  have hback : ∀ r ∈ vals, ∃ k x, (k, some x) ∈ s.res ∧ oid x = oid' r ∧
      reverseMap is' (oid' r) = k := by
    intro r hr
    obtain ⟨k, x, h1, h2⟩ := (hall (oid' r)).1 ⟨r, hr, rfl⟩
    exact ⟨k, x, h1, h2, by rw [← h2]; exact hrev k x h1⟩
  have hf : ∀ r ∈ vals, ∀ r' ∈ vals, reverseMap is' (oid' r) = reverseMap is' (oid' r') →
      r = r' := by
    intro r hr r' hr' he
    obtain ⟨k1, x1, a1, b1, c1⟩ := hback r hr
    obtain ⟨k2, x2, a2, b2, c2⟩ := hback r' hr'
    have hk : k1 = k2 := by rw [← c1, ← c2, he]
    subst hk
    have h1 := mem_find hn a1
    have h2 := mem_find hn a2
    rw [h1] at h2
    simp only [Option.some.injEq] at h2
    subst h2
    exact hvals r r' hr hr' (b1.symm.trans b2)
  obtain ⟨f1, f2⟩ := find_foldl (fun r => reverseMap is' (oid' r)) vals hf [] k
  have hres : (setValues oid' (setObjIds u is') vals).res
      = vals.foldl (fun m r => setKey m (reverseMap is' (oid' r)) (some r)) [] := by
    rw [← hu]; rfl
  rw [hres]
  cases hfind : find s.res k with
  | none =>
    have : ∀ r ∈ vals, reverseMap is' (oid' r) ≠ k := by
      intro r hr he
      obtain ⟨k', x, a, b, c⟩ := hback r hr
      rw [he] at c
      subst c
      rw [mem_find hn a] at hfind
      simp at hfind
    rw [f2 this]
    rfl
  | some p =>
    have hm := find_mem hfind
    cases p with
    | none => exact absurd rfl (hnull _ hm)
    | some x =>
      obtain ⟨r, hr, he⟩ := (hall (oid x)).2 ⟨k, x, hm, rfl⟩
      rw [f1 r hr (by simp only [he]; exact hrev k x hm)]
      simp [he]

/-! ### Concrete cases and disagreements -/

/-- Resource 1 has quantity 5, resource 2 quantity 7. -/
def sampleHeap : ℕ → ℚ := fun i => if i = 1 then 5 else if i = 2 then 7 else 0

/-- Two resources under keys 10 and 20. -/
def sample : St := assign (assign (init sampleHeap) 10 (some 1)) 20 (some 2)

theorem sample_run (oid : ℕ → ℤ) : Run oid sampleHeap sample :=
  Run.step (.assign 20 (some 2)) (Run.step (.assign 10 (some 1)) Run.init rfl (by simp) (by simp))
    rfl (by simp) (by simp)

example : (quantity sample).map Prod.snd = some 12 := by decide +kernel

example : (sample.res.map Prod.fst).Nodup ∧
    (∀ k k' r r', (k, some r) ∈ sample.res → (k', some r') ∈ sample.res →
      ((r : ℤ) = r') → k = k') ∧ (∃ t, objIds (fun r => r) sample = some (t, [(10, 1), (20, 2)])) := by
  refine ⟨by decide, ?_, ⟨_, rfl⟩⟩
  intro k k' r r' h h' he
  simp [sample, assign, init, setKey] at h h'
  omega

/-- The code contradicts C82: after `quantity()` the sum is cached, and a resource in the map that is
split or combined does not invalidate it, so that the next `quantity()` is wrong. -/
theorem C82_fails_stale : ∃ (s t : St) (q : ℚ) (oid : ℕ → ℤ), Run oid sampleHeap s ∧
    quantity s = some (t, q) ∧
    ∃ u, step oid t (.change 1 2) = some u ∧ (quantity u).map Prod.snd = some 12 ∧
      held u.heap u.res = 9 := by
  obtain ⟨t, ht⟩ := (updateQuantity_spec sample).2 (by simp [NoNull, sample, assign, init, setKey])
  have hq := (updateQuantity_spec sample).1 t ht
  refine ⟨sample, t, t.qty, fun r => r, sample_run _, ?_, _, rfl, ?_, ?_⟩
  · rw [quantity, if_pos (by rfl), ht]; rfl
  · rw [quantity, if_neg (by simp [hq.2.2.2.2.1])]
    simp only [Option.map_some, Option.some.injEq]
    rw [hq.2.1]
    decide +kernel
  · simp only [hq.2.2.1, hq.2.2.2.1]
    decide +kernel

/-- The code contradicts C82: writing through a reference returned by `operator[]` before
`quantity()` was called does not invalidate the cached sum either. -/
theorem C82_fails_reference : ∃ (s t : St) (q : ℚ) (oid : ℕ → ℤ), Run oid sampleHeap s ∧
    quantity s = some (t, q) ∧
    ∃ u, step oid t (.assignRef 10 (some 2)) = some u ∧ (quantity u).map Prod.snd = some 12 ∧
      held u.heap u.res = 14 := by
  obtain ⟨t, ht⟩ := (updateQuantity_spec sample).2 (by simp [NoNull, sample, assign, init, setKey])
  have hq := (updateQuantity_spec sample).1 t ht
  refine ⟨sample, t, t.qty, fun r => r, sample_run _, ?_, _, rfl, ?_, ?_⟩
  · rw [quantity, if_pos (by rfl), ht]; rfl
  · rw [quantity, if_neg (by simp [assignRef, hq.2.2.2.2.1])]
    simp only [Option.map_some, Option.some.injEq, assignRef]
    rw [hq.2.1]
    decide +kernel
  · simp only [assignRef, hq.2.2.1, hq.2.2.2.1]
    decide +kernel

/-- The code contradicts C82: reading a key that is missing stores a null pointer, after which
`quantity()` crashes, although a const `operator[]` is offered. -/
theorem C82_fails_null : ∃ (s : St) (k : ℕ) (oid : ℕ → ℤ), Run oid sampleHeap s ∧
    quantity s ≠ none ∧ quantity (index s k).1 = none := by
  refine ⟨sample, 30, fun r => r, sample_run _, ?_, by decide +kernel⟩
  intro h
  have := congrArg (Option.map Prod.snd) h
  revert this
  decide +kernel

/-- The code contradicts C82: a resource under two keys is restored under one of them only. -/
theorem C82_fails_shared : ∃ (s t : St) (is : List (ℕ × ℤ)),
    objIds (fun r => (r : ℤ)) s = some (t, is) ∧ find s.res 10 = some (some 1) ∧
    find (setValues (fun r => (r : ℤ)) (setObjIds (init sampleHeap) is) [1, 1]).res 10 = none :=
  ⟨assign (assign (init sampleHeap) 10 (some 1)) 20 (some 1), _, [(10, 1), (20, 1)], rfl, rfl,
    by decide +kernel⟩

end Cyclus.ResMap
