import Verif.Spec.PyPrefs
import Mathlib.Data.List.Nodup

/-! # Lemmas about preferences as agents written in Python see them -/

namespace Cyclus.PyPrefs

open Cyclus.PyPrefs.Spec

/-! ## Assignment to keys -/

section upd
variable {α β γ : Type} [DecidableEq α] [DecidableEq γ]

theorem mem_upd {l : List (α × β)} (h : (l.map Prod.fst).Nodup) {k : α} {v : β} {e : α × β} :
    e ∈ upd l k v ↔ e = (k, v) ∨ (e.1 ≠ k ∧ e ∈ l) := by
  induction l with
  | nil => simp [upd]
  | cons a l ih =>
    obtain ⟨k', v'⟩ := a
    have h' : k' ∉ l.map Prod.fst ∧ (l.map Prod.fst).Nodup := by simpa using h
    unfold upd
    split_ifs with hk
    · subst hk
      simp only [List.mem_cons]
      constructor
      · rintro (rfl | he)
        · exact Or.inl rfl
        · refine Or.inr ⟨?_, Or.inr he⟩
          rintro rfl
          exact h'.1 (List.mem_map_of_mem he)
      · rintro (rfl | ⟨hne, rfl | he⟩)
        · exact Or.inl rfl
        · exact absurd rfl hne
        · exact Or.inr he
    · simp only [List.mem_cons, ih h'.2]
      constructor
      · rintro (rfl | rfl | ⟨hne, he⟩)
        · exact Or.inr ⟨hk, Or.inl rfl⟩
        · exact Or.inl rfl
        · exact Or.inr ⟨hne, Or.inr he⟩
      · rintro (rfl | ⟨hne, rfl | he⟩)
        · exact Or.inr (Or.inl rfl)
        · exact Or.inl rfl
        · exact Or.inr (Or.inr ⟨hne, he⟩)

theorem upd_keys {l : List (α × β)} {k : α} {v : β} (h : k ∈ l.map Prod.fst) :
    (upd l k v).map Prod.fst = l.map Prod.fst := by
  induction l with
  | nil => simp at h
  | cons a l ih =>
    obtain ⟨k', v'⟩ := a
    unfold upd
    split_ifs with hk
    · rfl
    · have : k ∈ l.map Prod.fst := by
        simp only [List.map_cons, List.mem_cons] at h
        exact h.resolve_left fun e => hk e.symm
      simp [ih this]

theorem upd_nodup {l : List (α × β)} (h : (l.map Prod.fst).Nodup) (k : α) (v : β) :
    ((upd l k v).map Prod.fst).Nodup := by
  induction l with
  | nil => simp [upd]
  | cons a l ih =>
    obtain ⟨k', v'⟩ := a
    have h' : k' ∉ l.map Prod.fst ∧ (l.map Prod.fst).Nodup := by simpa using h
    unfold upd
    split_ifs with hk
    · simpa using h
    · rw [List.map_cons, List.nodup_cons]
      refine ⟨?_, ih h'.2⟩
      rw [List.mem_map]
      rintro ⟨e, he, rfl⟩
      rcases (mem_upd h'.2).1 he with rfl | ⟨_, he⟩
      · exact hk rfl
      · exact h'.1 (List.mem_map_of_mem he)

end upd

/-! ## Preference maps -/

theorem proper_cons {e : ℕ × List (ℕ × ℚ)} {m : Map} :
    Proper (e :: m) ↔ e.1 ∉ m.map Prod.fst ∧ (e.2.map Prod.fst).Nodup ∧ Proper m := by
  simp only [Proper, List.map_cons, List.nodup_cons, List.mem_cons, forall_eq_or_imp]
  tauto

theorem worth_cons {e : ℕ × List (ℕ × ℚ)} {m : Map} {r b : ℕ} {x : ℚ} :
    Worth (e :: m) r b x ↔ (e.1 = r ∧ (b, x) ∈ e.2) ∨ Worth m r b x := by
  obtain ⟨r', bs'⟩ := e
  constructor
  · rintro ⟨bs, h, hx⟩
    rcases List.mem_cons.1 h with h | h
    · cases h; exact Or.inl ⟨rfl, hx⟩
    · exact Or.inr ⟨bs, h, hx⟩
  · rintro (⟨rfl, h⟩ | ⟨bs, h, hx⟩)
    · exact ⟨bs', by simp, h⟩
    · exact ⟨bs, List.mem_cons_of_mem _ h, hx⟩

theorem assign_fst (m : Map) (r b : ℕ) (x : ℚ) {k : ℕ} :
    k ∈ (assign m r b x).map Prod.fst ↔ k = r ∨ k ∈ m.map Prod.fst := by
  induction m with
  | nil => simp [assign]
  | cons e m ih =>
    obtain ⟨r', bs⟩ := e
    unfold assign
    split_ifs with h
    · subst h; simp
    · simp only [List.map_cons, List.mem_cons, ih]
      tauto

theorem assign_proper {m : Map} (h : Proper m) (r b : ℕ) (x : ℚ) : Proper (assign m r b x) := by
  induction m with
  | nil => simp [assign, Proper]
  | cons e m ih =>
    obtain ⟨r', bs⟩ := e
    obtain ⟨h1, h2, h3⟩ := proper_cons.1 h
    unfold assign
    split_ifs with hr
    · exact proper_cons.2 ⟨h1, upd_nodup h2 _ _, h3⟩
    · refine proper_cons.2 ⟨?_, h2, ih h3⟩
      rw [assign_fst]
      simp only [not_or]
      exact ⟨hr, h1⟩

theorem assign_worth {m : Map} (h : Proper m) (r b : ℕ) (x : ℚ) (r' b' : ℕ) (x' : ℚ) :
    Worth (assign m r b x) r' b' x' ↔
      (r' = r ∧ b' = b ∧ x' = x) ∨ (¬ (r' = r ∧ b' = b) ∧ Worth m r' b' x') := by
  induction m with
  | nil =>
    simp only [assign, Worth, List.mem_singleton, Prod.mk.injEq, List.not_mem_nil, false_and,
      exists_false, and_false, or_false]
    constructor
    · rintro ⟨bs, ⟨rfl, rfl⟩, h⟩
      simpa using h
    · rintro ⟨rfl, rfl, rfl⟩
      exact ⟨_, ⟨rfl, rfl⟩, by simp⟩
  | cons e m ih =>
    obtain ⟨k, bs⟩ := e
    obtain ⟨h1, h2, h3⟩ := proper_cons.1 h
    unfold assign
    split_ifs with hr
    · subst hr
      rw [worth_cons, worth_cons]
      simp only [mem_upd h2]
      have hno : ∀ b x, ¬ Worth m k b x := by
        rintro b x ⟨bs, hb, _⟩
        exact h1 (List.mem_map.2 ⟨_, hb, rfl⟩)
      constructor
      · rintro (⟨rfl, he | ⟨hne, he⟩⟩ | hw)
        · simp only [Prod.mk.injEq] at he
          exact Or.inl ⟨rfl, he.1, he.2⟩
        · exact Or.inr ⟨fun hh => hne hh.2, Or.inl ⟨rfl, he⟩⟩
        · by_cases hk : r' = k
          · subst hk; exact absurd hw (hno _ _)
          · exact Or.inr ⟨fun hh => hk hh.1, Or.inr hw⟩
      · rintro (⟨rfl, rfl, rfl⟩ | ⟨hne, ⟨rfl, he⟩ | hw⟩)
        · exact Or.inl ⟨rfl, Or.inl rfl⟩
        · exact Or.inl ⟨rfl, Or.inr ⟨fun hh => hne ⟨rfl, hh⟩, he⟩⟩
        · exact Or.inr hw
    · rw [worth_cons, worth_cons, ih h3]
      constructor
      · rintro (⟨rfl, he⟩ | hh | ⟨hne, hw⟩)
        · exact Or.inr ⟨fun hh => hr hh.1, Or.inl ⟨rfl, he⟩⟩
        · exact Or.inl hh
        · exact Or.inr ⟨hne, Or.inr hw⟩
      · rintro (hh | ⟨hne, hh | hw⟩)
        · exact Or.inr (Or.inl hh)
        · exact Or.inl hh
        · exact Or.inr (Or.inr ⟨hne, hw⟩)

theorem assignAll_proper {u : Dict} : ∀ {m : Map}, Proper m → Proper (assignAll m u) := by
  induction u with
  | nil => exact fun h => h
  | cons e u ih => exact fun h => ih (assign_proper h _ _ _)

/-- Updates for different trades. -/
def Distinct (u : Dict) : Prop := (u.map fun e => (e.1.1.ptr, e.1.2.ptr)).Nodup

theorem assignAll_updated {u : Dict} : ∀ {m : Map}, Proper m → Distinct u →
    Updated m u (assignAll m u) := by
  induction u with
  | nil => intro m _ _ r b x; simp [assignAll]
  | cons e u ih =>
    intro m hm hu r b x
    rw [Distinct, List.map_cons, List.nodup_cons] at hu
    obtain ⟨hu1, hu2⟩ := hu
    have := ih (assign_proper hm e.1.1.ptr e.1.2.ptr e.2) hu2 r b x
    rw [show assignAll m (e :: u) = assignAll (assign m e.1.1.ptr e.1.2.ptr e.2) u from rfl, this,
      assign_worth hm]
    constructor
    · rintro (⟨e', he', h⟩ | ⟨hno, ⟨rfl, rfl, rfl⟩ | ⟨hne, hw⟩⟩)
      · exact Or.inl ⟨e', List.mem_cons_of_mem _ he', h⟩
      · exact Or.inl ⟨e, by simp, rfl, rfl, rfl⟩
      · refine Or.inr ⟨?_, hw⟩
        intro e' he'
        rcases List.mem_cons.1 he' with rfl | he'
        · exact fun hh => hne ⟨hh.1.symm, hh.2.symm⟩
        · exact hno e' he'
    · rintro (⟨e', he', rfl, rfl, rfl⟩ | ⟨hno, hw⟩)
      · rcases List.mem_cons.1 he' with rfl | he'
        · refine Or.inr ⟨?_, Or.inl ⟨rfl, rfl, rfl⟩⟩
          rintro e'' he'' ⟨h1, h2⟩
          exact hu1 (List.mem_map.2 ⟨e'', he'', by rw [h1, h2]⟩)
        · exact Or.inl ⟨e', he', rfl, rfl, rfl⟩
      · refine Or.inr ⟨fun e' he' => hno e' (List.mem_cons_of_mem _ he'), Or.inr ⟨?_, hw⟩⟩
        rintro ⟨rfl, rfl⟩
        exact hno e (by simp) ⟨rfl, rfl⟩

/-! ## The dict in Python -/

theorem bidsToPy_ptrs (r : Wrap) : ∀ (n : ℕ) (bs : List (ℕ × ℚ)),
    (bidsToPy r n bs).map (fun e => ((e.1.1.ptr, e.1.2.ptr), e.2)) =
      bs.map fun e => ((r.ptr, e.1), e.2)
  | _, [] => rfl
  | n, (b, x) :: bs => by simp [bidsToPy, bidsToPy_ptrs r (n + 1) bs]

/-- The entries of a map. -/
def flat (m : Map) : List ((ℕ × ℕ) × ℚ) := m.flatMap fun e => e.2.map fun f => ((e.1, f.1), f.2)

theorem mapToPy_ptrs : ∀ (n : ℕ) (m : Map),
    (mapToPy n m).map (fun e => ((e.1.1.ptr, e.1.2.ptr), e.2)) = flat m
  | _, [] => rfl
  | n, (r, bs) :: m => by
    simp [mapToPy, flat, bidsToPy_ptrs, mapToPy_ptrs (n + 1 + bs.length) m]

theorem mem_flat {m : Map} {r b : ℕ} {x : ℚ} : ((r, b), x) ∈ flat m ↔ Worth m r b x := by
  simp only [flat, List.mem_flatMap, List.mem_map, Worth]
  constructor
  · rintro ⟨e, he, f, hf, h⟩
    simp only [Prod.mk.injEq] at h
    obtain ⟨⟨rfl, rfl⟩, rfl⟩ := h
    exact ⟨e.2, he, hf⟩
  · rintro ⟨bs, he, hf⟩
    exact ⟨_, he, _, hf, rfl⟩

theorem flat_nodup : ∀ {m : Map}, Proper m → ((flat m).map Prod.fst).Nodup
  | [], _ => by simp [flat]
  | (r, bs) :: m, h => by
    obtain ⟨h1, h2, h3⟩ := proper_cons.1 h
    have : (flat ((r, bs) :: m)).map Prod.fst = (bs.map Prod.fst).map (fun b => (r, b)) ++
        (flat m).map Prod.fst := by
      simp [flat]
    rw [this, List.nodup_append]
    refine ⟨h2.map fun a b hab => (Prod.mk.inj hab).2, flat_nodup h3, ?_⟩
    intro a ha b hb hab
    subst hab
    obtain ⟨k, _, rfl⟩ := List.mem_map.1 ha
    obtain ⟨⟨⟨r', b'⟩, x⟩, he, heq⟩ := List.mem_map.1 hb
    simp only [Prod.mk.injEq] at heq
    obtain ⟨rfl, rfl⟩ := heq
    obtain ⟨bs', hb', _⟩ := mem_flat.1 he
    exact h1 (List.mem_map.2 ⟨_, hb', rfl⟩)

theorem shows_mapToPy (n : ℕ) {m : Map} (h : Proper m) : Shows (mapToPy n m) m := by
  have hp := mapToPy_ptrs n m
  constructor
  · have := flat_nodup h
    rw [← hp, List.map_map] at this
    exact this
  · intro r b x
    rw [← mem_flat, ← hp, List.mem_map]
    constructor
    · rintro ⟨e, he, h⟩
      simp only [Prod.mk.injEq] at h
      exact ⟨e, he, h.1.1, h.1.2, h.2⟩
    · rintro ⟨e, he, rfl, rfl, rfl⟩
      exact ⟨e, he, rfl⟩

theorem shows_upd {d : Dict} {m : Map} (hm : Proper m) (h : Shows d m) {k : Wrap × Wrap}
    (hk : k ∈ keys d) (x : ℚ) :
    Shows (upd d k x) (assign m k.1.ptr k.2.ptr x) ∧ keys (upd d k x) = keys d := by
  have hkeys : (d.map Prod.fst).Nodup := by
    have h1 := h.1
    rw [show (d.map fun e => (e.1.1.ptr, e.1.2.ptr)) =
      (d.map Prod.fst).map fun k => (k.1.ptr, k.2.ptr) by simp] at h1
    exact List.Nodup.of_map _ h1
  have hsame : keys (upd d k x) = keys d := upd_keys hk
  refine ⟨⟨?_, ?_⟩, hsame⟩
  · have : (upd d k x).map (fun e => (e.1.1.ptr, e.1.2.ptr)) =
        d.map fun e => (e.1.1.ptr, e.1.2.ptr) := by
      rw [show (fun e : (Wrap × Wrap) × ℚ => (e.1.1.ptr, e.1.2.ptr)) =
        (fun k : Wrap × Wrap => (k.1.ptr, k.2.ptr)) ∘ Prod.fst from rfl,
        ← List.map_map, ← List.map_map]
      exact congrArg _ hsame
    rw [this]; exact h.1
  · -- keys with the same pointers are the same key
    have hinj : ∀ e ∈ d, e.1.1.ptr = k.1.ptr → e.1.2.ptr = k.2.ptr → e.1 = k := by
      intro e he h1 h2
      obtain ⟨e', he', rfl⟩ := List.mem_map.1 hk
      have := List.inj_on_of_nodup_map h.1 he he' (by simp [h1, h2])
      rw [this]
    intro r b y
    rw [assign_worth hm, h.2]
    constructor
    · rintro (⟨rfl, rfl, rfl⟩ | ⟨hne, e, he, rfl, rfl, rfl⟩)
      · exact ⟨(k, y), (mem_upd hkeys).2 (Or.inl rfl), rfl, rfl, rfl⟩
      · refine ⟨e, (mem_upd hkeys).2 (Or.inr ⟨?_, he⟩), rfl, rfl, rfl⟩
        rintro rfl
        exact hne ⟨rfl, rfl⟩
    · rintro ⟨e, he, rfl, rfl, rfl⟩
      rcases (mem_upd hkeys).1 he with rfl | ⟨hne, he⟩
      · exact Or.inl ⟨rfl, rfl, rfl⟩
      · exact Or.inr ⟨fun hh => hne (hinj e he hh.1 hh.2), e, he, rfl, rfl, rfl⟩

theorem shows_updateAll {u : Dict} : ∀ {d : Dict} {m : Map}, Proper m → Shows d m →
    (∀ k ∈ keys u, k ∈ keys d) → Shows (updateAll d u) (assignAll m u) := by
  induction u with
  | nil => exact fun _ h _ => h
  | cons e u ih =>
    intro d m hm h hk
    obtain ⟨h1, h2⟩ := shows_upd hm h (hk e.1 (by simp [keys])) e.2
    refine ih (assign_proper hm _ _ _) h1 ?_
    intro k hku
    rw [h2]
    exact hk k (by simp only [keys, List.map_cons, List.mem_cons]; exact Or.inr hku)

end Cyclus.PyPrefs
