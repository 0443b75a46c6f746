import Verif.Spec.AnyHold
import Mathlib.Data.List.Nodup
import Mathlib.Logic.Equiv.Basic
import Mathlib.Tactic.SplitIfs

/-!
# Lemmas about the container for values of any type
-/

namespace Cyclus.AnyHold

open Spec

variable {V : Type} {size : ℕ → ℕ}

/-- The container `x` has the content `c`. -/
def Shows (size : ℕ → ℕ) (m : Mem V) (x : Any V) : Option (ℕ × V) → Prop
  | none => x = ⟨0, .zero⟩
  | some (t, v) => t ≠ 0 ∧ x.ty = t ∧
    if small size t then x.w = .val v else ∃ a, x.w = .ptr a ∧ m.heap a = some (t, some v)

/-- The containers show the variables; every block of memory belongs to one container or is lost. -/
structure Inv (size : ℕ → ℕ) (A : Vars V) (lost : List ℕ) (s : St V) : Prop where
  dom : ∀ i, A i = none → s.anys i = none
  shows : ∀ i c, A i = some c → ∃ x, s.anys i = some x ∧ Shows size s.mem x c
  sep : ∀ i j x y a, s.anys i = some x → s.anys j = some y → x.w = .ptr a → y.w = .ptr a → i = j
  fresh : ∀ a, s.mem.next ≤ a → s.mem.heap a = none
  owned : ∀ a, s.mem.heap a ≠ none → a ∈ lost ∨ ∃ i x, s.anys i = some x ∧ x.w = .ptr a
  apart : ∀ a ∈ lost, s.mem.heap a ≠ none ∧ ∀ i x, s.anys i = some x → x.w ≠ .ptr a
  nodup : lost.Nodup

theorem Shows.ptr {m : Mem V} {x : Any V} {c : Option (ℕ × V)} (h : Shows size m x c) {a : ℕ}
    (hw : x.w = .ptr a) : ∃ t v, c = some (t, v) ∧ small size t = false ∧ m.heap a = some (t, some v) := by
  cases c with
  | none => rw [h] at hw; cases hw
  | some c =>
    obtain ⟨t, v⟩ := c
    obtain ⟨-, -, h⟩ := h
    cases hs : small size t with
    | true => rw [hs, if_pos rfl, hw] at h; cases h
    | false =>
      rw [hs, if_neg (by simp), hw] at h
      obtain ⟨b, hb, h⟩ := h
      cases hb
      exact ⟨t, v, rfl, hs, h⟩

/-- Contents are not changed by changes elsewhere. -/
theorem Shows.mono {m m' : Mem V} {x : Any V} {c : Option (ℕ × V)} (h : Shows size m x c)
    (he : ∀ a, x.w = .ptr a → m'.heap a = m.heap a) : Shows size m' x c := by
  cases c with
  | none => exact h
  | some c =>
    obtain ⟨t, v⟩ := c
    obtain ⟨h0, h1, h⟩ := h
    refine ⟨h0, h1, ?_⟩
    split at h
    · rwa [if_pos ‹_›]
    · rw [if_neg ‹_›]
      obtain ⟨a, ha, h⟩ := h
      exact ⟨a, ha, by rw [he a ha]; exact h⟩

theorem Inv.get {A : Vars V} {lost : List ℕ} {s : St V} (h : Inv size A lost s) {i : ℕ} {x : Any V}
    (hx : s.anys i = some x) : ∃ c, A i = some c ∧ Shows size s.mem x c := by
  cases hA : A i with
  | none => rw [h.dom i hA] at hx; cases hx
  | some c =>
    obtain ⟨y, hy, hs⟩ := h.shows i c hA
    rw [hx] at hy
    cases hy
    exact ⟨c, rfl, hs⟩

/-- A container without memory gets a content that needs no memory, or is removed. -/
theorem Inv.plain {A : Vars V} {lost : List ℕ} {s : St V} (h : Inv size A lost s) {i : ℕ}
    (hi : ∀ x a, s.anys i = some x → x.w ≠ .ptr a) {c : Option (Option (ℕ × V))}
    {x' : Option (Any V)} (hc : c = none → x' = none)
    (hs : ∀ d, c = some d → ∃ x, x' = some x ∧ Shows size s.mem x d)
    (hw : ∀ x a, x' = some x → x.w ≠ .ptr a) :
    Inv size (Function.update A i c) lost ⟨s.mem, Function.update s.anys i x'⟩ := by
  refine ⟨?_, ?_, ?_, h.fresh, ?_, ?_, h.nodup⟩
  · intro j hj
    by_cases hij : j = i
    · subst hij; simp only [Function.update_self] at hj ⊢; exact hc hj
    · simp only [Function.update_of_ne hij] at hj ⊢; exact h.dom j hj
  · intro j d hj
    by_cases hij : j = i
    · subst hij; simp only [Function.update_self] at hj ⊢; exact hs d hj
    · simp only [Function.update_of_ne hij] at hj ⊢; exact h.shows j d hj
  · intro j k x y a hj hk hx hy
    simp only at hj hk
    by_cases hij : j = i
    · subst hij; rw [Function.update_self] at hj; exact absurd hx (hw x a hj)
    · by_cases hik : k = i
      · subst hik; rw [Function.update_self] at hk; exact absurd hy (hw y a hk)
      · rw [Function.update_of_ne hij] at hj
        rw [Function.update_of_ne hik] at hk
        exact h.sep j k x y a hj hk hx hy
  · intro a ha
    rcases h.owned a ha with h1 | ⟨j, x, hj, hx⟩
    · exact .inl h1
    · right
      have hij : j ≠ i := by rintro rfl; exact hi x a hj hx
      exact ⟨j, x, by simp only [Function.update_of_ne hij]; exact hj, hx⟩
  · intro a ha
    refine ⟨(h.apart a ha).1, fun j x hj => ?_⟩
    simp only at hj
    by_cases hij : j = i
    · subst hij; rw [Function.update_self] at hj; exact hw x a hj
    · rw [Function.update_of_ne hij] at hj; exact (h.apart a ha).2 j x hj

/-- A container without memory gets a block. -/
theorem Inv.alloc {A : Vars V} {lost : List ℕ} {s : St V} (h : Inv size A lost s) {i : ℕ}
    (hi : ∀ x a, s.anys i = some x → x.w ≠ .ptr a) {t : ℕ} {v : V} (ht : t ≠ 0)
    (hb : small size t = false) :
    Inv size (Function.update A i (some (some (t, v)))) lost
      (s.put i ((s.mem.alloc t v).1, ⟨t, (s.mem.alloc t v).2⟩)) := by
  have hptr : ∀ j x a, s.anys j = some x → x.w = .ptr a → a ≠ s.mem.next := by
    rintro j x a hj hx rfl
    obtain ⟨c, -, hsh⟩ := h.get hj
    obtain ⟨t, v, -, -, h1⟩ := hsh.ptr hx
    rw [h.fresh _ (Nat.le_refl _)] at h1
    cases h1
  refine ⟨?_, ?_, ?_, ?_, ?_, ?_, h.nodup⟩
  · intro j hj
    by_cases hij : j = i
    · subst hij; simp at hj
    · simp only [Function.update_of_ne hij] at hj
      simp only [St.put, Function.update_of_ne hij]
      exact h.dom j hj
  · intro j d hj
    by_cases hij : j = i
    · subst hij
      simp only [Function.update_self] at hj
      cases hj
      refine ⟨_, Function.update_self .., ht, rfl, ?_⟩
      rw [hb, if_neg (by simp)]
      exact ⟨s.mem.next, rfl, by simp [St.put, Mem.alloc]⟩
    · simp only [Function.update_of_ne hij] at hj
      obtain ⟨x, hx, hs⟩ := h.shows j d hj
      refine ⟨x, by simp only [St.put, Function.update_of_ne hij]; exact hx, hs.mono fun a ha => ?_⟩
      simp only [St.put, Mem.alloc]
      rw [Function.update_of_ne (hptr j x a hx ha)]
  · intro j k x y a hj hk hx hy
    simp only [St.put] at hj hk
    by_cases hij : j = i
    · by_cases hik : k = i
      · rw [hij, hik]
      · subst hij
        rw [Function.update_self] at hj
        rw [Function.update_of_ne hik] at hk
        cases hj
        simp only [Mem.alloc, Word.ptr.injEq] at hx
        exact absurd hx.symm (hptr k y a hk hy)
    · rw [Function.update_of_ne hij] at hj
      by_cases hik : k = i
      · subst hik
        rw [Function.update_self] at hk
        cases hk
        simp only [Mem.alloc, Word.ptr.injEq] at hy
        exact absurd hy.symm (hptr j x a hj hx)
      · rw [Function.update_of_ne hik] at hk
        exact h.sep j k x y a hj hk hx hy
  · intro a ha
    simp only [St.put, Mem.alloc] at ha ⊢
    have hne : a ≠ s.mem.next := by omega
    rw [Function.update_of_ne hne]
    exact h.fresh a (by omega)
  · intro a ha
    simp only [St.put, Mem.alloc] at ha ⊢
    by_cases hne : a = s.mem.next
    · right
      exact ⟨i, _, Function.update_self .., by rw [hne]⟩
    · rw [Function.update_of_ne hne] at ha
      rcases h.owned a ha with h1 | ⟨j, x, hj, hx⟩
      · exact .inl h1
      · right
        have hij : j ≠ i := by rintro rfl; exact hi x a hj hx
        exact ⟨j, x, by rw [Function.update_of_ne hij]; exact hj, hx⟩
  · intro a ha
    have hne : a ≠ s.mem.next := by
      rintro rfl
      exact (h.apart _ ha).1 (h.fresh _ (Nat.le_refl _))
    simp only [St.put, Mem.alloc]
    refine ⟨by rw [Function.update_of_ne hne]; exact (h.apart a ha).1, fun j x hj => ?_⟩
    by_cases hij : j = i
    · subst hij
      rw [Function.update_self] at hj
      cases hj
      simp only [ne_eq, Word.ptr.injEq]
      exact fun e => hne e.symm
    · rw [Function.update_of_ne hij] at hj
      exact (h.apart a ha).2 j x hj

/-- A container without memory gets a value. -/
theorem Inv.fill {A : Vars V} {lost : List ℕ} {s : St V} (h : Inv size A lost s) {i : ℕ}
    (hi : ∀ x a, s.anys i = some x → x.w ≠ .ptr a) {t : ℕ} (v : V) (ht : t ≠ 0) :
    Inv size (Function.update A i (some (some (t, v)))) lost
      (s.put i ((newObject size s.mem t v).1, ⟨t, (newObject size s.mem t v).2⟩)) := by
  cases hb : small size t with
  | true =>
    simp only [newObject, hb, if_true]
    refine h.plain hi (by simp) ?_ ?_
    · intro d hd
      cases hd
      exact ⟨_, rfl, ht, rfl, by rw [hb, if_pos rfl]⟩
    · intro x a hx
      cases hx
      simp
  | false =>
    simp only [newObject, hb, Bool.false_eq_true, if_false]
    exact h.alloc hi ht hb

/-- The memory of a container changes. -/
theorem Inv.change {A : Vars V} {lost : List ℕ} {s : St V} (h : Inv size A lost s) {i : ℕ} {x : Any V}
    {a : ℕ} (hx : s.anys i = some x) (ha : x.w = .ptr a) (b : Option (ℕ × Option V)) :
    ∀ j d, j ≠ i → A j = some d → ∃ y, s.anys j = some y ∧
      Shows size ⟨Function.update s.mem.heap a b, s.mem.next⟩ y d := by
  intro j d hij hj
  obtain ⟨y, hy, hs⟩ := h.shows j d hj
  refine ⟨y, hy, hs.mono fun k hk => ?_⟩
  have : k ≠ a := by
    rintro rfl
    exact hij (h.sep j i y x k hy hx hk ha)
  simp only [Function.update_of_ne this]

/-- The memory of a container is freed. -/
theorem Inv.free {A : Vars V} {lost : List ℕ} {s : St V} (h : Inv size A lost s) {i : ℕ} {x : Any V}
    {a : ℕ} (hx : s.anys i = some x) (ha : x.w = .ptr a) :
    Inv size (Function.update A i (some none)) lost
      ⟨⟨Function.update s.mem.heap a none, s.mem.next⟩,
        Function.update s.anys i (some ⟨0, .zero⟩)⟩ := by
  refine ⟨?_, ?_, ?_, ?_, ?_, ?_, h.nodup⟩
  · intro j hj
    by_cases hij : j = i
    · subst hij; simp at hj
    · simp only [Function.update_of_ne hij] at hj ⊢; exact h.dom j hj
  · intro j d hj
    by_cases hij : j = i
    · subst hij
      simp only [Function.update_self] at hj ⊢
      cases hj
      exact ⟨_, rfl, rfl⟩
    · simp only [Function.update_of_ne hij] at hj ⊢
      exact h.change hx ha none j d hij hj
  · intro j k y z c hj hk hy hz
    simp only at hj hk
    by_cases hij : j = i
    · subst hij; rw [Function.update_self] at hj; cases hj; cases hy
    · by_cases hik : k = i
      · subst hik; rw [Function.update_self] at hk; cases hk; cases hz
      · rw [Function.update_of_ne hij] at hj
        rw [Function.update_of_ne hik] at hk
        exact h.sep j k y z c hj hk hy hz
  · intro c hc
    simp only at hc ⊢
    by_cases hca : c = a
    · subst hca; simp
    · rw [Function.update_of_ne hca]; exact h.fresh c hc
  · intro c hc
    simp only at hc ⊢
    by_cases hca : c = a
    · subst hca; simp at hc
    · rw [Function.update_of_ne hca] at hc
      rcases h.owned c hc with h1 | ⟨j, y, hj, hy⟩
      · exact .inl h1
      · right
        have hij : j ≠ i := by
          rintro rfl
          rw [hx] at hj
          cases hj
          rw [ha] at hy
          cases hy
          exact hca rfl
        exact ⟨j, y, by rw [Function.update_of_ne hij]; exact hj, hy⟩
  · intro c hc
    have hca : c ≠ a := by
      rintro rfl
      exact (h.apart c hc).2 i x hx ha
    refine ⟨by simp only [Function.update_of_ne hca]; exact (h.apart c hc).1, fun j y hj => ?_⟩
    simp only at hj
    by_cases hij : j = i
    · subst hij; rw [Function.update_self] at hj; cases hj; simp
    · rw [Function.update_of_ne hij] at hj; exact (h.apart c hc).2 j y hj

/-- The memory of a container is given up. -/
theorem Inv.forget {A : Vars V} {lost : List ℕ} {s : St V} (h : Inv size A lost s) {i : ℕ} {x : Any V}
    {a t : ℕ} (hx : s.anys i = some x) (ha : x.w = .ptr a) :
    Inv size (Function.update A i (some none)) (a :: lost)
      ⟨⟨Function.update s.mem.heap a (some (t, none)), s.mem.next⟩,
        Function.update s.anys i (some ⟨0, .zero⟩)⟩ := by
  have hal : s.mem.heap a ≠ none := by
    obtain ⟨c, -, hs⟩ := h.get hx
    obtain ⟨t, v, -, -, h1⟩ := hs.ptr ha
    rw [h1]
    simp
  refine ⟨?_, ?_, ?_, ?_, ?_, ?_, ?_⟩
  · intro j hj
    by_cases hij : j = i
    · subst hij; simp at hj
    · simp only [Function.update_of_ne hij] at hj ⊢; exact h.dom j hj
  · intro j d hj
    by_cases hij : j = i
    · subst hij
      simp only [Function.update_self] at hj ⊢
      cases hj
      exact ⟨_, rfl, rfl⟩
    · simp only [Function.update_of_ne hij] at hj ⊢
      exact h.change hx ha _ j d hij hj
  · intro j k y z c hj hk hy hz
    simp only at hj hk
    by_cases hij : j = i
    · subst hij; rw [Function.update_self] at hj; cases hj; cases hy
    · by_cases hik : k = i
      · subst hik; rw [Function.update_self] at hk; cases hk; cases hz
      · rw [Function.update_of_ne hij] at hj
        rw [Function.update_of_ne hik] at hk
        exact h.sep j k y z c hj hk hy hz
  · intro c hc
    simp only at hc ⊢
    by_cases hca : c = a
    · subst hca; exact absurd (h.fresh c hc) hal
    · rw [Function.update_of_ne hca]; exact h.fresh c hc
  · intro c hc
    simp only at hc ⊢
    by_cases hca : c = a
    · subst hca; left; simp
    · rw [Function.update_of_ne hca] at hc
      rcases h.owned c hc with h1 | ⟨j, y, hj, hy⟩
      · left; simp [h1]
      · right
        have hij : j ≠ i := by
          rintro rfl
          rw [hx] at hj
          cases hj
          rw [ha] at hy
          cases hy
          exact hca rfl
        exact ⟨j, y, by rw [Function.update_of_ne hij]; exact hj, hy⟩
  · intro c hc
    simp only
    have hrest : ∀ j y, Function.update s.anys i (some ⟨0, .zero⟩) j = some y → y.w ≠ .ptr c := by
      intro j y hj
      by_cases hij : j = i
      · subst hij; rw [Function.update_self] at hj; cases hj; simp
      · rw [Function.update_of_ne hij] at hj
        rcases List.mem_cons.1 hc with rfl | hc
        · intro hy
          exact hij (h.sep j i y x c hj hx hy ha)
        · exact (h.apart c hc).2 j y hj
    refine ⟨?_, hrest⟩
    by_cases hca : c = a
    · subst hca; simp
    · rw [Function.update_of_ne hca]
      rcases List.mem_cons.1 hc with rfl | hc
      · exact absurd rfl hca
      · exact (h.apart c hc).1
  · rw [List.nodup_cons]
    refine ⟨fun hm => ?_, h.nodup⟩
    exact (h.apart a hm).2 i x hx ha

/-- The value in the memory of a container is replaced. -/
theorem Inv.write {A : Vars V} {lost : List ℕ} {s : St V} (h : Inv size A lost s) {i : ℕ} {x : Any V}
    {a t : ℕ} {v : V} (hx : s.anys i = some x) (ha : x.w = .ptr a) (hxt : x.ty = t) (ht : t ≠ 0)
    (hb : small size t = false) :
    Inv size (Function.update A i (some (some (t, v)))) lost
      ⟨⟨Function.update s.mem.heap a (some (t, some v)), s.mem.next⟩,
        Function.update s.anys i (some x)⟩ := by
  have hal : s.mem.heap a ≠ none := by
    obtain ⟨c, -, hs⟩ := h.get hx
    obtain ⟨t, v, -, -, h1⟩ := hs.ptr ha
    rw [h1]
    simp
  have hupd : Function.update s.anys i (some x) = s.anys := by
    rw [← hx, Function.update_eq_self]
  rw [hupd]
  refine ⟨?_, ?_, h.sep, ?_, ?_, ?_, h.nodup⟩
  · intro j hj
    by_cases hij : j = i
    · subst hij; simp at hj
    · simp only [Function.update_of_ne hij] at hj ⊢; exact h.dom j hj
  · intro j d hj
    by_cases hij : j = i
    · subst hij
      simp only [Function.update_self] at hj ⊢
      cases hj
      refine ⟨x, hx, ht, hxt, ?_⟩
      rw [hb, if_neg (by simp)]
      exact ⟨a, ha, by simp⟩
    · simp only [Function.update_of_ne hij] at hj ⊢
      exact h.change hx ha _ j d hij hj
  · intro c hc
    simp only at hc ⊢
    by_cases hca : c = a
    · subst hca; exact absurd (h.fresh c hc) hal
    · rw [Function.update_of_ne hca]; exact h.fresh c hc
  · intro c hc
    simp only at hc ⊢
    by_cases hca : c = a
    · subst hca; exact .inr ⟨i, x, hx, ha⟩
    · rw [Function.update_of_ne hca] at hc
      exact h.owned c hc
  · intro c hc
    have hca : c ≠ a := by
      rintro rfl
      exact (h.apart c hc).2 i x hx ha
    exact ⟨by simp only [Function.update_of_ne hca]; exact (h.apart c hc).1, (h.apart c hc).2⟩

/-! ## The functions on containers -/

/-- Whether a content is big. -/
def isBig (size : ℕ → ℕ) : Option (ℕ × V) → Bool
  | none => false
  | some c => !small size c.1

theorem no_ptr {m : Mem V} {x : Any V} {c : Option (ℕ × V)} (h : Shows size m x c)
    (hb : isBig size c = false) (a : ℕ) : x.w ≠ .ptr a := by
  intro hw
  obtain ⟨t, v, rfl, hs, -⟩ := h.ptr hw
  simp [isBig, hs] at hb

theorem destroySmall_ok {m : Mem V} {x : Any V} {c : Option (ℕ × V)} (h : Shows size m x c)
    (hb : isBig size c = false) : ∃ w, destroySmall x = some w := by
  cases c with
  | none => rw [h]; exact ⟨.zero, rfl⟩
  | some c =>
    obtain ⟨t, v⟩ := c
    obtain ⟨-, -, h⟩ := h
    simp only [isBig, Bool.not_eq_false'] at hb
    rw [hb, if_pos rfl] at h
    exact ⟨.dead, by simp [destroySmall, h]⟩

variable (h0 : size 0 ≤ 8)

include h0 in
theorem small_of {m : Mem V} {x : Any V} {c : Option (ℕ × V)} (h : Shows size m x c) :
    small size x.ty = !isBig size c := by
  cases c with
  | none => rw [h]; simp [small, isBig, h0]
  | some c =>
    obtain ⟨t, v⟩ := c
    rw [h.2.1]
    simp [isBig]

include h0 in
/-- `static_delete` frees the memory. -/
theorem staticDelete_spec {A : Vars V} {lost : List ℕ} {s : St V} (h : Inv size A lost s) {i : ℕ}
    {x : Any V} (hx : s.anys i = some x) : ∃ m w, staticDelete size s.mem x = some (m, w) ∧
      Inv size (Function.update A i (some none)) lost
        ⟨m, Function.update s.anys i (some ⟨0, .zero⟩)⟩ := by
  obtain ⟨c, hc, hs⟩ := h.get hx
  unfold staticDelete
  rw [small_of h0 hs]
  cases hb : isBig size c with
  | false =>
    obtain ⟨w, hw⟩ := destroySmall_ok hs hb
    refine ⟨s.mem, w, by simp [hw], h.plain ?_ (by simp) ?_ ?_⟩
    · intro y a hy
      rw [hx] at hy
      cases hy
      exact no_ptr hs hb a
    · intro d hd
      cases hd
      exact ⟨_, rfl, rfl⟩
    · intro y a hy
      cases hy
      simp
  | true =>
    cases c with
    | none => simp [isBig] at hb
    | some c =>
      obtain ⟨t, v⟩ := c
      obtain ⟨ht, hxt, hs⟩ := hs
      have hb' : small size t = false := by simpa [isBig] using hb
      rw [hb', if_neg (by simp)] at hs
      obtain ⟨a, ha, hm⟩ := hs
      refine ⟨⟨Function.update s.mem.heap a none, s.mem.next⟩, .ptr a, ?_, h.free hx ha⟩
      simp [ha, hm, hxt]

include h0 in
/-- `destruct` gives up the memory. -/
theorem destruct_spec {A : Vars V} {lost : List ℕ} {s : St V} (h : Inv size A lost s) {i : ℕ}
    {x : Any V} (hx : s.anys i = some x) {c : Option (ℕ × V)} (hc : A i = some c) :
    ∃ m w lost', destruct size s.mem x = some (m, w) ∧
      lost'.length = (if isBig size c then 1 else 0) + lost.length ∧
      Inv size (Function.update A i (some none)) lost'
        ⟨m, Function.update s.anys i (some ⟨0, .zero⟩)⟩ := by
  obtain ⟨c', hc', hs⟩ := h.get hx
  rw [hc] at hc'
  cases hc'
  unfold destruct
  rw [small_of h0 hs]
  cases hb : isBig size c with
  | false =>
    obtain ⟨w, hw⟩ := destroySmall_ok hs hb
    refine ⟨s.mem, w, lost, by simp [hw], by simp, h.plain ?_ (by simp) ?_ ?_⟩
    · intro y a hy
      rw [hx] at hy
      cases hy
      exact no_ptr hs hb a
    · intro d hd
      cases hd
      exact ⟨_, rfl, rfl⟩
    · intro y a hy
      cases hy
      simp
  | true =>
    cases c with
    | none => simp [isBig] at hb
    | some c =>
      obtain ⟨t, v⟩ := c
      obtain ⟨ht, hxt, hs⟩ := hs
      have hb' : small size t = false := by simpa [isBig] using hb
      rw [hb', if_neg (by simp)] at hs
      obtain ⟨a, ha, hm⟩ := hs
      refine ⟨⟨Function.update s.mem.heap a (some (t, none)), s.mem.next⟩, .ptr a, a :: lost, ?_,
        by simp [Nat.add_comm], h.forget hx ha⟩
      simp [ha, hm, hxt]

include h0 in
theorem reset_spec {A : Vars V} {lost : List ℕ} {s : St V} (h : Inv size A lost s) {i : ℕ}
    {x : Any V} (hx : s.anys i = some x) : ∃ m, reset size s.mem x = some (m, ⟨0, .zero⟩) ∧
      Inv size (Function.update A i (some none)) lost
        ⟨m, Function.update s.anys i (some ⟨0, .zero⟩)⟩ := by
  obtain ⟨c, hc, hs⟩ := h.get hx
  unfold reset
  by_cases ht : x.ty = 0
  · have hc0 : c = none := by
      cases c with
      | none => rfl
      | some c => exact absurd (hs.2.1.symm.trans ht) hs.1
    subst hc0
    have hx0 : x = ⟨0, .zero⟩ := hs
    subst hx0
    refine ⟨s.mem, by simp, ?_⟩
    rw [← hc, ← hx, Function.update_eq_self, Function.update_eq_self]
    exact h
  · obtain ⟨m, w, h1, h2⟩ := staticDelete_spec h0 h hx
    exact ⟨m, by simp [ht, h1], h2⟩

include h0 in
theorem clone_spec {m : Mem V} {x : Any V} {c : Option (ℕ × V)} (h : Shows size m x c) :
    clone size m x = c.elim (some (m, .zero)) fun c => some (newObject size m c.1 c.2) := by
  unfold clone
  rw [small_of h0 h]
  cases c with
  | none =>
    have hx0 : x = ⟨0, .zero⟩ := h
    subst hx0
    simp [isBig]
  | some c =>
    obtain ⟨t, v⟩ := c
    obtain ⟨ht, hxt, hs⟩ := h
    cases hb : small size t with
    | true =>
      rw [hb, if_pos rfl] at hs
      simp [isBig, hb, hs, newObject]
    | false =>
      rw [hb, if_neg (by simp)] at hs
      obtain ⟨a, ha, hm⟩ := hs
      simp [isBig, hb, ha, hm, hxt, newObject]

theorem put_put (s : St V) (i : ℕ) (m : Mem V) (x : Any V) (r : Mem V × Any V) :
    (St.put ⟨m, Function.update s.anys i (some x)⟩ i r) = s.put i r := by
  simp [St.put]

include h0 in
/-- Assignment of a container to another one. -/
theorem assignAny_spec {A : Vars V} {lost : List ℕ} {s : St V} (h : Inv size A lost s) {i j : ℕ}
    (hij : i ≠ j) {x y : Any V} (hx : s.anys j = some x) (hy : s.anys i = some y)
    {c : Option (ℕ × V)} (hc : A j = some c) : ∃ r, assignAny size s.mem x y = some r ∧
      Inv size (Function.update A i (some c)) lost (s.put i r) := by
  obtain ⟨c', hc', hs⟩ := h.get hx
  rw [hc] at hc'
  cases hc'
  obtain ⟨d, hd, hsy⟩ := h.get hy
  unfold assignAny
  by_cases ht : y.ty = x.ty
  · rw [if_pos ht]
    cases c with
    | none =>
      have hx0 : x = ⟨0, .zero⟩ := hs
      subst hx0
      have hd0 : d = none := by
        cases d with
        | none => rfl
        | some d => exact absurd (hsy.2.1.symm.trans ht) hsy.1
      subst hd0
      have hy0 : y = ⟨0, .zero⟩ := hsy
      subst hy0
      refine ⟨(s.mem, ⟨0, .zero⟩), by simp [moveTo, small, h0], ?_⟩
      have h1 : Function.update A i (some none) = A := by rw [← hd, Function.update_eq_self]
      have h2 : s.put i (s.mem, ⟨0, .zero⟩) = s := by
        simp only [St.put]
        rw [← hy, Function.update_eq_self]
      rw [h1, h2]
      exact h
    | some c =>
      obtain ⟨t, v⟩ := c
      obtain ⟨ht0, hxt, hs⟩ := hs
      cases d with
      | none =>
        have hy0 : y = ⟨0, .zero⟩ := hsy
        subst hy0
        exact absurd (hxt.symm.trans ht.symm) ht0
      | some d =>
        obtain ⟨u, v'⟩ := d
        obtain ⟨hu0, hyu, hsy'⟩ := hsy
        have hut : u = t := by rw [← hyu, ht, hxt]
        subst hut
        cases hb : small size u with
        | true =>
          rw [hb, if_pos rfl] at hs hsy'
          refine ⟨(s.mem, ⟨u, .val v⟩), by simp [moveTo, hxt, hb, hs, hsy', hyu], ?_⟩
          have := h.fill (i := i) (t := u) (by
            intro z a hz
            rw [hy] at hz
            cases hz
            simp [hsy']) v ht0
          simpa [newObject, hb] using this
        | false =>
          rw [hb, if_neg (by simp)] at hs hsy'
          obtain ⟨a, ha, hm⟩ := hs
          obtain ⟨b, hb', hm'⟩ := hsy'
          refine ⟨(⟨Function.update s.mem.heap b (some (u, some v)), s.mem.next⟩, y), ?_, ?_⟩
          · have : y = ⟨y.ty, .ptr b⟩ := by rw [← hb']
            simp only [moveTo, hxt, hb, Bool.false_eq_true, if_false, ha, hb', hm, hm', and_self, if_true,
              Option.map_some]
            rw [← this]
          · exact h.write hy hb' hyu hu0 hb
  · rw [if_neg ht]
    obtain ⟨m, hr, hI⟩ := reset_spec h0 h hy
    rw [hr]
    have hji : j ≠ i := fun e => hij e.symm
    have hx' : (⟨m, Function.update s.anys i (some ⟨0, .zero⟩)⟩ : St V).anys j = some x := by
      simp only [Function.update_of_ne hji]
      exact hx
    obtain ⟨c', hc', hs'⟩ := hI.get hx'
    rw [Function.update_of_ne hji, hc] at hc'
    cases hc'
    have hcl := clone_spec h0 hs'
    simp only at hcl ⊢
    rw [hcl]
    cases c with
    | none =>
      have hx0 : x = ⟨0, .zero⟩ := hs
      subst hx0
      exact ⟨_, rfl, hI⟩
    | some c =>
      obtain ⟨t, v⟩ := c
      refine ⟨_, rfl, ?_⟩
      have := hI.fill (i := i) (t := t) (by
        intro z a hz
        simp only [Function.update_self] at hz
        cases hz
        simp) v hs.1
      rw [put_put] at this
      rw [Function.update_idem] at this
      rw [hs.2.1]
      exact this

theorem forgets_eq (A : Vars V) (i t : ℕ) (c : Option (ℕ × V)) (hc : A i = some c) (ht : t ≠ 0)
    {y : Any V} {m : Mem V} (hs : Shows size m y c) :
    forgets size A i t = if (y.ty = t ∨ small size t = true) ∧ isBig size c = true then 1 else 0 := by
  unfold forgets
  rw [hc]
  cases c with
  | none => simp [isBig]
  | some c =>
    obtain ⟨u, v⟩ := c
    have := hs.2.1
    simp only [isBig, small, this, Bool.not_eq_true', decide_eq_true_eq, decide_eq_false_iff_not, Nat.not_le]
    split_ifs with h1 h2 h2
    · rfl
    · exact absurd ⟨h1.2.imp Eq.symm id, h1.1⟩ h2
    · exact absurd ⟨h2.2, h2.1.imp Eq.symm id⟩ h1
    · rfl

include h0 in
/-- Assignment of a value. -/
theorem assignVal_spec {A : Vars V} {lost : List ℕ} {s : St V} (h : Inv size A lost s) {i : ℕ}
    {y : Any V} (hy : s.anys i = some y) {t : ℕ} (ht : t ≠ 0) (v : V) {read : Mem V → Option V}
    (hread : ∀ m lost', Inv size (Function.update A i (some none)) lost'
      ⟨m, Function.update s.anys i (some ⟨0, .zero⟩)⟩ → read m = some v) :
    ∃ r lost', assignVal size s.mem y t read = some r ∧
      lost'.length = forgets size A i t + lost.length ∧
      Inv size (Function.update A i (some (some (t, v)))) lost' (s.put i r) := by
  obtain ⟨c, hc, hs⟩ := h.get hy
  rw [forgets_eq A i t c hc ht hs]
  have fill : ∀ m lost', Inv size (Function.update A i (some none)) lost'
      ⟨m, Function.update s.anys i (some ⟨0, .zero⟩)⟩ →
      Inv size (Function.update A i (some (some (t, v)))) lost'
        (s.put i ((newObject size m t v).1, ⟨t, (newObject size m t v).2⟩)) := by
    intro m lost' hI
    have := hI.fill (i := i) (t := t) (by
        intro z a hz
        simp only [Function.update_self] at hz
        cases hz
        simp) v ht
    rw [put_put, Function.update_idem] at this
    exact this
  unfold assignVal
  by_cases h1 : y.ty = t ∨ small size t = true
  · obtain ⟨m, w, lost', hd, hl, hI⟩ := destruct_spec h0 h hy hc
    refine ⟨((newObject size m t v).1, ⟨t, (newObject size m t v).2⟩), lost', ?_, ?_, fill m lost' hI⟩
    · rw [if_pos h1, hd]
      simp only [hread m lost' hI, Option.map_some]
    · rw [hl]
      simp [h1]
  · obtain ⟨m, hr, hI⟩ := reset_spec h0 h hy
    refine ⟨((newObject size m t v).1, ⟨t, (newObject size m t v).2⟩), lost, ?_, ?_, fill m lost hI⟩
    · rw [if_neg h1, hr]
      simp only [hread m lost hI, Option.map_some]
    · simp [h1]

theorem cast_spec {m : Mem V} {x : Any V} {c : Option (ℕ × V)} (h : Shows size m x c) {t : ℕ}
    (ht : t ≠ 0) : cast size m x t =
      some (c.bind fun d => if d.1 = t then some d.2 else none) := by
  unfold cast
  cases c with
  | none =>
    have hx0 : x = ⟨0, .zero⟩ := h
    subst hx0
    simp [Ne.symm ht]
  | some c =>
    obtain ⟨u, v⟩ := c
    obtain ⟨hu0, hxu, hs⟩ := h
    rw [hxu]
    by_cases hut : u = t
    · subst hut
      cases hb : small size u with
      | true =>
        rw [hb, if_pos rfl] at hs
        simp [hs]
      | false =>
        rw [hb, if_neg (by simp)] at hs
        obtain ⟨a, ha, hm⟩ := hs
        simp [ha, hm]
    · simp [hut]

/-- Two containers change places. -/
theorem Inv.swap {A : Vars V} {lost : List ℕ} {s : St V} (h : Inv size A lost s) {i j : ℕ} {x y : Any V}
    (hx : s.anys i = some x) (hy : s.anys j = some y) :
    Inv size (Function.update (Function.update A i (A j)) j (A i)) lost
      ⟨s.mem, Function.update (Function.update s.anys i (some y)) j (some x)⟩ := by
  have hA : ∀ k, Function.update (Function.update A i (A j)) j (A i) k = A (Equiv.swap i j k) := by
    intro k
    by_cases hkj : k = j
    · subst hkj; rw [Function.update_self, Equiv.swap_apply_right]
    · rw [Function.update_of_ne hkj]
      by_cases hki : k = i
      · subst hki; rw [Function.update_self, Equiv.swap_apply_left]
      · rw [Function.update_of_ne hki, Equiv.swap_apply_of_ne_of_ne hki hkj]
  have hS : ∀ k, Function.update (Function.update s.anys i (some y)) j (some x) k
      = s.anys (Equiv.swap i j k) := by
    intro k
    by_cases hkj : k = j
    · subst hkj; rw [Function.update_self, Equiv.swap_apply_right, hx]
    · rw [Function.update_of_ne hkj]
      by_cases hki : k = i
      · subst hki; rw [Function.update_self, Equiv.swap_apply_left, hy]
      · rw [Function.update_of_ne hki, Equiv.swap_apply_of_ne_of_ne hki hkj]
  refine ⟨?_, ?_, ?_, h.fresh, ?_, ?_, h.nodup⟩
  · intro k hk
    simp only
    rw [hS]
    exact h.dom _ (by rw [← hA]; exact hk)
  · intro k d hk
    simp only
    rw [hS]
    exact h.shows _ d (by rw [← hA]; exact hk)
  · intro k l u w a hk hl hu hw
    simp only at hk hl
    rw [hS] at hk hl
    exact (Equiv.swap i j).injective (h.sep _ _ u w a hk hl hu hw)
  · intro a ha
    rcases h.owned a ha with h1 | ⟨k, u, hk, hu⟩
    · exact .inl h1
    · right
      refine ⟨Equiv.swap i j k, u, ?_, hu⟩
      simp only
      rw [hS, Equiv.swap_apply_self]
      exact hk
  · intro a ha
    refine ⟨(h.apart a ha).1, fun k u hk => ?_⟩
    simp only at hk
    rw [hS] at hk
    exact (h.apart a ha).2 _ u hk

include h0 in
/-- One operation. -/
theorem step_spec (str : ℕ) {A A' : Vars V} {lost : List ℕ} {s : St V} (h : Inv size A lost s) {o : Op V}
    (ho : Spec.step A o = some A') : ∃ s' lost', step size str s o = some s' ∧
      lost'.length = Spec.lost size A o + lost.length ∧ Inv size A' lost' s' := by
  have absent : ∀ {i}, A i = none → ∀ x a, s.anys i = some x → x.w ≠ .ptr a := by
    intro i hi x a hx
    rw [h.dom i hi] at hx
    cases hx
  cases o with
  | empty i =>
    simp only [Spec.step] at ho
    split_ifs at ho with hi
    cases ho
    refine ⟨_, lost, rfl, by simp [Spec.lost], h.plain (absent (Option.isNone_iff_eq_none.1 hi))
      (by simp) ?_ ?_⟩
    · intro d hd
      cases hd
      exact ⟨_, rfl, rfl⟩
    · intro y a hy
      cases hy
      simp
  | make i t v =>
    simp only [Spec.step] at ho
    cases hi : A i with
    | some c => rw [hi] at ho; cases ho
    | none =>
      rw [hi] at ho
      simp only at ho
      split_ifs at ho with ht
      cases ho
      exact ⟨_, lost, rfl, by simp [Spec.lost], h.fill (absent hi) v ht⟩
  | chars i v => cases ho
  | copy i j =>
    simp only [Spec.step] at ho
    cases hi : A i with
    | some c => rw [hi] at ho; cases ho
    | none =>
      cases hj : A j with
      | none => rw [hi, hj] at ho; cases ho
      | some c =>
        rw [hi, hj] at ho
        cases ho
        obtain ⟨x, hx, hs⟩ := h.shows j c hj
        have hij : i ≠ j := by rintro rfl; rw [hi] at hj; cases hj
        have h1 : Inv size (Function.update A i (some none)) lost
            ⟨s.mem, Function.update s.anys i (some ⟨0, .zero⟩)⟩ := by
          refine h.plain (absent hi) (by simp) ?_ ?_
          · intro d hd
            cases hd
            exact ⟨_, rfl, rfl⟩
          · intro y a hy
            cases hy
            simp
        obtain ⟨r, hr, hI⟩ := assignAny_spec h0 h1 hij (x := x) (y := ⟨0, .zero⟩)
          (by simp only [Function.update_of_ne (Ne.symm hij)]; exact hx)
          (by simp) (c := c) (by rw [Function.update_of_ne (Ne.symm hij)]; exact hj)
        rw [put_put, Function.update_idem] at hI
        refine ⟨s.put i r, lost, ?_, by simp [Spec.lost], hI⟩
        simp only [step, hx]
        simp only at hr
        rw [hr, Option.map_some]
  | setAny i j =>
    simp only [Spec.step] at ho
    cases hi : A i with
    | none => rw [hi] at ho; cases ho
    | some d =>
      cases hj : A j with
      | none => rw [hi, hj] at ho; cases ho
      | some c =>
        rw [hi, hj] at ho
        cases ho
        obtain ⟨x, hx, hs⟩ := h.shows j c hj
        obtain ⟨y, hy, hsy⟩ := h.shows i d hi
        by_cases hij : i = j
        · subst hij
          refine ⟨s, lost, by simp [step, hx], by simp [Spec.lost], ?_⟩
          rw [← hj, Function.update_eq_self]
          exact h
        · obtain ⟨r, hr, hI⟩ := assignAny_spec h0 h hij hx hy hj
          exact ⟨s.put i r, lost, by simp [step, hx, hy, hij, hr], by simp [Spec.lost], hI⟩
  | set i t v =>
    simp only [Spec.step] at ho
    cases hi : A i with
    | none => rw [hi] at ho; cases ho
    | some d =>
      rw [hi] at ho
      simp only at ho
      split_ifs at ho with ht
      cases ho
      obtain ⟨y, hy, hsy⟩ := h.shows i d hi
      obtain ⟨r, lost', hr, hl, hI⟩ := assignVal_spec h0 h hy ht v (read := fun _ => some v)
        (fun _ _ _ => rfl)
      exact ⟨s.put i r, lost', by simp [step, hy, hr], by rw [hl, Spec.lost], hI⟩
  | setRef i j =>
    simp only [Spec.step] at ho
    cases hi : A i with
    | none => rw [hi] at ho; cases ho
    | some d =>
      cases hj : A j with
      | none => rw [hi, hj] at ho; cases ho
      | some c =>
        cases c with
        | none => rw [hi, hj] at ho; cases ho
        | some c =>
          obtain ⟨t, v⟩ := c
          rw [hi, hj] at ho
          simp only at ho
          split_ifs at ho with hij
          cases ho
          obtain ⟨x, hx, hs⟩ := h.shows j _ hj
          obtain ⟨y, hy, hsy⟩ := h.shows i d hi
          obtain ⟨r, lost', hr, hl, hI⟩ := assignVal_spec h0 h hy hs.1 v
            (read := fun m => (cast size m x t).join) (by
              intro m lost' hI
              obtain ⟨c', hc', hs'⟩ := hI.get (i := j) (x := x)
                (by simp only [Function.update_of_ne (Ne.symm hij)]; exact hx)
              rw [Function.update_of_ne (Ne.symm hij), hj] at hc'
              cases hc'
              simp only at hs' ⊢
              rw [cast_spec hs' hs.1]
              simp)
          refine ⟨s.put i r, lost', ?_, ?_, hI⟩
          · simp only [step, hx, hy, hs.2.1, hij, if_false, hr, Option.map_some]
          · rw [hl]
            simp only [Spec.lost, hj]
  | swap i j =>
    simp only [Spec.step] at ho
    cases hi : A i with
    | none => rw [hi] at ho; cases ho
    | some d =>
      cases hj : A j with
      | none => rw [hi, hj] at ho; cases ho
      | some c =>
        rw [hi, hj] at ho
        cases ho
        obtain ⟨x, hx, hs⟩ := h.shows j c hj
        obtain ⟨y, hy, hsy⟩ := h.shows i d hi
        have := h.swap hy hx
        rw [hi, hj] at this
        exact ⟨_, lost, by simp only [step, hx, hy], by simp [Spec.lost], this⟩
  | reset i =>
    simp only [Spec.step] at ho
    cases hi : A i with
    | none => rw [hi] at ho; cases ho
    | some d =>
      rw [hi] at ho
      cases ho
      obtain ⟨y, hy, hsy⟩ := h.shows i d hi
      obtain ⟨m, hr, hI⟩ := reset_spec h0 h hy
      exact ⟨s.put i (m, ⟨0, .zero⟩), lost, by simp [step, hy, hr], by simp [Spec.lost], hI⟩
  | drop i =>
    simp only [Spec.step] at ho
    cases hi : A i with
    | none => rw [hi] at ho; cases ho
    | some d =>
      rw [hi] at ho
      cases ho
      obtain ⟨y, hy, hsy⟩ := h.shows i d hi
      obtain ⟨m, w, hr, hI⟩ := staticDelete_spec h0 h hy
      refine ⟨⟨m, Function.update s.anys i none⟩, lost, by simp only [step, hy, hr, Option.map_some], by simp [Spec.lost], ?_⟩
      have := hI.plain (i := i) (c := none) (x' := none) (by
        intro z a hz
        simp only [Function.update_self] at hz
        cases hz
        simp) (by simp) (by simp) (by simp)
      simpa using this

include h0 in
/-- A program. -/
theorem run_spec (str : ℕ) : ∀ (os : List (Op V)) {A A' : Vars V} {lost : List ℕ} {s : St V},
    Inv size A lost s → Spec.run A os = some A' → ∃ s' lost', run size str s os = some s' ∧
      lost'.length = losses size A os + lost.length ∧ Inv size A' lost' s'
  | [], _, _, lost, s, h, ho => by
    cases ho
    exact ⟨s, lost, rfl, by simp [losses], h⟩
  | o :: os, A, A', lost, s, h, ho => by
    rw [Spec.run] at ho
    cases h1 : Spec.step A o with
    | none => rw [h1] at ho; cases ho
    | some B =>
      rw [h1] at ho
      obtain ⟨s1, l1, hs1, hl1, hI1⟩ := step_spec h0 str h h1
      obtain ⟨s2, l2, hs2, hl2, hI2⟩ := run_spec str os hI1 ho
      refine ⟨s2, l2, ?_, ?_, hI2⟩
      · rw [run, hs1]
        exact hs2
      · rw [hl2, hl1, losses, h1]
        simp only
        omega

theorem start_inv : Inv size (fun _ => none) [] (start : St V) := by
  refine ⟨fun _ _ => rfl, ?_, ?_, fun _ _ => rfl, ?_, ?_, List.nodup_nil⟩
  · intro i c hc; cases hc
  · intro i j x y a hx; cases hx
  · intro a ha; exact absurd rfl ha
  · intro a ha; cases ha

end Cyclus.AnyHold
