import Verif.Model.ExchangeGraph
import Mathlib.Data.List.Perm.Basic

/-! # Facts about the stable sort of the model -/

namespace Cyclus.Exchange

variable {α : Type}

theorem insertBy_perm (lt : α → α → Bool) (x : α) (l : List α) :
    (insertBy lt x l).Perm (x :: l) := by
  induction l with
  | nil => exact List.Perm.refl _
  | cons y ys ih =>
    unfold insertBy
    split
    · exact (ih.cons y).trans (List.Perm.swap x y ys)
    · exact List.Perm.refl _

theorem stableSort_perm (lt : α → α → Bool) (l : List α) : (stableSort lt l).Perm l := by
  induction l with
  | nil => exact List.Perm.refl _
  | cons x xs ih => exact (insertBy_perm lt x _).trans (ih.cons x)

theorem mem_stableSort {lt : α → α → Bool} {l : List α} {x : α} :
    x ∈ stableSort lt l ↔ x ∈ l := (stableSort_perm lt l).mem_iff

/-- A strict weak order. -/
structure WeakOrder (lt : α → α → Bool) : Prop where
  asymm : ∀ a b, lt a b = true → lt b a = false
  ntrans : ∀ a b c, lt a b = false → lt b c = false → lt a c = false

theorem insertBy_pairwise {lt : α → α → Bool} (h : WeakOrder lt) (x : α) (l : List α)
    (hl : l.Pairwise fun a b => lt b a = false) :
    (insertBy lt x l).Pairwise fun a b => lt b a = false := by
  induction l with
  | nil => simp [insertBy]
  | cons y ys ih =>
    have hy := List.pairwise_cons.1 hl
    unfold insertBy
    split
    · rename_i hlt
      refine List.pairwise_cons.2 ⟨?_, ih hy.2⟩
      intro z hz
      rcases List.mem_cons.1 ((insertBy_perm lt x ys).mem_iff.1 hz) with rfl | hz
      · exact h.asymm _ _ hlt
      · exact hy.1 z hz
    · rename_i hlt
      have hlt : lt y x = false := by simpa using hlt
      refine List.pairwise_cons.2 ⟨?_, hl⟩
      intro z hz
      rcases List.mem_cons.1 hz with rfl | hz
      · exact hlt
      · exact h.ntrans _ _ _ (hy.1 z hz) hlt

theorem stableSort_pairwise {lt : α → α → Bool} (h : WeakOrder lt) (l : List α) :
    (stableSort lt l).Pairwise fun a b => lt b a = false := by
  induction l with
  | nil => exact List.Pairwise.nil
  | cons x xs ih => exact insertBy_pairwise h x _ ih

/-- Selecting a class of mutually equivalent elements commutes with insertion. -/
theorem filter_insertBy {lt : α → α → Bool} (P : α → Bool)
    (hP : ∀ a b, P a = true → P b = true → lt a b = false) (x : α) (l : List α) :
    (insertBy lt x l).filter P = (x :: l).filter P := by
  induction l with
  | nil => rfl
  | cons y ys ih =>
    unfold insertBy
    split
    · rename_i hlt
      by_cases hx : P x = true
      · have hy : P y = false := by
          by_contra hy
          have hy : P y = true := by simpa using hy
          simp [hP _ _ hy hx] at hlt
        rw [List.filter_cons_of_neg (by simp [hy]), ih]
        simp [hx, hy]
      · have hx : P x = false := by simpa using hx
        rw [List.filter_cons, ih]
        simp [List.filter_cons, hx]
    · rfl

theorem filter_stableSort {lt : α → α → Bool} (P : α → Bool)
    (hP : ∀ a b, P a = true → P b = true → lt a b = false) (l : List α) :
    (stableSort lt l).filter P = l.filter P := by
  induction l with
  | nil => rfl
  | cons x xs ih =>
    show (insertBy lt x _).filter P = _
    rw [filter_insertBy P hP, List.filter_cons, ih, List.filter_cons]

end Cyclus.Exchange
