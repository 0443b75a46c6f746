import Verif.Spec.ProgDiff
import Mathlib.Tactic.Positivity
import Mathlib.Tactic.Linarith
import Mathlib.Algebra.Order.Group.Abs

/-!
# Lemmas about the comparison of programs
-/

namespace Cyclus.ProgDiff

theorem close_iff (a b : ℚ) : close a b = true ↔ Near a b := by
  unfold close Near
  simp only [Bool.or_eq_true, decide_eq_true_eq]
  constructor
  · rintro (rfl | h)
    · rw [sub_self, abs_zero]
      have : 0 ≤ max |a| |a| := le_trans (abs_nonneg a) (le_max_left _ _)
      linarith
    · exact h
  · exact Or.inr

theorem near_symm {a b : ℚ} (h : Near a b) : Near b a := by
  unfold Near at *
  rw [abs_sub_comm, max_comm]
  exact h

theorem countP_zero {A B : Type} (p : A × B → Bool) (R : A → B → Prop) (hp : ∀ x y, p (x, y) = false ↔ R x y) : ∀ (a : List A) (b : List B),
    a.length = b.length → ((a.zip b).countP p = 0 ↔ List.Forall₂ R a b)
  | [], [], _ => by simp
  | [], _ :: _, h => by simp at h
  | _ :: _, [], h => by simp at h
  | x :: a, y :: b, h => by
    have ih := countP_zero p R hp a b (by simpa using h)
    rw [List.zip_cons_cons, List.countP_cons, List.forall₂_cons, ← ih, ← hp x y]
    cases p (x, y) <;> simp

theorem forall₂_and {A B : Type} {P Q : A → B → Prop} : ∀ {a : List A} {b : List B}, List.Forall₂ P a b → List.Forall₂ Q a b →
    List.Forall₂ (fun x y => P x y ∧ Q x y) a b
  | [], _, .nil, .nil => .nil
  | _ :: _, _, .cons h t, .cons h' t' => .cons ⟨h, h'⟩ (forall₂_and t t')

theorem forall₂_mono {A B : Type} {P Q : A → B → Prop} (hpq : ∀ x y, P x y → Q x y) : ∀ {a : List A} {b : List B}, List.Forall₂ P a b → List.Forall₂ Q a b
  | [], _, .nil => .nil
  | _ :: _, _, .cons h t => .cons (hpq _ _ h) (forall₂_mono hpq t)

theorem rowDiffs_iff (a b : List (ℚ × ℚ)) (h : a.length = b.length) :
    rowDiffs a b = 0 ↔ List.Forall₂ (fun x y => Near x.1 y.1 ∧ Near x.2 y.2) a b := by
  unfold rowDiffs
  rw [Nat.add_eq_zero_iff, countP_zero _ (fun x y => Near x.1 y.1) (fun x y => by simp [close_iff]) a b h,
    countP_zero _ (fun x y => Near x.2 y.2) (fun x y => by simp [close_iff]) a b h]
  exact ⟨fun h => forall₂_and h.1 h.2, fun h => ⟨forall₂_mono (fun _ _ h => h.1) h, forall₂_mono (fun _ _ h => h.2) h⟩⟩

theorem colDiffs_iff (a b : List Col) (h : a.length = b.length) :
    colDiffs a b = 0 ↔ List.Forall₂ (fun x y => Near x.lower y.lower ∧ Near x.upper y.upper ∧ Near x.obj y.obj) a b := by
  unfold colDiffs
  rw [Nat.add_eq_zero_iff, Nat.add_eq_zero_iff, countP_zero _ (fun x y => Near x.lower y.lower) (fun x y => by simp [close_iff]) a b h,
    countP_zero _ (fun x y => Near x.upper y.upper) (fun x y => by simp [close_iff]) a b h,
    countP_zero _ (fun x y => Near x.obj y.obj) (fun x y => by simp [close_iff]) a b h]
  exact ⟨fun h => forall₂_and h.1.1 (forall₂_and h.1.2 h.2),
    fun h => ⟨⟨forall₂_mono (fun _ _ h => h.1) h, forall₂_mono (fun _ _ h => h.2.1) h⟩, forall₂_mono (fun _ _ h => h.2.2) h⟩⟩

theorem intErrors_iff (a b : List Col) (h : a.length = b.length) :
    ((intErrors a b).1 = 0 ∧ (intErrors a b).2 = 0) ↔ List.Forall₂ (fun x y => x.isInt = y.isInt) a b := by
  unfold intErrors
  rw [countP_zero _ (fun x y => x.isInt = true → y.isInt = true) (fun x y => by cases x.isInt <;> cases y.isInt <;> simp) a b h,
    countP_zero _ (fun x y => y.isInt = true → x.isInt = true) (fun x y => by cases x.isInt <;> cases y.isInt <;> simp) a b h]
  constructor
  · intro h
    refine forall₂_mono (fun x y h => ?_) (forall₂_and h.1 h.2)
    revert h
    cases x.isInt <;> cases y.isInt <;> simp
  · intro h
    exact ⟨forall₂_mono (fun _ _ h => by rw [h]; exact id) h, forall₂_mono (fun _ _ h => by rw [h]; exact id) h⟩

theorem integers_eq {a b : List Col} (h : List.Forall₂ (fun x y => x.isInt = y.isInt) a b) : a.countP (·.isInt) = b.countP (·.isInt) := by
  induction h with
  | nil => rfl
  | cons h _ ih => rw [List.countP_cons, List.countP_cons, ih, h]

theorem different_zero {M : Type} (equiv : M → M → Bool) (l r : Prog M) (g : Bool) : different equiv l r g = 0 ↔ Same equiv l r := by
  unfold different Same
  constructor
  · intro h
    by_cases h1 : l.rows.length ≠ r.rows.length ∨ l.cols.length ≠ r.cols.length
    · rw [if_pos h1] at h
      omega
    rw [if_neg h1] at h
    by_cases h2 : integers l ≠ integers r
    · rw [if_pos h2] at h
      omega
    rw [if_neg h2] at h
    by_cases h3 : (intErrors l.cols r.cols).1 ≠ 0 ∨ (intErrors l.cols r.cols).2 ≠ 0
    · rw [if_pos h3] at h
      omega
    rw [if_neg h3] at h
    simp only [ne_eq, not_or, not_not] at h1 h3
    have hr : rowDiffs l.rows r.rows = 0 := by omega
    have hc : colDiffs l.cols r.cols = 0 := by omega
    have hm : matrixDiffs equiv l r = 0 := by omega
    unfold matrixDiffs at hm
    refine ⟨(rowDiffs_iff _ _ h1.1).mp hr, ?_, ?_, ?_⟩
    · exact forall₂_mono (fun _ _ h => ⟨h.1.1, h.1.2.1, h.1.2.2, h.2⟩) (forall₂_and ((colDiffs_iff _ _ h1.2).mp hc) ((intErrors_iff _ _ h1.2).mp h3))
    · by_contra hne
      rw [if_neg hne] at hm
      omega
    · by_cases he : l.elements = r.elements
      · rw [if_pos he] at hm
        cases hq : equiv l.matrix r.matrix with
        | true => rfl
        | false =>
          rw [hq] at hm
          simp at hm
      · rw [if_neg he] at hm
        omega
  · rintro ⟨hr, hc, he, hm⟩
    have l1 := hr.length_eq
    have l2 := hc.length_eq
    have hi : List.Forall₂ (fun x y => x.isInt = y.isInt) l.cols r.cols := forall₂_mono (fun _ _ h => h.2.2.2) hc
    have h3 := (intErrors_iff _ _ l2).mpr hi
    rw [if_neg (by simp [l1, l2]), if_neg (by simpa [integers] using integers_eq hi), if_neg (by simp [h3.1, h3.2])]
    rw [(rowDiffs_iff _ _ l1).mpr hr, (colDiffs_iff _ _ l2).mpr (forall₂_mono (fun _ _ h => ⟨h.1, h.2.1, h.2.2.1⟩) hc)]
    unfold matrixDiffs
    rw [if_pos he, hm]
    rfl

end Cyclus.ProgDiff
