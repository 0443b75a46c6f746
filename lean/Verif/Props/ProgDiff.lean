import Verif.Lemmas.ProgDiff

/-!
# C139: comparing programs for COIN

Two programs compare as not different exactly if they are the same up to the tolerance (`C139_zero`), in either order
(`C139_symm`), and a program is not different from itself (`C139_refl`); the first three codes say which comparison failed (`C139_size`, `C139_kinds`).

The code violates the rest: names are never compared (`C139_fails_names`), codes do not say what is different
(`C139_fails_code`), and being the same is not transitive (`C139_fails_trans`).
-/

namespace Cyclus.ProgDiff

/-- **C139**: the result is 0 exactly if the programs are the same up to the tolerance. -/
theorem C139_zero {M : Type} (equiv : M → M → Bool) (l r : Prog M) (g : Bool) : different equiv l r g = 0 ↔ Same equiv l r :=
  different_zero equiv l r g

/-- One row and one column. -/
def one (u : ℚ) (i : Bool) : Prog Unit := ⟨[(0, u)], [⟨0, 1, 2, i⟩], (), 1, []⟩

example : different (fun _ _ => true) (one 5 true) (one 5 true) false = 0 ∧ different (fun _ _ => true) (one 5 true) (one 6 true) false = 1 := by
  decide +kernel

/-- **C139**: the order of the programs does not matter. -/
theorem C139_symm {M : Type} (equiv : M → M → Bool) (he : ∀ a b, equiv a b = equiv b a) (l r : Prog M) (g : Bool) :
    different equiv l r g = 0 ↔ different equiv r l g = 0 := by
  have : ∀ l r : Prog M, Same equiv l r → Same equiv r l := by
    rintro l r ⟨h1, h2, h3, h4⟩
    refine ⟨?_, ?_, h3.symm, by rw [he]; exact h4⟩
    · exact forall₂_mono (fun x y h => ⟨near_symm h.1, near_symm h.2⟩) h1.flip
    · exact forall₂_mono (fun x y h => ⟨near_symm h.1, near_symm h.2.1, near_symm h.2.2.1, h.2.2.2.symm⟩) h2.flip
  rw [C139_zero, C139_zero]
  exact ⟨this l r, this r l⟩

example : ∀ a b : Unit, (fun _ _ => true) a b = (fun _ _ => true) b a := fun _ _ => rfl

/-- **C139**: no program is different from itself. -/
theorem C139_refl {M : Type} (equiv : M → M → Bool) (l : Prog M) (g : Bool) (he : equiv l.matrix l.matrix = true) : different equiv l l g = 0 := by
  rw [C139_zero]
  have hn : ∀ a : ℚ, Near a a := fun a => (close_iff a a).mp (by simp [close])
  refine ⟨List.forall₂_same.mpr fun x _ => ⟨hn _, hn _⟩, List.forall₂_same.mpr fun x _ => ⟨hn _, hn _, hn _, rfl⟩, rfl, he⟩

example : (fun (_ _ : Unit) => true) (one 5 true).matrix (one 5 true).matrix = true := rfl

/-- Programs of different size give 1000. -/
theorem C139_size {M : Type} (equiv : M → M → Bool) (l r : Prog M) (g : Bool) (h : l.rows.length ≠ r.rows.length ∨ l.cols.length ≠ r.cols.length) :
    different equiv l r g = 1000 := by
  unfold different
  rw [if_pos h]

example : (one 5 true).rows.length ≠ (⟨[], [⟨0, 1, 2, true⟩], (), 1, []⟩ : Prog Unit).rows.length := by decide

/-- Programs of the same size whose columns are not integers alike give 1001 if the numbers of integers differ, and else 1002. -/
theorem C139_kinds {M : Type} (equiv : M → M → Bool) (l r : Prog M) (g : Bool) (h1 : l.rows.length = r.rows.length) (h2 : l.cols.length = r.cols.length)
    (hk : ¬ List.Forall₂ (fun x y => x.isInt = y.isInt) l.cols r.cols) :
    different equiv l r g = if (l.cols.filter (·.isInt)).length = (r.cols.filter (·.isInt)).length then 1002 else 1001 := by
  unfold different
  rw [if_neg (by simp [h1, h2])]
  have h3 : (intErrors l.cols r.cols).1 ≠ 0 ∨ (intErrors l.cols r.cols).2 ≠ 0 := by
    by_contra hc
    simp only [ne_eq, not_or, not_not] at hc
    exact hk ((intErrors_iff _ _ h2).mp hc)
  unfold integers
  rw [List.countP_eq_length_filter, List.countP_eq_length_filter, if_pos h3]
  by_cases hl : (l.cols.filter (·.isInt)).length = (r.cols.filter (·.isInt)).length
  · rw [if_neg (fun h => h hl), if_pos hl]
  · rw [if_pos hl, if_neg hl]

example : different (fun _ _ => true) (one 5 true) (one 5 false) false = 1001 ∧
    different (fun _ _ => true) (⟨[], [⟨0, 1, 2, true⟩, ⟨0, 1, 2, false⟩], (), 1, []⟩ : Prog Unit) ⟨[], [⟨0, 1, 2, false⟩, ⟨0, 1, 2, true⟩], (), 1, []⟩ false = 1002 := by
  decide +kernel

/-- Programs that differ in nothing else than their matrices give 100, or 200 if these have different numbers of elements. -/
theorem C139_matrix {M : Type} (equiv : M → M → Bool) (l r : Prog M) (g : Bool) (m : M) (h : Same equiv { l with matrix := m, elements := 0 } { r with matrix := m, elements := 0 })
    (hm : equiv l.matrix r.matrix = false ∨ l.elements ≠ r.elements) :
    different equiv l r g = if l.elements = r.elements then 100 else 200 := by
  obtain ⟨hr, hc, _, _⟩ := h
  dsimp only at hr hc
  have l1 := hr.length_eq
  have l2 := hc.length_eq
  have hi : List.Forall₂ (fun x y => x.isInt = y.isInt) l.cols r.cols := forall₂_mono (fun _ _ h => h.2.2.2) hc
  have h3 := (intErrors_iff _ _ l2).mpr hi
  unfold different
  rw [if_neg (by simp [l1, l2]), if_neg (by simpa [integers] using integers_eq hi), if_neg (by simp [h3.1, h3.2])]
  rw [(rowDiffs_iff _ _ l1).mpr hr, (colDiffs_iff _ _ l2).mpr (forall₂_mono (fun _ _ h => ⟨h.1, h.2.1, h.2.2.1⟩) hc)]
  unfold matrixDiffs
  by_cases he : l.elements = r.elements
  · rw [if_pos he, if_pos he]
    rcases hm with hm | hm
    · rw [hm]
      rfl
    · exact absurd he hm
  · rw [if_neg he, if_neg he]

example : different (fun a b => a == b) (⟨[], [], true, 1, []⟩ : Prog Bool) ⟨[], [], false, 1, []⟩ false = 100 := by decide

/-- Every bound and coefficient that is different counts once. -/
theorem C139_count {M : Type} (equiv : M → M → Bool) (l r : Prog M) (g : Bool) (m : M) (h : Same equiv { l with matrix := m, elements := 0 } { r with matrix := m, elements := 0 })
    (he : l.elements = r.elements) (hm : equiv l.matrix r.matrix = true) (a b : ℚ × ℚ) :
    different equiv { l with rows := a :: l.rows } { r with rows := b :: r.rows } g =
      (if |a.1 - b.1| ≤ 1 / 10000000000 * (1 + max |a.1| |b.1|) then 0 else 1) + (if |a.2 - b.2| ≤ 1 / 10000000000 * (1 + max |a.2| |b.2|) then 0 else 1) := by
  obtain ⟨hr, hc, _, _⟩ := h
  dsimp only at hr hc
  have l1 := hr.length_eq
  have l2 := hc.length_eq
  have hi : List.Forall₂ (fun x y => x.isInt = y.isInt) l.cols r.cols := forall₂_mono (fun _ _ h => h.2.2.2) hc
  have h3 := (intErrors_iff _ _ l2).mpr hi
  have h0 := (rowDiffs_iff _ _ l1).mpr hr
  unfold rowDiffs at h0
  rw [Nat.add_eq_zero_iff] at h0
  unfold different
  dsimp only
  rw [if_neg (by simp [l1, l2]), if_neg (by simpa [integers] using integers_eq hi), if_neg (by simp [h3.1, h3.2])]
  rw [(colDiffs_iff _ _ l2).mpr (forall₂_mono (fun _ _ h => ⟨h.1, h.2.1, h.2.2.1⟩) hc)]
  unfold matrixDiffs rowDiffs
  dsimp only
  rw [if_pos he, hm, List.zip_cons_cons, List.countP_cons, List.countP_cons, h0.1, h0.2]
  have hx : ∀ x y : ℚ, (if (!close x y) = true then 1 else 0) = if |x - y| ≤ 1 / 10000000000 * (1 + max |x| |y|) then 0 else 1 := by
    intro x y
    have hxy := close_iff x y
    unfold Near at hxy
    by_cases hn : |x - y| ≤ 1 / 10000000000 * (1 + max |x| |y|)
    · rw [if_pos hn, hxy.mpr hn]
      rfl
    · rw [if_neg hn]
      cases hcl : close x y with
      | true => exact absurd (hxy.mp hcl) hn
      | false => rfl
  rw [hx, hx]
  simp

example : different (fun _ _ => true) (⟨[(0, 1)], [], (), 1, []⟩ : Prog Unit) ⟨[(3, 4)], [], (), 1, []⟩ false = 2 := by decide +kernel

/-- **C139 fails**: names are never compared, whether they are to be ignored or not. -/
theorem C139_fails_names {M : Type} (equiv : M → M → Bool) (l r : Prog M) (n n' : List String) (g g' : Bool) :
    different equiv { l with names := n } { r with names := n' } g = different equiv l r g' := rfl

/-- **C139 fails**: the code does not say what is different: two hundred bounds, or the number of elements. -/
theorem C139_fails_code : different (fun _ _ => true) (⟨List.replicate 100 (0, 0), [], (), 1, []⟩ : Prog Unit) ⟨List.replicate 100 (1, 1), [], (), 1, []⟩ false = 200 ∧
    different (fun _ _ => true) (⟨[], [], (), 1, []⟩ : Prog Unit) ⟨[], [], (), 2, []⟩ false = 200 := by
  decide +kernel

/-- **C139 fails**: being not different is not transitive. -/
theorem C139_fails_trans : different (fun _ _ => true) (one 0 true) (one (1 / 10000000000) true) false = 0 ∧
    different (fun _ _ => true) (one (1 / 10000000000) true) (one (2 / 10000000000) true) false = 0 ∧
    different (fun _ _ => true) (one 0 true) (one (2 / 10000000000) true) false = 1 := by
  decide +kernel

end Cyclus.ProgDiff
