import Verif.Model.Resource
import Verif.Lemmas.CompMath
import Mathlib.Algebra.BigOperators.Group.Finset.Basic
import Mathlib.Algebra.BigOperators.Fin
import Mathlib.Tactic.Abel

/-! Helper lemmas for C08 and C09. -/

namespace Cyclus

/-- Changing a function at one point changes its sum by the difference. -/
theorem sum_change {f g : ℕ → ℚ} {n i : ℕ} (hi : i < n) (h : ∀ k, k ≠ i → g k = f k) :
    (∑ k ∈ Finset.range n, g k) = (∑ k ∈ Finset.range n, f k) + (g i - f i) := by
  rw [← Finset.add_sum_erase _ g (Finset.mem_range.2 hi),
    ← Finset.add_sum_erase _ f (Finset.mem_range.2 hi)]
  have : ∑ x ∈ (Finset.range n).erase i, g x = ∑ x ∈ (Finset.range n).erase i, f x :=
    Finset.sum_congr rfl (fun k hk => h k (Finset.ne_of_mem_erase hk))
  rw [this]; ring

/-- Changing a function at two points. -/
theorem sum_change2 {f g : ℕ → ℚ} {n i j : ℕ} (hi : i < n) (hj : j < n) (hij : i ≠ j)
    (h : ∀ k, k ≠ i → k ≠ j → g k = f k) :
    (∑ k ∈ Finset.range n, g k)
      = (∑ k ∈ Finset.range n, f k) + (g i - f i) + (g j - f j) := by
  have h1 := sum_change (f := f) (g := fun k => if k = i then g i else f k) hi
    (fun k hk => by simp [hk])
  have h2 := sum_change (f := fun k => if k = i then g i else f k) (g := g) hj
    (fun k hk => by
      by_cases hki : k = i
      · subst hki; simp
      · simp [hki, h k hki hk])
  rw [h2, h1]
  simp [Ne.symm hij]

theorem sum_congr_range {f g : ℕ → ℚ} {n : ℕ} (h : ∀ k, k < n → g k = f k) :
    (∑ k ∈ Finset.range n, g k) = ∑ k ∈ Finset.range n, f k :=
  Finset.sum_congr rfl (fun k hk => h k (Finset.mem_range.1 hk))

namespace Material

open CompMath

/-- Shape of a successful or failing `newComp`. -/
theorem newComp_spec (isnuc : ℕ → Bool) (s : St) (v : CompMap) :
    (∃ e, newComp isnuc s v = .error e) ∨
    (allPositive v = true ∧ newComp isnuc s v =
      .ok ({ s with comp := fun k => if k = s.nc then v else s.comp k, nc := s.nc + 1 }, s.nc)) := by
  unfold newComp
  cases h : createFrom isnuc v with
  | error e => exact Or.inl ⟨e, rfl⟩
  | ok w =>
    obtain ⟨rfl, hp, -⟩ := createFrom_ok h
    exact Or.inr ⟨hp, rfl⟩

/-- The composition of the remainder after `ExtractComp`. -/
def restComp (s : St) (i : ℕ) (q : ℚ) (c : ℕ) (thr : ℚ) : CompMap :=
  (sub (normalize (s.comp (s.obj i).comp) (s.obj i).qty) (normalize (s.comp c) q)).filter
    fun e => !decide (|e.2| ≤ thr)

theorem extractComp_spec (isnuc : ℕ → Bool) (s : St) (i : ℕ) (q : ℚ) (c : ℕ) (thr : ℚ) :
    (∃ e, extractComp isnuc s i q c thr = (s, .error e)) ∨
    (¬ (s.obj i).qty < q ∧ (s.obj i).comp = c ∧ extractComp isnuc s i q c thr =
      (alloc (setObj s i ⟨(s.obj i).qty - q, c⟩) ⟨q, c⟩, .ok (some s.n))) ∨
    (¬ (s.obj i).qty < q ∧ (s.obj i).comp ≠ c ∧ allPositive (restComp s i q c thr) = true ∧ 0 ≤ thr ∧
      extractComp isnuc s i q c thr =
      (alloc (setObj { s with
          comp := fun k => if k = s.nc then restComp s i q c thr else s.comp k,
          nc := s.nc + 1 } i ⟨(s.obj i).qty - q, s.nc⟩) ⟨q, c⟩, .ok (some s.n))) := by
  unfold extractComp
  simp only
  by_cases h1 : (s.obj i).qty < q
  · left; exact ⟨.value, by rw [if_pos h1]⟩
  rw [if_neg h1]
  by_cases h2 : (s.obj i).comp ≠ c
  · rw [if_pos h2]
    cases h3 : applyThreshold (sub (normalize (s.comp (s.obj i).comp) (s.obj i).qty)
        (normalize (s.comp c) q)) thr with
    | error e => left; exact ⟨e, rfl⟩
    | ok w =>
      obtain ⟨ht, rfl⟩ := applyThreshold_ok h3
      simp only
      rcases newComp_spec isnuc s (restComp s i q c thr) with ⟨e, he⟩ | ⟨hp, he⟩
      · left; refine ⟨e, ?_⟩
        unfold restComp at he
        rw [he]
      · right; right
        refine ⟨h1, h2, hp, ht, ?_⟩
        unfold restComp at he ⊢
        rw [he]
  · rw [if_neg h2]
    push Not at h2
    right; left
    refine ⟨h1, h2, ?_⟩
    rw [h2]

/-- The composition after `Absorb` of different compositions. -/
def mixComp (s : St) (i j : ℕ) : CompMap :=
  add (normalize (s.comp (s.obj i).comp) (s.obj i).qty)
    (normalize (s.comp (s.obj j).comp) (s.obj j).qty)

/-- The state after the final assignments of `Absorb` for distinct objects. -/
def mixed (s : St) (i j c : ℕ) : St :=
  { s with obj := fun k => if k = j then ⟨0, (s.obj j).comp⟩ else
      if k = i then ⟨(s.obj i).qty + (s.obj j).qty, c⟩ else s.obj k }

theorem absorb_spec (isnuc : ℕ → Bool) (s : St) (i j : ℕ) (hij : i ≠ j) :
    (∃ e, absorb isnuc s i j = (s, .error e)) ∨
    ((s.obj i).comp = (s.obj j).comp ∧
      absorb isnuc s i j = (mixed s i j (s.obj i).comp, .ok none)) ∨
    ((s.obj i).comp ≠ (s.obj j).comp ∧ allPositive (mixComp s i j) = true ∧
      absorb isnuc s i j = ({ mixed s i j s.nc with
        comp := fun k => if k = s.nc then mixComp s i j else s.comp k, nc := s.nc + 1 },
        .ok none)) := by
  unfold absorb
  simp only
  by_cases h : (s.obj i).comp ≠ (s.obj j).comp
  · rw [if_pos h]
    rcases newComp_spec isnuc s (mixComp s i j) with ⟨e, he⟩ | ⟨hp, he⟩
    · left; refine ⟨e, ?_⟩
      unfold mixComp at he
      rw [he]
    · right; right
      refine ⟨h, hp, ?_⟩
      unfold mixComp at he ⊢
      rw [he]
      simp only [mixed, setObj, if_neg (Ne.symm hij)]
      refine Prod.ext ?_ rfl
      simp only [St.mk.injEq, and_true]
      funext k
      by_cases hkj : k = j
      · simp [hkj]
      · by_cases hki : k = i
        · subst hki; simp [hkj]
        · simp [hkj, hki]
  · push Not at h
    rw [if_neg (by simpa using h)]
    right; left
    refine ⟨h, ?_⟩
    simp only [mixed, setObj, if_neg (Ne.symm hij)]

end Material

end Cyclus
