import Verif.Lemmas.MatQuery
import Verif.Model.Resource
import Mathlib.Algebra.BigOperators.Ring.List
import Mathlib.Order.Bounds.Basic
import Mathlib.Tactic.Ring
import Mathlib.Tactic.NormNum

/-!
# Properties C80, C81: queries of materials
-/

namespace Cyclus.MatQuery

open Cyclus.CompMath

/-! ### Specification

`v` lists masses (or atoms) of distinct nuclides, not negative and not all 0; only their proportions
count. -/

/-- Amounts of distinct nuclides, none negative. -/
structure Amounts (v : CompMap) : Prop where
  nodup : (v.map Prod.fst).Nodup
  nonneg : ∀ e ∈ v, 0 ≤ e.2

/-- The total of all amounts. -/
def total (v : CompMap) : ℚ := (v.map Prod.snd).sum

/-- The part of the total that a nuclide has. -/
def fraction (v : CompMap) (n : ℕ) : ℚ := CompMath.get v n / total v

/-- The mass of a nuclide in a material. -/
def content (m : Mat) (n : ℕ) : ℚ := fraction m.mass n * m.qty

/-! ### C80 -/

theorem normalize_fraction {v : CompMap} (hv : total v ≠ 0) (n : ℕ) :
    CompMath.get (normalize v 1) n = fraction v n := by
  have hs : sum v ≠ 0 := by rw [sum_eq]; exact hv
  rw [get_normalize hs, fraction, total, sum_eq]
  ring

/-- **C80.**  `mass_frac` and `mass` give the fraction and the mass of the nuclide. -/
theorem C80_mass (m : Mat) (hv : total m.mass ≠ 0) (n : ℕ) :
    massFrac m n = fraction m.mass n ∧ mass m n = content m n := by
  have h := normalize_fraction hv n
  exact ⟨h, by rw [mass, massFrac, h, content]⟩

/-- **C80.**  The mass fractions of all nuclides of a material sum to 1 and their masses to the
quantity. -/
theorem C80_sum {m : Mat} (h : Amounts m.mass) (hv : total m.mass ≠ 0) :
    ((m.mass.map Prod.fst).map (massFrac m)).sum = 1 ∧
    ((m.mass.map Prod.fst).map (mass m)).sum = m.qty := by
  have h1 : ((m.mass.map Prod.fst).map (massFrac m)).sum = 1 := by
    have hs : sum m.mass ≠ 0 := by rw [sum_eq]; exact hv
    have hk := keys_normalize (x := 1) h.nodup
    have := sum_keys hk
    rw [normalize_keys] at this
    have h2 := sum_normalize (x := 1) hs
    rw [sum_eq, ← this] at h2
    exact h2
  refine ⟨h1, ?_⟩
  have : (mass m) = fun n => massFrac m n * m.qty := rfl
  rw [this, List.sum_map_mul_right, h1, one_mul]

/-- **C80.**  A set of nuclides has the sum of their mass fractions, for a material that is not
empty. -/
theorem C80_set {m : Mat} (hv : total m.mass ≠ 0) (hq : m.qty ≠ 0) (nucs : List ℕ) :
    massFracSet m nucs = some (nucs.map (fraction m.mass)).sum := by
  unfold massFracSet
  simp only [if_neg hq]
  rw [foldl_sum, zero_add]
  have : (mass m) = fun n => fraction m.mass n * m.qty := funext fun n => (C80_mass m hv n).2
  rw [this, List.sum_map_mul_right]
  field_simp

/-- **C80.**  `atom_frac` gives the atoms of the nuclide as a fraction of all atoms, where a mass `x`
of a nuclide has `x / am` atoms. -/
theorem C80_atom (am : ℕ → ℚ) (m : Mat)
    (hv : (m.mass.map fun e => e.2 / am e.1).sum ≠ 0) (n : ℕ) :
    atomFrac am m n
      = (CompMath.get m.mass n / am n) / (m.mass.map fun e => e.2 / am e.1).sum := by
  have ht : total (atomOfMass am m.mass) = (m.mass.map fun e => e.2 / am e.1).sum := by
    simp [total, atomOfMass, List.map_map, Function.comp_def]
  unfold atomFrac
  rw [normalize_fraction (by rw [ht]; exact hv), fraction, ht, get_atom]

/-- **C80.**  A set of nuclides has the sum of their atom fractions. -/
theorem C80_atomset (am : ℕ → ℚ) (m : Mat) (nucs : List ℕ) :
    atomFracSet am m nucs = (nucs.map (atomFrac am m)).sum := by
  have hf : (fun t n => if has (normalize (atomOfMass am m.mass) 1) n
        then t + CompMath.get (normalize (atomOfMass am m.mass) 1) n else t)
      = fun (t : ℚ) n => t + atomFrac am m n := by
    funext t n
    split
    · rfl
    · rename_i h
      have : CompMath.get (normalize (atomOfMass am m.mass) 1) n = 0 :=
        get_of_not_mem fun hc => h (has_iff.2 hc)
      rw [atomFrac, this, add_zero]
  unfold atomFracSet
  simp only
  rw [hf, foldl_sum, zero_add]

/-- **C80.**  Moles are mass by molar mass; their proportions are those of the atom fractions. -/
theorem C80_moles (am : ℕ → ℚ) (g : ℚ) (m : Mat) (hv : total m.mass ≠ 0) {n : ℕ} (ha : am n ≠ 0)
    (hg : g ≠ 0) :
    ∃ x, moles am g m n = some x ∧ x * (am n * g) = content m n ∧
      x * g * total m.mass = CompMath.get m.mass n / am n * m.qty := by
  have hne : am n * g ≠ 0 := mul_ne_zero ha hg
  refine ⟨mass m n / (am n * g), by rw [moles, if_neg hne], ?_, ?_⟩
  · rw [← (C80_mass m hv n).2]
    field_simp
  · rw [(C80_mass m hv n).2, content, fraction]
    field_simp

theorem sum_get_le {v : CompMap} (h : ∀ e ∈ v, 0 ≤ e.2) {l : List ℕ} (hl : l.Nodup) :
    (l.map (CompMath.get v)).sum ≤ (v.map Prod.snd).sum := by
  induction v with
  | nil => simp [CompMath.get]
  | cons e v ih =>
    obtain ⟨k, x⟩ := e
    have hx : 0 ≤ x := h (k, x) (by simp)
    have hv : ∀ e ∈ v, 0 ≤ e.2 := fun e he => h e (by simp [he])
    have ih := ih hv
    have key : ∀ l : List ℕ, l.Nodup →
        (l.map (CompMath.get ((k, x) :: v))).sum ≤ x + (l.map (CompMath.get v)).sum := by
      intro l
      induction l with
      | nil => intro _; simpa using hx
      | cons a l ihl =>
        intro hn
        rw [List.nodup_cons] at hn
        simp only [List.map_cons, List.sum_cons]
        have ha := get_nonneg hv a
        by_cases hka : k = a
        · have hsame : l.map (CompMath.get ((k, x) :: v)) = l.map (CompMath.get v) := by
            refine List.map_congr_left fun b hb => ?_
            simp only [CompMath.get]
            rw [if_neg]
            rintro rfl
            exact hn.1 (hka ▸ hb)
          rw [hsame]
          simp only [CompMath.get, if_pos hka]
          linarith
        · have := ihl hn.2
          have hg : CompMath.get ((k, x) :: v) a = CompMath.get v a := by
            simp only [CompMath.get, if_neg hka]
          rw [hg]
          linarith
    have := key l hl
    simp only [List.map_cons, List.sum_cons]
    linarith

/-- **C80.**  `Amount` is the largest quantity of a composition that is contained in the material: as
much of it as leaves no nuclide negative, and no more. -/
theorem C80_amount {large : ℚ} (hl : 1 < large) {m : Mat} (hm : Amounts m.mass) (hq : 0 ≤ m.qty)
    (hv : total m.mass ≠ 0) {c : CompMap} (hc : Amounts c) (hc0 : total c ≠ 0) :
    IsGreatest {x : ℚ | ∀ n, x * fraction c n ≤ content m n} (amount large m c) := by
  have hsc : sum c ≠ 0 := by rw [sum_eq]; exact hc0
  have hsm : sum m.mass ≠ 0 := by rw [sum_eq]; exact hv
  have ho1 : sum (normalize c 1) = 1 := sum_normalize hsc
  have hko : Keys (normalize c 1) := keys_normalize hc.nodup 1
  have hon := normalize_nonneg hc.nonneg (x := 1) (by norm_num)
  have hmn := normalize_nonneg hm.nonneg (x := 1) (by norm_num)
  have hM : ∀ n, content m n = CompMath.get (normalize m.mass 1) n * m.qty := fun n => by
    rw [normalize_fraction hv, content]
  have hO : ∀ n, fraction c n = CompMath.get (normalize c 1) n := fun n =>
    (normalize_fraction hc0 n).symm
  obtain ⟨h1, h2⟩ := amountLoop_spec hko hmn hon (r0 := large) (by linarith)
  unfold amount
  simp only
  cases hcase : amountLoop (normalize m.mass 1) (normalize c 1) large with
  | none =>
    obtain ⟨e, he, he1, he2⟩ := h2 hcase
    have hge := get_of_mem hko (n := e.1) (q := e.2) he
    constructor
    · intro n
      rw [zero_mul, hM]
      exact mul_nonneg (get_nonneg hmn n) hq
    · intro x hx
      have := hx e.1
      rw [hM, hO, hge, he2, zero_mul] at this
      by_contra hneg
      have := mul_pos (not_le.1 hneg) he1
      linarith
  | some r =>
    obtain ⟨a, b, cc, d⟩ := h1 r hcase
    have hval : (normalize (normalize c 1) (r * m.qty)).foldl (fun s e => s + e.2) 0
        = r * m.qty := by
      rw [foldl_sum, zero_add]
      have : sum (normalize (normalize c 1) (r * m.qty)) = r * m.qty :=
        sum_normalize (by rw [ho1]; norm_num)
      rw [sum_eq] at this
      exact this
    simp only [hval]
    constructor
    · intro n
      rw [hM, hO]
      by_cases h0 : CompMath.get (normalize c 1) n = 0
      · rw [h0, mul_zero]
        exact mul_nonneg (get_nonneg hmn n) hq
      · have := mul_le_mul_of_nonneg_right (cc _ (mem_of_get h0)) hq
        simp only at this
        linarith
    · intro x hx
      rcases d with d | ⟨e, he, he1, he2⟩
      · exfalso
        have hsum := sum_get_le hmn (l := (normalize c 1).map Prod.fst) hko
        have hle : r * ((normalize c 1).map Prod.snd).sum
            ≤ (((normalize c 1).map Prod.fst).map (CompMath.get (normalize m.mass 1))).sum := by
          rw [← List.sum_map_mul_left, List.map_map]
          refine List.sum_le_sum fun e he => ?_
          exact cc e he
        rw [sum_eq] at ho1
        have hm1 : sum (normalize m.mass 1) = 1 := sum_normalize hsm
        rw [sum_eq] at hm1
        rw [ho1] at hle
        rw [hm1] at hsum
        linarith
      · have h3 := hx e.1
        have hge := get_of_mem hko (n := e.1) (q := e.2) he
        rw [hM, hO, hge, ← he2] at h3
        have : x * e.2 ≤ (r * m.qty) * e.2 := by linarith
        exact le_of_mul_le_mul_right this he1

/-- **C80.**  What `Amount` promises can be extracted: `ExtractComp` of that quantity does not throw and
gives it. -/
theorem C80_extract {large : ℚ} (hl : 1 < large) {isnuc : ℕ → Bool} {s : Material.St} {i c : ℕ}
    {thr : ℚ} (ht : 0 ≤ thr) (hm : Amounts (s.comp (s.obj i).comp)) (hq : 0 ≤ (s.obj i).qty)
    (hv : total (s.comp (s.obj i).comp) ≠ 0) (hc : Amounts (s.comp c)) (hc0 : total (s.comp c) ≠ 0)
    (hn1 : ∀ e ∈ s.comp (s.obj i).comp, isnuc e.1 = true) (hn2 : ∀ e ∈ s.comp c, isnuc e.1 = true) :
    let q := amount large ⟨(s.obj i).qty, s.comp (s.obj i).comp⟩ (s.comp c)
    let out := Material.extractComp isnuc s i q c thr
    out.2 = .ok (some s.n) ∧ (out.1.obj s.n).qty = q ∧ (out.1.obj s.n).comp = c := by
  intro q
  have hg := C80_amount hl (m := ⟨(s.obj i).qty, s.comp (s.obj i).comp⟩) hm hq hv hc hc0
  have hfeas : ∀ n, q * fraction (s.comp c) n ≤ _ := hg.1
  have hsc : sum (s.comp c) ≠ 0 := by rw [sum_eq]; exact hc0
  have hsm : sum (s.comp (s.obj i).comp) ≠ 0 := by rw [sum_eq]; exact hv
  have hle : q ≤ (s.obj i).qty := by
    have hsum := sum_get_le (normalize_nonneg hm.nonneg (x := (s.obj i).qty) hq)
      (l := (s.comp c).map Prod.fst) hc.nodup
    have e1 : sum (normalize (s.comp (s.obj i).comp) (s.obj i).qty) = (s.obj i).qty :=
      sum_normalize hsm
    rw [sum_eq] at e1
    rw [e1] at hsum
    refine le_trans ?_ hsum
    have e2 : q = (((s.comp c).map Prod.fst).map fun n => q * fraction (s.comp c) n).sum := by
      rw [List.sum_map_mul_left]
      have hone : (((s.comp c).map Prod.fst).map (fraction (s.comp c))).sum = 1 := by
        have h0 : ((s.comp c).map Prod.fst).map (fraction (s.comp c))
            = ((s.comp c).map Prod.fst).map
                fun n => CompMath.get (s.comp c) n * (total (s.comp c))⁻¹ := by
          simp [fraction, div_eq_mul_inv]
        rw [h0, List.sum_map_mul_right, sum_keys hc.nodup]
        exact mul_inv_cancel₀ hc0
      rw [hone, mul_one]
    rw [e2]
    refine List.sum_le_sum fun n _ => ?_
    refine (hfeas n).trans (le_of_eq ?_)
    rw [get_normalize hsm, content, fraction, total, sum_eq]
    ring
  have hkeys : ∀ (w v : CompMap) (k : ℕ),
      k ∈ (w.foldl (fun out e => addTo out e.1 (-e.2)) v).map Prod.fst →
      k ∈ v.map Prod.fst ∨ k ∈ w.map Prod.fst := by
    have hadd : ∀ (v : CompMap) (n : ℕ) (x : ℚ) (k : ℕ), k ∈ (addTo v n x).map Prod.fst →
        k ∈ v.map Prod.fst ∨ k = n := by
      intro v n x k
      induction v with
      | nil => simp [addTo]
      | cons e v ih =>
        obtain ⟨a, y⟩ := e
        simp only [addTo]
        split
        · intro h; exact Or.inl h
        · intro h
          simp only [List.map_cons, List.mem_cons] at h ⊢
          rcases h with h | h
          · exact Or.inl (Or.inl h)
          · rcases ih h with h | h
            · exact Or.inl (Or.inr h)
            · exact Or.inr h
    intro w
    induction w with
    | nil => intro v k h; exact Or.inl h
    | cons e w ih =>
      intro v k h
      rw [List.foldl_cons] at h
      rcases ih _ _ h with h | h
      · rcases hadd _ _ _ _ h with h | h
        · exact Or.inl h
        · exact Or.inr (by simp [h])
      · exact Or.inr (by simp only [List.map_cons, List.mem_cons]; exact Or.inr h)
  unfold Material.extractComp
  simp only
  rw [if_neg (not_lt.2 hle)]
  by_cases hcc : (s.obj i).comp = c
  · rw [if_neg (by simpa using hcc)]
    simp [Material.alloc, Material.setObj]
  · rw [if_pos hcc]
    have hth : ∀ v, applyThreshold v thr = .ok (v.filter fun e => !decide (|e.2| ≤ thr)) := by
      intro v
      rw [applyThreshold, if_neg (not_lt.2 ht)]
    rw [hth]
    simp only
    have hnew : ∀ v : CompMap, validNucs isnuc v = true → allPositive v = true →
        Material.newComp isnuc s v = .ok ({ s with
          comp := fun k => if k = s.nc then v else s.comp k, nc := s.nc + 1 }, s.nc) := by
      intro v h1 h2
      simp [Material.newComp, createFrom, h1, h2]
    rw [hnew]
    · simp [Material.alloc, Material.setObj]
    · simp only [validNucs, List.all_eq_true]
      intro e he
      have he := List.mem_of_mem_filter he
      rcases hkeys _ _ _ (List.mem_map_of_mem he) with h | h
      · rw [normalize_keys] at h
        obtain ⟨e', he', h'⟩ := List.mem_map.1 h
        rw [← h']; exact hn1 e' he'
      · rw [normalize_keys] at h
        obtain ⟨e', he', h'⟩ := List.mem_map.1 h
        rw [← h']; exact hn2 e' he'
    · rw [allPositive_iff]
      intro e he
      have he := List.mem_of_mem_filter he
      have hk2 : Keys (sub (normalize (s.comp (s.obj i).comp) (s.obj i).qty)
          (normalize (s.comp c) q)) := keys_sub _ (keys_normalize hm.nodup _)
      have hval := get_of_mem hk2 (n := e.1) (q := e.2) he
      rw [← hval, get_sub (keys_normalize hc.nodup _), get_normalize hsm, get_normalize hsc]
      have := hfeas e.1
      rw [content, fraction, fraction, total, total, ← sum_eq, ← sum_eq] at this
      simp only at this
      have e3 : CompMath.get (s.comp c) e.1 * (q / sum (s.comp c))
          = q * (CompMath.get (s.comp c) e.1 / sum (s.comp c)) := by ring
      have e4 : CompMath.get (s.comp (s.obj i).comp) e.1 * ((s.obj i).qty /
          sum (s.comp (s.obj i).comp)) = CompMath.get (s.comp (s.obj i).comp) e.1 /
          sum (s.comp (s.obj i).comp) * (s.obj i).qty := by ring
      rw [e3, e4]
      linarith

/-- Two kilograms, a quarter of nuclide 1; the request takes 1 and 3 in equal parts or 1 and 2. -/
def sample : Mat := ⟨2, [(1, 1), (2, 3)]⟩

example : Amounts sample.mass ∧ total sample.mass ≠ 0 ∧ 0 < sample.qty :=
  ⟨⟨by decide, by decide +kernel⟩, by decide +kernel, by decide +kernel⟩

example : amount 1000 sample [(1, 1), (2, 1)] = 1 ∧ amount 1000 sample [(1, 1), (3, 1)] = 0 ∧
    massFrac sample 1 = 1 / 4 ∧ massFracSet sample [1, 2] = some 1 := by decide +kernel

example : atomFrac (fun n => n) sample 1 = 2 / 5 := by decide +kernel

/-- The code contradicts C80 for an empty material: the fraction of a set of nuclides is `0 / 0`,
although the fraction of each of them is defined. -/
theorem C80_fails_empty : ∃ (m : Mat) (n : ℕ), Amounts m.mass ∧ total m.mass ≠ 0 ∧
    massFrac m n = 1 ∧ massFracSet m [n] = none :=
  ⟨⟨0, [(1, 5)]⟩, 1, ⟨by decide, by decide +kernel⟩, by decide +kernel, by decide +kernel,
    by decide +kernel⟩

/-! ### C81 -/

/-- **C81.**  The atom assay is the number of atoms of U-235 by that of U-235 and U-238, and is a
number between 0 and 1; without either it is 0. -/
theorem C81_atom {am : ℕ → ℚ} (ha : ∀ n, 0 < am n) {m : Mat} (hm : Amounts m.mass)
    (hv : total m.mass ≠ 0) :
    let x := CompMath.get m.mass 922350000 / am 922350000
    let y := CompMath.get m.mass 922380000 / am 922380000
    (assayAtom am m * (x + y) = x) ∧ (x + y = 0 → assayAtom am m = 0) ∧
    0 ≤ assayAtom am m ∧ assayAtom am m ≤ 1 := by
  intro x y
  have hx : 0 ≤ x := div_nonneg (get_nonneg hm.nonneg _) (ha _).le
  have hy : 0 ≤ y := div_nonneg (get_nonneg hm.nonneg _) (ha _).le
  have hT : 0 < (m.mass.map fun e => e.2 / am e.1).sum := by
    have hne : ∃ e ∈ m.mass, e.2 ≠ 0 := by
      by_contra hcon
      push Not at hcon
      refine hv (List.sum_eq_zero fun z hz => ?_)
      obtain ⟨e, he, rfl⟩ := List.mem_map.1 hz
      exact hcon e he
    obtain ⟨e, he, hne⟩ := hne
    have hpos : 0 < e.2 / am e.1 :=
      div_pos (lt_of_le_of_ne (hm.nonneg e he) (Ne.symm hne)) (ha _)
    refine lt_of_lt_of_le hpos (List.single_le_sum ?_ _ (List.mem_map_of_mem he))
    intro z hz
    obtain ⟨e', he', rfl⟩ := List.mem_map.1 hz
    exact div_nonneg (hm.nonneg e' he') (ha _).le
  have e1 := C80_atom am m hT.ne' 922350000
  have e2 := C80_atom am m hT.ne' 922380000
  change atomFrac am m u235 = x / _ at e1
  change atomFrac am m u238 = y / _ at e2
  unfold assayAtom
  simp only
  rw [e1, e2, ← add_div]
  set T := (m.mass.map fun e => e.2 / am e.1).sum
  by_cases h0 : x + y = 0
  · have hx0 : x = 0 := by linarith
    rw [h0, zero_div, if_neg (lt_irrefl _)]
    simp [hx0]
  · have hxy : 0 < x + y := lt_of_le_of_ne (by linarith) (Ne.symm h0)
    rw [if_pos (div_pos hxy hT)]
    have hv : x / T / ((x + y) / T) = x / (x + y) := by field_simp
    rw [hv]
    refine ⟨by field_simp, fun h => absurd h h0, by positivity, ?_⟩
    rw [div_le_one hxy]
    linarith

/-- **C81.**  The mass assay is the mass of U-235 by that of U-235 and U-238, and is a number between 0
and 1; without either it is 0. -/
theorem C81_mass {m : Mat} (hm : Amounts m.mass) (hv : total m.mass ≠ 0) :
    let x := CompMath.get m.mass 922350000
    let y := CompMath.get m.mass 922380000
    (assayMass m * (x + y) = x) ∧ (x + y = 0 → assayMass m = 0) ∧
    0 ≤ assayMass m ∧ assayMass m ≤ 1 := by
  intro x y
  have hx : 0 ≤ x := get_nonneg hm.nonneg _
  have hy : 0 ≤ y := get_nonneg hm.nonneg _
  have hT : 0 < total m.mass := by
    refine lt_of_le_of_ne ?_ (Ne.symm hv)
    have := sum_nonneg hm.nonneg
    rw [sum_eq] at this
    exact this
  have e1 : massFrac m u235 = x / total m.mass := (C80_mass m hv 922350000).1
  have e2 : massFrac m u238 = y / total m.mass := (C80_mass m hv 922380000).1
  unfold assayMass
  simp only
  rw [e1, e2, ← add_div]
  by_cases h0 : x + y = 0
  · have hx0 : x = 0 := by linarith
    rw [h0, zero_div, if_neg (lt_irrefl _)]
    simp [hx0]
  · have hxy : 0 < x + y := lt_of_le_of_ne (by linarith) (Ne.symm h0)
    rw [if_pos (div_pos hxy hT)]
    have hv : x / total m.mass / ((x + y) / total m.mass) = x / (x + y) := by field_simp
    rw [hv]
    refine ⟨by field_simp, fun h => absurd h h0, by positivity, ?_⟩
    rw [div_le_one hxy]
    linarith

/-- **C81.**  The two assays of one material describe the same ratio of isotopes: an atom assay `a`
means a mass assay of `a M₅ / (a M₅ + (1 - a) M₈)`. -/
theorem C81_convert {am : ℕ → ℚ} (ha : ∀ n, 0 < am n) {m : Mat} (hm : Amounts m.mass)
    (hu : 0 < CompMath.get m.mass 922350000 + CompMath.get m.mass 922380000) :
    let a := assayAtom am m
    assayMass m
      = a * am 922350000 / (a * am 922350000 + (1 - a) * am 922380000) := by
  intro a
  have hx : 0 ≤ CompMath.get m.mass 922350000 := get_nonneg hm.nonneg _
  have hy : 0 ≤ CompMath.get m.mass 922380000 := get_nonneg hm.nonneg _
  have h5 := ha 922350000
  have h8 := ha 922380000
  have hv : total m.mass ≠ 0 := by
    have := sum_get_le hm.nonneg (l := [922350000, 922380000]) (by decide)
    simp only [List.map_cons, List.map_nil, List.sum_cons, List.sum_nil, add_zero] at this
    unfold total
    linarith [this]
  obtain ⟨p1, -, -, -⟩ := C81_atom ha hm hv
  obtain ⟨q1, -, -, -⟩ := C81_mass hm hv
  set x := CompMath.get m.mass 922350000
  set y := CompMath.get m.mass 922380000
  have hxy : 0 < x / am 922350000 + y / am 922380000 := by
    rcases lt_or_eq_of_le hx with h | h
    · have := div_pos h h5
      have := div_nonneg hy h8.le
      linarith
    · have hy' : 0 < y := by linarith
      have := div_pos hy' h8
      have := div_nonneg hx h5.le
      linarith
  have ea : a = (x / am 922350000) / (x / am 922350000 + y / am 922380000) := by
    rw [eq_div_iff hxy.ne']; exact p1
  have e1a : 1 - a = (y / am 922380000) / (x / am 922350000 + y / am 922380000) := by
    rw [ea, eq_div_iff hxy.ne', sub_mul, div_mul_cancel₀ _ hxy.ne']; ring
  have em : assayMass m = x / (x + y) := by
    rw [eq_div_iff hu.ne']; exact q1
  have l1 : a * am 922350000 = x / (x / am 922350000 + y / am 922380000) := by
    rw [ea]; field_simp
  have l2 : (1 - a) * am 922380000 = y / (x / am 922350000 + y / am 922380000) := by
    rw [e1a]; field_simp
  rw [em, l1, l2, ← add_div]
  rw [div_div_div_cancel_right₀ hxy.ne']

/-- Nuclide ids are `ZZAAASSSS`: uranium has 92 protons. -/
def IsUranium (n : ℕ) : Prop := n / 10000000 = 92

/-- The mass of uranium in a material: of all its isotopes. -/
def uraniumMass (m : Mat) : ℚ :=
  (m.mass.map fun e => if e.1 / 10000000 = 92 then e.2 / total m.mass * m.qty else 0).sum

/-- **C81 (partial).**  `UraniumQty` is the mass of uranium if its only isotopes are U-235 and U-238.
Missing: materials with other isotopes of uranium (`C81_fails_other`). -/
theorem C81_qty_partial {m : Mat} (hm : Amounts m.mass) (hv : total m.mass ≠ 0)
    (honly : ∀ e ∈ m.mass, IsUranium e.1 → e.1 = 922350000 ∨ e.1 = 922380000 ∨ e.2 = 0) :
    uraniumQty m = uraniumMass m := by
  have e1 : mass m u235 = content m 922350000 := (C80_mass m hv 922350000).2
  have e2 : mass m u238 = content m 922380000 := (C80_mass m hv 922380000).2
  rw [uraniumQty, e1, e2, content, content, fraction, fraction, uraniumMass]
  generalize total m.mass = t
  have hsum : ∀ (v : CompMap), (v.map Prod.fst).Nodup →
      (∀ e ∈ v, IsUranium e.1 → e.1 = 922350000 ∨ e.1 = 922380000 ∨ e.2 = 0) →
      (v.map fun e => if e.1 / 10000000 = 92 then e.2 / t * m.qty else 0).sum
        = CompMath.get v 922350000 / t * m.qty + CompMath.get v 922380000 / t * m.qty := by
    intro v
    induction v with
    | nil => intro _ _; simp [CompMath.get]
    | cons e v ih =>
      obtain ⟨k, x⟩ := e
      intro hn ho
      simp only [List.map_cons, List.nodup_cons] at hn
      rw [List.map_cons, List.sum_cons, ih hn.2 fun e he => ho e (by simp [he])]
      simp only [CompMath.get]
      by_cases hu : k / 10000000 = 92
      · rw [if_pos hu]
        rcases ho (k, x) (by simp) hu with h | h | h
        · simp only at h
          rw [if_pos h, if_neg (by omega)]
          have hz : CompMath.get v 922350000 = 0 := get_of_not_mem (h ▸ hn.1)
          rw [hz]; ring
        · simp only at h
          rw [if_neg (by omega), if_pos h]
          have hz : CompMath.get v 922380000 = 0 := get_of_not_mem (h ▸ hn.1)
          rw [hz]; ring
        · simp only at h
          subst h
          split
          · rename_i h5
            have hz : CompMath.get v 922350000 = 0 := get_of_not_mem (h5 ▸ hn.1)
            rw [hz, if_neg (by omega)]; ring
          · split
            · rename_i h8
              have hz : CompMath.get v 922380000 = 0 := get_of_not_mem (h8 ▸ hn.1)
              rw [hz]; ring
            · ring
      · rw [if_neg hu, if_neg, if_neg, zero_add]
        · rintro rfl; exact hu (by norm_num)
        · rintro rfl; exact hu (by norm_num)
  exact (hsum m.mass hm.nodup honly).symm

/-- Natural uranium with iron. -/
def natural : Mat := ⟨10, [(922350000, 7), (922380000, 993), (260560000, 1000)]⟩

example : Amounts natural.mass ∧ total natural.mass ≠ 0 ∧
    0 < CompMath.get natural.mass 922350000 + CompMath.get natural.mass 922380000 ∧
    (∀ e ∈ natural.mass, e.1 / 10000000 = 92 →
      e.1 = 922350000 ∨ e.1 = 922380000 ∨ e.2 = 0) :=
  ⟨⟨by decide, by decide +kernel⟩, by decide +kernel, by decide +kernel, by decide +kernel⟩

example : uraniumQty natural = 5 ∧ assayMass natural = 7 / 1000 := by decide +kernel

/-- The code contradicts C81: uranium of other isotopes than 235 and 238 is not counted, here a
material that is all U-234. -/
theorem C81_fails_other : ∃ m : Mat, Amounts m.mass ∧ total m.mass ≠ 0 ∧
    (∀ e ∈ m.mass, IsUranium e.1) ∧ uraniumMass m = 10 ∧ uraniumQty m = 0 := by
  refine ⟨⟨10, [(922340000, 1)]⟩, ⟨by decide, by decide +kernel⟩, by decide +kernel, ?_,
    by decide +kernel, by decide +kernel⟩
  simp [IsUranium]

end Cyclus.MatQuery
