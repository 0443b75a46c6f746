import Verif.Model.Package
import Mathlib.Tactic.Linarith
import Mathlib.Tactic.Positivity
import Mathlib.Tactic.FieldSimp
import Mathlib.Tactic.NormNum
import Mathlib.Tactic.Push

/-! Helper lemmas for C06. -/

namespace Cyclus.Package

theorem not_exceeds {n : ℤ} (h : exceedsSplitLimits n = false) :
    n ≤ splitLimit ∧ -1932735284 < n := by
  simp only [exceedsSplitLimits, Bool.or_eq_false_iff, decide_eq_false_iff_not, intMin] at h
  obtain ⟨h1, h2⟩ := h
  norm_num at h2
  exact ⟨not_lt.1 h1, by omega⟩

theorem exceeds_false {n : ℤ} (h0 : 0 ≤ n) (h : n ≤ splitLimit) : exceedsSplitLimits n = false := by
  simp only [exceedsSplitLimits, Bool.or_eq_false_iff, decide_eq_false_iff_not, intMin]
  refine ⟨not_lt.2 h, ?_⟩
  norm_num
  omega

theorem splitLimit_val : splitLimit = 214748364 := by decide

theorem toInt_eq {z : ℤ} (h : toInt z ≠ intMin) : toInt z = z := by
  unfold toInt at *
  split
  · rfl
  · rename_i hn; rw [if_neg hn] at h; exact absurd rfl h

theorem toInt_of_range {z : ℤ} (h0 : intMin ≤ z) (h1 : z ≤ intMax) : toInt z = z := by
  simp [toInt, h0, h1]

/-- What passing the first check says about the quotient. -/
theorem first_check {p : Pkg} {qty : ℚ}
    (h : exceedsSplitLimits (divTrunc qty p.fillMax) = false) (hM : 0 ≤ p.fillMax) :
    0 < p.fillMax ∧ (0 ≤ qty → ⌊qty / p.fillMax⌋ ≤ splitLimit) := by
  have hne := (not_exceeds h).2
  have hM' : p.fillMax ≠ 0 := by
    intro h0
    simp [divTrunc, h0, intMin] at hne
  refine ⟨lt_of_le_of_ne hM (Ne.symm hM'), fun hq => ?_⟩
  have hle := (not_exceeds h).1
  have hnn : 0 ≤ qty / p.fillMax := div_nonneg hq hM
  simp only [divTrunc, if_neg hM', if_pos hnn] at hne hle
  rwa [toInt_eq (by simp only [intMin]; omega)] at hle

/-- The deterministic fill mass lies within the limits. -/
theorem fillMass_spec {p : Pkg} {qty : ℚ} (hm : 0 ≤ p.fillMin) (hmM : p.fillMin ≤ p.fillMax)
    (hM : 0 < p.fillMax) (hq : 0 < qty) (hlim : ⌊qty / p.fillMax⌋ ≤ splitLimit) :
    0 < fillMass p qty ∧ p.fillMin ≤ fillMass p qty ∧ fillMass p qty ≤ p.fillMax := by
  unfold fillMass
  split
  · simp only
    split
    · rename_i hge
      have hpos : 0 < qty / p.fillMax := div_pos hq hM
      have hc1 : 1 ≤ ⌈qty / p.fillMax⌉ := Int.one_le_ceil_iff.2 hpos
      have hcf : ⌈qty / p.fillMax⌉ ≤ ⌊qty / p.fillMax⌋ + 1 := Int.ceil_le_floor_add_one _
      have hnum : divCeil qty p.fillMax = ⌈qty / p.fillMax⌉ := by
        rw [splitLimit_val] at hlim
        rw [divCeil, if_neg hM.ne', toInt_of_range] <;> simp only [intMin, intMax] <;> omega
      rw [hnum] at hge ⊢
      have hn0 : ⌈qty / p.fillMax⌉ ≠ 0 := by omega
      rw [if_neg hn0]
      have hmin0 : p.fillMin ≠ 0 := by
        intro h0
        simp [divFloor, h0, intMin] at hge
        omega
      have hmp : 0 < p.fillMin := lt_of_le_of_ne hm (Ne.symm hmin0)
      rw [divFloor, if_neg hmin0] at hge
      have hne : toInt ⌊qty / p.fillMin⌋ ≠ intMin := by
        intro h
        rw [h] at hge
        simp only [intMin] at hge
        omega
      rw [toInt_eq hne] at hge
      have hcp : (0 : ℚ) < (⌈qty / p.fillMax⌉ : ℚ) := by exact_mod_cast hc1
      have h1 : ((⌈qty / p.fillMax⌉ : ℤ) : ℚ) ≤ qty / p.fillMin := Int.le_floor.1 hge
      have h2 : qty / p.fillMax ≤ ((⌈qty / p.fillMax⌉ : ℤ) : ℚ) := Int.le_ceil _
      refine ⟨div_pos hq hcp, ?_, ?_⟩
      · rw [le_div_iff₀ hmp] at h1
        rw [le_div_iff₀ hcp]; linarith
      · rw [div_le_iff₀ hM] at h2
        rw [div_le_iff₀ hcp]; linarith
    · exact ⟨hM, hmM, le_refl _⟩
  · exact ⟨hM, hmM, le_refl _⟩

/-- For a negative quantity the fill mass is not below the quantity. -/
theorem fillMass_neg {p : Pkg} {qty : ℚ} (hM : 0 < p.fillMax) (hq : qty < 0) : qty ≤ fillMass p qty := by
  unfold fillMass
  split
  · simp only
    split
    · split
      · exact le_refl _
      · rename_i hne
        have h2 : divCeil qty p.fillMax ≤ 0 := by
          rw [divCeil, if_neg hM.ne', toInt]
          split
          · exact Int.ceil_le.2 (by simpa using (div_neg_of_neg_of_pos hq hM).le)
          · simp [intMin]
        have h3 : ((divCeil qty p.fillMax : ℤ) : ℚ) < 0 := by
          exact_mod_cast lt_of_le_of_ne h2 hne
        exact hq.le.trans (div_pos_of_neg_of_neg hq h3).le
    · linarith
  · linarith

/-- The three clauses of C06 for a list of packages. -/
structure Good (p : Pkg) (eps qty : ℚ) (pk : List ℚ) : Prop where
  limits : ∀ m ∈ pk, p.fillMin - eps ≤ m ∧ m ≤ p.fillMax
  total : pk.sum ≤ max qty 0
  rest : qty - pk.sum < max eps p.fillMin

theorem finish_good {p : Pkg} {eps qty rest : ℚ} {acc pk : List ℚ}
    (hl : ∀ m ∈ acc, p.fillMin - eps ≤ m ∧ m ≤ p.fillMax) (hs : acc.sum + rest = qty)
    (heps : 0 < eps) (h0 : 0 ≤ rest ∨ acc = []) (hM : max eps p.fillMin ≤ rest → rest ≤ p.fillMax)
    (h : finish p eps rest acc = .ok pk) : Good p eps qty pk := by
  unfold finish at h
  simp only at h
  by_cases hge : rest ≥ max eps p.fillMin
  · rw [if_pos hge] at h
    split at h
    · cases h
    cases h
    have hr0 : 0 < rest := lt_of_lt_of_le (lt_max_of_lt_left heps) hge
    have hr1 : p.fillMin ≤ rest := (le_max_right _ _).trans hge
    refine ⟨?_, ?_, ?_⟩
    · intro m hmem
      rcases List.mem_append.1 hmem with h | h
      · exact hl m h
      · rw [List.mem_singleton] at h
        subst h
        exact ⟨by linarith, hM hge⟩
    · simp only [List.sum_append, List.sum_cons, List.sum_nil, add_zero]
      rw [hs]; exact le_max_left _ _
    · simp only [List.sum_append, List.sum_cons, List.sum_nil, add_zero]
      rw [hs, sub_self]; exact lt_max_of_lt_left heps
  · rw [if_neg hge] at h
    split at h
    · cases h
    cases h
    refine ⟨hl, ?_, ?_⟩
    · rcases h0 with h0 | h0
      · exact le_max_of_le_left (by linarith)
      · subst h0; simp
    · have : qty - acc.sum = rest := by linarith
      rw [this]; exact not_le.1 hge

theorem reject_spec {lo hi : ℚ} {raw : ℕ → ℚ} : ∀ (fuel pos : ℕ) {x : ℚ} {pos' : ℕ},
    reject lo hi raw fuel pos = some (x, pos') → lo ≤ x ∧ x ≤ hi := by
  intro fuel
  induction fuel with
  | zero => intro pos x pos' h; simp [reject] at h
  | succ f ih =>
    intro pos x pos' h
    unfold reject at h
    split at h
    · exact ih _ h
    · rename_i hn
      push Not at hn
      simp only [Option.some.injEq, Prod.mk.injEq] at h
      rw [← h.1]; exact hn

/-- Every sample lies within the limits, provided the uniform draws do. -/
theorem sample_spec {p : Pkg} {raw : ℕ → ℚ} {fuel pos : ℕ} {x : ℚ} {pos' : ℕ}
    (hraw : p.strategy ≠ .normal → ∀ i, p.fillMin ≤ raw i ∧ raw i ≤ p.fillMax)
    (h : sample p raw fuel pos = some (x, pos')) : p.fillMin ≤ x ∧ x ≤ p.fillMax := by
  unfold sample at h
  split at h
  · exact reject_spec _ _ h
  · rename_i hn
    simp only [Option.some.injEq, Prod.mk.injEq] at h
    rw [← h.1]
    exact hraw (by simpa using hn) pos

theorem drawLoop_spec {p : Pkg} {eps : ℚ} {raw : ℕ → ℚ} (heps : 0 < eps)
    (hraw : p.strategy ≠ .normal → ∀ i, p.fillMin ≤ raw i ∧ raw i ≤ p.fillMax) :
    ∀ (fuel pos : ℕ) (qty : ℚ) (acc : List ℚ) {rest : ℚ} {out : List ℚ},
    (∀ m ∈ acc, p.fillMin - eps ≤ m ∧ m ≤ p.fillMax) → (0 ≤ qty ∨ acc = []) →
    drawLoop p eps raw fuel pos qty acc = some (rest, out) →
    (∀ m ∈ out, p.fillMin - eps ≤ m ∧ m ≤ p.fillMax) ∧ (0 ≤ rest ∨ out = []) ∧
      out.sum + rest = acc.sum + qty ∧ rest < max eps p.fillMax := by
  intro fuel
  induction fuel with
  | zero => intro pos qty acc rest out _ _ h; simp [drawLoop] at h
  | succ f ih =>
    intro pos qty acc rest out hl h0 h
    unfold drawLoop at h
    split at h
    · rename_i hge
      split at h
      · cases h
      · rename_i x pos' hs
        obtain ⟨hx1, hx2⟩ := sample_spec hraw hs
        have hle : p.fillMax ≤ qty := (le_max_right _ _).trans hge
        have := ih pos' (qty - x) (acc ++ [x]) ?_ (Or.inl (by linarith)) h
        · refine ⟨this.1, this.2.1, ?_, this.2.2.2⟩
          rw [this.2.2.1]
          simp only [List.sum_append, List.sum_cons, List.sum_nil, add_zero]
          ring
        · intro m hm
          rcases List.mem_append.1 hm with hm | hm
          · exact hl m hm
          · rw [List.mem_singleton] at hm
            subst hm
            exact ⟨by linarith, hx2⟩
    · rename_i hlt
      simp only [Option.some.injEq, Prod.mk.injEq] at h
      obtain ⟨rfl, rfl⟩ := h
      exact ⟨hl, h0, rfl, not_le.1 hlt⟩

/-- Facts about the deterministic branch for positive quantities. -/
theorem det_pos {p : Pkg} {qty : ℚ} (hm : 0 ≤ p.fillMin) (hmM : p.fillMin ≤ p.fillMax)
    (hM : 0 < p.fillMax) (hq : 0 < qty) (hlim : ⌊qty / p.fillMax⌋ ≤ splitLimit) :
    let fill := min qty (fillMass p qty)
    0 < fill ∧ fill ≤ p.fillMax ∧ (p.fillMin ≤ fill ∨ fill = qty) ∧
    1 ≤ ⌊qty / fill⌋ ∧ 0 ≤ qty - ⌊qty / fill⌋ * fill ∧ qty - ⌊qty / fill⌋ * fill < fill := by
  intro fill
  obtain ⟨hF0, hF1, hF2⟩ := fillMass_spec hm hmM hM hq hlim
  have hf0 : 0 < fill := lt_min hq hF0
  refine ⟨hf0, (min_le_right _ _).trans hF2, ?_, ?_, ?_, ?_⟩
  · rcases min_choice qty (fillMass p qty) with h | h
    · exact Or.inr h
    · left; show p.fillMin ≤ min qty (fillMass p qty); rw [h]; exact hF1
  · rw [Int.le_floor, le_div_iff₀ hf0]
    rw [Int.cast_one, one_mul]
    exact min_le_left qty (fillMass p qty)
  · have h1 : ((⌊qty / fill⌋ : ℤ) : ℚ) ≤ qty / fill := Int.floor_le _
    rw [le_div_iff₀ hf0] at h1
    linarith
  · have h2 : qty / fill < (⌊qty / fill⌋ : ℤ) + 1 := Int.lt_floor_add_one _
    rw [div_lt_iff₀ hf0] at h2
    linarith

theorem det_good {p : Pkg} {eps qty : ℚ} {pk : List ℚ} (heps : 0 < eps)
    (hm : 0 ≤ p.fillMin) (hmM : p.fillMin ≤ p.fillMax) (hlow : p.fillMin - eps ≤ qty)
    (hc : exceedsSplitLimits (divTrunc qty p.fillMax) = false)
    (hn : exceedsSplitLimits (divFloor qty (min qty (fillMass p qty))) = false)
    (h : finish p eps (qty - divFloor qty (min qty (fillMass p qty)) * min qty (fillMass p qty))
      (List.replicate (divFloor qty (min qty (fillMass p qty))).toNat (min qty (fillMass p qty)))
        = .ok pk) : Good p eps qty pk := by
  obtain ⟨hM, hlim⟩ := first_check hc (hm.trans hmM)
  have hnn := (not_exceeds hn).2
  have hfill0 : min qty (fillMass p qty) ≠ 0 := by
    intro h0
    simp [divFloor, h0, intMin] at hnn
  have hdf : divFloor qty (min qty (fillMass p qty)) = ⌊qty / min qty (fillMass p qty)⌋ := by
    rw [divFloor, if_neg hfill0] at hnn ⊢
    exact toInt_eq (by simp only [intMin]; omega)
  rw [hdf] at h
  rcases lt_trichotomy qty 0 with hq | hq | hq
  · have hmin : min qty (fillMass p qty) = qty := min_eq_left (fillMass_neg hM hq)
    rw [hmin, div_self hq.ne] at h
    simp only [Int.floor_one, Int.cast_one, one_mul, sub_self, Int.toNat_one,
      List.replicate_one] at h
    refine finish_good ?_ ?_ heps (Or.inl le_rfl) (fun _ => hM.le) h
    · intro m hmem
      rw [List.mem_singleton] at hmem
      subst hmem
      exact ⟨hlow, by linarith⟩
    · simp
  · exfalso
    apply hfill0
    subst hq
    rw [min_eq_left]
    unfold fillMass
    split
    · simp only
      split
      · split <;> simp
      · exact hM.le
    · exact hM.le
  · obtain ⟨d1, d2, d3, d4, d5, d6⟩ := det_pos hm hmM hM hq (hlim hq.le)
    refine finish_good ?_ ?_ heps (Or.inl d5) (fun _ => (d6.le.trans d2)) h
    · intro m hmem
      rw [List.eq_of_mem_replicate hmem]
      refine ⟨?_, d2⟩
      rcases d3 with d3 | d3
      · linarith
      · rw [d3]; exact hlow
    · have hcast : ((⌊qty / min qty (fillMass p qty)⌋.toNat : ℕ) : ℚ)
          = ((⌊qty / min qty (fillMass p qty)⌋ : ℤ) : ℚ) := by
        have : ((⌊qty / min qty (fillMass p qty)⌋.toNat : ℕ) : ℤ)
          = ⌊qty / min qty (fillMass p qty)⌋ := Int.toNat_of_nonneg (by omega)
        exact_mod_cast congrArg (fun z : ℤ => (z : ℚ)) this
      rw [List.sum_replicate, nsmul_eq_mul, hcast]
      ring

theorem reject_total {lo hi : ℚ} {raw : ℕ → ℚ} (hio : ∀ i, ∃ j, i ≤ j ∧ lo ≤ raw j ∧ raw j ≤ hi)
    (pos : ℕ) : ∃ F x pos', ∀ fuel, F ≤ fuel → reject lo hi raw fuel pos = some (x, pos') := by
  obtain ⟨j, hj, h1, h2⟩ := hio pos
  obtain ⟨d, rfl⟩ := Nat.exists_eq_add_of_le hj
  clear hj
  induction d generalizing pos with
  | zero =>
    refine ⟨1, raw pos, pos + 1, fun fuel hf => ?_⟩
    obtain ⟨f, rfl⟩ := Nat.exists_eq_add_of_le' hf
    have : ¬ (raw pos < lo ∨ raw pos > hi) := by
      push Not; exact ⟨h1, h2⟩
    simp [reject, this]
  | succ d ih =>
    by_cases hb : raw pos < lo ∨ raw pos > hi
    · obtain ⟨F, x, pos', hF⟩ := ih (pos + 1) (by rwa [show pos + 1 + d = pos + (d + 1) by omega])
        (by rwa [show pos + 1 + d = pos + (d + 1) by omega])
      refine ⟨F + 1, x, pos', fun fuel hf => ?_⟩
      obtain ⟨f, rfl⟩ : ∃ f, fuel = f + 1 := ⟨fuel - 1, by omega⟩
      simp only [reject, if_pos hb]
      exact hF f (by omega)
    · refine ⟨1, raw pos, pos + 1, fun fuel hf => ?_⟩
      obtain ⟨f, rfl⟩ := Nat.exists_eq_add_of_le' hf
      simp [reject, hb]

theorem sample_total {p : Pkg} {raw : ℕ → ℚ}
    (hio : ∀ i, ∃ j, i ≤ j ∧ p.fillMin ≤ raw j ∧ raw j ≤ p.fillMax) (pos : ℕ) :
    ∃ F x pos', ∀ fuel, F ≤ fuel → sample p raw fuel pos = some (x, pos') := by
  unfold sample
  split
  · exact reject_total hio pos
  · exact ⟨0, raw pos, pos + 1, fun _ _ => rfl⟩

theorem drawLoop_total {p : Pkg} {eps : ℚ} {raw : ℕ → ℚ} (hm : 0 < p.fillMin)
    (hmM : p.fillMin ≤ p.fillMax)
    (hio : ∀ i, ∃ j, i ≤ j ∧ p.fillMin ≤ raw j ∧ raw j ≤ p.fillMax)
    (hraw : p.strategy ≠ .normal → ∀ i, p.fillMin ≤ raw i ∧ raw i ≤ p.fillMax) :
    ∀ (n : ℕ) (pos : ℕ) (qty : ℚ) (acc : List ℚ), qty < n * p.fillMin →
      ∃ F, ∀ fuel, F ≤ fuel → drawLoop p eps raw fuel pos qty acc ≠ none := by
  intro n
  induction n with
  | zero =>
    intro pos qty acc hq
    refine ⟨1, fun fuel hf => ?_⟩
    obtain ⟨f, rfl⟩ := Nat.exists_eq_add_of_le' hf
    simp only [Nat.cast_zero, zero_mul] at hq
    have : ¬ qty ≥ max eps p.fillMax := by
      have := le_max_right eps p.fillMax
      intro h; linarith
    simp [drawLoop, this]
  | succ n ih =>
    intro pos qty acc hq
    obtain ⟨F1, x, pos', hs⟩ := sample_total hio pos
    have hx := sample_spec hraw (hs F1 le_rfl)
    obtain ⟨F2, hF2⟩ := ih pos' (qty - x) (acc ++ [x]) (by push_cast at hq; linarith [hx.1])
    refine ⟨max F1 F2 + 1, fun fuel hf => ?_⟩
    obtain ⟨f, rfl⟩ : ∃ f, fuel = f + 1 := ⟨fuel - 1, by omega⟩
    unfold drawLoop
    split
    · rw [hs f (by omega)]
      exact hF2 f (by omega)
    · simp

end Cyclus.Package
