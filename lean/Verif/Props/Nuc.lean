import Verif.Model.Nuc
import Verif.Props.SimInfo
import Mathlib.Tactic.IntervalCases
import Mathlib.Tactic.Linarith

/-!
# C101: the spellings of a nuclide give its identifier
-/

namespace Cyclus.Nuc

/-! ## Specification -/

/-- The symbols of the elements 1 to 116; those of 113 and 115 were not yet given. -/
def periodic : List (List Char) := [
  ['H'], ['H', 'e'], ['L', 'i'], ['B', 'e'], ['B'], ['C'], ['N'], ['O'], ['F'], ['N', 'e'],
  ['N', 'a'], ['M', 'g'], ['A', 'l'], ['S', 'i'], ['P'], ['S'], ['C', 'l'], ['A', 'r'], ['K'],
  ['C', 'a'], ['S', 'c'], ['T', 'i'], ['V'], ['C', 'r'], ['M', 'n'], ['F', 'e'], ['C', 'o'],
  ['N', 'i'], ['C', 'u'], ['Z', 'n'], ['G', 'a'], ['G', 'e'], ['A', 's'], ['S', 'e'], ['B', 'r'],
  ['K', 'r'], ['R', 'b'], ['S', 'r'], ['Y'], ['Z', 'r'], ['N', 'b'], ['M', 'o'], ['T', 'c'],
  ['R', 'u'], ['R', 'h'], ['P', 'd'], ['A', 'g'], ['C', 'd'], ['I', 'n'], ['S', 'n'], ['S', 'b'],
  ['T', 'e'], ['I'], ['X', 'e'], ['C', 's'], ['B', 'a'], ['L', 'a'], ['C', 'e'], ['P', 'r'],
  ['N', 'd'], ['P', 'm'], ['S', 'm'], ['E', 'u'], ['G', 'd'], ['T', 'b'], ['D', 'y'], ['H', 'o'],
  ['E', 'r'], ['T', 'm'], ['Y', 'b'], ['L', 'u'], ['H', 'f'], ['T', 'a'], ['W'], ['R', 'e'],
  ['O', 's'], ['I', 'r'], ['P', 't'], ['A', 'u'], ['H', 'g'], ['T', 'l'], ['P', 'b'], ['B', 'i'],
  ['P', 'o'], ['A', 't'], ['R', 'n'], ['F', 'r'], ['R', 'a'], ['A', 'c'], ['T', 'h'], ['P', 'a'],
  ['U'], ['N', 'p'], ['P', 'u'], ['A', 'm'], ['C', 'm'], ['B', 'k'], ['C', 'f'], ['E', 's'],
  ['F', 'm'], ['M', 'd'], ['N', 'o'], ['L', 'r'], ['R', 'f'], ['D', 'b'], ['S', 'g'], ['B', 'h'],
  ['H', 's'], ['M', 't'], ['D', 's'], ['R', 'g'], ['C', 'n'], [], ['F', 'l'], [], ['L', 'v']]

/-- `w` is the symbol of element `z`. -/
def Sym (z : ℤ) (w : List Char) : Prop := 1 ≤ z ∧ w ≠ [] ∧ periodic[(z - 1).toNat]? = some w

/-- The identifier of a nuclide: atomic number, mass number and state as `ZZZAAASSSS`. -/
def code (z a s : ℤ) : ℤ := z * 10000000 + a * 10000 + s

/-- The numbers belong to a nuclide, and the identifier is an `int`. -/
structure Nuclide (z a s : ℤ) : Prop where
  pos : 1 ≤ z
  lower : z ≤ a
  upper : a ≤ 7 * z
  three : a ≤ 999
  state : 0 ≤ s ∧ s ≤ 9999
  fits : code z a s < 2 ^ 31

/-- The word is the symbol up to case. -/
def Word (z : ℤ) (w : List Char) : Prop := ∃ v, Sym z v ∧ w.map Char.toUpper = v.map Char.toUpper

/-! ## Symbols -/

theorem symbols_ok : ∀ e ∈ symbols, 1 ≤ e.2 ∧ e.1 ≠ [] ∧ periodic[(e.2 - 1).toNat]? = some e.1 := by
  decide +kernel

theorem periodic_ok : ∀ i : ℕ, i < 116 → periodic[i]? = some [] ∨
    ∃ w ∈ periodic[i]?, zOf w = some (i + 1 : ℤ) ∧ nameOf (i + 1 : ℤ) = some w := by
  decide +kernel

theorem symbols_words : ∀ e ∈ symbols, e.2 ≤ 116 ∧ (e.1.map upper ≠ [] ∧ e.1.length ≤ 2) ∧
    (∀ c ∈ e.1.map upper, isLetter c = true) ∧ capitalize (e.1.map upper) = e.1 ∧
    zOf e.1 = some e.2 ∧ nameOf e.2 = some e.1 ∧ e.1.length ≤ 2 := by
  decide +kernel

theorem sym_mem {z : ℤ} {w : List Char} (h : Sym z w) : (w, z) ∈ symbols := by
  obtain ⟨h1, h2, h3⟩ := h
  have hi : (z - 1).toNat < 116 := by
    by_contra hc
    rw [List.getElem?_eq_none (by simp [periodic]; omega)] at h3
    simp at h3
  rcases periodic_ok _ hi with h | ⟨v, hv, h4, _⟩
  · rw [h3] at h
    simp only [Option.some.injEq] at h
    exact absurd h h2
  · rw [h3] at hv
    simp only [Option.mem_def, Option.some.injEq] at hv
    subst hv
    unfold zOf at h4
    obtain ⟨e, he, h5⟩ := Option.map_eq_some_iff.mp h4
    have h6 := List.find?_some he
    have h7 := List.mem_of_find?_eq_some he
    simp only [decide_eq_true_eq] at h6
    have : e = (w, z) := by
      rw [← h6]
      have : e.2 = z := by rw [h5]; omega
      rw [← this]
    rw [← this]
    exact h7

/-- C101 (symbols).  The table has exactly the symbols of the periodic system, in both directions. -/
theorem C101_symbols (z : ℤ) (w : List Char) :
    (zOf w = some z ↔ Sym z w) ∧ (nameOf z = some w ↔ Sym z w) := by
  refine ⟨⟨fun h => ?_, fun h => (symbols_words _ (sym_mem h)).2.2.2.2.1⟩,
    ⟨fun h => ?_, fun h => (symbols_words _ (sym_mem h)).2.2.2.2.2.1⟩⟩
  · unfold zOf at h
    obtain ⟨e, he, rfl⟩ := Option.map_eq_some_iff.mp h
    have h6 := List.find?_some he
    simp only [decide_eq_true_eq] at h6
    have := symbols_ok e (List.mem_of_find?_eq_some he)
    rw [h6] at this
    exact this
  · unfold nameOf at h
    obtain ⟨e, he, rfl⟩ := Option.map_eq_some_iff.mp h
    have h6 := List.find?_some he
    simp only [decide_eq_true_eq] at h6
    have := symbols_ok e (List.mem_of_find?_eq_some he)
    rw [h6] at this
    exact this

/-- A case of `C101_symbols`: uranium. -/
example : Sym 92 ['U'] := ⟨by decide, by decide, by decide +kernel⟩

theorem sym_known {z : ℤ} {w : List Char} (h : Sym z w) : known z = true := by
  unfold known
  rw [((C101_symbols z w).2).mpr h]
  rfl

theorem known_sym {z : ℤ} (h : known z = true) : ∃ w, Sym z w := by
  unfold known at h
  obtain ⟨w, hw⟩ := Option.isSome_iff_exists.mp h
  exact ⟨w, ((C101_symbols z w).2).mp hw⟩

theorem known_range {z : ℤ} (h : known z = true) : 1 ≤ z ∧ z ≤ 116 := by
  obtain ⟨w, hw⟩ := known_sym h
  exact ⟨hw.1, (symbols_words _ (sym_mem hw)).1⟩

theorem int32_ok {z : ℤ} (h0 : -2 ^ 31 ≤ z) (h1 : z < 2 ^ 31) : int32 z = some (.ok z) :=
  if_pos ⟨h0, h1⟩

/-! ## Numbers -/

theorem idInt_code {z a s : ℤ} (h : Nuclide z a s) : idInt (code z a s) = some (.ok (code z a s)) := by
  obtain ⟨h1, h2, h3, h4, h5, h6⟩ := h
  unfold code at *
  have e1 : (z * 10000000 + a * 10000 + s) / 10000000 = z := by omega
  have e2 : (z * 10000000 + a * 10000 + s) % 10000000 = a * 10000 + s := by omega
  have e3 : (a * 10000 + s) / 10000 = a := by omega
  unfold idInt
  rw [if_neg (by omega)]
  simp only [e1, e2, e3]
  rw [if_pos (by omega)]

/-- Numbers that are neither in the long form nor an atomic number. -/
theorem idInt_short {x : ℤ} (h0 : 0 ≤ x) (h1 : x < 10000000) (h2 : 1000 ≤ x) : idInt x = idShort x := by
  unfold idInt
  have e1 : x / 10000000 = 0 := by omega
  rw [if_neg (by omega)]
  simp only [e1]
  rw [if_neg (by omega), if_neg, if_neg (by omega)]
  rintro ⟨_, hk⟩
  have := known_range hk
  omega

theorem idInt_zzaaam {z a s : ℤ} (h : Nuclide z a s) (hs : s ≤ 9) :
    idInt (z * 10000 + a * 10 + s) = some (.ok (code z a s)) := by
  obtain ⟨h1, h2, h3, h4, h5, h6⟩ := h
  unfold code at *
  rw [idInt_short (by omega) (by omega) (by omega)]
  have e1 : (z * 10000 + a * 10 + s) / 10000 = z := by omega
  have e2 : (z * 10000 + a * 10 + s) % 10000 = a * 10 + s := by omega
  have e3 : (a * 10 + s) / 10 = a := by omega
  have e4 : (z * 10000 + a * 10 + s) % 10 = s := by omega
  unfold idShort
  simp only [e1, e2, e3, e4]
  rw [if_pos (by omega)]
  exact int32_ok (by omega) (by omega)

theorem idInt_cinder {z a s : ℤ} (h : Nuclide z a s) (hs : s ≤ 9) (hk : known z = true) :
    idInt (a * 10000 + z * 10 + s) = some (.ok (code z a s)) := by
  obtain ⟨h1, h2, h3, h4, h5, h6⟩ := h
  unfold code at *
  have hz := known_range hk
  rw [idInt_short (by omega) (by omega) (by omega)]
  have e1 : (a * 10000 + z * 10 + s) / 10000 = a := by omega
  have e2 : (a * 10000 + z * 10 + s) % 10000 = z * 10 + s := by omega
  have e3 : (z * 10 + s) / 10 = z := by omega
  have e4 : (a * 10000 + z * 10 + s) % 10 = s := by omega
  unfold idShort
  simp only [e1, e2, e3, e4]
  by_cases hc : a ≤ z ∧ z ≤ a * 7
  · rw [if_pos hc]
    have : a = z := by omega
    subst this
    exact int32_ok (by omega) (by omega)
  · rw [if_neg hc, if_pos ⟨by omega, by omega, hk⟩]
    exact int32_ok (by omega) (by omega)

/-- C101 (numbers).  For every nuclide, its identifier, its number in the form `ZZZAAAM` and, if its
element has a symbol, its number in the form of CINDER, `AAAZZZM`, all give its identifier. -/
theorem C101_numbers {z a s : ℤ} (h : Nuclide z a s) :
    idInt (code z a s) = some (.ok (code z a s)) ∧
    (s ≤ 9 → idInt (z * 10000 + a * 10 + s) = some (.ok (code z a s))) ∧
    (∀ w, s ≤ 9 → Sym z w → idInt (a * 10000 + z * 10 + s) = some (.ok (code z a s))) :=
  ⟨idInt_code h, idInt_zzaaam h, fun _ hs hw => idInt_cinder h hs (sym_known hw)⟩

/-- A case of `C101_numbers`: americium 242m. -/
example : Nuclide 95 242 1 ∧ Sym 95 ['A', 'm'] ∧ code 95 242 1 = 952420001 :=
  ⟨⟨by decide, by decide, by decide, by decide, by decide, by decide⟩,
    ⟨by decide, by decide, by decide +kernel⟩, by decide⟩

/-- C101 (elements).  The atomic number of an element, and its number in any of the forms with mass number
0, give its identifier; that of MCNP, `ZZZAAA`, only if it does not end in a zero. -/
theorem C101_elements {z : ℤ} {w : List Char} (h : Sym z w) :
    idInt z = some (.ok (code z 0 0)) ∧ idInt (z * 10000) = some (.ok (code z 0 0)) ∧
    idInt (code z 0 0) = some (.ok (code z 0 0)) ∧
    (z % 10 ≠ 0 → idInt (z * 1000) = some (.ok (code z 0 0))) := by
  have hk := sym_known h
  have hz := known_range hk
  have e0 : code z 0 0 = z * 10000000 := by unfold code; omega
  rw [e0]
  refine ⟨?_, ?_, ?_, fun hm => ?_⟩
  · unfold idInt
    have e1 : z / 10000000 = 0 := by omega
    rw [if_neg (by omega)]
    simp only [e1]
    rw [if_neg (by omega), if_neg, if_pos ⟨by omega, hk⟩]
    rintro ⟨_, hc⟩
    have := known_range hc
    omega
  · rw [idInt_short (by omega) (by omega) (by omega)]
    have e1 : z * 10000 / 10000 = z := by omega
    have e2 : z * 10000 % 10000 = 0 := by omega
    unfold idShort
    simp only [e1, e2]
    rw [if_neg (by omega), if_neg (by omega), if_pos ⟨by trivial, hk⟩]
    exact int32_ok (by omega) (by omega)
  · have e1 : z * 10000000 / 10000000 = z := by omega
    have e2 : z * 10000000 % 10000000 = 0 := by omega
    unfold idInt
    rw [if_neg (by omega)]
    simp only [e1, e2]
    rw [if_neg (by omega), if_pos ⟨by trivial, hk⟩]
  · rw [idInt_short (by omega) (by omega) (by omega)]
    unfold idShort
    have f1 : z * 1000 / 10000 = z / 10 := by omega
    have f2 : z * 1000 % 10000 = z % 10 * 1000 := by omega
    simp only [f1, f2]
    rw [if_neg (by omega), if_neg (by omega), if_neg (by omega), if_neg (by omega)]
    have e1 : z * 1000 / 1000 = z := by omega
    have e2 : z * 1000 % 1000 = 0 := by omega
    unfold idMcnp
    simp only [e1, e2]
    rw [if_neg (by omega), if_pos ⟨by trivial, hk⟩]
    exact int32_ok (by omega) (by omega)

/-- A case of `C101_elements`: hydrogen. -/
example : Sym 1 ['H'] ∧ idInt 1000 = some (.ok 10000000) :=
  ⟨⟨by decide, by decide, by decide +kernel⟩, by decide +kernel⟩

theorem idInt_mcnp {z a : ℤ} (h0 : 1 ≤ z) (h1 : z ≤ 116) (hm : z % 10 ≠ 0) (h2 : 0 ≤ a)
    (h3 : a < 1000) : idInt (z * 1000 + a) = idMcnp (z * 1000 + a) := by
  rw [idInt_short (by omega) (by omega) (by omega)]
  unfold idShort
  have f1 : (z * 1000 + a) / 10000 = z / 10 := by omega
  have f2 : (z * 1000 + a) % 10000 = z % 10 * 1000 + a := by omega
  simp only [f1, f2]
  rw [if_neg (by omega), if_neg (by omega), if_neg (by omega), if_neg (by omega)]

theorem unstack_stop {fuel : ℕ} {z a s : ℤ} (h0 : 1 ≤ z) (h1 : 0 ≤ a) (h2 : a ≤ 999) (h3 : 0 ≤ s)
    (h4 : s ≤ 9999) (h5 : a ≤ 3 * z) :
    unstack (fuel + 1) (code z a s) = some (.ok (code z a s)) := by
  unfold code
  have e1 : ((z * 10000000 + a * 10000 + s).tdiv 10000).tmod 1000 = a := by
    rw [Int.tdiv_eq_ediv_of_nonneg (by omega), Int.tmod_eq_emod_of_nonneg (by omega)]
    omega
  have e2 : (z * 10000000 + a * 10000 + s).tdiv 10000000 = z := by
    rw [Int.tdiv_eq_ediv_of_nonneg (by omega)]
    omega
  unfold unstack
  rw [e1, e2]
  have : steep a z = false := by
    unfold steep
    rw [if_neg (by omega), if_pos (by omega)]
    simp only [decide_eq_false_iff_not]
    omega
  rw [this]
  rfl

theorem unstack_go {fuel : ℕ} {z a s : ℤ} (h0 : 1 ≤ z) (h1 : 100 ≤ a) (h2 : a ≤ 999) (h3 : 0 ≤ s)
    (h4 : s < 9999) (h5 : 3 * z < a) :
    unstack (fuel + 1) (code z a s) = unstack fuel (code z (a - 100) (s + 1)) := by
  have e0 : code z a s - 999999 = code z (a - 100) (s + 1) := by unfold code; omega
  rw [← e0]
  unfold code
  have e1 : ((z * 10000000 + a * 10000 + s).tdiv 10000).tmod 1000 = a := by
    rw [Int.tdiv_eq_ediv_of_nonneg (by omega), Int.tmod_eq_emod_of_nonneg (by omega)]
    omega
  have e2 : (z * 10000000 + a * 10000 + s).tdiv 10000000 = z := by
    rw [Int.tdiv_eq_ediv_of_nonneg (by omega)]
    omega
  rw [unstack, e1, e2]
  have : steep a z = true := by
    unfold steep
    rw [if_neg (by omega), if_pos (by omega)]
    simp only [decide_eq_true_eq]
    omega
  rw [this]
  rfl

theorem unstack_states {z a : ℤ} (h0 : 1 ≤ z) (h1 : 0 ≤ a) (h5 : a ≤ 3 * z) (k : ℕ) :
    ∀ (fuel : ℕ) (s : ℤ), k < fuel → (k = 0 ∨ 3 * z < a + 100) → 0 ≤ s → s + k ≤ 9999 →
      a + 100 * k ≤ 999 → unstack fuel (code z (a + 100 * k) s) = some (.ok (code z a (s + k))) := by
  induction k with
  | zero =>
    intro fuel s hf _ hs1 hs2 ha
    obtain ⟨f, rfl⟩ : ∃ f, fuel = f + 1 := ⟨fuel - 1, by omega⟩
    have := unstack_stop (fuel := f) h0 h1 (by omega) hs1 (by omega) h5
    simpa using this
  | succ k ih =>
    intro fuel s hf hc hs1 hs2 ha
    obtain ⟨f, rfl⟩ : ∃ f, fuel = f + 1 := ⟨fuel - 1, by omega⟩
    have hc' : 3 * z < a + 100 := by
      rcases hc with hc | hc
      · omega
      · exact hc
    push_cast at ha hs2 ⊢
    rw [unstack_go h0 (by omega) (by omega) hs1 (by omega) (by omega)]
    have e1 : a + 100 * ((k : ℤ) + 1) - 100 = a + 100 * (k : ℤ) := by omega
    rw [e1, ih f (s + 1) (by omega) (Or.inr hc') (by omega) (by omega) (by omega)]
    congr 3
    omega

/-- C101 (MCNP).  For elements whose atomic number does not end in a zero, the form of MCNP, `ZZZAAA`,
gives the identifier of the nuclide in its ground state, and with `300 + 100 * m` added to the mass
number that of its state `m`; for americium 242 MCNP has both the other way round.  States above the
first need a mass number above three times the atomic number less 100.  The full statement is for all
elements; see `C101_fails_mcnp`. -/
theorem C101_mcnp_partial {z a : ℤ} {w : List Char} (hw : Sym z w) (hm : z % 10 ≠ 0) (h1 : z ≤ a) :
    (a < 400 → ¬ (z = 95 ∧ a = 242) → idInt (z * 1000 + a) = some (.ok (code z a 0))) ∧
    (∀ m : ℕ, 1 ≤ m → a + 300 + 100 * m < 1000 → a ≤ 3 * z → (m = 1 ∨ 3 * z < a + 100) →
      ¬ (z = 95 ∧ a = 242 ∧ m = 1) →
      idInt (z * 1000 + (a + 300 + 100 * m)) = some (.ok (code z a m))) ∧
    idInt 95242 = some (.ok (code 95 242 1)) ∧ idInt 95642 = some (.ok (code 95 242 0)) := by
  have hz := known_range (sym_known hw)
  refine ⟨fun h2 h3 => ?_, fun m h2 h3 h4 h5 h6 => ?_, by decide +kernel, by decide +kernel⟩
  · rw [idInt_mcnp hz.1 hz.2 hm (by omega) (by omega)]
    have e1 : (z * 1000 + a) / 1000 = z := by omega
    have e2 : (z * 1000 + a) % 1000 = a := by omega
    unfold idMcnp
    simp only [e1, e2]
    rw [if_pos (by omega), if_pos (by omega), if_neg (by omega), int32_ok (by omega) (by omega)]
    unfold code
    congr 2
    omega
  · rw [idInt_mcnp hz.1 hz.2 hm (by omega) (by omega)]
    have e1 : (z * 1000 + (a + 300 + 100 * (m : ℤ))) / 1000 = z := by omega
    have e2 : (z * 1000 + (a + 300 + 100 * (m : ℤ))) % 1000 = a + 300 + 100 * m := by omega
    unfold idMcnp
    simp only [e1, e2]
    rw [if_pos (by omega), if_neg (by omega), if_neg (by omega), int32_ok (by omega) (by omega)]
    simp only
    obtain ⟨k, rfl⟩ : ∃ k, m = k + 1 := ⟨m - 1, by omega⟩
    have e3 : (z * 1000 + (a + 300 + 100 * ((k + 1 : ℕ) : ℤ)) - 400) * 10000 + 1 =
        code z (a + 100 * k) 1 := by
      unfold code
      push_cast
      omega
    rw [e3, unstack_states hz.1 (by omega) h4 k 2200 1 (by omega) (by omega) (by omega) (by omega)
      (by omega)]
    congr 3
    push_cast
    omega

/-- A case of `C101_mcnp_partial`: uranium 235 and silver 110m. -/
example : Sym 92 ['U'] ∧ idInt 92235 = some (.ok 922350000) ∧ Sym 47 ['A', 'g'] ∧
    idInt 47510 = some (.ok 471100001) :=
  ⟨⟨by decide, by decide, by decide +kernel⟩, by decide +kernel, ⟨by decide, by decide, by decide +kernel⟩,
    by decide +kernel⟩

/-- C101 (fixed points).  Whatever number of seven or more digits is accepted, the identifier it gives is
accepted as such.  The full statement is for all numbers; see `C101_fails_small`. -/
theorem C101_fixed_partial (x n : ℤ) (h1 : 1000000 ≤ x) (h2 : x < 2 ^ 31)
    (h : idInt x = some (.ok n)) : idInt n = some (.ok n) ∧ ((∃ z a s, Nuclide z a s ∧ n = code z a s) ∨
      ∃ z w, Sym z w ∧ n = code z 0 0) := by
  have hN : ∀ z a s, Nuclide z a s → n = code z a s →
      idInt n = some (.ok n) ∧ ((∃ z a s, Nuclide z a s ∧ n = code z a s) ∨
        ∃ z w, Sym z w ∧ n = code z 0 0) := by
    rintro z a s hn rfl
    exact ⟨idInt_code hn, Or.inl ⟨z, a, s, hn, rfl⟩⟩
  have hE : ∀ z, known z = true → n = code z 0 0 →
      idInt n = some (.ok n) ∧ ((∃ z a s, Nuclide z a s ∧ n = code z a s) ∨
        ∃ z w, Sym z w ∧ n = code z 0 0) := by
    rintro z hk rfl
    obtain ⟨w, hw⟩ := known_sym hk
    exact ⟨(C101_elements hw).2.2.1, Or.inr ⟨z, w, hw, rfl⟩⟩
  have hI : ∀ y, int32 y = some (.ok n) → n = y ∧ y < 2 ^ 31 := by
    intro y hy
    unfold int32 at hy
    split at hy
    · rename_i hb
      simp only [Option.some.injEq, Except.ok.injEq] at hy
      exact ⟨hy.symm, hb.2⟩
    · simp at hy
  unfold idInt at h
  rw [if_neg (by omega)] at h
  simp only at h
  split at h
  · rename_i hc
    simp only [Option.some.injEq, Except.ok.injEq] at h
    subst h
    refine hN (x / 10000000) (x % 10000000 / 10000) (x % 10000) ⟨by omega, by omega, by omega, by omega,
      by omega, ?_⟩ ?_ <;> unfold code <;> omega
  · split at h
    · rename_i hc
      simp only [Option.some.injEq, Except.ok.injEq] at h
      subst h
      refine hE (x / 10000000) hc.2 ?_
      unfold code
      omega
    · rw [if_neg (by omega)] at h
      unfold idShort at h
      simp only at h
      split at h
      · rename_i hc
        obtain ⟨rfl, hb⟩ := hI _ h
        refine hN (x / 10000) (x % 10000 / 10) (x % 10) ⟨by omega, by omega, by omega, by omega,
          by omega, ?_⟩ ?_ <;> unfold code <;> omega
      · split at h
        · rename_i hc
          obtain ⟨rfl, hb⟩ := hI _ h
          have hk := known_range hc.2.2
          refine hN (x % 10000 / 10) (x / 10000) (x % 10) ⟨by omega, by omega, by omega, by omega,
            by omega, ?_⟩ ?_ <;> unfold code <;> omega
        · split at h
          · rename_i hc
            obtain ⟨rfl, hb⟩ := hI _ h
            refine hE (x / 10000) hc.2 ?_
            unfold code
            omega
          · simp at h

/-- A case of `C101_fixed_partial`: uranium 235 in the form of CINDER. -/
example : idInt 2350920 = some (.ok 922350000) := by decide +kernel

/-- C101 (`isnuclide`).  A number is a nuclide exactly if it gives an identifier with an atomic number and
a mass number that is not below it. -/
theorem C101_isnuclide (x : ℤ) : isNuclide x = some true ↔
    ∃ z a s, idInt x = some (.ok (code z a s)) ∧ 1 ≤ z ∧ z ≤ a ∧ a ≤ 999 ∧ 0 ≤ s ∧ s ≤ 9999 := by
  unfold isNuclide
  constructor
  · intro h
    cases hi : idInt x with
    | none => rw [hi] at h; simp at h
    | some r =>
      cases r with
      | error e => rw [hi] at h; simp at h
      | ok n =>
        rw [hi] at h
        simp only at h
        split at h
        · simp at h
        · simp only [Option.some.injEq] at h
          split at h
          · simp at h
          · split at h
            · simp at h
            · refine ⟨n / 10000000, n % 10000000 / 10000, n % 10000, ?_, by omega, by omega, by omega,
                by omega, by omega⟩
              congr 2
              unfold code
              omega
  · rintro ⟨z, a, s, h1, h2, h3, h4, h5, h6⟩
    rw [h1]
    unfold code
    simp only
    rw [if_neg (by omega), if_neg (by omega), if_neg (by omega)]

/-- A case of `C101_isnuclide`: uranium 235. -/
example : isNuclide 922350000 = some true := by decide +kernel

/-! ## Texts -/

theorem digit_upper {d : ℕ} (h : d < 10) : upper (Char.ofNat (d + 48)) = Char.ofNat (d + 48) ∧
    isDigit (Char.ofNat (d + 48)) = true ∧ isLetter (Char.ofNat (d + 48)) = false ∧
    Char.ofNat (d + 48) ≠ '-' ∧ Char.ofNat (d + 48) ≠ 'M' := by
  interval_cases d <;> decide +kernel

/-- Digits. -/
def Digs (s : List Char) : Prop := ∀ c ∈ s, ∃ d < 10, c = Char.ofNat (d + 48)

theorem decimal_digs {ds : List ℕ} {s : List Char} (h : Info.Decimal ds s) : Digs s := by
  obtain ⟨h, rfl⟩ := h
  intro c hc
  obtain ⟨d, hd, rfl⟩ := List.mem_map.mp hc
  exact ⟨d, h d hd, rfl⟩

theorem digs_facts {s : List Char} (h : Digs s) : s.map upper = s ∧ (∀ c ∈ s, isDigit c = true) ∧
    (∀ c ∈ s, isLetter c = false) ∧ (∀ c ∈ s, c ≠ '-') ∧ ∀ c ∈ s, c ≠ 'M' := by
  refine ⟨?_, ?_, ?_, ?_, ?_⟩
  · conv_rhs => rw [← List.map_id s]
    refine List.map_congr_left fun c hc => ?_
    obtain ⟨d, hd, rfl⟩ := h c hc
    exact (digit_upper hd).1
  all_goals
    intro c hc
    obtain ⟨d, hd, rfl⟩ := h c hc
    have := digit_upper hd
    tauto

theorem toInt_decimal {ds : List ℕ} {s : List Char} (h : Info.Decimal ds s) (hne : ds ≠ [])
    (hb : (Info.value ds : ℤ) < 2 ^ 31) : toInt s = Info.value ds := by
  have := (Info.C95_numbers ds hne s [] [] h (by simp) (by simp)).1
  simp only [List.nil_append, List.append_nil] at this
  unfold toInt
  rw [this, min_eq_right (by omega), Info.castLong_small _ (by omega) hb]

theorem remove_all {p : Char → Bool} {s : List Char} (h : ∀ c ∈ s, p c = true) : remove p s = [] := by
  unfold remove
  rw [List.filter_eq_nil_iff]
  intro c hc
  simp [h c hc]

theorem remove_none {p : Char → Bool} {s : List Char} (h : ∀ c ∈ s, p c = false) : remove p s = s := by
  unfold remove
  rw [List.filter_eq_self]
  intro c hc
  simp [h c hc]

theorem remove_append (p : Char → Bool) (s t : List Char) : remove p (s ++ t) = remove p s ++ remove p t :=
  List.filter_append ..

theorem letter_facts : ∀ c : Char, isLetter c = true → isDigit c = false ∧ c ≠ '-' := by
  intro c h
  unfold isLetter at h
  simp only [decide_eq_true_eq] at h
  constructor
  · unfold isDigit
    simp only [decide_eq_false_iff_not]
    rintro ⟨_, h2⟩
    have h3 : 65 ≤ c.toNat := h.1
    have h4 : c.toNat ≤ 57 := h2
    omega
  · rintro rfl
    exact absurd h.1 (by decide)

/-- What the symbol of an element is like in capitals. -/
theorem upper_eq : upper = Char.toUpper := by
  funext c
  by_cases h : 'a' ≤ c ∧ c ≤ 'z'
  · have h1 : 97 ≤ c.toNat := h.1
    have h2 : c.toNat ≤ 122 := h.2
    rw [← Char.ofNat_toNat c]
    generalize c.toNat = n at h1 h2
    interval_cases n <;> decide
  · unfold upper Char.toUpper
    rw [if_neg h, dif_neg (show ¬('a'.val ≤ c.val ∧ c.val ≤ 'z'.val) from h)]

theorem word_facts {z : ℤ} {w : List Char} (h : Word z w) : ∃ c cs, w.map upper = c :: cs ∧
    (∀ x ∈ w.map upper, isLetter x = true) ∧ zOf (capitalize (w.map upper)) = some z ∧ 1 ≤ z ∧ z ≤ 116 := by
  obtain ⟨v, hv, he⟩ := h
  rw [← upper_eq] at he
  obtain ⟨h1, ⟨h2, _⟩, h3, h4, h5, _⟩ := symbols_words _ (sym_mem hv)
  rw [he]
  simp only at h2 h3 h4 h5 h1
  cases hu : v.map upper with
  | nil => exact absurd hu h2
  | cons c cs =>
    refine ⟨c, cs, rfl, ?_, ?_, hv.1, h1⟩
    · rw [← hu]; exact h3
    · rw [← hu, h4]; exact h5

/-- The end of both functions: perhaps digits, the symbol in capitals, digits and perhaps `M`. -/
theorem withState_ok {z : ℤ} {w : List Char} (hw : Word z w) {pre d : List Char} (hp : Digs pre)
    (hd : Digs d) (hdne : d ≠ []) (m : Bool) {a : ℤ} (h0 : 0 ≤ a) (h1 : a ≤ 999) :
    withState (pre ++ w.map upper ++ d ++ if m then ['M'] else []) a =
      some (.ok (code z a (if m then 1 else 0))) := by
  obtain ⟨c, cs, hcs, hlet, hz, hz1, hz2⟩ := word_facts hw
  obtain ⟨_, hdig, hnl, _, hnM⟩ := digs_facts hd
  have hpd := (digs_facts hp).2.1
  set s := pre ++ w.map upper ++ d ++ (if m then ['M'] else []) with hs
  unfold withState
  have hwd : remove isDigit (w.map upper) = w.map upper :=
    remove_none fun x hx => (letter_facts x (hlet x hx)).1
  cases m with
  | true =>
    have hlast : s.getLast? = some 'M' := by rw [hs]; simp
    have hdrop : s.dropLast = pre ++ w.map upper ++ d := by rw [hs]; simp
    rw [hlast, hdrop]
    simp only [true_or, if_true]
    rw [int32_ok (by omega) (by omega), int32_ok (by omega) (by omega)]
    simp only
    rw [remove_append, remove_append, hwd, remove_all hdig, remove_all hpd, List.append_nil,
      List.nil_append, hz]
    simp only
    rw [int32_ok (by omega) (by omega)]
    unfold code
    congr 2
    omega
  | false =>
    have hs' : s = pre ++ w.map upper ++ d := by rw [hs]; simp
    obtain ⟨e, he⟩ : ∃ e, d.getLast? = some e := by
      cases h : d.getLast? with
      | none => exact absurd (List.getLast?_eq_none_iff.mp h) hdne
      | some e => exact ⟨e, rfl⟩
    have hlast : s.getLast? = some e := by rw [hs', List.getLast?_append, he]; rfl
    have hed := hdig e (List.mem_of_getLast? he)
    have heM : e ≠ 'M' := hnM e (List.mem_of_getLast? he)
    have hdrop : s.dropLast = pre ++ w.map upper ++ d.dropLast := by
      rw [hs', List.dropLast_append_of_ne_nil hdne]
    rw [hlast, hdrop]
    simp only [hed, or_true, if_true, heM, if_false]
    rw [int32_ok (by omega) (by omega), int32_ok (by omega) (by omega)]
    simp only
    rw [remove_append, remove_append, hwd, remove_all fun x hx => hdig x (List.dropLast_subset d hx),
      remove_all hpd, List.append_nil, List.nil_append, hz]
    simp only
    rw [int32_ok (by omega) (by omega)]
    unfold code
    simp only [Bool.false_eq_true, if_false]
    congr 2
    omega

theorem decimal_ne {ds : List ℕ} {d : List Char} (hd : Info.Decimal ds d) (hne : ds ≠ []) : d ≠ [] := by
  rintro rfl
  obtain ⟨_, h⟩ := hd
  exact hne (by simpa using h.symm)

/-- The text after normalisation: the symbol in capitals, digits and perhaps `M`. -/
theorem idPlain_name {z : ℤ} {w : List Char} (hw : Word z w) {ds : List ℕ} {d : List Char}
    (hd : Info.Decimal ds d) (hne : ds ≠ []) (hb : (Info.value ds : ℤ) ≤ 999) (m : Bool) :
    idPlain (w.map upper ++ d ++ if m then ['M'] else []) =
      some (.ok (code z (Info.value ds) (if m then 1 else 0))) := by
  obtain ⟨c, cs, hcs, hlet, hz, hz1, hz2⟩ := word_facts hw
  obtain ⟨_, hdig, hnl, _, _⟩ := digs_facts (decimal_digs hd)
  have hdne := decimal_ne hd hne
  have hM : ∀ x ∈ (if m then ['M'] else []), isLetter x = true ∧ isDigit x = false := by
    cases m <;> simp <;> decide
  have hw0 := withState_ok hw (pre := []) (by simp [Digs]) (decimal_digs hd) hdne m
    (a := Info.value ds) (by omega) hb
  rw [List.nil_append] at hw0
  set s := w.map upper ++ d ++ (if m then ['M'] else []) with hs
  have hcl := hlet c (by rw [hcs]; simp)
  have hplain : idPlain s = idName s := by
    rw [hs, hcs]
    unfold idPlain
    simp only [List.cons_append]
    rw [(letter_facts c hcl).1, hcl]
    simp
  have hanum : remove isLetter s = d := by
    rw [hs, remove_append, remove_append, remove_all hlet, remove_none hnl,
      remove_all fun x hx => (hM x hx).1]
    simp
  rw [hplain]
  unfold idName
  simp only [hanum]
  have hemp : d.isEmpty = false := by
    cases d with
    | nil => exact absurd rfl hdne
    | cons => rfl
  rw [hemp]
  simp only [Bool.false_eq_true, if_false]
  rw [toInt_decimal hd hne (by omega), if_neg (by omega)]
  exact hw0

theorem idPlain_element {z : ℤ} {w : List Char} (hw : Word z w) :
    idPlain (w.map upper) = some (.ok (code z 0 0)) := by
  obtain ⟨c, cs, hcs, hlet, hz, hz1, hz2⟩ := word_facts hw
  have hcl := hlet c (by rw [hcs]; simp)
  have hplain : idPlain (w.map upper) = idName (w.map upper) := by
    rw [hcs]
    unfold idPlain
    simp only
    rw [(letter_facts c hcl).1, hcl]
    simp
  rw [hplain]
  unfold idName
  simp only [remove_all hlet, hz, List.isEmpty_nil, if_true]
  rw [int32_ok (by omega) (by omega)]
  unfold code
  congr 2
  omega

theorem idPlain_nist {z : ℤ} {w : List Char} (hw : Word z w) {ds : List ℕ} {d : List Char}
    (hd : Info.Decimal ds d) (hne : ds ≠ []) (hb : (Info.value ds : ℤ) ≤ 999) :
    idPlain (d ++ w.map upper) = some (.ok (code z (Info.value ds) 0)) := by
  obtain ⟨c, cs, hcs, hlet, hz, hz1, hz2⟩ := word_facts hw
  obtain ⟨_, hdig, hnl, _, _⟩ := digs_facts (decimal_digs hd)
  obtain ⟨x, xs, rfl⟩ : ∃ x xs, d = x :: xs := by
    cases d with
    | nil =>
      obtain ⟨_, h⟩ := hd
      exact absurd (by simpa using h.symm) hne
    | cons x xs => exact ⟨x, xs, rfl⟩
  have hplain : idPlain (x :: xs ++ w.map upper) = idNist (x :: xs ++ w.map upper) := by
    unfold idPlain
    simp only [List.cons_append]
    rw [hdig x (by simp)]
    simp
  rw [hplain]
  unfold idNist
  obtain ⟨e, he⟩ : ∃ e, (w.map upper).getLast? = some e := by
    rw [hcs]
    exact ⟨_, List.getLast?_eq_some_getLast (by simp)⟩
  have hlast : (x :: xs ++ w.map upper).getLast? = some e := by rw [List.getLast?_append, he]; rfl
  rw [hlast]
  simp only
  rw [(letter_facts e (hlet e (List.mem_of_getLast? he))).1]
  simp only [Bool.false_eq_true, if_false]
  rw [remove_append, remove_none hnl, remove_all hlet, List.append_nil, toInt_decimal hd hne (by omega),
    int32_ok (by omega) (by omega)]
  simp only
  rw [remove_append, remove_all hdig, remove_none fun y hy => (letter_facts y (hlet y hy)).1,
    List.nil_append, hz]
  simp only
  rw [int32_ok (by omega) (by omega)]
  unfold code
  congr 2
  omega

theorem dashes_none {s : List Char} (h : ∀ c ∈ s, c ≠ '-') : dashes s = none := by
  unfold dashes
  have : s.findIdx? (· = '-') = none := by
    rw [List.findIdx?_eq_none_iff]
    intro c hc
    simp [h c hc]
  rw [this]

theorem find_dash {a : List Char} (h : ∀ c ∈ a, c ≠ '-') (b : List Char) :
    (a ++ '-' :: b).findIdx? (· = '-') = some a.length := by
  induction a with
  | nil => simp [List.findIdx?_cons]
  | cons x a ih =>
    rw [List.cons_append, List.findIdx?_cons]
    have hx : x ≠ '-' := h x (by simp)
    simp [hx, ih fun c hc => h c (by simp [hc])]

theorem dashes_one {a b : List Char} (ha : ∀ c ∈ a, c ≠ '-') (hb : ∀ c ∈ b, c ≠ '-') :
    dashes (a ++ '-' :: b) = none := by
  unfold dashes
  rw [find_dash ha]
  have : (a ++ '-' :: b).drop (a.length + 1) = b := by simp [List.drop_append]
  simp only [this]
  have : b.findIdx? (· = '-') = none := by
    rw [List.findIdx?_eq_none_iff]
    intro c hc
    simp [hb c hc]
  rw [this]

theorem dashes_two {a b : List Char} (ha : ∀ c ∈ a, c ≠ '-') (hb : ∀ c ∈ b, c ≠ '-') (c : List Char) :
    dashes (a ++ '-' :: (b ++ '-' :: c)) = some (a.length, a.length + 1 + b.length) := by
  unfold dashes
  rw [find_dash ha]
  have : (a ++ '-' :: (b ++ '-' :: c)).drop (a.length + 1) = b ++ '-' :: c := by simp [List.drop_append]
  simp only [this, find_dash hb]

theorem upper_dash : ∀ c : Char, c ≠ '-' → upper c ≠ '-' := by
  intro c hc
  unfold upper
  split
  · rename_i h
    intro he
    have h1 : 97 ≤ c.toNat := h.1
    have h2 : c.toNat ≤ 122 := h.2
    revert he
    generalize c.toNat = n at h1 h2
    interval_cases n <;> decide
  · exact hc

theorem word_dash {z : ℤ} {w : List Char} (h : Word z w) : ∀ c ∈ w, c ≠ '-' := by
  obtain ⟨_, _, _, hlet, _⟩ := word_facts h
  rintro c hc rfl
  exact (letter_facts _ (hlet _ (List.mem_map.mpr ⟨'-', hc, rfl⟩))).2 (by decide)

/-- The letters of the metastable states. -/
def mark (m : Option Bool) : List Char :=
  match m with
  | none => []
  | some true => ['M']
  | some false => ['m']

/-- The state that a mark stands for. -/
def stateOf (m : Option Bool) : ℤ := if m.isSome then 1 else 0

/-- Texts with at most one dash. -/
theorem idFuel_plain {fuel : ℕ} {s : List Char} (hne : s ≠ []) (h : dashes s = none) :
    idFuel (fuel + 1) s = idPlain (remove (· = '-') (s.map upper)) := by
  unfold idFuel
  have : s.isEmpty = false := by
    cases s with
    | nil => exact absurd rfl hne
    | cons => rfl
  rw [this, h]
  simp

/-- The text between: nothing or a dash. -/
def sep (b : Bool) : List Char := if b then ['-'] else []

theorem dashes_sep {a c : List Char} (ha : ∀ x ∈ a, x ≠ '-') (hc : ∀ x ∈ c, x ≠ '-') (b : Bool) :
    dashes (a ++ sep b ++ c) = none := by
  cases b with
  | false =>
    simp only [sep, Bool.false_eq_true, if_false, List.append_nil]
    refine dashes_none fun x hx => ?_
    rcases List.mem_append.mp hx with h | h
    · exact ha x h
    · exact hc x h
  | true =>
    have : a ++ sep true ++ c = a ++ '-' :: c := by simp [sep]
    rw [this]
    exact dashes_one ha hc

theorem remove_sep {a c : List Char} (ha : ∀ x ∈ a, x ≠ '-') (hc : ∀ x ∈ c, x ≠ '-') (b : Bool) :
    remove (· = '-') ((a ++ sep b ++ c).map upper) = a.map upper ++ c.map upper := by
  have h1 : ∀ l : List Char, (∀ x ∈ l, x ≠ '-') → remove (· = '-') (l.map upper) = l.map upper := by
    intro l hl
    refine remove_none fun x hx => ?_
    obtain ⟨y, hy, rfl⟩ := List.mem_map.mp hx
    simp [upper_dash y (hl y hy)]
  rw [List.map_append, List.map_append, remove_append, remove_append, h1 a ha, h1 c hc]
  cases b with
  | false => simp [sep, remove]
  | true =>
    have : upper '-' = '-' := by decide
    simp [sep, remove, this]

theorem idFuel_name {fuel : ℕ} {z : ℤ} {w : List Char} (hw : Word z w) {ds : List ℕ} {d : List Char}
    (hd : Info.Decimal ds d) (hne : ds ≠ []) (hb : (Info.value ds : ℤ) ≤ 999) (m : Option Bool) (b : Bool) :
    idFuel (fuel + 1) (w ++ sep b ++ (d ++ mark m)) = some (.ok (code z (Info.value ds) (stateOf m))) := by
  have hwd := word_dash hw
  have hdd := (digs_facts (decimal_digs hd)).2.2.2.1
  have hcd : ∀ x ∈ d ++ mark m, x ≠ '-' := by
    intro x hx
    rcases List.mem_append.mp hx with h | h
    · exact hdd x h
    · cases m with
      | none => simp [mark] at h
      | some m =>
        cases m <;> simp [mark] at h <;> subst h <;> decide
  rw [idFuel_plain _ (dashes_sep hwd hcd b), remove_sep hwd hcd b, List.map_append,
    (digs_facts (decimal_digs hd)).1, ← List.append_assoc]
  · have := idPlain_name hw hd hne hb m.isSome
    have hmk : (mark m).map upper = if m.isSome = true then ['M'] else [] := by
      cases m with
      | none => rfl
      | some m => cases m <;> decide
    rw [hmk]
    exact this
  · obtain ⟨c, cs, hcs, _⟩ := word_facts hw
    intro h
    have : w = [] := by
      cases w with
      | nil => rfl
      | cons => simp at h
    rw [this] at hcs
    simp at hcs

/-- C101 (names).  For every element and every mass number up to 999: the symbol in any case, followed by
the mass number with or without leading zeros, with or without a dash between them, gives the
identifier, and with `M` or `m` behind that of the first state; the mass number followed by the symbol
gives the identifier; the symbol alone gives the element.  A text of digits gives what the number gives. -/
theorem C101_names {z : ℤ} {w : List Char} (hw : Word z w) {ds : List ℕ} {d : List Char}
    (hd : Info.Decimal ds d) (hne : ds ≠ []) (hb : (Info.value ds : ℤ) ≤ 999) (b : Bool) :
    (∀ m, idStr (w ++ sep b ++ (d ++ mark m)) = some (.ok (code z (Info.value ds) (stateOf m)))) ∧
    idStr (d ++ sep b ++ w) = some (.ok (code z (Info.value ds) 0)) ∧
    idStr w = some (.ok (code z 0 0)) := by
  have hwd := word_dash hw
  have hdd := (digs_facts (decimal_digs hd)).2.2.2.1
  have hwne : w ≠ [] := by
    rintro rfl
    obtain ⟨c, cs, hcs, _⟩ := word_facts hw
    simp at hcs
  refine ⟨fun m => idFuel_name hw hd hne hb m b, ?_, ?_⟩
  · unfold idStr
    rw [idFuel_plain (by simp [hwne]) (dashes_sep hdd hwd b), remove_sep hdd hwd b,
      (digs_facts (decimal_digs hd)).1]
    exact idPlain_nist hw hd hne hb
  · unfold idStr
    rw [idFuel_plain hwne (dashes_none hwd)]
    have : remove (· = '-') (w.map upper) = w.map upper := by
      refine remove_none fun x hx => ?_
      obtain ⟨y, hy, rfl⟩ := List.mem_map.mp hx
      simp [upper_dash y (hwd y hy)]
    rw [this]
    exact idPlain_element hw

/-- A case of `C101_names`: `am-242M`. -/
example : Word 95 ['a', 'm'] ∧ Info.Decimal [2, 4, 2] ['2', '4', '2'] ∧
    idStr ['a', 'm', '-', '2', '4', '2', 'M'] = some (.ok 952420001) :=
  ⟨⟨['A', 'm'], ⟨by decide, by decide, by decide +kernel⟩, by decide⟩, ⟨by decide, by decide⟩,
    by decide +kernel⟩

/-- C101 (digits).  A text of digits gives what the number gives. -/
theorem C101_digits {ds : List ℕ} {d : List Char} (hd : Info.Decimal ds d) (hne : ds ≠ [])
    (hb : (Info.value ds : ℤ) < 2 ^ 31) : idStr d = idInt (Info.value ds) := by
  obtain ⟨hup, hdig, _, hdash, _⟩ := digs_facts (decimal_digs hd)
  have hdne : d ≠ [] := by
    rintro rfl
    obtain ⟨_, h⟩ := hd
    exact hne (by simpa using h.symm)
  unfold idStr
  rw [idFuel_plain hdne (dashes_none hdash), hup, remove_none fun x hx => by simp [hdash x hx]]
  obtain ⟨x, xs, rfl⟩ : ∃ x xs, d = x :: xs := by
    cases d with
    | nil => exact absurd rfl hdne
    | cons x xs => exact ⟨x, xs, rfl⟩
  unfold idPlain
  simp only [hdig x (by simp), if_true]
  unfold idNist
  rw [List.getLast?_eq_some_getLast (by simp)]
  simp only
  rw [hdig _ (List.getLast_mem _), if_pos rfl, toInt_decimal hd hne hb]

/-- A case of `C101_digits`: `922350`. -/
example : Info.Decimal [9, 2, 2, 3, 5, 0] ['9', '2', '2', '3', '5', '0'] ∧ idStr ['9', '2', '2', '3', '5', '0'] = some (.ok 922350000) :=
  ⟨⟨by decide, by decide⟩, by decide +kernel⟩

/-- C101 (texts that are refused).  A text without dashes that starts with a character that is neither a
letter nor a digit is refused, and so is a symbol followed by a mass number that an `int` takes for a
negative one. -/
theorem C101_refuses :
    (∀ (c : Char) (r : List Char), c.isAlphanum = false → (∀ x ∈ c :: r, x ≠ '-') →
      idStr (c :: r) = some (.error .notNuclide)) ∧
    (∀ (z : ℤ) (w : List Char), Word z w → ∀ (ds : List ℕ) (d : List Char), Info.Decimal ds d → ds ≠ [] →
      2 ^ 31 ≤ Info.value ds → Info.value ds < 2 ^ 32 → idStr (w ++ d) = some (.error .notNuclide)) := by
  refine ⟨fun c r hc hd => ?_, fun z w hw ds d hd hne h1 h2 => ?_⟩
  · have hrm : remove (· = '-') ((c :: r).map upper) = (c :: r).map upper := by
      refine remove_none fun x hx => ?_
      obtain ⟨y, hy, rfl⟩ := List.mem_map.mp hx
      simp [upper_dash y (hd y hy)]
    have hnot : isDigit (upper c) = false ∧ isLetter (upper c) = false := by
      rw [upper_eq]
      simp only [Char.isAlphanum, Char.isAlpha, Char.isUpper, Char.isLower, Char.isDigit, Bool.or_eq_false_iff,
        Bool.and_eq_false_iff, decide_eq_false_iff_not] at hc
      have hup : Char.toUpper c = c := by
        unfold Char.toUpper
        rw [dif_neg]
        rintro ⟨ha, hb⟩
        rcases hc.1.2 with h | h
        · exact h ha
        · exact h hb
      rw [hup]
      unfold isDigit isLetter
      constructor
      · rw [decide_eq_false_iff_not]
        rintro ⟨ha, hb⟩
        rcases hc.2 with h | h
        · exact h ha
        · exact h hb
      · rw [decide_eq_false_iff_not]
        rintro ⟨ha, hb⟩
        exact hc.1.1 ⟨ha, hb⟩
    unfold idStr
    rw [idFuel_plain (by simp) (dashes_none hd), hrm, List.map_cons]
    unfold idPlain
    simp [hnot.1, hnot.2]
  · obtain ⟨c, cs, hcs, hlet, hz, hz1, hz2⟩ := word_facts hw
    obtain ⟨hup, hdig, hnl, hdash, _⟩ := digs_facts (decimal_digs hd)
    have hdne := decimal_ne hd hne
    have hwd := word_dash hw
    have hall : ∀ x ∈ w ++ d, x ≠ '-' := by
      intro x hx
      rcases List.mem_append.mp hx with h | h
      · exact hwd x h
      · exact hdash x h
    have hrm : remove (· = '-') ((w ++ d).map upper) = w.map upper ++ d := by
      rw [remove_none, List.map_append, hup]
      intro x hx
      obtain ⟨y, hy, rfl⟩ := List.mem_map.mp hx
      simp [upper_dash y (hall y hy)]
    unfold idStr
    rw [idFuel_plain (by simp [hdne]) (dashes_none hall), hrm]
    have hcl := hlet c (by rw [hcs]; simp)
    have hplain : idPlain (w.map upper ++ d) = idName (w.map upper ++ d) := by
      rw [hcs]
      unfold idPlain
      simp only [List.cons_append]
      rw [(letter_facts c hcl).1, hcl]
      simp
    have hanum : remove isLetter (w.map upper ++ d) = d := by
      rw [remove_append, remove_all hlet, remove_none hnl]
      simp
    rw [hplain]
    unfold idName
    simp only [hanum]
    have hemp : d.isEmpty = false := by
      cases d with
      | nil => exact absurd rfl hdne
      | cons => rfl
    rw [hemp]
    simp only [Bool.false_eq_true, if_false]
    have hneg : toInt d < 0 := by
      have := (Info.C95_numbers ds hne d [] [] hd (by simp) (by simp)).1
      simp only [List.nil_append, List.append_nil] at this
      unfold toInt
      rw [this, min_eq_right (by omega)]
      unfold Info.castLong Random.toInt32
      have hm : ((Info.value ds : ℤ) % 2 ^ 32).toNat = Info.value ds := by omega
      rw [hm]
      split_ifs <;> omega
    rw [if_pos hneg]

/-- Cases of `C101_refuses`: `_999999` and `U4294967295`. -/
example : '_'.isAlphanum = false ∧ Info.value [4, 2, 9, 4, 9, 6, 7, 2, 9, 5] = 4294967295 ∧
    idStr ['_', '9', '9', '9', '9', '9', '9'] = some (.error .notNuclide) ∧
    idStr ['U', '4', '2', '9', '4', '9', '6', '7', '2', '9', '5'] = some (.error .notNuclide) := by
  decide +kernel

/-- C101 (`isnuclide` of texts).  The name of a nuclide, with the dash or the mark of the first state or
without, is one; the symbol of an element is not. -/
theorem C101_isnuclide_text {z : ℤ} {w : List Char} (hw : Word z w) :
    isNuclideStr w = some (.ok false) ∧
    ∀ (ds : List ℕ) (d : List Char), Info.Decimal ds d → ds ≠ [] → Nuclide z (Info.value ds) 0 →
      ∀ m b, isNuclideStr (w ++ sep b ++ (d ++ mark m)) = some (.ok true) := by
  constructor
  · have h1 := (C101_names hw (ds := [1]) (d := ['1']) ⟨by decide, by decide⟩ (by simp) (by decide) false).2.2
    obtain ⟨v, hv, _⟩ := hw
    have h2 := (C101_elements hv).2.2.1
    have h3 := known_range (sym_known hv)
    unfold isNuclideStr
    rw [h1]
    simp only
    unfold isNuclide
    rw [h2]
    unfold code
    simp only
    split_ifs
    · rfl
    · rfl
    · rfl
    · omega
  · intro ds d hd hne hn m b
    have h1 := (C101_names hw hd hne hn.three b).1 m
    have hs : stateOf m = 0 ∨ stateOf m = 1 := by
      cases m
      · exact .inl rfl
      · exact .inr rfl
    have hn' : Nuclide z (Info.value ds) (stateOf m) := by
      refine ⟨hn.pos, hn.lower, hn.upper, hn.three, by omega, ?_⟩
      have := hn.fits
      have := known_range (sym_known hw.choose_spec.1)
      have := hn.three
      unfold code at *
      omega
    unfold isNuclideStr
    rw [h1]
    simp only
    rw [(C101_isnuclide _).mpr ⟨z, Info.value ds, stateOf m, idInt_code hn', hn.pos, hn.lower, hn.three,
      by omega, by omega⟩]
    rfl

/-- A case of `C101_isnuclide_text`: `u-235m`. -/
example : Word 92 ['u'] ∧ Info.Decimal [2, 3, 5] ['2', '3', '5'] ∧ Nuclide 92 235 0 ∧
    isNuclideStr ['u', '-', '2', '3', '5', 'm'] = some (.ok true) :=
  ⟨⟨['U'], ⟨by decide, by decide, by decide +kernel⟩, by decide⟩, ⟨by decide, by decide⟩,
    ⟨by decide, by decide, by decide, by decide, by decide, by decide⟩, by decide +kernel⟩

/-! ## Ways back -/

theorem decimal_showInt {a : ℤ} (h : 0 < a) : ∃ ds, Info.Decimal ds (Convert.showInt a) ∧ ds ≠ [] ∧
    (Info.value ds : ℤ) = a := by
  unfold Convert.showInt Convert.decimal
  rw [if_neg (by omega), if_neg (by omega)]
  refine ⟨(Nat.digits 10 a.natAbs).reverse, ⟨?_, rfl⟩, ?_, ?_⟩
  · intro d hd
    exact Nat.digits_lt_base (by norm_num) (List.mem_reverse.mp hd)
  · rw [Ne, List.reverse_eq_nil_iff, Nat.digits_eq_nil_iff_eq_zero]
    omega
  · unfold Info.value
    rw [List.reverse_reverse, Nat.ofDigits_digits]
    omega

theorem code_parts {z a s : ℤ} (h : Nuclide z a s) : (code z a s).tdiv 10000000 = z ∧
    ((code z a s).tmod 10000000).tdiv 10000 = a ∧ (code z a s).tmod 10000 = s ∧
    (code z a s).tmod 10000000 = a * 10000 + s ∧ (code z a s).tdiv 10000 = z * 1000 + a := by
  obtain ⟨h1, h2, h3, h4, h5, h6⟩ := h
  unfold code at *
  have h0 : 0 ≤ z * 10000000 + a * 10000 + s := by omega
  rw [Int.tdiv_eq_ediv_of_nonneg h0, Int.tmod_eq_emod_of_nonneg h0, Int.tmod_eq_emod_of_nonneg h0,
    Int.tdiv_eq_ediv_of_nonneg (by omega), Int.tdiv_eq_ediv_of_nonneg h0]
  omega

/-- C101 (ways back).  The name of a nuclide in its ground or first state gives the nuclide back, and so
does its number in the form `ZZZAAAM` for the states up to 9. -/
theorem C101_back {z a s : ℤ} (h : Nuclide z a s) :
    (∀ w, Sym z w → s ≤ 1 → ∃ t, name (code z a s) = some (.ok t) ∧ idStr t = some (.ok (code z a s))) ∧
    (s ≤ 9 → ∃ x, zzaaam (code z a s) = some (.ok x) ∧ idInt x = some (.ok (code z a s))) := by
  obtain ⟨p1, p2, p3, p4, p5⟩ := code_parts h
  have h1 := h.pos
  have h2 := h.lower
  have h4 := h.three
  have h5 := h.state
  have h6 := h.fits
  refine ⟨fun w hw hs => ?_, fun hs => ?_⟩
  · obtain ⟨ds, hd, hne, hv⟩ := decimal_showInt (a := a) (by omega)
    have hn := (C101_names ⟨w, hw, rfl⟩ hd hne (by omega) false).1 (if 0 < s then some true else none)
    have hst : stateOf (if 0 < s then some true else none) = s := by
      unfold stateOf
      split <;> simp <;> omega
    rw [hst, hv] at hn
    refine ⟨_, ?_, hn⟩
    unfold name
    rw [idInt_code h]
    simp only [p1, p2, p3]
    rw [((C101_symbols z w).2).mpr hw]
    simp only
    rw [if_pos (by omega)]
    simp only [sep, Bool.false_eq_true, if_false, List.append_nil, List.append_assoc]
    congr 4
    split <;> rfl
  · refine ⟨z * 10000 + a * 10 + s, ?_, idInt_zzaaam h hs⟩
    unfold zzaaam
    rw [idInt_code h]
    simp only [p3, p5]
    rw [if_neg (by omega)]
    unfold code at h6
    have : (z * 1000 + a) * 10 + s = z * 10000 + a * 10 + s := by omega
    rw [this]
    exact int32_ok (by omega) (by omega)

/-- A case of `C101_back`: the name of americium 242m. -/
example : Nuclide 95 242 1 ∧ name 952420001 = some (.ok ['A', 'm', '2', '4', '2', 'M']) :=
  ⟨⟨by decide, by decide, by decide, by decide, by decide, by decide⟩, by decide +kernel⟩

/-! ## The form `ZZ-LL-AAAM` -/

theorem zz_digits : ∀ n : ℕ, n < 117 → 0 < n → n ≤ 99 ∨ n % 10 = 0 →
    ((Convert.decimal n).drop 2 = [] ∨ (Convert.decimal n).drop 2 = ['0']) ∧
    (Convert.decimal n).length ≤ 3 := by
  decide +kernel

theorem eraseFirst_digs {d : List Char} (hd : Digs d) {t : List Char} (h : eraseFirst nat t = none) :
    eraseFirst nat (d ++ t) = none := by
  induction d with
  | nil => exact h
  | cons x d ih =>
    rw [List.cons_append, eraseFirst]
    have hx : 'N' ≠ x := by
      have := (digs_facts hd).2.2.1 x (by simp)
      rintro rfl
      simp [isLetter] at this
    have : nat.isPrefixOf (x :: (d ++ t)) = false := by
      simp [nat, List.isPrefixOf, hx]
    rw [this, ih fun c hc => hd c (by simp [hc])]
    rfl

theorem hasNat_false {pre w d t : List Char} (hp : Digs pre) (hw : w.length ≤ 2) (hd : Digs d)
    (hdne : d ≠ []) (ht : eraseFirst nat t = none) : hasNat (pre ++ w ++ d ++ t) = false := by
  unfold hasNat
  have hdt := eraseFirst_digs hd ht
  obtain ⟨x, xs, rfl⟩ : ∃ x xs, d = x :: xs := by
    cases d with
    | nil => exact absurd rfl hdne
    | cons x xs => exact ⟨x, xs, rfl⟩
  have hx : isLetter x = false := (digs_facts hd).2.2.1 x (by simp)
  have h1 : 'A' ≠ x := by rintro rfl; simp [isLetter] at hx
  have h2 : 'T' ≠ x := by rintro rfl; simp [isLetter] at hx
  have : eraseFirst nat (w ++ (x :: xs ++ t)) = none := by
    match w, hw with
    | [], _ => exact hdt
    | [c], _ =>
      rw [List.cons_append, List.nil_append, eraseFirst]
      have : nat.isPrefixOf (c :: (x :: xs ++ t)) = false := by
        simp [nat, List.isPrefixOf, h1]
      rw [this, hdt]
      rfl
    | [c, c'], _ =>
      rw [List.cons_append, List.cons_append, List.nil_append, eraseFirst, eraseFirst]
      have e1 : nat.isPrefixOf (c :: c' :: (x :: xs ++ t)) = false := by
        simp [nat, List.isPrefixOf, h2]
      have e2 : nat.isPrefixOf (c' :: (x :: xs ++ t)) = false := by
        simp [nat, List.isPrefixOf, h1]
      rw [e1, e2, hdt]
      rfl
  rw [List.append_assoc, List.append_assoc, eraseFirst_digs hp this]
  rfl

theorem value_take (ds : List ℕ) (k : ℕ) (h : ∀ d ∈ ds, d < 10) (hk : k ≤ 3) :
    Info.value (ds.take k) ≤ 999 := by
  have h1 : Info.value (ds.take k) < 10 ^ (ds.take k).reverse.length :=
    Nat.ofDigits_lt_base_pow_length (by norm_num) fun d hd =>
      h d (List.mem_of_mem_take (List.mem_reverse.mp hd))
  have h2 : (10 : ℕ) ^ (ds.take k).reverse.length ≤ 10 ^ 3 :=
    Nat.pow_le_pow_right (by norm_num) (by simp; omega)
  omega

theorem remove_drop {zd : List Char} (h : ∀ x ∈ zd, x ≠ '-') (hne : zd ≠ []) (r : List Char) :
    remove (· = '-') ((zd ++ '-' :: r).drop 2) = zd.drop 2 ++ remove (· = '-') r := by
  match zd, h with
  | [], _ => exact absurd rfl hne
  | [_], _ => rfl
  | _ :: _ :: l, h =>
    simp only [List.cons_append, List.drop_succ_cons, List.drop_zero]
    rw [remove_append, remove_none fun x hx => by simp [h x (by simp [hx])]]
    simp [remove]

theorem mark_take (m : Option Bool) (k : ℕ) : ∃ m', (mark m).take k = mark m' := by
  cases m with
  | none => exact ⟨none, by simp [mark]⟩
  | some b =>
    cases k with
    | zero => exact ⟨none, by simp [mark]⟩
    | succ k => exact ⟨some b, by cases b <;> simp [mark]⟩

/-- C101 (`ZZ-LL-AAAM`).  For elements up to 99, and 100 and 110, the atomic number, the symbol in any
case and the mass number with dashes between them, and perhaps `M` or `m`, give the identifier.  The full
statement is for all elements; see `C101_fails_heavy`. -/
theorem C101_zzllaaam_partial {z : ℤ} {w : List Char} (hw : Word z w) (hz : z ≤ 99 ∨ z % 10 = 0)
    {ds : List ℕ} {d : List Char} (hd : Info.Decimal ds d) (hne : ds ≠ [])
    (hb : (Info.value ds : ℤ) ≤ 999) (m : Option Bool) :
    idStr (Convert.showInt z ++ '-' :: (w ++ '-' :: (d ++ mark m))) =
      some (.ok (code z (Info.value ds) (stateOf m))) := by
  obtain ⟨c, cs, hcs, hlet, hzo, hz1, hz2⟩ := word_facts hw
  have hdne := decimal_ne hd hne
  obtain ⟨zs, hzd, hzne, hzv⟩ := decimal_showInt (a := z) (by omega)
  have hzdne := decimal_ne hzd hzne
  obtain ⟨hzdrop, hzlen⟩ : ((Convert.showInt z).drop 2 = [] ∨ (Convert.showInt z).drop 2 = ['0']) ∧
      (Convert.showInt z).length ≤ 3 := by
    have := zz_digits z.natAbs (by omega) (by omega) (by omega)
    unfold Convert.showInt
    rw [if_neg (by omega)]
    exact this
  have hwlen : w.length ≤ 2 := by
    obtain ⟨v, hv, he⟩ := hw
    have h1 : v.length ≤ 2 := (symbols_words _ (sym_mem hv)).2.1.2
    have h2 := congrArg List.length he
    simp only [List.length_map] at h2
    omega
  have hwpos : 0 < w.length := by
    cases w with
    | nil => simp at hcs
    | cons => simp
  have hzdash := (digs_facts (decimal_digs hzd)).2.2.2.1
  have hwdash := word_dash hw
  have hddash := (digs_facts (decimal_digs hd)).2.2.2.1
  have hmdash : ∀ x ∈ mark m, x ≠ '-' := by
    intro x h
    cases m with
    | none => simp [mark] at h
    | some m => cases m <;> simp [mark] at h <;> subst h <;> decide
  set zd := Convert.showInt z with hzdd
  set t := zd ++ '-' :: (w ++ '-' :: (d ++ mark m)) with ht
  have hzpos : 0 < zd.length := List.length_pos_iff.mpr hzdne
  have hdpos : 0 < d.length := List.length_pos_iff.mpr hdne
  have hlen : 5 ≤ t.length := by
    rw [ht]
    simp only [List.length_append, List.length_cons]
    omega
  have hdash : dashes t = some (zd.length, zd.length + 1 + w.length) :=
    dashes_two hzdash hwdash _
  have hll : (t.drop (zd.length + 1)).take (zd.length + 1 + w.length) =
      w ++ sep true ++ (d.take zd.length ++ (mark m).take (zd.length - d.length)) := by
    have h1 : t.drop (zd.length + 1) = w ++ '-' :: (d ++ mark m) := by
      rw [ht]; simp [List.drop_append]
    rw [h1, Nat.add_comm, List.take_length_add_append, List.take_succ_cons,
      List.take_append]
    simp [sep]
  obtain ⟨m', hm'⟩ := mark_take m (zd.length - d.length)
  rw [hm'] at hll
  have hdtake : Info.Decimal (ds.take zd.length) (d.take zd.length) := by
    obtain ⟨h1, h2⟩ := hd
    refine ⟨fun x hx => h1 x (List.mem_of_mem_take hx), ?_⟩
    rw [h2, List.map_take]
  have hdtne : ds.take zd.length ≠ [] := by
    rw [Ne, List.take_eq_nil_iff]
    rintro (h | h)
    · omega
    · exact hne h
  have hvt : (Info.value (ds.take zd.length) : ℤ) ≤ 999 := by
    have := value_take ds zd.length hd.1 hzlen
    omega
  obtain ⟨f, hf⟩ : ∃ f, t.length = f + 1 := ⟨t.length - 1, by omega⟩
  have hin := idFuel_name (fuel := f) hw hdtake hdtne hvt m' true
  have hemp : t.isEmpty = false := by
    cases h : t with
    | nil => rw [h] at hlen; simp at hlen
    | cons => rfl
  have htake : t.take zd.length = zd := by rw [ht]; simp
  have hst : 0 ≤ stateOf m' ∧ stateOf m' ≤ 1 := by
    unfold stateOf
    split <;> omega
  have hdiv : (code z (Info.value (ds.take zd.length)) (stateOf m')).tdiv 10000000 = z := by
    unfold code
    rw [Int.tdiv_eq_ediv_of_nonneg (by omega)]
    omega
  unfold idStr
  rw [idFuel, hemp, if_neg (by simp), if_pos hlen, hdash]
  simp only
  rw [hll, hf, hin]
  simp only
  rw [hdiv, htake, toInt_decimal hzd hzne (by omega), hzv, if_pos rfl]
  -- the conversion itself
  unfold zzllaaamToId
  rw [hemp, if_neg (by simp)]
  have hmk : (mark m).map upper = if m.isSome = true then ['M'] else [] := by
    cases m with
    | none => rfl
    | some m => cases m <;> decide
  have hup : t.map upper = zd ++ '-' :: (w.map upper ++ '-' :: (d ++ if m.isSome = true then ['M'] else [])) := by
    have hu : upper '-' = '-' := by decide
    rw [ht]
    simp only [List.map_append, List.map_cons, hu, hmk, (digs_facts (decimal_digs hzd)).1,
      (digs_facts (decimal_digs hd)).1]
  have hwu : ∀ x ∈ w.map upper, x ≠ '-' := fun x hx => (letter_facts x (hlet x hx)).2
  have hMd : ∀ x ∈ (if m.isSome = true then ['M'] else []), x ≠ '-' := by
    split <;> simp
  have hrest : remove (· = '-') (w.map upper ++ '-' :: (d ++ if m.isSome = true then ['M'] else [])) =
      w.map upper ++ (d ++ if m.isSome = true then ['M'] else []) := by
    have h1 : remove (· = '-') ('-' :: (d ++ if m.isSome = true then ['M'] else [])) =
        remove (· = '-') (d ++ if m.isSome = true then ['M'] else []) := by
      simp [remove]
    rw [remove_append, h1, remove_append, remove_none fun x hx => by simp [hwu x hx],
      remove_none fun x hx => by simp [hddash x hx], remove_none fun x hx => by simp [hMd x hx]]
  have hs : remove (· = '-') ((t.map upper).drop 2) =
      zd.drop 2 ++ w.map upper ++ d ++ (if m.isSome = true then ['M'] else []) := by
    have hdr : remove (· = '-') ((t.map upper).drop 2) = zd.drop 2 ++
        remove (· = '-') (w.map upper ++ '-' :: (d ++ if m.isSome = true then ['M'] else [])) := by
      rw [hup]
      exact remove_drop hzdash hzdne _
    rw [hdr, hrest]
    simp
  have hpre : Digs (zd.drop 2) := fun x hx => decimal_digs hzd x (List.mem_of_mem_drop hx)
  simp only [hs]
  have hnat : hasNat (zd.drop 2 ++ w.map upper ++ d ++ (if m.isSome = true then ['M'] else [])) = false :=
    hasNat_false hpre (by simpa using hwlen) (decimal_digs hd) hdne (by split <;> decide)
  have hanum : remove isLetter (zd.drop 2 ++ w.map upper ++ d ++ (if m.isSome = true then ['M'] else [])) =
      zd.drop 2 ++ d := by
    have hM : ∀ x ∈ (if m.isSome = true then ['M'] else []), isLetter x = true := by
      split <;> simp <;> decide
    rw [remove_append, remove_append, remove_append, remove_all hlet, remove_all hM,
      remove_none (digs_facts hpre).2.2.1, remove_none (digs_facts (decimal_digs hd)).2.2.1]
    simp
  rw [hnat, hanum]
  have hemp2 : (zd.drop 2 ++ d).isEmpty = false := by
    rw [List.isEmpty_eq_false_iff]
    simp [hdne]
  rw [hemp2]
  simp only [Bool.or_self, Bool.false_eq_true, if_false]
  have hval : toInt (zd.drop 2 ++ d) = Info.value ds := by
    rcases hzdrop with h | h
    · rw [h, List.nil_append]
      exact toInt_decimal hd hne (by omega)
    · rw [h]
      have h0 : Info.Decimal (0 :: ds) (['0'] ++ d) := by
        obtain ⟨h1, h2⟩ := hd
        refine ⟨?_, by rw [h2]; rfl⟩
        intro x hx
        rcases List.mem_cons.mp hx with rfl | hx
        · omega
        · exact h1 x hx
      have hv : Info.value (0 :: ds) = Info.value ds := by
        unfold Info.value
        rw [List.reverse_cons, Nat.ofDigits_append]
        simp
      rw [toInt_decimal h0 (by simp) (by rw [hv]; omega), hv]
  rw [hval, withState_ok hw hpre (decimal_digs hd) hdne m.isSome (by omega) hb]
  rfl

/-- A case of `C101_zzllaaam_partial`: `95-Am-242m`. -/
example : Word 95 ['A', 'm'] ∧ Info.Decimal [2, 4, 2] ['2', '4', '2'] ∧
    idStr ['9', '5', '-', 'A', 'm', '-', '2', '4', '2', 'm'] = some (.ok 952420001) :=
  ⟨⟨['A', 'm'], ⟨by decide, by decide, by decide +kernel⟩, rfl⟩, ⟨by decide, by decide⟩,
    by decide +kernel⟩

/-- C101 (way back from `ZZ-LL-AAAM`).  A nuclide in its ground or first state of such an element is
given back by its text in this form. -/
theorem C101_back_zzllaaam_partial {z a s : ℤ} (h : Nuclide z a s) {w : List Char} (hw : Sym z w)
    (hz : z ≤ 99 ∨ z % 10 = 0) (hs : s ≤ 1) :
    ∃ t, zzllaaam (code z a s) = some (.ok t) ∧ idStr t = some (.ok (code z a s)) := by
  obtain ⟨p1, p2, p3, p4, p5⟩ := code_parts h
  have h1 := h.pos
  have h2 := h.lower
  have h4 := h.three
  have h5 := h.state
  obtain ⟨ds, hd, hne, hv⟩ := decimal_showInt (a := a) (by omega)
  have hn := C101_zzllaaam_partial ⟨w, hw, rfl⟩ hz hd hne (by omega) (if 0 < s then some false else none)
  have hst : stateOf (if 0 < s then some false else none) = s := by
    unfold stateOf
    split <;> simp <;> omega
  rw [hst, hv] at hn
  refine ⟨_, ?_, hn⟩
  unfold zzllaaam
  rw [idInt_code h]
  simp only [p1, p3]
  rw [((C101_symbols z w).2).mpr hw]
  have p6 : (a * 10000 + s).tdiv 10000 = a := by rw [← p4]; exact p2
  simp only [p4, p6]
  rw [if_pos (by omega)]
  simp only [List.append_assoc, List.cons_append, List.nil_append]
  congr 6
  split <;> rfl

/-- A case of `C101_back_zzllaaam_partial`: uranium 235. -/
example : zzllaaam 922350000 = some (.ok ['9', '2', '-', 'U', '-', '2', '3', '5']) := by decide +kernel

/-! ## Disagreements -/

/-- C101 disagreement: thorium 232 in the form of MCNP is taken for the second state of fluorine 23, and
neon for hydrogen. -/
theorem C101_fails_mcnp : idInt 90232 = some (.ok (code 9 23 2)) ∧ idInt 10000 = some (.ok (code 1 0 0)) ∧
    Nuclide 90 232 0 := by
  refine ⟨by decide +kernel, by decide +kernel, ⟨?_, ?_, ?_, ?_, ?_, ?_⟩⟩ <;> decide

/-- C101 disagreement: 0, 200 and 401 are not refused; the identifiers they give are not those of any
nuclide or element, and two of them are refused when given as identifiers. -/
theorem C101_fails_small : idInt 0 = some (.ok 0) ∧ idInt 200 = some (.ok 2000000) ∧
    idInt 2000000 = some (.error .indeterminate) ∧ idInt 401 = some (.ok (-989998)) ∧
    idInt (-989998) = some (.error .notNuclide) := by
  refine ⟨?_, ?_, ?_, ?_, ?_⟩ <;> decide +kernel

/-- C101 disagreement: 1300, hydrogen with mass number 300, is a nuclide, but its identifier is not. -/
theorem C101_fails_heavy_hydrogen : isNuclide 1300 = some true ∧ idInt 1300 = some (.ok 13000000) ∧
    isNuclide 13000000 = some false := by
  refine ⟨?_, ?_, ?_⟩ <;> decide +kernel

/-- C101 disagreement: keys of compositions are checked with `isnuclide`, which accepts numbers that are
not identifiers; the same nuclide may occur under several keys. -/
theorem C101_fails_keys : isNuclide 922350 = some true ∧ isNuclide 922350000 = some true ∧
    idInt 922350 = idInt 922350000 := by
  refine ⟨?_, ?_, ?_⟩ <;> decide +kernel

/-- C101 disagreement: the states above the first all have the name of the first. -/
theorem C101_fails_state : name (code 92 235 2) = some (.ok ['U', '2', '3', '5', 'M']) ∧
    idStr ['U', '2', '3', '5', 'M'] = some (.ok (code 92 235 1)) := by
  refine ⟨?_, ?_⟩ <;> decide +kernel

/-- C101 disagreement: the last digit of the atomic numbers 101 to 109 is taken for a digit of the mass
number, so that `101-Md-258` is nobelium 258; and the text for natural hydrogen gives hydrogen 1. -/
theorem C101_fails_heavy : zzllaaam (code 101 258 0) = some (.ok ['1', '0', '1', '-', 'M', 'd', '-', '2', '5', '8']) ∧
    idStr ['1', '0', '1', '-', 'M', 'd', '-', '2', '5', '8'] = some (.ok (code 102 258 0)) ∧ zzllaaam (code 1 0 0) = some (.ok ['1', '-', 'H', '-']) ∧
    idStr ['1', '-', 'H', '-'] = some (.ok (code 1 1 0)) := by
  refine ⟨?_, ?_, ?_, ?_⟩ <;> decide +kernel

/-- C101 disagreement: `U1235` is neptunium 235, `92U235` is natural uranium, `UM` is the first state of
natural uranium, and a dash alone ends in an exception that `isnuclide` does not expect. -/
theorem C101_fails_texts : idStr ['U', '1', '2', '3', '5'] = some (.ok (code 93 235 0)) ∧
    idStr ['9', '2', 'U', '2', '3', '5'] = some (.ok (code 92 0 0)) ∧ idStr ['U', 'M'] = some (.ok (code 92 0 1)) ∧
    isNuclideStr ['-'] = some (.error .range) := by
  refine ⟨?_, ?_, ?_, ?_⟩ <;> decide +kernel

/-- C101 disagreement: some numbers make the computation overflow, which is undefined. -/
theorem C101_fails_overflow : idInt 2502500 = none ∧ idInt 399399 = none ∧ idStr ['U', '9', '9', '9', '9', '9', '9'] = none := by
  refine ⟨?_, ?_, ?_⟩ <;> decide +kernel

end Cyclus.Nuc
