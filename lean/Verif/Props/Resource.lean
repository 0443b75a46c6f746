import Verif.Lemmas.Resource
import Mathlib.Tactic.NormNum

/-!
# Properties C08, C09, C11: conservation in resources, changing packages
-/

namespace Cyclus.Product

/-- Specification: total quantity over all existing products. -/
def total (s : St) : ℚ := ∑ i ∈ Finset.range s.n, (s.obj i).qty

/-- Specification: quantity brought into existence by a call. -/
def added : Op → ℚ
  | .create q _ => q
  | _ => 0

/-- Arguments denote existing objects, and no object absorbs itself. -/
def ValidArgs (s : St) : Op → Prop
  | .create _ _ => True
  | .extract i _ | .packageExtract i _ => i < s.n
  | .absorb i j => i < s.n ∧ j < s.n ∧ i ≠ j

/-- A program all of whose calls have valid arguments. -/
def Program : St → List Op → Prop
  | _, [] => True
  | s, op :: ops => ValidArgs s op ∧ Program (step s op).1 ops

theorem extract_total {s : St} {i : ℕ} {q : ℚ} (hi : i < s.n) :
    total (extract s i q).1 = total s := by
  unfold extract
  split
  · rfl
  · simp only [total, alloc, setQty]
    rw [Finset.sum_range_succ]
    have h1 : (∑ k ∈ Finset.range s.n, ((fun k => if k = s.n then (⟨q, (s.obj i).quality⟩ : Prod) else
        if k = i then { s.obj i with qty := (s.obj i).qty - q } else s.obj k) k).qty)
        = (∑ k ∈ Finset.range s.n, (s.obj k).qty) + (((s.obj i).qty - q) - (s.obj i).qty) := by
      have := sum_change (f := fun k => (s.obj k).qty)
        (g := fun k => (if k = i then { s.obj i with qty := (s.obj i).qty - q } else s.obj k).qty)
        hi (fun k hk => by simp [hk])
      simp only [if_true] at this
      rw [← this]
      refine sum_congr_range (fun k hk => ?_)
      simp only
      rw [if_neg (by omega)]
    rw [h1]
    simp only [if_true]
    ring

theorem absorb_total {s : St} {i j : ℕ} (hi : i < s.n) (hj : j < s.n) (hij : i ≠ j) :
    total (absorb s i j).1 = total s := by
  unfold absorb
  split
  · rfl
  · simp only [total, setQty]
    rw [sum_change2 (f := fun k => (s.obj k).qty) hi hj hij]
    · simp [hij, Ne.symm hij]
    · intro k hki hkj
      simp [hki, hkj]

/-- **C08 (Products).**  Over every program the total quantity of all products is exactly the quantity
created; splitting, merging and failing calls do not change it. -/
theorem C08_product_conserved (ops : List Op) (hp : Program init ops) :
    total (run init ops) = (ops.map added).sum := by
  have key : ∀ (ops : List Op) (s : St), Program s ops →
      total (run s ops) = total s + (ops.map added).sum := by
    intro ops
    induction ops with
    | nil => intro s _; simp [run]
    | cons op ops ih =>
      intro s hp
      have h1 : total (step s op).1 = total s + added op := by
        cases op with
        | create q ql =>
          simp only [step, total, alloc, added]
          rw [Finset.sum_range_succ]
          rw [sum_congr_range (f := fun k => (s.obj k).qty)
            (fun k hk => by simp [show k ≠ s.n by omega])]
          simp
        | extract i q => simpa [step, added] using extract_total (q := q) hp.1
        | packageExtract i q => simpa [step, added] using extract_total (q := q) hp.1
        | absorb i j =>
          simpa [step, added] using absorb_total hp.1.1 hp.1.2.1 hp.1.2.2
      have h2 := ih _ hp.2
      simp only [run, List.foldl_cons, List.map_cons, List.sum_cons] at h2 ⊢
      rw [h2, h1]; ring
  rw [key ops init hp]
  simp [total, init]

example : Program init [.create 5 0, .extract 0 2, .create 1 1, .absorb 0 2, .absorb 0 1,
    .extract 0 9, .packageExtract 0 3] := by
  simp only [Program, ValidArgs]
  decide +kernel

/-- **C08 (Products, single calls).**  Extracting more than is held throws `ValueError`; a successful
extraction returns a new object holding exactly the quantity asked for, of the same quality, and
leaves the rest; a successful absorption empties the absorbed product; a failing call changes
nothing. -/
theorem C08_product_calls (s : St) (i j : ℕ) (q : ℚ) (hi : i < s.n) (hij : i ≠ j) :
    ((s.obj i).qty < q → extract s i q = (s, .error .value)) ∧
    (q ≤ (s.obj i).qty → ∃ s', extract s i q = (s', .ok (some s.n)) ∧
      s'.obj s.n = ⟨q, (s.obj i).quality⟩ ∧ (s'.obj i).qty = (s.obj i).qty - q ∧
      ∀ k, k < s.n → k ≠ i → s'.obj k = s.obj k) ∧
    ((s.obj i).quality = (s.obj j).quality → ∃ s', absorb s i j = (s', .ok none) ∧
      (s'.obj j).qty = 0 ∧ (s'.obj i).qty = (s.obj i).qty + (s.obj j).qty) ∧
    ((s.obj i).quality ≠ (s.obj j).quality → absorb s i j = (s, .error .value)) := by
  refine ⟨fun h => by simp [extract, h], fun h => ?_, fun h => ?_, fun h => ?_⟩
  · refine ⟨_, by rw [extract, if_neg (not_lt.2 h)], ?_, ?_, ?_⟩
    · simp [alloc, setQty]
    · simp [alloc, setQty, show i ≠ s.n by omega]
    · intro k hk hki
      simp [alloc, setQty, show k ≠ s.n by omega, hki]
  · refine ⟨_, by rw [absorb, if_neg (by simp [h])], ?_, ?_⟩
    · simp [setQty]
    · simp [setQty, hij]
  · simp [absorb, Ne.symm h]

example : ∃ (s : St), (0 : ℕ) < s.n ∧ 1 < s.n ∧ (s.obj 0).quality = (s.obj 1).quality ∧
    (3 : ℚ) ≤ (s.obj 0).qty :=
  ⟨run init [.create 5 7, .create 2 7], by decide +kernel, by decide +kernel, by decide +kernel,
    by decide +kernel⟩

/-- Absorbing itself destroys a product's quantity, so the restriction of C08 to distinct objects is
needed. -/
theorem C08_fails_self : ∃ s : St, total (absorb s 0 0).1 ≠ total s :=
  ⟨run init [.create 5 7], by simp [total, run, step, alloc, init, absorb, setQty]⟩

end Cyclus.Product

namespace Cyclus.Material

open CompMath

/-- Specification: total quantity over all existing materials. -/
def total (s : St) : ℚ := ∑ i ∈ Finset.range s.n, (s.obj i).qty

/-- Specification: total mass listed in a composition. -/
def massSum (v : CompMap) : ℚ := (v.map Prod.snd).sum

/-- Specification: mass of one nuclide in `q` units of composition `v`. -/
def nucAmount (q : ℚ) (v : CompMap) (nuc : ℕ) : ℚ :=
  if massSum v = 0 then 0 else q * (get v nuc / massSum v)

/-- Specification: mass of one nuclide over all existing materials. -/
def nucTotal (s : St) (nuc : ℕ) : ℚ :=
  ∑ i ∈ Finset.range s.n, nucAmount (s.obj i).qty (s.comp (s.obj i).comp) nuc

/-- Specification: quantity brought into existence by a call. -/
def added : Op → ℚ
  | .create q _ => q
  | _ => 0

/-- Specification: mass of one nuclide brought into existence by a call. -/
def nucAdded (s : St) (nuc : ℕ) : Op → ℚ
  | .create q c => nucAmount q (s.comp c) nuc
  | _ => 0

/-- Arguments denote existing objects, and no object absorbs itself. -/
def ValidArgs (s : St) : Op → Prop
  | .newComp v => (v.map Prod.fst).Nodup
  | .create _ c => c < s.nc
  | .extractComp i _ c _ => i < s.n ∧ c < s.nc
  | .extractQty i _ | .packageExtract i _ => i < s.n
  | .absorb i j => i < s.n ∧ j < s.n ∧ i ≠ j

/-- A program all of whose calls have valid arguments. -/
def Program (isnuc : ℕ → Bool) (eps : ℚ) : St → List Op → Prop
  | _, [] => True
  | s, op :: ops => ValidArgs s op ∧ Program isnuc eps (step isnuc eps s op).1 ops

/-- Splitting off one object. -/
theorem split_sum {s t : St} {i : ℕ} {f : Mat → ℚ} {a b : Mat} (hi : i < s.n)
    (hn : t.n = s.n + 1) (ho : ∀ k, t.obj k = if k = s.n then b else if k = i then a else s.obj k) :
    (∑ k ∈ Finset.range t.n, f (t.obj k))
      = (∑ k ∈ Finset.range s.n, f (s.obj k)) + (f a + f b - f (s.obj i)) := by
  rw [hn, Finset.sum_range_succ]
  have h1 := sum_change (f := fun k => f (s.obj k))
    (g := fun k => f (if k = i then a else s.obj k)) hi (fun k hk => by simp [hk])
  rw [sum_congr_range (f := fun k => f (if k = i then a else s.obj k))
    (fun k hk => by rw [ho k, if_neg (by omega)]), h1, ho s.n]
  simp only [if_true]
  ring

theorem extractComp_total {isnuc : ℕ → Bool} {s : St} {i c : ℕ} {q t : ℚ} (hi : i < s.n) :
    total (extractComp isnuc s i q c t).1 = total s := by
  rcases extractComp_spec isnuc s i q c t with ⟨e, h⟩ | ⟨-, -, h⟩ | ⟨-, -, -, -, h⟩
  · rw [h]
  · rw [h]
    unfold total
    rw [split_sum (f := Mat.qty) (s := s) (i := i) (a := ⟨(s.obj i).qty - q, c⟩) (b := ⟨q, c⟩) hi
      rfl (fun _ => rfl)]
    ring
  · rw [h]
    unfold total
    rw [split_sum (f := Mat.qty) (s := s) (i := i) (a := ⟨(s.obj i).qty - q, s.nc⟩) (b := ⟨q, c⟩) hi
      rfl (fun _ => rfl)]
    ring

theorem mixed_sum {s t : St} {i j : ℕ} {f : ℕ → ℚ} {g : ℕ → ℚ} (hi : i < s.n) (hj : j < s.n)
    (hij : i ≠ j) (hn : t.n = s.n) (h : ∀ k, k < s.n → k ≠ i → k ≠ j → g k = f k) :
    (∑ k ∈ Finset.range t.n, g k)
      = (∑ k ∈ Finset.range s.n, f k) + (g i - f i) + (g j - f j) := by
  rw [hn]
  have h1 := sum_change2 (f := f) (g := fun k => if k < s.n then g k else f k) hi hj hij
    (fun k hki hkj => by
      split
      · exact h k (by assumption) hki hkj
      · rfl)
  simp only [if_pos hi, if_pos hj] at h1
  rw [← h1]
  exact sum_congr_range (fun k hk => by simp [hk])

theorem absorb_total {isnuc : ℕ → Bool} {s : St} {i j : ℕ} (hi : i < s.n) (hj : j < s.n)
    (hij : i ≠ j) : total (absorb isnuc s i j).1 = total s := by
  rcases absorb_spec isnuc s i j hij with ⟨e, h⟩ | ⟨-, h⟩ | ⟨-, -, h⟩
  · rw [h]
  · rw [h]
    refine (mixed_sum (s := s) (f := fun k => (s.obj k).qty) hi hj hij rfl ?_).trans ?_
    · intro k _ hki hkj
      simp [mixed, hki, hkj]
    · simp [mixed, hij, total]
  · rw [h]
    refine (mixed_sum (s := s) (f := fun k => (s.obj k).qty) hi hj hij rfl ?_).trans ?_
    · intro k _ hki hkj
      simp [mixed, hki, hkj]
    · simp [mixed, hij, total]

theorem packageExtract_total {eps : ℚ} {s : St} {i : ℕ} {q : ℚ} (hi : i < s.n) :
    total (packageExtract eps s i q).1 = total s := by
  unfold packageExtract
  simp only
  split
  · rfl
  · unfold total
    rw [split_sum (f := Mat.qty) (s := s) (i := i) (a := ⟨(s.obj i).qty - q, (s.obj i).comp⟩)
      (b := ⟨q, (s.obj i).comp⟩) hi rfl (fun _ => rfl)]
    ring

theorem create_sum {s : St} {f : ℕ → Mat → ℚ} {m : Mat} :
    (∑ k ∈ Finset.range (alloc s m).n, f k ((alloc s m).obj k))
      = (∑ k ∈ Finset.range s.n, f k (s.obj k)) + f s.n m := by
  simp only [alloc]
  rw [Finset.sum_range_succ]
  rw [sum_congr_range (f := fun k => f k (s.obj k)) (fun k hk => by simp [show k ≠ s.n by omega])]
  simp

/-- **C08 (Materials).**  Over every program the total quantity of all materials is exactly the
quantity created; splitting (by quantity, composition or package), merging and failing calls do not
change it. -/
theorem C08_material_conserved (isnuc : ℕ → Bool) (eps : ℚ) (ops : List Op)
    (hp : Program isnuc eps init ops) :
    total (run isnuc eps init ops) = (ops.map added).sum := by
  have key : ∀ (ops : List Op) (s : St), Program isnuc eps s ops →
      total (run isnuc eps s ops) = total s + (ops.map added).sum := by
    intro ops
    induction ops with
    | nil => intro s _; simp [run]
    | cons op ops ih =>
      intro s hp
      have h1 : total (step isnuc eps s op).1 = total s + added op := by
        cases op with
        | newComp v =>
          simp only [step, added, add_zero]
          rcases newComp_spec isnuc s v with ⟨e, h⟩ | ⟨-, h⟩ <;> (rw [h]; try rfl)
        | create q c => exact create_sum (f := fun _ m => m.qty)
        | extractComp i q c t => simpa [step, added] using extractComp_total hp.1.1
        | extractQty i q => simpa [step, added, extractQty] using extractComp_total hp.1
        | packageExtract i q => simpa [step, added] using packageExtract_total hp.1
        | absorb i j => simpa [step, added] using absorb_total hp.1.1 hp.1.2.1 hp.1.2.2
      have h2 := ih _ hp.2
      simp only [run, List.foldl_cons, List.map_cons, List.sum_cons] at h2 ⊢
      rw [h2, h1]; ring
  rw [key ops init hp]
  simp [total, init]

/-- A program over two compositions, used as witness that hypotheses can be met. -/
def demo : List Op :=
  [.newComp [(922350000, 1), (922380000, 4)], .newComp [(922350000, 1), (922380000, 1)],
   .create 10 0, .create 2 1, .extractComp 0 1 1 0, .extractQty 0 3, .absorb 1 3, .absorb 0 1,
   .packageExtract 0 2]

instance (s : St) (op : Op) : Decidable (ValidArgs s op) := by
  cases op <;> unfold ValidArgs <;> infer_instance

instance decProgram (isnuc : ℕ → Bool) (eps : ℚ) : ∀ s ops, Decidable (Program isnuc eps s ops)
  | _, [] => by unfold Program; infer_instance
  | s, op :: ops => by
    unfold Program
    have := decProgram isnuc eps (step isnuc eps s op).1 ops
    infer_instance

example : Program (fun _ => true) (1/1000000) init demo := by decide +kernel

/-- **C08 (Materials, single calls).**  Extracting more than is held throws `ValueError`; every failing
call changes nothing; a successful extraction gives a new object with exactly the quantity and
composition asked for and leaves the rest; a successful absorption empties the absorbed material. -/
theorem C08_material_calls (isnuc : ℕ → Bool) (s : St) (i j c : ℕ) (q t : ℚ) (hi : i < s.n)
    (hij : i ≠ j) :
    ((s.obj i).qty < q → extractComp isnuc s i q c t = (s, .error .value)) ∧
    (∀ s' e, extractComp isnuc s i q c t = (s', .error e) → s' = s) ∧
    (∀ s' r, extractComp isnuc s i q c t = (s', .ok r) → r = some s.n ∧ s'.obj s.n = ⟨q, c⟩ ∧
      (s'.obj i).qty = (s.obj i).qty - q ∧ ∀ k, k < s.n → k ≠ i → s'.obj k = s.obj k) ∧
    (∀ s' e, absorb isnuc s i j = (s', .error e) → s' = s) ∧
    (∀ s' r, absorb isnuc s i j = (s', .ok r) → (s'.obj j).qty = 0 ∧
      (s'.obj i).qty = (s.obj i).qty + (s.obj j).qty) := by
  refine ⟨fun h => by simp [extractComp, h], ?_, ?_, ?_, ?_⟩
  · intro s' e h
    rcases extractComp_spec isnuc s i q c t with ⟨e', h'⟩ | ⟨-, -, h'⟩ | ⟨-, -, -, -, h'⟩ <;>
      rw [h'] at h <;> simp_all
  · intro s' r h
    have hne : i ≠ s.n := by omega
    rcases extractComp_spec isnuc s i q c t with ⟨e', h'⟩ | ⟨-, -, h'⟩ | ⟨-, -, -, -, h'⟩
    · rw [h'] at h; simp at h
    · rw [h'] at h
      simp only [Prod.mk.injEq, Except.ok.injEq] at h
      obtain ⟨rfl, rfl⟩ := h
      refine ⟨rfl, by simp [alloc, setObj], by simp [alloc, setObj, hne], fun k hk hki => ?_⟩
      simp [alloc, setObj, show k ≠ s.n by omega, hki]
    · rw [h'] at h
      simp only [Prod.mk.injEq, Except.ok.injEq] at h
      obtain ⟨rfl, rfl⟩ := h
      refine ⟨rfl, by simp [alloc, setObj], by simp [alloc, setObj, hne], fun k hk hki => ?_⟩
      simp [alloc, setObj, show k ≠ s.n by omega, hki]
  · intro s' e h
    rcases absorb_spec isnuc s i j hij with ⟨e', h'⟩ | ⟨-, h'⟩ | ⟨-, -, h'⟩ <;>
      rw [h'] at h <;> simp_all
  · intro s' r h
    rcases absorb_spec isnuc s i j hij with ⟨e', h'⟩ | ⟨-, h'⟩ | ⟨-, -, h'⟩
    · rw [h'] at h; simp at h
    · rw [h'] at h
      simp only [Prod.mk.injEq, Except.ok.injEq] at h
      obtain ⟨rfl, rfl⟩ := h
      simp [mixed, hij]
    · rw [h'] at h
      simp only [Prod.mk.injEq, Except.ok.injEq] at h
      obtain ⟨rfl, rfl⟩ := h
      simp [mixed, hij]

example : (0 : ℕ) < (run (fun _ => true) 0 init demo).n ∧ (0 : ℕ) ≠ 1 :=
  ⟨by decide +kernel, by decide⟩

/-- **C08 (packaging).** `Material::PackageExtract` throws `ValueError` and changes nothing if the
quantity exceeds what is there by more than `eps`; otherwise the new material has exactly the
quantity asked for and the old one keeps the rest, which is at least `-eps`. -/
theorem C08_packageExtract_calls (eps : ℚ) (s : St) (i : ℕ) (q : ℚ) (hi : i < s.n) :
    (q - (s.obj i).qty > eps → packageExtract eps s i q = (s, .error .value)) ∧
    (q - (s.obj i).qty ≤ eps →
      (packageExtract eps s i q).2 = .ok (some s.n) ∧
      ((packageExtract eps s i q).1.obj s.n).qty = q ∧
      ((packageExtract eps s i q).1.obj s.n).comp = (s.obj i).comp ∧
      ((packageExtract eps s i q).1.obj i).comp = (s.obj i).comp ∧
      ((packageExtract eps s i q).1.obj i).qty = (s.obj i).qty - q ∧
      -eps ≤ ((packageExtract eps s i q).1.obj i).qty) := by
  constructor
  · intro h; simp [packageExtract, h]
  · intro h
    have hne : i ≠ s.n := by omega
    simp only [packageExtract, not_lt.2 h, if_false, alloc, setObj, hne, if_true]
    exact ⟨trivial, trivial, trivial, trivial, trivial, by linarith⟩

/-- `PackageExtract` of a Material, unlike that of a Product, accepts slightly more than is held and
leaves a negative quantity. -/
theorem C08_packageExtract_negative : ∃ s s' : St, ∃ r,
    packageExtract (1/1000000) s 0 (1 + 1/2000000) = (s', .ok r) ∧
    (((packageExtract (1/1000000) s 0 (1 + 1/2000000)).1).obj 0).qty < 0 :=
  ⟨run (fun _ => true) 0 init [.newComp [(1, 1)], .create 1 0], _, some 1,
    Prod.ext rfl (by decide +kernel), by decide +kernel⟩

/-- Absorbing itself destroys a material. -/
theorem C08_fails_self : ∃ s : St, total (absorb (fun _ => true) s 0 0).1 ≠ total s :=
  ⟨run (fun _ => true) 0 init [.newComp [(1, 1)], .create 5 0], by
    have h1 : (absorb (fun _ => true) (run (fun _ => true) 0 init [.newComp [(1, 1)], .create 5 0])
      0 0).1.n = 1 := by decide +kernel
    have h2 : ((absorb (fun _ => true) (run (fun _ => true) 0 init [.newComp [(1, 1)], .create 5 0])
      0 0).1.obj 0).qty = 0 := by decide +kernel
    have h3 : (run (fun _ => true) 0 init [.newComp [(1, 1)], .create 5 0]).n = 1 := by
      decide +kernel
    have h4 : ((run (fun _ => true) 0 init [.newComp [(1, 1)], .create 5 0]).obj 0).qty = 5 := by
      decide +kernel
    simp only [total, h1, h3, Finset.sum_range_one, h2, h4]
    norm_num⟩

/-! ## C09 -/

/-- Calls covered by C09: non-negative quantities, no more than is held for packages, no material
made of or extracted with an empty composition, threshold 0. -/
def Fair (s : St) : Op → Prop
  | .newComp _ => True
  | .create q c => 0 ≤ q ∧ (q = 0 ∨ massSum (s.comp c) ≠ 0)
  | .extractComp _ q c t => 0 ≤ q ∧ (q = 0 ∨ massSum (s.comp c) ≠ 0) ∧ t = 0
  | .extractQty _ q => 0 ≤ q
  | .packageExtract i q => 0 ≤ q ∧ q ≤ (s.obj i).qty
  | .absorb _ _ => True

/-- A program all of whose calls are covered by C09. -/
def FairProgram (isnuc : ℕ → Bool) (eps : ℚ) : St → List Op → Prop
  | _, [] => True
  | s, op :: ops => Fair s op ∧ FairProgram isnuc eps (step isnuc eps s op).1 ops

instance (s : St) (op : Op) : Decidable (Fair s op) := by
  cases op <;> unfold Fair <;> infer_instance

instance decFairProgram (isnuc : ℕ → Bool) (eps : ℚ) :
    ∀ s ops, Decidable (FairProgram isnuc eps s ops)
  | _, [] => by unfold FairProgram; infer_instance
  | s, op :: ops => by
    unfold FairProgram
    have := decFairProgram isnuc eps (step isnuc eps s op).1 ops
    infer_instance

/-- Invariant: compositions are non-negative maps; quantities are non-negative; material that is not
empty has a composition that is not empty. -/
structure Inv (s : St) : Prop where
  pos : ∀ c, c < s.nc → allPositive (s.comp c) = true
  keys : ∀ c, c < s.nc → Keys (s.comp c)
  bound : ∀ i, i < s.n → (s.obj i).comp < s.nc
  nn : ∀ i, i < s.n → 0 ≤ (s.obj i).qty
  full : ∀ i, i < s.n → (s.obj i).qty = 0 ∨ sum (s.comp (s.obj i).comp) ≠ 0

theorem massSum_eq (v : CompMap) : massSum v = sum v := (sum_eq v).symm

theorem nucAmount_zero (v : CompMap) (nuc : ℕ) : nucAmount 0 v nuc = 0 := by
  unfold nucAmount; split <;> simp

theorem nucAmount_eq_get {q : ℚ} {v : CompMap} (hp : allPositive v = true) (h : sum v = q)
    (nuc : ℕ) : nucAmount q v nuc = get v nuc := by
  unfold nucAmount
  rw [massSum_eq]
  split
  · rename_i h0
    exact (get_zero_of_blank hp h0 nuc).symm
  · rename_i h0
    rw [h] at h0 ⊢
    field_simp

/-- Normalising to the quantity gives the nuclide amounts. -/
theorem get_normalize_amount {q : ℚ} {v : CompMap} (hp : allPositive v = true) (nuc : ℕ) : get (normalize v q) nuc = nucAmount q v nuc := by
  by_cases hs : sum v = 0
  · rw [normalize_blank hs, get_zero_of_blank hp hs]
    unfold nucAmount
    rw [massSum_eq, if_pos hs]
  · rw [get_normalize hs, nucAmount, massSum_eq, if_neg hs]
    ring

theorem sum_normalize_amount {q : ℚ} {v : CompMap} (h : q = 0 ∨ sum v ≠ 0) :
    sum (normalize v q) = q := by
  by_cases hs : sum v = 0
  · rw [normalize_blank hs, hs]
    rcases h with h | h
    · exact h.symm
    · exact absurd hs h
  · exact sum_normalize hs

theorem inv_init : Inv init :=
  ⟨fun _ h => absurd h (Nat.not_lt_zero _), fun _ h => absurd h (Nat.not_lt_zero _),
    fun _ h => absurd h (Nat.not_lt_zero _), fun _ h => absurd h (Nat.not_lt_zero _),
    fun _ h => absurd h (Nat.not_lt_zero _)⟩

/-- Splitting within one composition keeps the invariant and the nuclide amounts. -/
theorem split_same {s t : St} (hi : Inv s) {i c : ℕ} {q : ℚ} (hin : i < s.n)
    (hc : (s.obj i).comp = c) (hq0 : 0 ≤ q) (hq : q ≤ (s.obj i).qty)
    (ht : t = alloc (setObj s i ⟨(s.obj i).qty - q, c⟩) ⟨q, c⟩) :
    Inv t ∧ ∀ nuc, nucTotal t nuc = nucTotal s nuc := by
  subst ht
  have hobj : ∀ k, (alloc (setObj s i ⟨(s.obj i).qty - q, c⟩) ⟨q, c⟩).obj k =
      if k = s.n then ⟨q, c⟩ else if k = i then ⟨(s.obj i).qty - q, c⟩ else s.obj k := by
    intro k; rfl
  have hcb : c < s.nc := hc ▸ hi.bound i hin
  constructor
  · refine ⟨hi.pos, hi.keys, ?_, ?_, ?_⟩
    · intro k hk
      rw [hobj]
      split
      · exact hcb
      · split
        · exact hcb
        · exact hi.bound k (by simp [alloc, setObj] at hk; omega)
    · intro k hk
      rw [hobj]
      split
      · exact hq0
      · split
        · simp only; linarith
        · exact hi.nn k (by simp [alloc, setObj] at hk; omega)
    · intro k hk
      rw [hobj]
      have hfull := hi.full i hin
      rw [hc] at hfull
      have hfull' : sum (s.comp c) ≠ 0 ∨ (q = 0 ∧ (s.obj i).qty = 0) := by
        rcases hfull with h | h
        · right; exact ⟨by linarith, h⟩
        · exact Or.inl h
      split
      · rcases hfull' with h | h
        · exact Or.inr h
        · exact Or.inl h.1
      · split
        · rcases hfull' with h | h
          · exact Or.inr h
          · left; simp only; linarith [h.1, h.2]
        · exact hi.full k (by simp [alloc, setObj] at hk; omega)
  · intro nuc
    refine (split_sum (f := fun m => nucAmount m.qty (s.comp m.comp) nuc) (s := s) (i := i)
      (a := ⟨(s.obj i).qty - q, c⟩) (b := ⟨q, c⟩) hin rfl hobj).trans ?_
    unfold nucTotal
    simp only [hc]
    unfold nucAmount
    split <;> ring

theorem nucTotal_newComp {s : St} (hi : Inv s) (w : CompMap) (nuc : ℕ) :
    (∑ k ∈ Finset.range s.n, nucAmount (s.obj k).qty
      ((fun c => if c = s.nc then w else s.comp c) (s.obj k).comp) nuc) = nucTotal s nuc := by
  unfold nucTotal
  refine sum_congr_range (fun k hk => ?_)
  have := hi.bound k hk
  simp [show (s.obj k).comp ≠ s.nc by omega]

/-- `ExtractComp` keeps the invariant and the nuclide amounts. -/
theorem extractComp_nuc {isnuc : ℕ → Bool} {s : St} (hi : Inv s) {i c : ℕ} {q : ℚ} (hin : i < s.n)
    (hc : c < s.nc) (hq0 : 0 ≤ q) (hqc : q = 0 ∨ sum (s.comp c) ≠ 0) :
    Inv (extractComp isnuc s i q c 0).1 ∧
      ∀ nuc, nucTotal (extractComp isnuc s i q c 0).1 nuc = nucTotal s nuc := by
  rcases extractComp_spec isnuc s i q c 0 with ⟨e, h⟩ | ⟨h1, h2, h⟩ | ⟨h1, h2, hp, -, h⟩
  · rw [h]; exact ⟨hi, fun _ => rfl⟩
  · rw [h]
    exact split_same hi hin h2 hq0 (not_lt.1 h1) rfl
  · rw [h]
    have hle : q ≤ (s.obj i).qty := not_lt.1 h1
    have hib := hi.bound i hin
    -- the remainder's composition
    have hkw : Keys (normalize (s.comp c) q) := keys_normalize (hi.keys c hc) q
    have hkv : Keys (normalize (s.comp (s.obj i).comp) (s.obj i).qty) :=
      keys_normalize (hi.keys _ hib) _
    have hks := keys_sub (normalize (s.comp c) q) hkv
    have hget : ∀ nuc, get (restComp s i q c 0) nuc =
        nucAmount (s.obj i).qty (s.comp (s.obj i).comp) nuc - nucAmount q (s.comp c) nuc := by
      intro nuc
      unfold restComp
      rw [(filter_zero _).1 nuc hks, get_sub hkw, get_normalize_amount (hi.pos _ hib),
        get_normalize_amount (hi.pos c hc)]
    have hsum : sum (restComp s i q c 0) = (s.obj i).qty - q := by
      unfold restComp
      rw [(filter_zero _).2, sum_sub, sum_normalize_amount (hi.full i hin),
        sum_normalize_amount hqc]
    have hkr : Keys (restComp s i q c 0) := keys_filter hks _
    set t := alloc (setObj { s with
      comp := fun k => if k = s.nc then restComp s i q c 0 else s.comp k,
      nc := s.nc + 1 } i ⟨(s.obj i).qty - q, s.nc⟩) ⟨q, c⟩ with ht
    have hobj : ∀ k, t.obj k =
        if k = s.n then ⟨q, c⟩ else if k = i then ⟨(s.obj i).qty - q, s.nc⟩ else s.obj k := by
      intro k; simp [ht, alloc, setObj]
    have hcomp : ∀ k, t.comp k = if k = s.nc then restComp s i q c 0 else s.comp k := by
      intro k; simp [ht, alloc, setObj]
    have htn : t.n = s.n + 1 := by simp [ht, alloc, setObj]
    have htc : t.nc = s.nc + 1 := by simp [ht, alloc, setObj]
    clear_value t
    simp only
    constructor
    · refine ⟨?_, ?_, ?_, ?_, ?_⟩
      · intro k hk
        rw [hcomp]
        split
        · exact hp
        · exact hi.pos k (by omega)
      · intro k hk
        rw [hcomp]
        split
        · exact hkr
        · exact hi.keys k (by omega)
      · intro k hk
        rw [hobj, htc]
        split
        · simp only; omega
        · split
          · simp only; omega
          · have := hi.bound k (by omega); omega
      · intro k hk
        rw [hobj]
        split
        · exact hq0
        · split
          · simp only; linarith
          · exact hi.nn k (by omega)
      · intro k hk
        rw [hobj]
        split
        · rw [hcomp]
          simp only
          rw [if_neg (by omega)]
          exact hqc
        · split
          · rw [hcomp]
            simp only
            rw [if_true, hsum]
            exact eq_or_ne _ _
          · rename_i hk1 hk2
            have hkn : k < s.n := by omega
            have := hi.bound k hkn
            rw [hcomp, if_neg (by omega)]
            exact hi.full k hkn
    · intro nuc
      unfold nucTotal
      rw [split_sum (f := fun m => nucAmount m.qty (t.comp m.comp) nuc) (s := s) (i := i)
        (a := ⟨(s.obj i).qty - q, s.nc⟩) (b := ⟨q, c⟩) hin htn hobj]
      have h0 : (∑ k ∈ Finset.range s.n, nucAmount (s.obj k).qty (t.comp (s.obj k).comp) nuc)
          = nucTotal s nuc := by
        rw [← nucTotal_newComp hi (restComp s i q c 0) nuc]
        refine sum_congr_range (fun k _ => ?_)
        rw [hcomp]
      rw [h0]
      simp only [hcomp, if_neg (show (s.obj i).comp ≠ s.nc by omega),
        if_neg (show c ≠ s.nc by omega), if_true]
      rw [nucAmount_eq_get hp hsum, hget]
      unfold nucTotal
      ring

/-- `Absorb` keeps the invariant and the nuclide amounts. -/
theorem absorb_nuc {isnuc : ℕ → Bool} {s : St} (hi : Inv s) {i j : ℕ} (hin : i < s.n)
    (hjn : j < s.n) (hij : i ≠ j) :
    Inv (absorb isnuc s i j).1 ∧ ∀ nuc, nucTotal (absorb isnuc s i j).1 nuc = nucTotal s nuc := by
  have hib := hi.bound i hin
  have hjb := hi.bound j hjn
  have hiq := hi.nn i hin
  have hjq := hi.nn j hjn
  rcases absorb_spec isnuc s i j hij with ⟨e, h⟩ | ⟨h1, h⟩ | ⟨h1, hp, h⟩
  · rw [h]; exact ⟨hi, fun _ => rfl⟩
  · rw [h]
    constructor
    · refine ⟨hi.pos, hi.keys, ?_, ?_, ?_⟩
      · intro k hk
        simp only [mixed]
        split
        · exact hjb
        · split
          · exact hib
          · exact hi.bound k hk
      · intro k hk
        simp only [mixed]
        split
        · exact le_rfl
        · split
          · simp only; linarith
          · exact hi.nn k hk
      · intro k hk
        simp only [mixed]
        split
        · exact Or.inl rfl
        · split
          · have h2 := hi.full i hin
            have h3 := hi.full j hjn
            rw [← h1] at h3
            rcases h2 with h2 | h2
            · rcases h3 with h3 | h3
              · left; simp only; linarith
              · exact Or.inr h3
            · exact Or.inr h2
          · exact hi.full k hk
    · intro nuc
      refine (mixed_sum (s := s)
        (f := fun k => nucAmount (s.obj k).qty (s.comp (s.obj k).comp) nuc)
        hin hjn hij rfl ?_).trans ?_
      · intro k _ hki hkj
        simp [mixed, hki, hkj]
      · unfold nucTotal
        simp only [mixed, if_neg hij, if_true, nucAmount_zero, ← h1]
        have h5 : nucAmount ((s.obj i).qty + (s.obj j).qty) (s.comp (s.obj i).comp) nuc
            = nucAmount (s.obj i).qty (s.comp (s.obj i).comp) nuc
              + nucAmount (s.obj j).qty (s.comp (s.obj i).comp) nuc := by
          unfold nucAmount
          split <;> ring
        rw [h5]; ring
  · rw [h]
    have hkj : Keys (normalize (s.comp (s.obj j).comp) (s.obj j).qty) :=
      keys_normalize (hi.keys _ hjb) _
    have hki : Keys (normalize (s.comp (s.obj i).comp) (s.obj i).qty) :=
      keys_normalize (hi.keys _ hib) _
    have hkm : Keys (mixComp s i j) := keys_add _ hki
    have hsum : sum (mixComp s i j) = (s.obj i).qty + (s.obj j).qty := by
      unfold mixComp
      rw [sum_add, sum_normalize_amount (hi.full i hin), sum_normalize_amount (hi.full j hjn)]
    have hget : ∀ nuc, get (mixComp s i j) nuc =
        nucAmount (s.obj i).qty (s.comp (s.obj i).comp) nuc
          + nucAmount (s.obj j).qty (s.comp (s.obj j).comp) nuc := by
      intro nuc
      unfold mixComp
      rw [get_add hkj, get_normalize_amount (hi.pos _ hib),
        get_normalize_amount (hi.pos _ hjb)]
    constructor
    · refine ⟨?_, ?_, ?_, ?_, ?_⟩
      · intro k hk
        simp only at hk ⊢
        split
        · exact hp
        · exact hi.pos k (by omega)
      · intro k hk
        simp only at hk ⊢
        split
        · exact hkm
        · exact hi.keys k (by omega)
      · intro k hk
        simp only [mixed] at hk ⊢
        split
        · simp only; omega
        · split
          · simp only; omega
          · have := hi.bound k hk; omega
      · intro k hk
        simp only [mixed] at hk ⊢
        split
        · exact le_rfl
        · split
          · simp only; linarith
          · exact hi.nn k hk
      · intro k hk
        simp only [mixed] at hk ⊢
        split
        · exact Or.inl rfl
        · split
          · simp only [if_true, hsum]
            exact eq_or_ne _ _
          · have := hi.bound k hk
            rw [if_neg (by omega)]
            exact hi.full k hk
    · intro nuc
      refine (mixed_sum (s := s)
        (f := fun k => nucAmount (s.obj k).qty (s.comp (s.obj k).comp) nuc)
        hin hjn hij rfl ?_).trans ?_
      · intro k hk hki' hkj'
        have := hi.bound k hk
        simp [mixed, hki', hkj', show (s.obj k).comp ≠ s.nc by omega]
      · unfold nucTotal
        simp only [mixed, if_neg hij, if_true, nucAmount_zero]
        rw [nucAmount_eq_get hp hsum, hget]
        ring

theorem step_nuc {isnuc : ℕ → Bool} {eps : ℚ} {s : St} (hi : Inv s) {op : Op}
    (hv : ValidArgs s op) (hf : Fair s op) :
    Inv (step isnuc eps s op).1 ∧
      ∀ nuc, nucTotal (step isnuc eps s op).1 nuc = nucTotal s nuc + nucAdded s nuc op := by
  cases op with
  | newComp v =>
    simp only [step, nucAdded, add_zero]
    rcases newComp_spec isnuc s v with ⟨e, h⟩ | ⟨hp, h⟩
    · rw [h]; exact ⟨hi, fun _ => rfl⟩
    · rw [h]
      refine ⟨⟨?_, ?_, ?_, hi.nn, ?_⟩, fun nuc => nucTotal_newComp hi v nuc⟩
      · intro k hk
        simp only at hk ⊢
        split
        · exact hp
        · exact hi.pos k (by omega)
      · intro k hk
        simp only at hk ⊢
        split
        · exact hv
        · exact hi.keys k (by omega)
      · intro k hk
        have := hi.bound k hk
        simp only; omega
      · intro k hk
        have := hi.bound k hk
        simp only
        rw [if_neg (by omega)]
        exact hi.full k hk
  | create q c =>
    simp only [step, nucAdded]
    refine ⟨⟨hi.pos, hi.keys, ?_, ?_, ?_⟩, fun nuc => ?_⟩
    · intro k hk
      simp only [alloc] at hk ⊢
      split
      · exact hv
      · exact hi.bound k (by omega)
    · intro k hk
      simp only [alloc] at hk ⊢
      split
      · exact hf.1
      · exact hi.nn k (by omega)
    · intro k hk
      simp only [alloc] at hk ⊢
      split
      · have := hf.2
        rwa [massSum_eq] at this
      · exact hi.full k (by omega)
    · exact create_sum (f := fun _ m => nucAmount m.qty (s.comp m.comp) nuc)
  | extractComp i q c t =>
    obtain ⟨h0, h1, rfl⟩ := hf
    rw [massSum_eq] at h1
    simpa only [step, nucAdded, add_zero] using extractComp_nuc hi hv.1 hv.2 h0 h1
  | extractQty i q =>
    simp only [step, nucAdded, add_zero, extractQty]
    rcases extractComp_spec isnuc s i q (s.obj i).comp eps with ⟨e, h⟩ | ⟨h1, h2, h⟩ | ⟨h1, h2, -⟩
    · rw [h]; exact ⟨hi, fun _ => rfl⟩
    · rw [h]; exact split_same hi hv rfl hf (not_lt.1 h1) rfl
    · exact absurd rfl h2
  | packageExtract i q =>
    simp only [step, nucAdded, add_zero, packageExtract]
    split
    · exact ⟨hi, fun _ => rfl⟩
    · exact split_same hi hv rfl hf.1 hf.2 rfl
  | absorb i j =>
    simpa only [step, nucAdded, add_zero] using absorb_nuc hi hv.1 hv.2.1 hv.2.2

/-- Specification: mass of a nuclide created over a whole program. -/
def nucCreated (isnuc : ℕ → Bool) (eps : ℚ) (nuc : ℕ) : St → List Op → ℚ
  | _, [] => 0
  | s, op :: ops => nucAdded s nuc op + nucCreated isnuc eps nuc (step isnuc eps s op).1 ops

/-- C09 in full, for every valid program. -/
def C09 : Prop := ∀ isnuc eps ops nuc, Program isnuc eps init ops →
  nucTotal (run isnuc eps init ops) nuc = nucCreated isnuc eps nuc init ops

/-- **C09 (partial).**  Over every program the total mass of every nuclide is exactly what was created:
extractions (of any composition), absorptions and failing calls conserve each nuclide.  Missing:
negative quantities, materials with an empty composition (`C09_fails_blank`) and extractions with a
threshold, which drop nuclides (`C09_fails_threshold`). -/
theorem C09_nuclides_conserved_partial (isnuc : ℕ → Bool) (eps : ℚ) (ops : List Op) (nuc : ℕ)
    (hp : Program isnuc eps init ops) (hf : FairProgram isnuc eps init ops) :
    nucTotal (run isnuc eps init ops) nuc = nucCreated isnuc eps nuc init ops := by
  have key : ∀ (ops : List Op) (s : St), Inv s → Program isnuc eps s ops →
      FairProgram isnuc eps s ops →
      nucTotal (run isnuc eps s ops) nuc = nucTotal s nuc + nucCreated isnuc eps nuc s ops := by
    intro ops
    induction ops with
    | nil => intro s _ _ _; simp [run, nucCreated]
    | cons op ops ih =>
      intro s hi hp hf
      obtain ⟨h1, h2⟩ := step_nuc (isnuc := isnuc) (eps := eps) hi hp.1 hf.1
      have h3 := ih _ h1 hp.2 hf.2
      simp only [run, List.foldl_cons, nucCreated] at h3 ⊢
      rw [h3, h2]; ring
  rw [key ops init inv_init hp hf]
  simp [nucTotal, init]

example : Program (fun _ => true) (1/1000000) init demo ∧
    FairProgram (fun _ => true) (1/1000000) init demo := by decide +kernel

/-- The per-nuclide total of `demo` is not trivial: 2 + 1 of uranium 235. -/
example : nucCreated (fun _ => true) (1/1000000) 922350000 init demo = 3 := by decide +kernel

/-- C09 fails when a blank composition is extracted: the remainder keeps its composition but not its
quantity. -/
theorem C09_fails_blank : ¬ C09 := by
  intro h
  have := h (fun _ => true) (1/1000000)
    [.newComp [(1, 1)], .newComp [], .create 2 0, .extractComp 0 1 1 0] 1 (by decide +kernel)
  revert this
  unfold nucTotal
  have hn : (run (fun _ => true) (1/1000000) init
    [.newComp [(1, 1)], .newComp [], .create 2 0, .extractComp 0 1 1 0]).n = 2 := by decide +kernel
  rw [hn, Finset.sum_range_succ, Finset.sum_range_one]
  decide +kernel

/-- C09 fails with a threshold (the default of `ExtractComp` is `eps_rsrc()`): the remainder of
`2/1000000` units loses all its nuclides although it keeps its quantity. -/
theorem C09_fails_threshold : ∃ ops nuc, Program (fun _ => true) (1/1000000) init ops ∧
    (run (fun _ => true) (1/1000000) init ops).n = 2 ∧
    ((run (fun _ => true) (1/1000000) init ops).obj 0).qty = 2/1000000 ∧
    nucTotal (run (fun _ => true) (1/1000000) init ops) nuc
      ≠ nucCreated (fun _ => true) (1/1000000) nuc init ops := by
  refine ⟨[.newComp [(1, 1), (2, 1)], .newComp [(1, 1), (2, 1)], .create 2 0,
    .extractComp 0 (2 - 2/1000000) 1 (1/1000000)], 1, by decide +kernel, by decide +kernel,
    by decide +kernel, ?_⟩
  unfold nucTotal
  have hn : (run (fun _ => true) (1/1000000) init [.newComp [(1, 1), (2, 1)],
    .newComp [(1, 1), (2, 1)], .create 2 0, .extractComp 0 (2 - 2/1000000) 1 (1/1000000)]).n = 2 := by
    decide +kernel
  rw [hn, Finset.sum_range_succ, Finset.sum_range_one]
  decide +kernel

end Cyclus.Material

namespace Cyclus.ChangePackage

/-- Specification: the package accepts the quantity. -/
def Accepts (table : ℕ → Option (ℚ × ℚ)) (name : ℕ) (qty : ℚ) : Prop :=
  name = 0 ∨ ∃ lo hi, table name = some (lo, hi) ∧ lo ≤ qty ∧ qty ≤ hi

/-- C11 in full, for one class: a call that changes the package succeeds exactly for packages that
accept the quantity; otherwise it throws and the package stays. -/
def C11 (k : Kind) : Prop := ∀ table dmax qty cur name, name ≠ cur →
  (Accepts table name qty → changePackage k (some table) dmax qty cur name = (name, .ok ())) ∧
  (¬ Accepts table name qty → ∃ e, changePackage k (some table) dmax qty cur name = (cur, .error e))

/-- **C11 (Products).** -/
theorem C11_product : C11 .product := by
  intro table dmax qty cur name hne
  constructor
  · rintro (h | ⟨lo, hi, h1, h2, h3⟩)
    · subst h
      simp [changePackage, hne]
    · by_cases h0 : name = 0
      · subst h0; simp [changePackage, hne]
      · simp [changePackage, hne, h0, getPackage, h1, h2, h3]
  · intro hna
    have h0 : name ≠ 0 := fun h => hna (Or.inl h)
    unfold changePackage
    simp only [if_neg hne, if_neg h0, getPackage]
    cases ht : table name with
    | none => exact ⟨_, rfl⟩
    | some l =>
      obtain ⟨lo, hi⟩ := l
      simp only
      split
      · rename_i h
        exact absurd (Or.inr ⟨lo, hi, ht, h.1, h.2⟩) hna
      · exact ⟨_, rfl⟩

example : Accepts (fun n => if n = 1 then some (1, 2) else none) 1 (3/2) :=
  Or.inr ⟨1, 2, by simp, by norm_num, by norm_num⟩

/-- **C11 (Materials, partial).**  What holds for Materials: changing to "unpackaged" always succeeds;
for any other name success depends on the limits of the *current* package, and a failing call leaves
the package unchanged.  Missing: the check against the requested package, which the code does not
make (`C11_fails_material`). -/
theorem C11_material_partial (table : ℕ → Option (ℚ × ℚ)) (dmax qty : ℚ) (cur name : ℕ) :
    (name = 0 → changePackage .material (some table) dmax qty cur name = (0, .ok ())) ∧
    (∀ s e, changePackage .material (some table) dmax qty cur name = (s, .error e) → s = cur) ∧
    (name ≠ 0 → cur ≠ 0 →
      (changePackage .material (some table) dmax qty cur name = (name, .ok ()) ↔
        Accepts table cur qty)) := by
  refine ⟨fun h => by simp [changePackage, h], ?_, ?_⟩
  · intro s e h
    unfold changePackage at h
    simp only at h
    split at h
    · simp at h
    · split at h
      · simp at h; exact h.1.symm
      · split at h
        · simp at h
        · simp at h; exact h.1.symm
  · intro h0 hc
    unfold changePackage Accepts
    simp only [if_neg h0, getPackage, if_neg hc]
    cases ht : table cur with
    | none => simp [hc]
    | some l =>
      obtain ⟨lo, hi⟩ := l
      simp only [Option.some.injEq, Prod.mk.injEq]
      constructor
      · intro h
        split at h
        · rename_i hh
          exact Or.inr ⟨lo, hi, ⟨rfl, rfl⟩, hh.1, hh.2⟩
        · simp at h
      · rintro (h | ⟨lo', hi', ⟨rfl, rfl⟩, h1, h2⟩)
        · exact absurd h hc
        · rw [if_pos ⟨h1, h2⟩]

/-- C11 fails for Materials: an unpackaged material of quantity 100 is moved into a package that
takes at most 2, even one that does not exist. -/
theorem C11_fails_material : ¬ C11 .material := by
  intro h
  obtain ⟨e, he⟩ := (h (fun n => if n = 1 then some (1, 2) else none) 1000 100 0 1 (by decide)).2
    (by
      rintro (h | ⟨lo, hi, h1, h2, h3⟩)
      · cases h
      · simp at h1
        obtain ⟨rfl, rfl⟩ := h1
        norm_num at h3)
  revert he
  have : changePackage .material (some fun n => if n = 1 then some (1, 2) else none) 1000 100 0 1
      = (1, .ok ()) := by decide +kernel
  rw [this]
  simp

end Cyclus.ChangePackage
