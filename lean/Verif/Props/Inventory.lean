import Verif.Model.Inventory
import Verif.Props.Resource
import Mathlib.Tactic.IntervalCases

/-!
# Property C79: tables of explicit inventories
-/

namespace Cyclus.Inventory

open Cyclus.CompMath Cyclus.Material

/-! ### Specification -/

/-- The materials of an inventory. -/
def mats : List Res → List ℕ
  | [] => []
  | .mat i :: rs => i :: mats rs
  | .other :: rs => mats rs

/-- Mass of a nuclide in a list of materials. -/
def massOf (s : St) (l : List ℕ) (nuc : ℕ) : ℚ :=
  (l.map fun i => nucAmount (s.obj i).qty (s.comp (s.obj i).comp) nuc).sum

/-- Quantity of a list of materials. -/
def qtyOf (s : St) (l : List ℕ) : ℚ := (l.map fun i => (s.obj i).qty).sum

/-- Materials that exist, without negative quantities, whose compositions are valid and say what
they consist of unless there is none of them. -/
structure Good (isnuc : ℕ → Bool) (s : St) : Prop extends Material.Inv s where
  valid : ∀ c, c < s.nc → validNucs isnuc (s.comp c) = true

/-- The rows of ExplicitInventory for one inventory: one for each nuclide, with the mass of the
nuclide in the inventory, together the quantity of the inventory. -/
structure IsRows (s : St) (cf : Conf) (a name : ℕ) (rs : List Res) (b : List Row) : Prop where
  mine : ∀ r ∈ b, r.agent = a ∧ r.time = cf.time ∧ r.name = name
  distinct : (b.map Row.nuc).Nodup
  mass : ∀ r ∈ b, r.qty = massOf s (mats rs) r.nuc
  missing : ∀ nuc, nuc ∉ b.map Row.nuc → massOf s (mats rs) nuc = 0
  total : (b.map Row.qty).sum = qtyOf s (mats rs)

/-- The rows of ExplicitInventoryCompact for one inventory: one row, with the quantity and the
mass fractions. -/
def IsCompact (s : St) (cf : Conf) (a name : ℕ) (rs : List Res) (b : List Compact) : Prop :=
  ∃ c, b = [⟨a, cf.time, name, qtyOf s (mats rs), c⟩] ∧ (c.map Prod.fst).Nodup ∧
    (∀ nuc, get c nuc * qtyOf s (mats rs) = massOf s (mats rs) nuc) ∧
    (0 < qtyOf s (mats rs) → (c.map Prod.snd).sum = 1)

/-- An inventory of existing materials, not empty. -/
def Materials (s : St) (rs : List Res) : Prop :=
  rs ≠ [] ∧ (∀ r ∈ rs, r ≠ .other) ∧ ∀ i ∈ mats rs, i < s.n

/-- The inventories that are to be written: those of agents in the simulation, in order. -/
def jobs (as : List Ag) : List (ℕ × ℕ × List Res) :=
  (as.filter fun a => a.enter.isSome).flatMap fun a => a.invs.map fun x => (a.id, x.1, x.2)

/-! ### Proofs -/

theorem nonneg_addTo {v : CompMap} {n : ℕ} {q : ℚ} (hv : ∀ e ∈ v, 0 ≤ e.2) (hq : 0 ≤ q) :
    ∀ e ∈ addTo v n q, 0 ≤ e.2 := by
  induction v with
  | nil => simp [addTo, hq]
  | cons x v ih =>
    obtain ⟨k, y⟩ := x
    have hy : 0 ≤ y := hv (k, y) (by simp)
    have hv' : ∀ e ∈ v, 0 ≤ e.2 := fun e he => hv e (by simp [he])
    unfold addTo
    split
    · intro e he
      rcases List.mem_cons.1 he with rfl | he
      · simp only; linarith
      · exact hv' e he
    · intro e he
      rcases List.mem_cons.1 he with rfl | he
      · exact hy
      · exact ih hv' e he

theorem valid_addTo {isnuc : ℕ → Bool} {v : CompMap} {n : ℕ} {q : ℚ}
    (hv : ∀ e ∈ v, isnuc e.1 = true) (hq : isnuc n = true) :
    ∀ e ∈ addTo v n q, isnuc e.1 = true := by
  induction v with
  | nil => simp [addTo, hq]
  | cons x v ih =>
    obtain ⟨k, y⟩ := x
    have hy : isnuc k = true := hv (k, y) (by simp)
    have hv' : ∀ e ∈ v, isnuc e.1 = true := fun e he => hv e (by simp [he])
    unfold addTo
    split
    · intro e he
      rcases List.mem_cons.1 he with rfl | he
      · exact hy
      · exact hv' e he
    · intro e he
      rcases List.mem_cons.1 he with rfl | he
      · exact hy
      · exact ih hv' e he

theorem nonneg_add {v w : CompMap} (hv : ∀ e ∈ v, 0 ≤ e.2) (hw : ∀ e ∈ w, 0 ≤ e.2) :
    ∀ e ∈ add v w, 0 ≤ e.2 := by
  unfold add
  induction w generalizing v with
  | nil => exact hv
  | cons x w ih =>
    rw [List.foldl_cons]
    exact ih (nonneg_addTo hv (hw x (by simp))) fun e he => hw e (by simp [he])

theorem valid_add {isnuc : ℕ → Bool} {v w : CompMap} (hv : ∀ e ∈ v, isnuc e.1 = true)
    (hw : ∀ e ∈ w, isnuc e.1 = true) : ∀ e ∈ add v w, isnuc e.1 = true := by
  unfold add
  induction w generalizing v with
  | nil => exact hv
  | cons x w ih =>
    rw [List.foldl_cons]
    exact ih (valid_addTo hv (hw x (by simp))) fun e he => hw e (by simp [he])

theorem nonneg_normalize {v : CompMap} {q : ℚ} (hv : ∀ e ∈ v, 0 ≤ e.2) (hq : 0 ≤ q) :
    ∀ e ∈ normalize v q, 0 ≤ e.2 := by
  unfold normalize
  split
  · intro e he
    obtain ⟨x, hx, rfl⟩ := List.mem_map.1 he
    have hs : 0 ≤ sum v := by
      rw [sum_eq]
      refine List.sum_nonneg fun y hy => ?_
      obtain ⟨z, hz, rfl⟩ := List.mem_map.1 hy
      exact hv z hz
    exact mul_nonneg (hv x hx) (div_nonneg hq hs)
  · exact hv

theorem valid_normalize {isnuc : ℕ → Bool} {v : CompMap} {q : ℚ}
    (hv : ∀ e ∈ v, isnuc e.1 = true) : ∀ e ∈ normalize v q, isnuc e.1 = true := by
  unfold normalize
  split
  · intro e he
    obtain ⟨x, hx, rfl⟩ := List.mem_map.1 he
    exact hv x hx
  · exact hv

/-- Combining never fails, and what it gives. -/
theorem absorb_good {isnuc : ℕ → Bool} {s : St} (hg : Good isnuc s) {i j : ℕ} (hi : i < s.n)
    (hj : j < s.n) (hij : i ≠ j) :
    ∃ t, absorb isnuc s i j = (t, .ok none) ∧ Good isnuc t ∧ t.n = s.n ∧ s.nc ≤ t.nc ∧
      (∀ k, k ≠ i → k ≠ j → t.obj k = s.obj k) ∧ (∀ c, c < s.nc → t.comp c = s.comp c) ∧
      (t.obj i).qty = (s.obj i).qty + (s.obj j).qty ∧
      ∀ nuc, nucAmount (t.obj i).qty (t.comp (t.obj i).comp) nuc =
        nucAmount (s.obj i).qty (s.comp (s.obj i).comp) nuc +
        nucAmount (s.obj j).qty (s.comp (s.obj j).comp) nuc := by
  have hib := hg.bound i hi
  have hjb := hg.bound j hj
  have nn : ∀ k, k < s.n → ∀ e ∈ normalize (s.comp (s.obj k).comp) (s.obj k).qty, 0 ≤ e.2 :=
    fun k hk => nonneg_normalize (allPositive_iff.1 (hg.pos _ (hg.bound k hk))) (hg.nn k hk)
  have vv : ∀ k, k < s.n →
      ∀ e ∈ normalize (s.comp (s.obj k).comp) (s.obj k).qty, isnuc e.1 = true := by
    intro k hk
    have := hg.valid _ (hg.bound k hk)
    simp only [validNucs, List.all_eq_true] at this
    exact valid_normalize this
  have hpos : allPositive (mixComp s i j) = true :=
    allPositive_iff.2 (nonneg_add (nn i hi) (nn j hj))
  have hval : validNucs isnuc (mixComp s i j) = true := by
    simp only [validNucs, List.all_eq_true]
    exact valid_add (vv i hi) (vv j hj)
  have hinv := (absorb_nuc (isnuc := isnuc) hg.toInv hi hj hij).1
  by_cases hc : (s.obj i).comp = (s.obj j).comp
  · have e : absorb isnuc s i j = (mixed s i j (s.obj i).comp, .ok none) := by
      rcases absorb_spec isnuc s i j hij with ⟨er, h⟩ | ⟨h1, h⟩ | ⟨h1, hp, h⟩
      · exfalso
        unfold absorb at h
        simp only [hc, ne_eq, not_true_eq_false, if_false, Prod.mk.injEq] at h
        exact absurd h.2 (by simp)
      · exact h
      · exact absurd hc h1
    rw [e] at hinv
    refine ⟨_, e, ⟨hinv, hg.valid⟩, rfl, le_refl _, ?_, fun _ _ => rfl, ?_, ?_⟩
    · intro k hki hkj
      simp [mixed, hki, hkj]
    · simp [mixed, hij]
    · intro nuc
      have h1 : (mixed s i j (s.obj i).comp).obj i
          = ⟨(s.obj i).qty + (s.obj j).qty, (s.obj i).comp⟩ := by simp [mixed, hij]
      rw [h1, ← hc]
      simp only [mixed, nucAmount]
      by_cases hz : massSum (s.comp (s.obj i).comp) = 0
      · simp [hz]
      · simp only [hz, if_false]
        ring
  · have e : absorb isnuc s i j = ({ mixed s i j s.nc with
        comp := fun k => if k = s.nc then mixComp s i j else s.comp k, nc := s.nc + 1 },
        .ok none) := by
      rcases absorb_spec isnuc s i j hij with ⟨er, h⟩ | ⟨h1, h⟩ | ⟨h1, hp, h⟩
      · exfalso
        have hn : newComp isnuc s (mixComp s i j) = .ok ({ s with
            comp := fun k => if k = s.nc then mixComp s i j else s.comp k, nc := s.nc + 1 },
            s.nc) := by
          simp [newComp, createFrom, hval, hpos]
        unfold absorb at h
        simp only [ne_eq, hc, not_false_eq_true, if_true] at h
        unfold mixComp at hn
        rw [hn] at h
        exact absurd (congrArg Prod.snd h) (by simp)
      · exact absurd h1 hc
      · exact h
    rw [e] at hinv
    refine ⟨_, e, ⟨hinv, ?_⟩, rfl, by simp, ?_, ?_, ?_, ?_⟩
    · intro c hcn
      simp only
      split
      · exact hval
      · exact hg.valid c (by simp only at hcn; omega)
    · intro k hki hkj
      simp [mixed, hki, hkj]
    · intro c hcn
      simp only
      rw [if_neg (by omega)]
    · simp [mixed, hij]
    · intro nuc
      have h1 : (mixed s i j s.nc).obj i = ⟨(s.obj i).qty + (s.obj j).qty, s.nc⟩ := by
        simp [mixed, hij]
      simp only [h1, if_true]
      have hsum : sum (mixComp s i j) = (s.obj i).qty + (s.obj j).qty := by
        unfold mixComp
        rw [sum_add, sum_normalize_amount (hg.full i hi), sum_normalize_amount (hg.full j hj)]
      rw [nucAmount_eq_get hpos hsum]
      unfold mixComp
      rw [get_add (keys_normalize (hg.keys _ hjb) _),
        get_normalize_amount (hg.pos _ hib), get_normalize_amount (hg.pos _ hjb)]

theorem clone_good {isnuc : ℕ → Bool} {s : St} (hg : Good isnuc s) {i : ℕ} (hi : i < s.n) :
    Good isnuc (clone s i) := by
  have hobj : ∀ k, k < s.n + 1 → ∃ j, j < s.n ∧ (clone s i).obj k = s.obj j := by
    intro k hk
    by_cases h : k = s.n
    · exact ⟨i, hi, by simp [clone, alloc, h]⟩
    · exact ⟨k, by omega, by simp [clone, alloc, h]⟩
  refine ⟨⟨hg.pos, hg.keys, ?_, ?_, ?_⟩, hg.valid⟩
  · intro k hk
    obtain ⟨j, hj, e⟩ := hobj k hk
    rw [e]; exact hg.bound j hj
  · intro k hk
    obtain ⟨j, hj, e⟩ := hobj k hk
    rw [e]; exact hg.nn j hj
  · intro k hk
    obtain ⟨j, hj, e⟩ := hobj k hk
    rw [e]; exact hg.full j hj

/-- Everything that existed in `s` is the same in `t`. -/
def Keeps (s t : St) : Prop :=
  s.n ≤ t.n ∧ s.nc ≤ t.nc ∧ (∀ k, k < s.n → t.obj k = s.obj k) ∧ ∀ c, c < s.nc → t.comp c = s.comp c

theorem Keeps.refl (s : St) : Keeps s s := ⟨le_refl _, le_refl _, fun _ _ => rfl, fun _ _ => rfl⟩

theorem Keeps.trans {s t u : St} (h : Keeps s t) (g : Keeps t u) : Keeps s u :=
  ⟨h.1.trans g.1, h.2.1.trans g.2.1, fun k hk => (g.2.2.1 k (hk.trans_le h.1)).trans (h.2.2.1 k hk),
    fun c hc => (g.2.2.2 c (hc.trans_le h.2.1)).trans (h.2.2.2 c hc)⟩

theorem clone_keeps (s : St) (i : ℕ) : Keeps s (clone s i) := by
  refine ⟨by simp [clone, alloc], le_refl _, fun k hk => ?_, fun _ _ => rfl⟩
  simp only [clone, alloc]
  exact if_neg (by omega)

theorem Keeps.amount {isnuc : ℕ → Bool} {s t : St} (hg : Good isnuc s) (h : Keeps s t) {i : ℕ}
    (hi : i < s.n) (nuc : ℕ) : nucAmount (t.obj i).qty (t.comp (t.obj i).comp) nuc
      = nucAmount (s.obj i).qty (s.comp (s.obj i).comp) nuc := by
  rw [h.2.2.1 i hi, h.2.2.2 _ (hg.bound i hi)]

theorem mixLoop_good {isnuc : ℕ → Bool} {o : St} (ho : Good isnuc o) :
    ∀ (rs : List Res) (s : St) (m : ℕ), Good isnuc s → Keeps o s → o.n ≤ m → m < s.n →
      (∀ r ∈ rs, r ≠ .other) → (∀ i ∈ mats rs, i < o.n) →
      ∃ t, mixLoop isnuc s m rs = some (t, .ok ()) ∧ Good isnuc t ∧ Keeps o t ∧ m < t.n ∧
        (t.obj m).qty = (s.obj m).qty + qtyOf o (mats rs) ∧
        ∀ nuc, nucAmount (t.obj m).qty (t.comp (t.obj m).comp) nuc
          = nucAmount (s.obj m).qty (s.comp (s.obj m).comp) nuc + massOf o (mats rs) nuc := by
  intro rs
  induction rs with
  | nil =>
    intro s m hg hk _ hm _ _
    exact ⟨s, rfl, hg, hk, hm, by simp [mats, qtyOf], by simp [mats, massOf]⟩
  | cons r rs ih =>
    intro s m hg hk hom hm hr hi
    cases r with
    | other => exact absurd rfl (hr .other (by simp))
    | mat j =>
      have hjo : j < o.n := hi j (by simp [mats])
      have hjs : j < s.n := hjo.trans_le hk.1
      have hg1 := clone_good hg hjs
      have hn1 : (clone s j).n = s.n + 1 := rfl
      have hobjm : (clone s j).obj m = s.obj m := by
        simp only [clone, alloc]; exact if_neg (by omega)
      have hobjn : (clone s j).obj s.n = o.obj j := by
        rw [← hk.2.2.1 j hjo]
        simp [clone, alloc]
      have hcomp : ∀ c, (clone s j).comp c = s.comp c := fun _ => rfl
      obtain ⟨t, e, g1, g2, g3, g4, g5, g6, g7⟩ :=
        absorb_good hg1 (i := m) (j := s.n) (by omega) (by omega) (by omega)
      have hkt : Keeps o t := by
        refine ⟨by have := hk.1; omega, hk.2.1.trans g3, fun k hko => ?_, fun c hco => ?_⟩
        · have := hk.1
          rw [g4 k (by omega) (by omega), (clone_keeps s j).2.2.1 k (by omega)]
          exact hk.2.2.1 k hko
        · rw [g5 c (hco.trans_le hk.2.1)]
          exact hk.2.2.2 c hco
      obtain ⟨u, e', f1, f2, f3, f4, f5⟩ := ih t m g1 hkt hom (by omega)
        (fun r hr' => hr r (by simp [hr'])) (fun i hi' => hi i (by simp [mats, hi']))
      refine ⟨u, ?_, f1, f2, f3, ?_, ?_⟩
      · simp only [mixLoop, e]
        exact e'
      · rw [f4, g6, hobjm, hobjn]
        simp only [mats, qtyOf, List.map_cons, List.sum_cons]
        ring
      · intro nuc
        rw [f5, g7, hobjm, hobjn, hcomp, hcomp, hk.2.2.2 _ (ho.bound j hjo)]
        simp only [mats, massOf, List.map_cons, List.sum_cons]
        ring

theorem get_eq_of_mem {v : CompMap} (hk : Keys v) {e : ℕ × ℚ} (he : e ∈ v) : get v e.1 = e.2 := by
  induction v with
  | nil => simp at he
  | cons x v ih =>
    obtain ⟨k, q⟩ := x
    unfold Keys at hk
    simp only [List.map_cons, List.nodup_cons] at hk
    unfold CompMath.get
    rcases List.mem_cons.1 he with rfl | he
    · simp
    · rw [if_neg]
      · exact ih hk.2 he
      · intro h
        exact hk.1 (h ▸ List.mem_map_of_mem he)

/-- **C79 (one inventory).**  Writing an inventory of materials succeeds, changes no material and no
composition, and appends exactly the rows that describe it. -/
theorem C79_inventory {isnuc : ℕ → Bool} {o : St} (ho : Good isnuc o) (cf : Conf) (w : World)
    (hg : Good isnuc w.heap) (hk : Keeps o w.heap) (a name : ℕ) (rs : List Res)
    (hm : Materials o rs) :
    ∃ w' b b', recordOne isnuc cf w a name rs = some (w', .ok ()) ∧ Good isnuc w'.heap ∧
      Keeps o w'.heap ∧ w'.rows = w.rows ++ b ∧ w'.compacts = w.compacts ++ b' ∧
      (if cf.explicit then IsRows o cf a name rs b else b = []) ∧
      (if cf.compact then IsCompact o cf a name rs b' else b' = []) := by
  obtain ⟨hne, hno, hlt⟩ := hm
  cases rs with
  | nil => exact absurd rfl hne
  | cons r rs =>
    cases r with
    | other => exact absurd rfl (hno .other (by simp))
    | mat i =>
      have hio : i < o.n := hlt i (by simp [mats])
      have hi : i < w.heap.n := hio.trans_le hk.1
      have hobj : (clone w.heap i).obj w.heap.n = o.obj i := by
        rw [← hk.2.2.1 i hio]; simp [clone, alloc]
      obtain ⟨t, e, g1, g2, g3, g4, g5⟩ := mixLoop_good ho rs (clone w.heap i) w.heap.n
        (clone_good hg hi) (hk.trans (clone_keeps _ _)) hk.1 (by simp [clone, alloc])
        (fun r hr => hno r (by simp [hr])) (fun j hj => hlt j (by simp [mats, hj]))
      have hq : (t.obj w.heap.n).qty = qtyOf o (mats (.mat i :: rs)) := by
        rw [g4, hobj]; simp [mats, qtyOf]
      have ha : ∀ nuc, nucAmount (t.obj w.heap.n).qty (t.comp (t.obj w.heap.n).comp) nuc
          = massOf o (mats (.mat i :: rs)) nuc := by
        intro nuc
        have hc : (clone w.heap i).comp = w.heap.comp := rfl
        rw [g5, hobj, hc, hk.2.2.2 _ (ho.bound i hio)]
        simp [mats, massOf]
      have hb := g1.bound _ g3
      have hpos := g1.pos _ hb
      have hkeys := g1.keys _ hb
      have hfull := g1.full _ g3
      refine ⟨recordInventory cf { w with heap := t } a name w.heap.n,
        if cf.explicit then (normalize (t.comp (t.obj w.heap.n).comp)
          (t.obj w.heap.n).qty).map fun e => ⟨a, cf.time, name, e.1, e.2⟩ else [],
        if cf.compact then [⟨a, cf.time, name, (t.obj w.heap.n).qty,
          normalize (t.comp (t.obj w.heap.n).comp) 1⟩] else [],
        by simp only [recordOne, e], g1, g2, ?_, ?_, ?_, ?_⟩
      · simp only [recordInventory]
        split <;> simp
      · simp only [recordInventory]
        split <;> simp
      · by_cases hx : cf.explicit = true
        · simp only [hx, if_true]
          have hkn := keys_normalize hkeys (t.obj w.heap.n).qty
          constructor
          · intro r hr
            obtain ⟨x, -, rfl⟩ := List.mem_map.1 hr
            simp
          · rw [List.map_map]
            exact hkn
          · intro r hr
            obtain ⟨x, hx', rfl⟩ := List.mem_map.1 hr
            simp only
            rw [← ha, ← get_normalize_amount hpos, get_eq_of_mem hkn hx']
          · intro nuc hnuc
            rw [← ha, ← get_normalize_amount hpos]
            refine get_of_not_mem fun h => hnuc ?_
            rw [List.map_map]
            exact h
          · rw [List.map_map, ← hq]
            have := sum_normalize_amount hfull
            rw [sum_eq] at this
            exact this
        · simp [hx]
      · by_cases hx : cf.compact = true
        · simp only [hx, if_true]
          refine ⟨_, by rw [hq], keys_normalize hkeys 1, ?_, ?_⟩
          · intro nuc
            rw [← hq, ← ha, get_normalize_amount hpos]
            unfold nucAmount
            split <;> ring
          · intro hpos'
            rw [← hq] at hpos'
            have : sum (t.comp (t.obj w.heap.n).comp) ≠ 0 := by
              rcases hfull with h | h
              · rw [h] at hpos'; exact absurd hpos' (lt_irrefl _)
              · exact h
            have := sum_normalize (x := 1) this
            rw [sum_eq] at this
            exact this
        · simp [hx]

/-- What is written for a job. -/
def Written (s : St) (cf : Conf) (j : ℕ × ℕ × List Res) (b : List Row × List Compact) : Prop :=
  (if cf.explicit then IsRows s cf j.1 j.2.1 j.2.2 b.1 else b.1 = []) ∧
  (if cf.compact then IsCompact s cf j.1 j.2.1 j.2.2 b.2 else b.2 = [])

theorem recordInventories_good {isnuc : ℕ → Bool} {o : St} (ho : Good isnuc o) (cf : Conf) (a : ℕ) :
    ∀ (invs : List (ℕ × List Res)) (w : World), Good isnuc w.heap → Keeps o w.heap →
      (∀ x ∈ invs, Materials o x.2) →
      ∃ w' bs, recordInventories isnuc cf a w invs = some (w', .ok ()) ∧ Good isnuc w'.heap ∧
        Keeps o w'.heap ∧
        List.Forall₂ (Written o cf) (invs.map fun x => (a, x.1, x.2)) bs ∧
        w'.rows = w.rows ++ (bs.map Prod.fst).flatten ∧
        w'.compacts = w.compacts ++ (bs.map Prod.snd).flatten := by
  intro invs
  induction invs with
  | nil =>
    intro w hg hk _
    exact ⟨w, [], rfl, hg, hk, List.Forall₂.nil, by simp, by simp⟩
  | cons x invs ih =>
    intro w hg hk hm
    obtain ⟨name, rs⟩ := x
    obtain ⟨w1, b, b', e, g1, g2, g3, g4, g5, g6⟩ :=
      C79_inventory ho cf w hg hk a name rs (hm (name, rs) (by simp))
    obtain ⟨w2, bs, e', f1, f2, f3, f4, f5⟩ := ih w1 g1 g2 fun x hx => hm x (by simp [hx])
    refine ⟨w2, (b, b') :: bs, ?_, f1, f2, List.Forall₂.cons ⟨g5, g6⟩ f3, ?_, ?_⟩
    · simp only [recordInventories, e]
      exact e'
    · rw [f4, g3]; simp
    · rw [f5, g4]; simp

/-- **C79 (partial).**  At the end of Tock, whatever the agents, their inventories (of materials) and the order
in which they are visited: nothing fails, no material and no composition that existed is changed,
agents that have not entered the simulation are not mentioned, and the rows written are, inventory
by inventory, exactly those that describe it.  Missing: inventories that hold other resources as well
(`C79_fails_mixed`, `C79_fails_null`) and materials with an empty composition (`C79_fails_blank`). -/
theorem C79_tock_partial {isnuc : ℕ → Bool} (cf : Conf) (w : World) (hg : Good isnuc w.heap)
    (as : List Ag) (hm : ∀ j ∈ jobs as, Materials w.heap j.2.2)
    (hon : cf.explicit = true ∨ cf.compact = true) :
    ∃ w' bs, recordAll isnuc cf w as = some (w', .ok ()) ∧ Keeps w.heap w'.heap ∧
      List.Forall₂ (Written w.heap cf) (jobs as) bs ∧
      w'.rows = w.rows ++ (bs.map Prod.fst).flatten ∧
      w'.compacts = w.compacts ++ (bs.map Prod.snd).flatten := by
  have hoff : ¬ (cf.explicit = false ∧ cf.compact = false) := by
    rintro ⟨h1, h2⟩
    rcases hon with h | h <;> simp_all
  have gen : ∀ (as : List Ag) (u : World), Good isnuc u.heap → Keeps w.heap u.heap →
      (∀ j ∈ jobs as, Materials w.heap j.2.2) →
      ∃ w' bs, recordAll isnuc cf u as = some (w', .ok ()) ∧ Keeps w.heap w'.heap ∧
        List.Forall₂ (Written w.heap cf) (jobs as) bs ∧
        w'.rows = u.rows ++ (bs.map Prod.fst).flatten ∧
        w'.compacts = u.compacts ++ (bs.map Prod.snd).flatten := by
    intro as
    induction as with
    | nil =>
      intro u _ hk _
      exact ⟨u, [], rfl, hk, List.Forall₂.nil, by simp, by simp⟩
    | cons a as ih =>
      intro u hu hk hj
      cases ha : a.enter with
      | none =>
        have hjobs : jobs (a :: as) = jobs as := by simp [jobs, ha]
        rw [hjobs] at hj ⊢
        obtain ⟨w', bs, e, f⟩ := ih u hu hk hj
        refine ⟨w', bs, ?_, f⟩
        simp only [recordAll, if_neg hoff, ha]
        exact e
      | some t =>
        have hjobs : jobs (a :: as) = (a.invs.map fun x => (a.id, x.1, x.2)) ++ jobs as := by
          simp [jobs, ha]
        rw [hjobs] at hj ⊢
        obtain ⟨w1, bs, e, g1, g2, g3, g4, g5⟩ := recordInventories_good hg cf a.id a.invs u hu hk
          fun x hx => hj (a.id, x.1, x.2)
            (List.mem_append_left _ (List.mem_map.2 ⟨x, hx, rfl⟩))
        obtain ⟨w2, bs', e', f1, f2, f3, f4⟩ := ih w1 g1 g2
          fun j hj' => hj j (List.mem_append_right _ hj')
        refine ⟨w2, bs ++ bs', ?_, f1, List.rel_append g3 f2, ?_, ?_⟩
        · simp only [recordAll, if_neg hoff, ha, e]
          exact e'
        · rw [f3, g4]; simp
        · rw [f4, g5]; simp
  exact gen as w hg (Keeps.refl _) hm

/-- **C79.**  If both settings are off, nothing is written. -/
theorem C79_off (isnuc : ℕ → Bool) (cf : Conf) (w : World) (as : List Ag)
    (h : cf.explicit = false ∧ cf.compact = false) :
    recordAll isnuc cf w as = some (w, .ok ()) := by
  cases as with
  | nil => rfl
  | cons a as => simp [recordAll, h]

/-! ### Examples and disagreements -/

/-- Three materials of two compositions. -/
def heap : St where
  obj := fun k => if k = 0 then ⟨10, 0⟩ else if k = 1 then ⟨5, 1⟩ else ⟨4, 0⟩
  n := 3
  comp := fun k => if k = 0 then [(1, 1), (2, 1)] else if k = 1 then [(2, 3), (3, 2)] else []
  nc := 2

theorem heap_good : Good (fun _ => true) heap where
  pos := by intro c hc; simp only [heap] at hc; interval_cases c <;> decide +kernel
  keys := by intro c hc; simp only [heap] at hc; interval_cases c <;> simp [heap, Keys]
  bound := by intro c hc; simp only [heap] at hc; interval_cases c <;> decide
  nn := by intro c hc; simp only [heap] at hc; interval_cases c <;> decide +kernel
  full := by intro c hc; simp only [heap] at hc; interval_cases c <;> decide +kernel
  valid := by intro c _; simp [validNucs]

example : ∀ j ∈ jobs [⟨7, some 0, [(1, [.mat 0, .mat 1]), (2, [.mat 2])]⟩, ⟨8, none, [(1, [])]⟩],
    Materials heap j.2.2 := by
  simp [jobs, Materials, mats, heap]

/-- The code contradicts C79 for materials with an empty composition: their quantity is in no row of
ExplicitInventory. -/
theorem C79_fails_blank : ∃ (w : World) (w' : World), w.rows = [] ∧ (w.heap.obj 0).qty = 5 ∧
    recordAll (fun _ => true) ⟨true, false, 0⟩ w [⟨7, some 0, [(1, [.mat 0])]⟩]
      = some (w', .ok ()) ∧ w'.rows = [] := by
  refine ⟨⟨{ obj := fun _ => ⟨5, 0⟩, n := 1, comp := fun _ => [], nc := 1 }, [], []⟩, _, rfl, rfl,
    rfl, by decide +kernel⟩

/-- The code contradicts C79 for inventories that hold materials and other resources: if another
resource comes first, no material is written. -/
theorem C79_fails_mixed (isnuc : ℕ → Bool) (cf : Conf) (w : World) (a name : ℕ) (rs : List Res) :
    recordOne isnuc cf w a name (.other :: rs) = some (w, .ok ()) := rfl

/-- The code contradicts C79: if a material comes first and another resource second, a NULL pointer
is used. -/
theorem C79_fails_null (isnuc : ℕ → Bool) (cf : Conf) (w : World) (a name i : ℕ) (rs : List Res) :
    recordOne isnuc cf w a name (.mat i :: .other :: rs) = none := rfl

end Cyclus.Inventory
