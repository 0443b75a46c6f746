import Verif.Model.Stock
import Verif.Lemmas.CompMath

/-! Helper lemmas about the tables of resources. -/

namespace Cyclus.Stock

open Cyclus.CompMath

/-- The composition or quality is known. -/
def Known (s : St) : What → Prop
  | .comp c => c < s.nextC
  | .quality q => ∃ k, s.quals.lookup q = some k

/-- What always holds of the tables. -/
structure Core (isnuc : ℕ → Bool) (s : St) : Prop where
  rows_lt : ∀ r ∈ s.db.resources, r.id < s.nextS
  info_lt : ∀ e ∈ s.db.info, e.1 < s.nextS
  comps : ∀ c < s.nextC, Keys (s.comp c) ∧ createFrom isnuc (s.comp c) = .ok (s.comp c)
  unrec : ∀ c, s.recorded c = false → s.db.compositions.filter (fun e => e.1 = c) = []
  recd : ∀ c, s.recorded c = true → c < s.nextC ∧
    s.db.compositions.filter (fun e => e.1 = c) = (normalize (s.comp c) 1).map fun e => (c, e.1, e.2)
  quals : ∀ q k, s.quals.lookup q = some k → s.db.products.find? (fun e => e.1 = k) = some (k, q)
  prod_lt : ∀ e ∈ s.db.products, e.1 < s.nextQ
  known : ∀ i < s.n, Known s (s.res i).what
  inv_le : ∀ r ∈ s.db.inv, r.time ≤ s.time

/-- The tables describe a resource. -/
def Good (eps : ℚ) (nt : Prop) (s : St) (i : ℕ) : Prop :=
  ∃ row, s.db.resources.find? (fun r => r.id = (s.res i).sid) = some row ∧ row.obj = (s.res i).oid ∧
    row.mat = (s.res i).what.mat ∧
    (eps < (s.res i).qty → row.qty = (s.res i).qty ∧ row.qual = qualId s (s.res i).what ∧
      ∀ c, (s.res i).what = .comp c → s.recorded c = true) ∧
    ((s.res i).what.mat = true → ∃ p, s.db.info.find? (fun e => e.1 = (s.res i).sid) = some ((s.res i).sid, p) ∧
      (nt → p = (s.res i).prev))

/-- One state extends another. -/
structure Ext (s s' : St) : Prop where
  rows : s.db.resources <+: s'.db.resources
  info : s.db.info <+: s'.db.info
  prods : s.db.products <+: s'.db.products
  inv : s.db.inv <+: s'.db.inv
  recd : ∀ c, s.recorded c = true → s'.recorded c = true
  comps : ∀ c < s.nextC, s'.comp c = s.comp c
  nextC : s.nextC ≤ s'.nextC
  quals : ∀ q k, s.quals.lookup q = some k → s'.quals.lookup q = some k
  n : s.n ≤ s'.n
  time : s.time ≤ s'.time

theorem Ext.refl (s : St) : Ext s s :=
  ⟨List.prefix_refl _, List.prefix_refl _, List.prefix_refl _, List.prefix_refl _, fun _ h => h, fun _ _ => rfl,
    le_rfl, fun _ _ h => h, le_rfl, le_rfl⟩

theorem Ext.trans {a b c : St} (h : Ext a b) (g : Ext b c) : Ext a c :=
  ⟨h.rows.trans g.rows, h.info.trans g.info, h.prods.trans g.prods, h.inv.trans g.inv,
    fun k hk => g.recd k (h.recd k hk), fun k hk => (g.comps k (lt_of_lt_of_le hk h.nextC)).trans (h.comps k hk),
    h.nextC.trans g.nextC, fun q k hk => g.quals q k (h.quals q k hk), h.n.trans g.n, h.time.trans g.time⟩

theorem find_prefix {α : Type*} {p : α → Bool} {l l' : List α} {x : α} (h : l <+: l') (hx : l.find? p = some x) :
    l'.find? p = some x := by
  obtain ⟨t, rfl⟩ := h
  rw [List.find?_append, hx]; rfl

theorem find_new {α : Type*} {p : α → Bool} {l : List α} {x : α} (h : ∀ y ∈ l, p y = false) (hx : p x = true) :
    (l ++ [x]).find? p = some x := by
  rw [List.find?_append, List.find?_eq_none.2 (by intro y hy; simp [h y hy])]
  simp [hx]

theorem Known.mono {s s' : St} (e : Ext s s') {w : What} (h : Known s w) : Known s' w := by
  cases w with
  | comp c => exact lt_of_lt_of_le h e.nextC
  | quality q => obtain ⟨k, hk⟩ := h; exact ⟨k, e.quals q k hk⟩

theorem qualId_mono {s s' : St} (e : Ext s s') {w : What} (h : Known s w) : qualId s' w = qualId s w := by
  cases w with
  | comp c => rfl
  | quality q => obtain ⟨k, hk⟩ := h; simp [qualId, hk, e.quals q k hk]

theorem Good.mono {eps : ℚ} {nt : Prop} {s s' : St} {i : ℕ} (e : Ext s s') (hk : Known s (s.res i).what)
    (hr : s'.res i = s.res i) (h : Good eps nt s i) : Good eps nt s' i := by
  obtain ⟨row, h1, h2, h3, h4, h5⟩ := h
  refine ⟨row, ?_, ?_, ?_, ?_, ?_⟩
  · rw [hr]; exact find_prefix e.rows h1
  · rw [hr]; exact h2
  · rw [hr]; exact h3
  · rw [hr]; intro hq
    obtain ⟨a, b, c⟩ := h4 hq
    exact ⟨a, by rw [qualId_mono e hk]; exact b, fun k hk => e.recd k (c k hk)⟩
  · rw [hr]; intro hm
    obtain ⟨p, a, b⟩ := h5 hm
    exact ⟨p, find_prefix e.info a, b⟩

/-- The invariant, except for the resources of a set. -/
structure Part (isnuc : ℕ → Bool) (eps : ℚ) (nt : Prop) (s : St) (F : ℕ → Prop) : Prop where
  core : Core isnuc s
  good : ∀ k < s.n, ¬ F k → (s.res k).tracked = true → Good eps nt s k

section
variable {isnuc : ℕ → Bool} {eps : ℚ} {nt : Prop} {s : St} {F : ℕ → Prop}

theorem Ext.setRes (s : St) (i : ℕ) (r : Res) : Ext s (setRes s i r) :=
  ⟨List.prefix_refl _, List.prefix_refl _, List.prefix_refl _, List.prefix_refl _, fun _ h => h, fun _ _ => rfl,
    le_rfl, fun _ _ h => h, le_rfl, le_rfl⟩

theorem Core.setRes (h : Core isnuc s) {i : ℕ} {r : Res} (hk : Known s r.what) : Core isnuc (setRes s i r) := by
  refine ⟨h.rows_lt, h.info_lt, h.comps, h.unrec, h.recd, h.quals, h.prod_lt, ?_, h.inv_le⟩
  intro k hn
  by_cases hki : k = i
  · simp only [Stock.setRes, hki, if_true]; cases hw : r.what <;> rw [hw] at hk <;> exact hk
  · have := h.known k hn
    simp only [Stock.setRes, if_neg hki]
    cases hw : (s.res k).what <;> rw [hw] at this <;> exact this

theorem Part.setRes (h : Part isnuc eps nt s F) {i : ℕ} {r : Res} (hk : Known s r.what) :
    Part isnuc eps nt (setRes s i r) (fun k => F k ∨ k = i) := by
  refine ⟨h.core.setRes hk, ?_⟩
  intro k hn hF ht
  have hF' := not_or.1 hF
  have hres : (Stock.setRes s i r).res k = s.res k := by simp [Stock.setRes, hF'.2]
  exact (h.good k hn hF'.1 (hres ▸ ht)).mono (Ext.setRes s i r) (h.core.known k hn) hres

/-- A change that is not recorded and need not be. -/
theorem Part.setKeep (h : Part isnuc eps nt s F) {i : ℕ} {r : Res} (hk : Known s r.what)
    (h1 : r.sid = (s.res i).sid) (h2 : r.oid = (s.res i).oid) (h3 : r.what.mat = (s.res i).what.mat)
    (h4 : r.tracked = (s.res i).tracked) (h5 : r.prev = (s.res i).prev)
    (h6 : r.qty ≤ eps ∨ (r.qty = (s.res i).qty ∧ r.what = (s.res i).what)) :
    Part isnuc eps nt (Stock.setRes s i r) F := by
  refine ⟨h.core.setRes hk, ?_⟩
  intro k hn hF ht
  by_cases hki : k = i
  · subst hki
    have hres : (Stock.setRes s k r).res k = r := by simp [Stock.setRes]
    rw [hres, h4] at ht
    obtain ⟨row, a1, a2, a3, a4, a5⟩ := h.good k hn hF ht
    refine ⟨row, ?_, ?_, ?_, ?_, ?_⟩
    · rw [hres, h1]; exact a1
    · rw [hres, h2]; exact a2
    · rw [hres, h3]; exact a3
    · rw [hres]
      intro hq
      rcases h6 with h6 | ⟨h6, h7⟩
      · exact absurd hq (not_lt.2 h6)
      · rw [h6] at hq ⊢; rw [h7]; exact a4 hq
    · rw [hres, h1, h3, h5]; exact a5
  · have hres : (Stock.setRes s i r).res k = s.res k := by simp [Stock.setRes, hki]
    exact (h.good k hn hF (hres ▸ ht)).mono (Ext.setRes s i r) (h.core.known k hn) hres

theorem Ext.alloc (s : St) (w : What) (q : ℚ) (p : ℤ) (g : String) (t : Bool) : Ext s (alloc s w q p g t) :=
  ⟨List.prefix_refl _, List.prefix_refl _, List.prefix_refl _, List.prefix_refl _, fun _ h => h, fun _ _ => rfl,
    le_rfl, fun _ _ h => h, Nat.le_succ _, le_rfl⟩

theorem Part.alloc (h : Part isnuc eps nt s F) {w : What} {q : ℚ} {p : ℤ} {g : String} {t : Bool}
    (hk : Known s w) : Part isnuc eps nt (alloc s w q p g t) (fun k => F k ∨ (k = s.n ∧ t = true)) := by
  have hc := h.core
  refine ⟨⟨fun r hr => lt_trans (hc.rows_lt r hr) (Nat.lt_succ_self _),
    fun r hr => lt_trans (hc.info_lt r hr) (Nat.lt_succ_self _), hc.comps, hc.unrec, hc.recd, hc.quals,
    hc.prod_lt, ?_, hc.inv_le⟩, ?_⟩
  · intro k hn
    by_cases hki : k = s.n
    · simp only [Stock.alloc, hki, if_true]; cases w <;> exact hk
    · have hn' : k < s.n := lt_of_le_of_ne (Nat.lt_succ_iff.1 hn) hki
      have := hc.known k hn'
      simp only [Stock.alloc, if_neg hki]
      cases hw : (s.res k).what <;> rw [hw] at this <;> exact this
  · intro k hn hF ht
    have hF' := not_or.1 hF
    by_cases hki : k = s.n
    · subst hki
      have : t = true := by simpa [Stock.alloc] using ht
      exact absurd ⟨rfl, this⟩ hF'.2
    · have hn' : k < s.n := lt_of_le_of_ne (Nat.lt_succ_iff.1 hn) hki
      have hres : (Stock.alloc s w q p g t).res k = s.res k := by simp [Stock.alloc, hki]
      exact (h.good k hn' hF'.1 (hres ▸ ht)).mono (Ext.alloc s w q p g t) (hc.known k hn') hres

theorem Part.weaken {G : ℕ → Prop} (h : Part isnuc eps nt s F) (hi : ∀ k < s.n, F k → ¬ G k → Good eps nt s k) :
    Part isnuc eps nt s G := by
  refine ⟨h.core, fun k hn hG ht => ?_⟩
  by_cases hF : F k
  · exact hi k hn hF hG
  · exact h.good k hn hF ht

/-! ### Recording -/

theorem Ext.recordComp (s : St) (c : ℕ) : Ext s (recordComp s c) := by
  unfold Stock.recordComp
  split
  · exact Ext.refl s
  · refine ⟨List.prefix_refl _, List.prefix_refl _, List.prefix_refl _, List.prefix_refl _, ?_, fun _ _ => rfl,
      le_rfl, fun _ _ h => h, le_rfl, le_rfl⟩
    intro k hk
    by_cases hkc : k = c <;> simp [hkc, hk]

theorem recordComp_recorded (s : St) (c : ℕ) : (recordComp s c).recorded c = true := by
  unfold Stock.recordComp
  split
  · assumption
  · simp

theorem recordComp_res (s : St) (c : ℕ) : (recordComp s c).res = s.res ∧ (recordComp s c).n = s.n ∧
    (recordComp s c).nextS = s.nextS ∧ (recordComp s c).quals = s.quals ∧
    (recordComp s c).db.resources = s.db.resources ∧ (recordComp s c).db.info = s.db.info ∧
    (recordComp s c).time = s.time := by
  unfold Stock.recordComp
  split <;> exact ⟨rfl, rfl, rfl, rfl, rfl, rfl, rfl⟩

theorem Core.recordComp (h : Core isnuc s) {c : ℕ} (hc : c < s.nextC) : Core isnuc (recordComp s c) := by
  unfold Stock.recordComp
  split
  · exact h
  · rename_i hr
    have hr' : s.recorded c = false := by simpa using hr
    have hself : ((normalize (s.comp c) 1).map fun e => (c, e.1, e.2)).filter (fun e => e.1 = c)
        = (normalize (s.comp c) 1).map fun e => (c, e.1, e.2) := by
      rw [List.filter_eq_self]; intro e he
      obtain ⟨x, -, rfl⟩ := List.mem_map.1 he
      simp
    have hother : ∀ k, k ≠ c → ((normalize (s.comp c) 1).map fun e => (c, e.1, e.2)).filter (fun e => e.1 = k)
        = [] := by
      intro k hk
      rw [List.filter_eq_nil_iff]; intro e he
      obtain ⟨x, -, rfl⟩ := List.mem_map.1 he
      simpa using Ne.symm hk
    refine ⟨h.rows_lt, h.info_lt, h.comps, ?_, ?_, h.quals, h.prod_lt, ?_, h.inv_le⟩
    · intro k hk
      have hkc : k ≠ c := by rintro rfl; simp at hk
      have hk' : s.recorded k = false := by simpa [hkc] using hk
      show (s.db.compositions ++ _).filter _ = _
      rw [List.filter_append, h.unrec k hk', hother k hkc]; rfl
    · intro k hk
      show k < s.nextC ∧ (s.db.compositions ++ _).filter _ = _
      by_cases hkc : k = c
      · subst hkc
        exact ⟨hc, by rw [List.filter_append, h.unrec k hr', hself]; rfl⟩
      · have hk' : s.recorded k = true := by simpa [hkc] using hk
        obtain ⟨a, b⟩ := h.recd k hk'
        exact ⟨a, by rw [List.filter_append, b, hother k hkc, List.append_nil]⟩
    · intro k hn
      have := h.known k hn
      show Known _ (s.res k).what
      cases hw : (s.res k).what <;> rw [hw] at this <;> exact this

/-- Recording a resource whose id has no rows yet. -/
def recordNow (s : St) (i : ℕ) : St := record s i false

theorem recordNow_spec (h : Core isnuc s) {i : ℕ} (hi : i < s.n) (hlt : (s.res i).sid < s.nextS)
    (hf : ∀ r ∈ s.db.resources, r.id ≠ (s.res i).sid) (hf' : ∀ e ∈ s.db.info, e.1 ≠ (s.res i).sid) :
    Core isnuc (recordNow s i) ∧ Ext s (recordNow s i) ∧ (recordNow s i).res = s.res ∧
    (recordNow s i).n = s.n ∧ Good eps nt (recordNow s i) i := by
  have hkn := h.known i hi
  unfold recordNow record
  simp only [Bool.false_eq_true, if_false]
  generalize hrow : (⟨(s.res i).sid, (s.res i).oid, (s.res i).what.mat, (s.res i).qty, qualId s (s.res i).what,
    (s.res i).pkg⟩ : Row) = row
  have hrid : row.id = (s.res i).sid := by rw [← hrow]
  have hfind : (s.db.resources ++ [row]).find? (fun r => r.id = (s.res i).sid) = some row :=
    find_new (by intro y hy; simpa using hf y hy) (by simp [hrid])
  have hrl : ∀ r ∈ s.db.resources ++ [row], r.id < s.nextS := by
    intro r hr
    rcases List.mem_append.1 hr with hr | hr
    · exact h.rows_lt r hr
    · rw [List.mem_singleton.1 hr, hrid]; exact hlt
  cases hw : (s.res i).what with
  | quality q =>
    refine ⟨⟨hrl, h.info_lt, h.comps, h.unrec, h.recd, h.quals, h.prod_lt, ?_, h.inv_le⟩,
      ⟨List.prefix_append _ _, List.prefix_refl _, List.prefix_refl _, List.prefix_refl _, fun _ h => h,
        fun _ _ => rfl, le_rfl, fun _ _ h => h, le_rfl, le_rfl⟩, rfl, rfl, ?_⟩
    · intro k hn
      have := h.known k hn
      show Known _ (s.res k).what
      cases hw : (s.res k).what <;> rw [hw] at this <;> exact this
    · refine ⟨row, hfind, by rw [← hrow], by rw [← hrow], ?_, ?_⟩
      · intro _
        refine ⟨by rw [← hrow], by rw [← hrow]; simp only [hw]; rfl, ?_⟩
        intro c hc
        simp only [hw] at hc; cases hc
      · intro hm; simp only [hw] at hm; cases hm
  | comp c =>
    have hc : c < s.nextC := by rw [hw] at hkn; exact hkn
    simp only
    generalize hs1 : (St.mk s.res s.n s.nextS s.nextO s.comp s.nextC s.recorded s.quals s.nextQ s.time
      (Db.mk (s.db.resources ++ [row]) (s.db.info ++ [((s.res i).sid, (s.res i).prev)]) s.db.compositions
        s.db.products s.db.inv)) = s1
    have hcore1 : Core isnuc s1 := by
      rw [← hs1]
      refine ⟨hrl, ?_, h.comps, h.unrec, h.recd, h.quals, h.prod_lt, ?_, h.inv_le⟩
      · intro e he
        rcases List.mem_append.1 he with he | he
        · exact h.info_lt e he
        · rw [List.mem_singleton.1 he]; exact hlt
      · intro k hn
        have := h.known k hn
        show Known _ (s.res k).what
        cases hw : (s.res k).what <;> rw [hw] at this <;> exact this
    have hext1 : Ext s s1 := by
      rw [← hs1]
      exact ⟨List.prefix_append _ _, List.prefix_append _ _, List.prefix_refl _, List.prefix_refl _, fun _ h => h,
        fun _ _ => rfl, le_rfl, fun _ _ h => h, le_rfl, le_rfl⟩
    obtain ⟨r1, r2, r3, r4, r5, r6, -⟩ := recordComp_res s1 c
    have hres : (recordComp s1 c).res = s.res := by rw [r1, ← hs1]
    refine ⟨hcore1.recordComp (by rw [← hs1]; exact hc), hext1.trans (Ext.recordComp s1 c), hres,
      by rw [r2, ← hs1], ?_⟩
    refine ⟨row, ?_, ?_, ?_, ?_, ?_⟩
    · rw [hres, r5, ← hs1]; exact hfind
    · rw [hres, ← hrow]
    · rw [hres, ← hrow]
    · rw [hres]; intro _
      refine ⟨by rw [← hrow], by rw [← hrow]; simp only [hw]; rfl, ?_⟩
      intro k hk
      rw [hw] at hk; cases hk
      exact recordComp_recorded s1 c
    · rw [hres]; intro _
      refine ⟨(s.res i).prev, ?_, fun _ => rfl⟩
      rw [r6, ← hs1]
      exact find_new (by intro y hy; simpa using hf' y hy) (by simp)

theorem record_bump (s : St) (i : ℕ) :
    record s i true = recordNow { setRes s i { s.res i with sid := s.nextS } with nextS := s.nextS + 1 } i := rfl

theorem Part.recordNow (h : Part isnuc eps nt s F) {i : ℕ} (hi : i < s.n) (hlt : (s.res i).sid < s.nextS)
    (hf : ∀ r ∈ s.db.resources, r.id ≠ (s.res i).sid) (hf' : ∀ e ∈ s.db.info, e.1 ≠ (s.res i).sid) :
    Part isnuc eps nt (recordNow s i) (fun k => F k ∧ k ≠ i) := by
  obtain ⟨a, b, c, d, e⟩ := recordNow_spec (eps := eps) (nt := nt) h.core hi hlt hf hf'
  refine ⟨a, fun k hn hF ht => ?_⟩
  rw [d] at hn
  by_cases hki : k = i
  · rw [hki]; exact e
  · have hF' : ¬ F k := fun hh => hF ⟨hh, hki⟩
    rw [c] at ht
    exact (h.good k hn hF' ht).mono b (h.core.known k hn) (by rw [c])

theorem record_true_res (s : St) (i k : ℕ) :
    (record s i true).res k = if k = i then { s.res i with sid := s.nextS } else s.res k := by
  unfold record
  simp only [if_true]
  split
  · rfl
  · rw [(recordComp_res _ _).1]; rfl

theorem record_true_n (s : St) (i : ℕ) : (record s i true).n = s.n ∧ (record s i true).time = s.time := by
  unfold record
  simp only [if_true]
  split
  · exact ⟨rfl, rfl⟩
  · exact ⟨(recordComp_res _ _).2.1, (recordComp_res _ _).2.2.2.2.2.2⟩

theorem recordNow_res (s : St) (i : ℕ) : (recordNow s i).res = s.res ∧ (recordNow s i).n = s.n ∧
    (recordNow s i).time = s.time := by
  unfold recordNow record
  simp only [Bool.false_eq_true, if_false]
  split
  · exact ⟨rfl, rfl, rfl⟩
  · exact ⟨by rw [(recordComp_res _ _).1], (recordComp_res _ _).2.1, (recordComp_res _ _).2.2.2.2.2.2⟩

theorem Ext.recordNow (s : St) (i : ℕ) : Ext s (recordNow s i) := by
  unfold Stock.recordNow record
  simp only [Bool.false_eq_true, if_false]
  split
  · exact ⟨List.prefix_append _ _, List.prefix_refl _, List.prefix_refl _, List.prefix_refl _, fun _ h => h,
        fun _ _ => rfl, le_rfl, fun _ _ h => h, le_rfl, le_rfl⟩
  · refine Ext.trans ?_ (Ext.recordComp _ _)
    exact ⟨List.prefix_append _ _, List.prefix_append _ _, List.prefix_refl _, List.prefix_refl _, fun _ h => h,
        fun _ _ => rfl, le_rfl, fun _ _ h => h, le_rfl, le_rfl⟩

theorem Ext.bump (s : St) (i : ℕ) :
    Ext s { Stock.setRes s i { s.res i with sid := s.nextS } with nextS := s.nextS + 1 } :=
  ⟨List.prefix_refl _, List.prefix_refl _, List.prefix_refl _, List.prefix_refl _, fun _ h => h, fun _ _ => rfl,
    le_rfl, fun _ _ h => h, le_rfl, le_rfl⟩

theorem Ext.record (s : St) (i : ℕ) (b : Bool) : Ext s (record s i b) := by
  cases b
  · exact Ext.recordNow s i
  · rw [record_bump]; exact (Ext.bump s i).trans (Ext.recordNow _ i)

theorem Part.record (h : Part isnuc eps nt s F) {i : ℕ} (hi : i < s.n) :
    Part isnuc eps nt (record s i true) (fun k => F k ∧ k ≠ i) := by
  rw [record_bump]
  have h1 : Part isnuc eps nt (Stock.setRes s i { s.res i with sid := s.nextS }) (fun k => F k ∨ k = i) :=
    h.setRes (h.core.known i hi)
  have h2 : Part isnuc eps nt { Stock.setRes s i { s.res i with sid := s.nextS } with nextS := s.nextS + 1 }
      (fun k => F k ∨ k = i) := by
    refine ⟨⟨fun r hr => lt_trans (h1.core.rows_lt r hr) (Nat.lt_succ_self _),
      fun r hr => lt_trans (h1.core.info_lt r hr) (Nat.lt_succ_self _), h1.core.comps, h1.core.unrec,
      h1.core.recd, h1.core.quals, h1.core.prod_lt, ?_, h1.core.inv_le⟩, ?_⟩
    · intro k hn
      have := h1.core.known k hn
      revert this
      generalize hw : ((Stock.setRes s i { s.res i with sid := s.nextS }).res k).what = w
      cases w <;> exact id
    · intro k hn hF ht
      refine (h1.good k hn hF ht).mono ?_ (h1.core.known k hn) rfl
      exact ⟨List.prefix_refl _, List.prefix_refl _, List.prefix_refl _, List.prefix_refl _, fun _ h => h,
        fun _ _ => rfl, le_rfl, fun _ _ h => h, le_rfl, le_rfl⟩
  have hsid : (({ Stock.setRes s i { s.res i with sid := s.nextS } with nextS := s.nextS + 1 } : St).res i).sid
      = s.nextS := by simp [Stock.setRes]
  have h3 := h2.recordNow (i := i) hi (by rw [hsid]; exact Nat.lt_succ_self _)
    (by intro r hr; rw [hsid]; exact ne_of_lt (h.core.rows_lt r hr))
    (by intro r hr; rw [hsid]; exact ne_of_lt (h.core.info_lt r hr))
  refine ⟨h3.core, fun k hn hF ht => h3.good k hn ?_ ht⟩
  rintro ⟨hh | hh, hne⟩
  · exact hF ⟨hh, hne⟩
  · exact hne hh

theorem Part.congr {G : ℕ → Prop} (h : Part isnuc eps nt s F) (hFG : ∀ k < s.n, (s.res k).tracked = true → F k → G k) :
    Part isnuc eps nt s G :=
  ⟨h.core, fun k hn hG ht => h.good k hn (fun hF => hG (hFG k hn ht hF)) ht⟩

/-- A change of a tracked resource that is recorded, or of one that is not tracked. -/
theorem Part.track (h : Part isnuc eps nt s F) {i : ℕ} (hi : i < s.n) :
    Part isnuc eps nt (track s i true) (fun k => F k ∧ k ≠ i) := by
  unfold Stock.track
  split
  · exact h.record hi
  · rename_i ht
    exact h.congr fun k _ hk hF => ⟨hF, by rintro rfl; exact ht hk⟩

theorem Ext.track (s : St) (i : ℕ) (b : Bool) : Ext s (track s i b) := by
  unfold Stock.track
  split
  · exact Ext.record s i b
  · exact Ext.refl s

theorem track_true_res (s : St) (i k : ℕ) : ∃ d, (track s i true).res k =
    { s.res k with sid := d } ∧ (track s i true).n = s.n ∧ (track s i true).time = s.time := by
  unfold track
  split
  · obtain ⟨a, b⟩ := record_true_n s i
    by_cases hki : k = i
    · exact ⟨s.nextS, by rw [record_true_res, if_pos hki, hki], a, b⟩
    · exact ⟨(s.res k).sid, by rw [record_true_res, if_neg hki], a, b⟩
  · exact ⟨(s.res k).sid, rfl, rfl, rfl⟩

/-- A new resource that is tracked is recorded, or is not tracked. -/
theorem Part.allocTrack (h : Part isnuc eps nt s F) {w : What} {q : ℚ} {p : ℤ} {g : String} {t : Bool}
    (hk : Known s w) : Part isnuc eps nt (Stock.track (Stock.alloc s w q p g t) s.n false) F := by
  have h1 := h.alloc (q := q) (p := p) (g := g) (t := t) hk
  have hr : (Stock.alloc s w q p g t).res s.n = ⟨w, q, p, g, s.nextS, s.nextO, t⟩ := by simp [Stock.alloc]
  unfold Stock.track
  split
  · have h2 := h1.recordNow (i := s.n) (Nat.lt_succ_self _) (by rw [hr]; exact Nat.lt_succ_self _)
      (by intro r hr'; rw [hr]; exact ne_of_lt (h.core.rows_lt r hr'))
      (by intro r hr'; rw [hr]; exact ne_of_lt (h.core.info_lt r hr'))
    refine h2.congr ?_
    rintro k - - ⟨hh | hh, hne⟩
    · exact hh
    · exact absurd hh.1 hne
  · rename_i ht
    rw [hr] at ht
    refine h1.congr ?_
    rintro k - hk (hh | hh)
    · exact hh
    · exact absurd hh.2 ht

theorem newComp_part {v : CompMap} {s1 : St} {c : ℕ} (hv : Keys v) (h : Part isnuc eps nt s F)
    (he : newComp isnuc s v = .ok (s1, c)) :
    Part isnuc eps nt s1 F ∧ Ext s s1 ∧ c < s1.nextC ∧ s1.res = s.res ∧ s1.n = s.n ∧ s1.time = s.time := by
  unfold newComp at he
  cases hcf : createFrom isnuc v with
  | error e => rw [hcf] at he; cases he
  | ok w =>
    rw [hcf] at he
    obtain ⟨rfl, hp, hn⟩ := createFrom_ok hcf
    simp only [Except.ok.injEq, Prod.mk.injEq] at he
    obtain ⟨rfl, rfl⟩ := he
    have hext : Ext s { s with comp := fun k => if k = s.nextC then w else s.comp k, nextC := s.nextC + 1 } :=
      ⟨List.prefix_refl _, List.prefix_refl _, List.prefix_refl _, List.prefix_refl _, fun _ h => h,
        fun k hk => if_neg (ne_of_lt hk), Nat.le_succ _, fun _ _ h => h, le_rfl, le_rfl⟩
    refine ⟨⟨⟨h.core.rows_lt, h.core.info_lt, ?_, h.core.unrec, ?_, h.core.quals, h.core.prod_lt, ?_,
      h.core.inv_le⟩, ?_⟩, hext, Nat.lt_succ_self _, rfl, rfl, rfl⟩
    · intro k hk
      by_cases hkc : k = s.nextC
      · simp only [hkc, if_true]; exact ⟨hv, hcf⟩
      · simp only [if_neg hkc]
        exact h.core.comps k (lt_of_le_of_ne (Nat.lt_succ_iff.1 hk) hkc)
    · intro k hk
      obtain ⟨a, b⟩ := h.core.recd k hk
      refine ⟨lt_trans a (Nat.lt_succ_self _), ?_⟩
      simp only [if_neg (ne_of_lt a)]; exact b
    · intro k hk; exact (h.core.known k hk).mono hext
    · intro k hk hF ht
      exact (h.good k hk hF ht).mono hext (h.core.known k hk) rfl

end

/-- The invariant of a history. -/
def Inv (isnuc : ℕ → Bool) (eps : ℚ) (nt : Prop) (s : St) : Prop := Part isnuc eps nt s (fun _ => False)

/-- The change of the state preserves the invariant. -/
def Fine (isnuc : ℕ → Bool) (eps : ℚ) (nt : Prop) (s s' : St) : Prop := Inv isnuc eps nt s' ∧ Ext s s'

section
variable {isnuc : ℕ → Bool} {eps : ℚ} {nt : Prop} {s : St}

theorem Fine.same (h : Inv isnuc eps nt s) : Fine isnuc eps nt s s := ⟨h, Ext.refl s⟩

/-- Something taken from a resource: the piece has been made, the tracker records both. -/
theorem trackExtract_fine {i j : ℕ} (hi : i < s.n) (hj : j < s.n) (hij : i ≠ j)
    (ht : (s.res j).tracked = (s.res i).tracked)
    (h : Part isnuc eps nt s (fun k => k = i ∨ k = j))
    (hsmall : (s.res i).tracked = true → (s.res i).qty ≤ eps → Good eps nt s i) :
    Fine isnuc eps nt s (trackExtract eps s i j) := by
  unfold trackExtract
  split
  · rename_i hu
    have hu' : (s.res i).tracked = false := by simpa using hu
    refine ⟨h.congr ?_, Ext.refl s⟩
    rintro k - hk (rfl | rfl)
    · rw [hu'] at hk; cases hk
    · rw [ht, hu'] at hk; cases hk
  · rename_i hu
    have hu' : (s.res i).tracked = true := by simpa using hu
    have hri : (record s j true).res i = s.res i := by rw [record_true_res, if_neg hij]
    have hn := (record_true_n s j).1
    simp only
    split
    · refine ⟨((h.record hj).record (by rw [hn]; exact hi)).congr ?_, (Ext.record s j true).trans (Ext.record _ i true)⟩
      rintro k - - ⟨⟨rfl | rfl, h1⟩, h2⟩
      · exact h2 rfl
      · exact h1 rfl
    · rename_i hq
      rw [hri] at hq
      refine ⟨(h.record hj).weaken ?_, Ext.record s j true⟩
      rintro k - ⟨rfl | rfl, h1⟩ -
      · exact (hsmall hu' (not_lt.1 hq)).mono (Ext.record s j true) (h.core.known k hi) hri
      · exact absurd rfl h1

theorem setRes_res (s : St) (i : ℕ) (r : Res) (k : ℕ) : (setRes s i r).res k = if k = i then r else s.res k := rfl

theorem alloc_res (s : St) (w : What) (q : ℚ) (p : ℤ) (g : String) (t : Bool) (k : ℕ) :
    (alloc s w q p g t).res k = if k = s.n then ⟨w, q, p, g, s.nextS, s.nextO, t⟩ else s.res k := rfl

theorem extractTail_fine {i : ℕ} (hi : i < s.n) (h : Inv isnuc eps nt s) {w w' : What} {q q' : ℚ} {p : ℤ}
    {g : String} (hw : Known s w) (hw' : Known s w') (hm : w.mat = (s.res i).what.mat) :
    Fine isnuc eps nt s (trackExtract eps (alloc (setRes s i { s.res i with qty := q, what := w }) w' q' p g
      (s.res i).tracked) i s.n) := by
  have hne : i ≠ s.n := ne_of_lt hi
  have hP : Part isnuc eps nt (setRes s i { s.res i with qty := q, what := w }) (fun k => False ∨ k = i) :=
    Part.setRes h hw
  have hA := hP.alloc (q := q') (p := p) (g := g) (t := (s.res i).tracked) (w := w')
    (hw'.mono (Ext.setRes s i _))
  have hn : (setRes s i { s.res i with qty := q, what := w }).n = s.n := rfl
  have hext := (Ext.setRes s i { s.res i with qty := q, what := w }).trans
    (Ext.alloc (setRes s i { s.res i with qty := q, what := w }) w' q' p g (s.res i).tracked)
  have hri : (alloc (setRes s i { s.res i with qty := q, what := w }) w' q' p g (s.res i).tracked).res i
      = { s.res i with qty := q, what := w } := by rw [alloc_res, hn, if_neg hne, setRes_res, if_pos rfl]
  obtain ⟨f1, f2⟩ := trackExtract_fine (isnuc := isnuc) (eps := eps) (nt := nt)
    (s := alloc (setRes s i { s.res i with qty := q, what := w }) w' q' p g (s.res i).tracked) (i := i) (j := s.n)
    (lt_trans hi (Nat.lt_succ_self _)) (Nat.lt_succ_self _) hne
    (by rw [hri, alloc_res, hn, if_pos rfl])
    (hA.congr (by
      rintro k - - ((hh | hh) | hh)
      · exact absurd hh id
      · exact Or.inl hh
      · exact Or.inr hh.1))
    (by
      rw [hri]
      intro ht hq
      have hK : Part isnuc eps nt (setRes s i { s.res i with qty := q, what := w }) (fun _ => False) :=
        Part.setKeep h hw rfl rfl hm rfl rfl (Or.inl hq)
      have hg := hK.good i hi id (by rw [setRes_res, if_pos rfl]; exact ht)
      exact hg.mono (Ext.alloc _ _ _ _ _ _) (hK.core.known i hi) (by rw [alloc_res, hn, if_neg hne]))
  exact ⟨f1, hext.trans f2⟩

theorem extractComp_fine {i c : ℕ} {q thr : ℚ} (hi : i < s.n) (hc : c < s.nextC) (h : Inv isnuc eps nt s) :
    Fine isnuc eps nt s (extractComp isnuc eps s i q c thr) := by
  unfold extractComp
  cases hw : (s.res i).what with
  | quality q => exact Fine.same h
  | comp c0 =>
    have hc0 : c0 < s.nextC := by have := h.core.known i hi; rw [hw] at this; exact this
    simp only
    split
    · exact Fine.same h
    · split
      · exact Fine.same h
      · rename_i s1 c1 hm
        have key : Inv isnuc eps nt s1 ∧ Ext s s1 ∧ c1 < s1.nextC ∧ s1.res = s.res ∧ s1.n = s.n := by
          split at hm
          · split at hm
            · cases hm
            · rename_i v hv
              obtain ⟨-, rfl⟩ := applyThreshold_ok hv
              obtain ⟨a, b, c, d, e, -⟩ := newComp_part (keys_filter (keys_sub _
                (keys_normalize (h.core.comps c0 hc0).1 _)) _) h hm
              exact ⟨a, b, c, d, e⟩
          · cases hm; exact ⟨h, Ext.refl s, hc0, rfl, rfl⟩
        obtain ⟨a, b, c2, d, e⟩ := key
        have hres : s.res i = s1.res i := by rw [d]
        rw [hres, ← e]
        have := extractTail_fine (q := (s1.res i).qty - q) (q' := q) (p := (s1.res i).prev) (g := unpackaged)
          (w := .comp c1) (w' := .comp c) (i := i) (by rw [e]; exact hi) a c2
          (lt_of_lt_of_le hc b.nextC) (by rw [d, hw]; rfl)
        exact ⟨this.1, b.trans this.2⟩

theorem extractProd_fine {i : ℕ} {q : ℚ} (hi : i < s.n) (h : Inv isnuc eps nt s) :
    Fine isnuc eps nt s (extractProd eps s i q) := by
  unfold extractProd
  cases hw : (s.res i).what with
  | comp c => exact Fine.same h
  | quality x =>
    simp only
    split
    · exact Fine.same h
    · have hk : Known s (.quality x) := by rw [← hw]; exact h.core.known i hi
      have := extractTail_fine (q := (s.res i).qty - q) (q' := q) (p := 0) (g := (s.res i).pkg)
        (w := (s.res i).what) (w' := .quality x) (i := i) hi h (h.core.known i hi) hk rfl
      simp only [hw] at this ⊢
      exact this

theorem track_fine {i : ℕ} (hi : i < s.n) (h : Part isnuc eps nt s (fun k => k = i)) :
    Fine isnuc eps nt s (track s i true) :=
  ⟨(h.track hi).congr (by rintro k - - ⟨rfl, hne⟩; exact hne rfl), Ext.track s i true⟩

theorem finishAbsorb_fine {i j : ℕ} (heps : 0 ≤ eps) (hi : i < s.n) (hj : j < s.n)
    (h : Part isnuc eps nt s (fun k => k = i)) : Fine isnuc eps nt s (finishAbsorb s i j) := by
  unfold finishAbsorb
  generalize hr : ({ s.res i with qty := (s.res i).qty + (s.res j).qty } : Res) = r
  have h1 : Part isnuc eps nt (setRes s i r) (fun k => k = i) :=
    (Part.setRes h (by rw [← hr]; exact h.core.known i hi)).congr (by rintro k - - (hh | hh) <;> exact hh)
  have h2 : Part isnuc eps nt (setRes (setRes s i r) j { (setRes s i r).res j with qty := 0 }) (fun k => k = i) :=
    h1.setKeep (h1.core.known j hj) rfl rfl rfl rfl rfl (Or.inl heps)
  have := track_fine (s := setRes (setRes s i r) j { (setRes s i r).res j with qty := 0 }) (i := i) hi h2
  exact ⟨this.1, ((Ext.setRes _ _ _).trans (Ext.setRes _ _ _)).trans this.2⟩

theorem absorb_fine {i j : ℕ} (heps : 0 ≤ eps) (hi : i < s.n) (hj : j < s.n) (h : Inv isnuc eps nt s) :
    Fine isnuc eps nt s (absorb isnuc s i j) := by
  unfold absorb
  split
  · rename_i c0 c1 hw0 hw1
    have hc0 : c0 < s.nextC := by have := h.core.known i hi; rw [hw0] at this; exact this
    simp only
    split
    · exact Fine.same h
    · rename_i s1 c hm
      have key : Inv isnuc eps nt s1 ∧ Ext s s1 ∧ c < s1.nextC ∧ s1.res = s.res ∧ s1.n = s.n := by
        split at hm
        · obtain ⟨a, b, c, d, e, -⟩ := newComp_part (keys_add _ (keys_normalize (h.core.comps c0 hc0).1 _)) h hm
          exact ⟨a, b, c, d, e⟩
        · cases hm; exact ⟨h, Ext.refl s, hc0, rfl, rfl⟩
      obtain ⟨a, b, c2, d, e⟩ := key
      generalize hr : ({ s.res i with what := What.comp c, prev := _ } : Res) = r
      have h1 : Part isnuc eps nt (setRes s1 i r) (fun k => k = i) :=
        (Part.setRes a (by rw [← hr]; exact c2)).congr (by rintro k - - (hh | hh); exacts [absurd hh id, hh])
      have := finishAbsorb_fine (i := i) (j := j) heps (by show i < s1.n; rw [e]; exact hi)
        (by show j < s1.n; rw [e]; exact hj) h1
      exact ⟨this.1, (b.trans (Ext.setRes _ _ _)).trans this.2⟩
  · split
    · exact Fine.same h
    · exact finishAbsorb_fine heps hi hj (h.congr (by rintro k - - hh; exact absurd hh id))
  · exact Fine.same h

theorem transmute_fine {i c : ℕ} (hi : i < s.n) (hc : c < s.nextC) (h : Part isnuc eps nt s (fun k => k = i))
    (hnt : nt → (s.res i).tracked = true → s.time ≤ (s.res i).prev)
    (hm : (s.res i).what.mat = true) : Fine isnuc eps nt s (transmute s i c) := by
  unfold transmute
  cases hw : (s.res i).what with
  | quality q => rw [hw] at hm; cases hm
  | comp c0 =>
    simp only
    generalize hr : ({ s.res i with what := What.comp c } : Res) = r
    have h1 : Part isnuc eps nt (setRes s i r) (fun k => k = i) :=
      (Part.setRes h (by rw [← hr]; exact hc)).congr (by rintro k - - (hh | hh) <;> exact hh)
    obtain ⟨f1, f2⟩ := track_fine (s := setRes s i r) (i := i) hi h1
    obtain ⟨d, hd, hn, ht⟩ := track_true_res (setRes s i r) i i
    have hri : (setRes s i r).res i = r := by rw [setRes_res, if_pos rfl]
    rw [hri] at hd
    split
    · rename_i hcond
      rw [hd, ht] at hcond
      have hno : ¬ nt := by
        intro hh
        have h3 := hcond.2
        have h1 := hcond.1
        rw [← hr] at h1 h3
        exact absurd h3 (not_lt.2 (hnt hh h1))
      refine ⟨⟨f1.core.setRes (f1.core.known i (by rw [hn]; exact hi)), ?_⟩,
        ((Ext.setRes _ _ _).trans f2).trans (Ext.setRes _ _ _)⟩
      intro k hk hF htr
      by_cases hki : k = i
      · subst hki
        rw [setRes_res, if_pos rfl] at htr
        obtain ⟨row, a1, a2, a3, a4, a5⟩ := f1.good k hk hF htr
        refine ⟨row, ?_, ?_, ?_, ?_, ?_⟩
        · rw [setRes_res, if_pos rfl]; exact a1
        · rw [setRes_res, if_pos rfl]; exact a2
        · rw [setRes_res, if_pos rfl]; exact a3
        · rw [setRes_res, if_pos rfl]; exact a4
        · rw [setRes_res, if_pos rfl]; intro hmm
          obtain ⟨p, b1, -⟩ := a5 hmm
          exact ⟨p, b1, fun hh => absurd hh hno⟩
      · have hres : (setRes (track (setRes s i r) i true) i
            { (track (setRes s i r) i true).res i with prev := (track (setRes s i r) i true).time }).res k
            = (track (setRes s i r) i true).res k := by rw [setRes_res, if_neg hki]
        exact (f1.good k hk hF (hres ▸ htr)).mono (Ext.setRes _ _ _) (f1.core.known k hk) hres
    · exact ⟨f1, (Ext.setRes _ _ _).trans f2⟩

theorem decay_fine {i c : ℕ} {t : ℤ} (hi : i < s.n) (hc : c < s.nextC) (h : Inv isnuc eps nt s)
    (hnt : nt → (s.res i).tracked = true → s.time ≤ t) : Fine isnuc eps nt s (decay s i t c) := by
  unfold decay
  cases hw : (s.res i).what with
  | quality q => exact Fine.same h
  | comp c0 =>
    simp only
    have h1 : Part isnuc eps nt (setRes s i { s.res i with prev := t }) (fun k => k = i) :=
      (Part.setRes (r := { s.res i with prev := t }) h (h.core.known i hi)).congr
        (by rintro k - - (hh | hh); exacts [absurd hh id, hh])
    have hri : (setRes s i { s.res i with prev := t }).res i = { s.res i with prev := t } := by
      rw [setRes_res, if_pos rfl]
    have := transmute_fine (s := setRes s i { s.res i with prev := t }) (i := i) (c := c) hi hc h1
      (by rw [hri]; exact hnt) (by rw [hri]; simp [hw, What.mat])
    exact ⟨this.1, (Ext.setRes _ _ _).trans this.2⟩

theorem packageExtract_fine {i : ℕ} {q : ℚ} {g : String} (hi : i < s.n) (h : Inv isnuc eps nt s) :
    Fine isnuc eps nt s (packageExtract eps s i q g) := by
  unfold packageExtract
  simp only
  split
  · exact Fine.same h
  · have hne : i ≠ s.n := ne_of_lt hi
    generalize hr : ({ s.res i with qty := (s.res i).qty - q } : Res) = r
    have h1 : Part isnuc eps nt (setRes s i r) (fun k => k = i) :=
      (Part.setRes h (by rw [← hr]; exact h.core.known i hi)).congr
        (by rintro k - - (hh | hh); exacts [absurd hh id, hh])
    have h2 := h1.allocTrack (w := (s.res i).what) (q := q) (p := (s.res i).prev) (g := g)
      (t := (s.res i).tracked) ((h.core.known i hi).mono (Ext.setRes s i r))
    have hn1 : (setRes s i r).n = s.n := rfl
    rw [hn1] at h2
    have he := (Ext.setRes s i r).trans ((Ext.alloc (setRes s i r) (s.res i).what q (s.res i).prev g
      (s.res i).tracked).trans (Ext.track _ s.n false))
    have hres : ∀ k, (track (alloc (setRes s i r) (s.res i).what q (s.res i).prev g (s.res i).tracked) s.n
        false).res k = (alloc (setRes s i r) (s.res i).what q (s.res i).prev g (s.res i).tracked).res k := by
      intro k
      unfold track
      split
      · exact congrFun (recordNow_res _ _).1 k
      · rfl
    have hri : (track (alloc (setRes s i r) (s.res i).what q (s.res i).prev g (s.res i).tracked) s.n
        false).res i = r := by rw [hres, alloc_res, hn1, if_neg hne, setRes_res, if_pos rfl]
    have hi2 : i < (track (alloc (setRes s i r) (s.res i).what q (s.res i).prev g (s.res i).tracked) s.n
        false).n := lt_of_lt_of_le hi he.n
    split
    · have := track_fine hi2 h2
      exact ⟨this.1, he.trans this.2⟩
    · rename_i hq
      rw [hri] at hq
      refine ⟨?_, he⟩
      have hK : Part isnuc eps nt (setRes s i r) (fun _ => False) :=
        Part.setKeep h (by rw [← hr]; exact h.core.known i hi) (by rw [← hr]) (by rw [← hr]) (by rw [← hr])
          (by rw [← hr]) (by rw [← hr]) (Or.inl (not_lt.1 hq))
      have h3 := hK.allocTrack (w := (s.res i).what) (q := q) (p := (s.res i).prev) (g := g)
        (t := (s.res i).tracked) ((h.core.known i hi).mono (Ext.setRes s i r))
      exact h3

theorem changePackage_fine {i : ℕ} {g : String} (hi : i < s.n) (h : Inv isnuc eps nt s) :
    Fine isnuc eps nt s (changePackage s i g) := by
  have hk := h.core.known i hi
  have keep : Fine isnuc eps nt s (setRes s i { s.res i with pkg := g }) :=
    ⟨Part.setKeep h hk rfl rfl rfl rfl rfl (Or.inr ⟨rfl, rfl⟩), Ext.setRes _ _ _⟩
  have tr : Fine isnuc eps nt s (track (setRes s i { s.res i with pkg := g }) i true) := by
    have := track_fine (s := setRes s i { s.res i with pkg := g }) (i := i) hi
      (keep.1.congr (by rintro k - - hh; exact absurd hh id))
    exact ⟨this.1, keep.2.trans this.2⟩
  unfold changePackage
  simp only
  split
  · exact Fine.same h
  · split
    · split
      · exact keep
      · exact tr
    · split
      · exact Fine.same h
      · exact tr

theorem lookup_append {q q' : String} {k : ℕ} {l : List (String × ℕ)} :
    (l ++ [(q, k)]).lookup q' = (l.lookup q').or (if q' = q then some k else none) := by
  induction l with
  | nil =>
    simp only [List.nil_append, List.lookup]
    by_cases h : q' = q
    · simp [h]
    · simp [h, beq_false_of_ne h]
  | cons e l ih =>
    simp only [List.cons_append, List.lookup]
    split
    · simp
    · exact ih

theorem createProd_fine {q : ℚ} {x g : String} (h : Inv isnuc eps nt s) :
    Fine isnuc eps nt s (createProd s q x g) := by
  unfold createProd
  simp only
  generalize hs1 : (if (s.quals.lookup x).isNone = true then _ else s : St) = s1
  have key : Inv isnuc eps nt s1 ∧ Ext s s1 ∧ Known s1 (.quality x) ∧ s1.n = s.n := by
    rw [← hs1]
    split
    · rename_i hnone
      rw [Option.isNone_iff_eq_none] at hnone
      generalize hs2 : ({ s with quals := s.quals ++ [(x, s.nextQ)], nextQ := s.nextQ + 1, db := { s.db with products := s.db.products ++ [(s.nextQ, x)] } } : St) = s2
      have hext : Ext s s2 := by
        rw [← hs2]
        refine ⟨List.prefix_refl _, List.prefix_refl _, List.prefix_append _ _, List.prefix_refl _, fun _ h => h,
          fun _ _ => rfl, le_rfl, ?_, le_rfl, le_rfl⟩
        intro q k hq
        show (s.quals ++ _).lookup q = _
        rw [lookup_append, hq]; rfl
      refine ⟨⟨?_, ?_⟩, hext, ⟨s.nextQ, ?_⟩, ?_⟩
      · rw [← hs2]
        refine ⟨h.core.rows_lt, h.core.info_lt, h.core.comps, h.core.unrec, h.core.recd, ?_, ?_, ?_, h.core.inv_le⟩
        · intro q k hq
          show (s.db.products ++ _).find? _ = _
          rw [lookup_append] at hq
          cases hl : s.quals.lookup q with
          | some k' =>
            rw [hl] at hq
            simp only [Option.some_or, Option.some.injEq] at hq
            subst hq
            rw [List.find?_append, h.core.quals q k' hl]; rfl
          | none =>
            rw [hl] at hq
            simp only [Option.none_or] at hq
            split at hq
            · rename_i hqx
              simp only [Option.some.injEq] at hq
              subst hq hqx
              exact find_new (by intro y hy; simpa using ne_of_lt (h.core.prod_lt y hy)) (by simp)
            · cases hq
        · intro e he
          rcases List.mem_append.1 he with he | he
          · exact lt_trans (h.core.prod_lt e he) (Nat.lt_succ_self _)
          · rw [List.mem_singleton.1 he]; exact Nat.lt_succ_self _
        · intro k hk
          have hres : s2.res = s.res := by rw [← hs2]
          rw [hs2, hres]
          exact (h.core.known k hk).mono hext
      · intro k hk hF ht
        have hn : s2.n = s.n := by rw [← hs2]
        have hres : s2.res = s.res := by rw [← hs2]
        rw [hn] at hk; rw [hres] at ht
        exact (h.good k hk hF ht).mono hext (h.core.known k hk) (by rw [hres])
      · rw [← hs2]; show (s.quals ++ _).lookup x = _
        rw [lookup_append, hnone]; simp
      · rw [← hs2]
    · rename_i hsome
      refine ⟨h, Ext.refl s, ?_, rfl⟩
      cases hl : s.quals.lookup x with
      | none => simp [hl] at hsome
      | some k => exact ⟨k, hl⟩
  obtain ⟨a, b, c, d⟩ := key
  have := Part.allocTrack a (q := q) (p := 0) (g := g) (t := true) c
  rw [d] at this
  exact ⟨this, b.trans ((Ext.alloc _ _ _ _ _ _).trans (Ext.track _ _ _))⟩

/-- A transmutation or decay that leaves the recorded decay time right. -/
def timely (s : St) : Op → Prop
  | .transmute i _ => (s.res i).tracked = true → s.time ≤ (s.res i).prev
  | .decay i t _ => (s.res i).tracked = true → s.time ≤ t
  | _ => True

theorem step_fine (heps : 0 ≤ eps) (op : Op) (h : Inv isnuc eps nt s) (ht : nt → timely s op) :
    Fine isnuc eps nt s (step isnuc eps s op) := by
  unfold step
  split
  · exact Fine.same h
  · rename_i hok
    have hok' : op.ok s = true := by simpa using hok
    cases op with
    | tick =>
      refine ⟨⟨⟨h.core.rows_lt, h.core.info_lt, h.core.comps, h.core.unrec, h.core.recd, h.core.quals,
        h.core.prod_lt, ?_, ?_⟩, ?_⟩, ?_⟩
      · intro k hk
        have := h.core.known k hk
        show Known _ (s.res k).what
        cases hw : (s.res k).what <;> rw [hw] at this <;> exact this
      · intro r hr
        have := h.core.inv_le r hr
        show r.time ≤ s.time + 1
        omega
      · intro k hk hF htr
        refine (h.good k hk hF htr).mono ?_ (h.core.known k hk) rfl
        exact ⟨List.prefix_refl _, List.prefix_refl _, List.prefix_refl _, List.prefix_refl _, fun _ h => h,
          fun _ _ => rfl, le_rfl, fun _ _ h => h, le_rfl, by show s.time ≤ s.time + 1; omega⟩
      · exact ⟨List.prefix_refl _, List.prefix_refl _, List.prefix_refl _, List.prefix_refl _, fun _ h => h,
          fun _ _ => rfl, le_rfl, fun _ _ h => h, le_rfl, by show s.time ≤ s.time + 1; omega⟩
    | newComp v =>
      simp only [Op.ok, decide_eq_true_eq] at hok'
      simp only
      split
      · rename_i s1 c hm
        obtain ⟨a, b, -⟩ := newComp_part hok' h hm
        exact ⟨a, b⟩
      · exact Fine.same h
    | createMat q c g =>
      simp only [Op.ok, decide_eq_true_eq] at hok'
      exact ⟨Part.allocTrack h hok', (Ext.alloc _ _ _ _ _ _).trans (Ext.track _ _ _)⟩
    | createUntracked q c =>
      simp only [Op.ok, decide_eq_true_eq] at hok'
      refine ⟨(Part.alloc (w := .comp c) h hok').congr ?_, Ext.alloc _ _ _ _ _ _⟩
      rintro k - - (hh | hh)
      · exact hh
      · exact absurd hh.2 (by simp)
    | createProd q x g => exact createProd_fine h
    | extractComp i q c thr =>
      simp only [Op.ok, Bool.and_eq_true, decide_eq_true_eq] at hok'
      exact extractComp_fine hok'.1 hok'.2 h
    | extractProd i q =>
      simp only [Op.ok, decide_eq_true_eq] at hok'
      exact extractProd_fine hok' h
    | absorb i j =>
      simp only [Op.ok, Bool.and_eq_true, decide_eq_true_eq] at hok'
      exact absorb_fine heps hok'.1 hok'.2 h
    | transmute i c =>
      simp only [Op.ok, Bool.and_eq_true, decide_eq_true_eq] at hok'
      simp only
      by_cases hm : (s.res i).what.mat = true
      · exact transmute_fine hok'.1 hok'.2 (h.congr (by rintro k - - hh; exact absurd hh id)) ht hm
      · unfold transmute
        cases hw : (s.res i).what with
        | quality q => exact Fine.same h
        | comp c => rw [hw] at hm; exact absurd rfl hm
    | decay i t c =>
      simp only [Op.ok, Bool.and_eq_true, decide_eq_true_eq] at hok'
      exact decay_fine hok'.1 hok'.2 h ht
    | packageExtract i q g =>
      simp only [Op.ok, decide_eq_true_eq] at hok'
      exact packageExtract_fine hok' h
    | changePackage i g =>
      simp only [Op.ok, decide_eq_true_eq] at hok'
      exact changePackage_fine hok' h
    | snapshot hd =>
      have hext : Ext s { s with db := { s.db with inv := s.db.inv ++ invRows s hd } } :=
        ⟨List.prefix_refl _, List.prefix_refl _, List.prefix_refl _, List.prefix_append _ _, fun _ h => h,
          fun _ _ => rfl, le_rfl, fun _ _ h => h, le_rfl, le_rfl⟩
      refine ⟨⟨⟨h.core.rows_lt, h.core.info_lt, h.core.comps, h.core.unrec, h.core.recd, h.core.quals,
        h.core.prod_lt, ?_, ?_⟩, ?_⟩, hext⟩
      · intro k hk
        exact (h.core.known k hk).mono hext
      · intro r hr
        rcases List.mem_append.1 hr with hr | hr
        · exact h.core.inv_le r hr
        · simp only [invRows, List.mem_flatMap, List.mem_map] at hr
          obtain ⟨a, -, x, -, i, -, rfl⟩ := hr
          exact le_rfl
      · intro k hk hF htr
        exact (h.good k hk hF htr).mono hext (h.core.known k hk) rfl

theorem init_inv : Inv isnuc eps nt init := by
  refine ⟨⟨?_, ?_, ?_, ?_, ?_, ?_, ?_, ?_, ?_⟩, ?_⟩ <;> simp [init, Keys, createFrom, validNucs, allPositive]

end

end Cyclus.Stock
