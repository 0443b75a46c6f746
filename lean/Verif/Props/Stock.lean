import Verif.Lemmas.Stock

/-!
# C104: snapshots and restarts keep the inventories

What an agent holds in its inventories when a snapshot is taken is what it holds after a restart from that
snapshot: under each name the same resources in the same order, each with its quantity, composition or quality,
ids, package and time of the last decay.
-/

namespace Cyclus.Stock.C104

open Cyclus.CompMath (CompMap)

/-! ## Specification -/

/-- The mass of a nuclide. -/
def amount (v : CompMap) (n : ℕ) : ℚ := ((v.filter fun e => e.1 = n).map Prod.snd).sum

/-- The mass of everything. -/
def whole (v : CompMap) : ℚ := (v.map Prod.snd).sum

/-- The first map holds the mass fractions of the second. -/
def Fractions (v w : CompMap) : Prop := ∀ n, amount v n = if whole w = 0 then 0 else amount w n / whole w

/-- The restored resource has the quantity, the ids and the content of the resource. -/
def Restored (s : St) (i : ℕ) (l : Loaded) : Prop :=
  l.qty = (s.res i).qty ∧ l.sid = (s.res i).sid ∧ l.oid = (s.res i).oid ∧
  match (s.res i).what with
  | .comp c => l.qual = c ∧ ∃ v, l.content = .inl v ∧ Fractions v (s.comp c)
  | .quality q => l.content = .inr q ∧ s.quals.lookup q = some l.qual

/-- Materials change their composition only when their decay time is up to date, or by a decay up to the present. -/
def Timely (isnuc : ℕ → Bool) (eps : ℚ) : St → List Op → Prop
  | _, [] => True
  | s, op :: ops =>
    (match op with
      | .transmute i _ => (s.res i).tracked = true → s.time ≤ (s.res i).prev
      | .decay i t _ => (s.res i).tracked = true → s.time ≤ t
      | _ => True) ∧ Timely isnuc eps (step isnuc eps s op) ops

/-- No snapshot before the next time step. -/
def quiet : List Op → Bool
  | [] => true
  | .tick :: _ => true
  | .snapshot _ :: _ => false
  | _ :: ops => quiet ops

/-- No snapshot since the last time step. -/
def quietBefore (ops : List Op) : Bool := quiet ops.reverse

/-- What an agent holds under a name. -/
def held (h : Holdings) (agent : ℕ) (name : String) : List ℕ :=
  h.flatMap fun a => if a.1 = agent then a.2.flatMap fun x => if x.1 = name then x.2 else [] else []

/-! ## Lemmas -/

open Cyclus.CompMath in
theorem amount_eq {v : CompMap} (h : Keys v) (n : ℕ) : amount v n = get v n := by
  rw [← tot_eq_get h]
  unfold amount tot
  induction v with
  | nil => rfl
  | cons e v ih =>
    unfold Keys at h
    rw [List.map_cons, List.nodup_cons] at h
    simp only [List.map_cons, List.sum_cons]
    by_cases hn : e.1 = n
    · rw [List.filter_cons_of_pos (by simpa using hn), List.map_cons, List.sum_cons, ih h.2, if_pos hn]
    · rw [List.filter_cons_of_neg (by simpa using hn), ih h.2, if_neg hn, zero_add]

theorem run_append (isnuc : ℕ → Bool) (eps : ℚ) : ∀ (ops ops' : List Op) (s : St),
    run isnuc eps s (ops ++ ops') = run isnuc eps (run isnuc eps s ops) ops' := by
  intro ops
  induction ops with
  | nil => intro ops' s; rfl
  | cons op ops ih => intro ops' s; exact ih ops' _

theorem run_fine {isnuc : ℕ → Bool} {eps : ℚ} {nt : Prop} (heps : 0 ≤ eps) : ∀ (ops : List Op) (s : St),
    Inv isnuc eps nt s → (nt → Timely isnuc eps s ops) → Fine isnuc eps nt s (run isnuc eps s ops) := by
  intro ops
  induction ops with
  | nil => intro s h _; exact Fine.same h
  | cons op ops ih =>
    intro s h ht
    have h1 := step_fine heps op h (fun hn => by
      have := (ht hn).1
      cases op <;> first | exact this | trivial)
    have h2 := ih _ h1.1 (fun hn => (ht hn).2)
    exact ⟨h2.1, h1.2.trans h2.2⟩

theorem put_new {v : CompMap} {n : ℕ} {x : ℚ} (h : n ∉ v.map Prod.fst) : put v n x = v ++ [(n, x)] := by
  induction v with
  | nil => rfl
  | cons e v ih =>
    simp only [List.map_cons, List.mem_cons, not_or] at h
    simp only [put, if_neg (Ne.symm h.1), ih h.2, List.cons_append]

theorem foldl_put (c : ℕ) : ∀ (w v : CompMap), ((v ++ w).map Prod.fst).Nodup →
    (w.map fun e => (c, e.1, e.2)).foldl (fun cm (e : ℕ × ℕ × ℚ) => put cm e.2.1 e.2.2) v = v ++ w := by
  intro w
  induction w with
  | nil => intro v _; simp
  | cons e w ih =>
    intro v h
    simp only [List.map_cons, List.foldl_cons]
    have hnew : e.1 ∉ v.map Prod.fst := by
      rw [List.map_append, List.map_cons] at h
      intro hm
      exact (List.nodup_append.1 h).2.2 _ hm _ (by simp) rfl
    rw [put_new hnew, ih]
    · simp
    · simpa using h

open Cyclus.CompMath in
theorem createFrom_normalize {isnuc : ℕ → Bool} {v : CompMap} (h : createFrom isnuc v = .ok v) :
    createFrom isnuc (normalize v 1) = .ok (normalize v 1) := by
  obtain ⟨-, hp, hn⟩ := createFrom_ok h
  unfold normalize
  split
  · rename_i hs
    have hpos : 0 ≤ sum v := by
      rw [sum_eq]
      exact List.sum_nonneg (by
        intro x hx
        obtain ⟨e, he, rfl⟩ := List.mem_map.1 hx
        exact allPositive_iff.1 hp e he)
    have h1 : validNucs isnuc (v.map fun e => (e.1, e.2 * (1 / sum v))) = true := by
      simp only [validNucs, List.all_map] at hn ⊢
      exact hn
    have h2 : allPositive (v.map fun e => (e.1, e.2 * (1 / sum v))) = true := by
      rw [allPositive_iff]
      intro e he
      obtain ⟨x, hx, rfl⟩ := List.mem_map.1 he
      exact mul_nonneg (allPositive_iff.1 hp x hx) (div_nonneg zero_le_one hpos)
    unfold createFrom
    rw [h1, h2]; rfl
  · exact h

open Cyclus.CompMath in
theorem fractions_normalize {isnuc : ℕ → Bool} {v : CompMap} (hk : Keys v) (h : createFrom isnuc v = .ok v) :
    Fractions (normalize v 1) v := by
  intro n
  obtain ⟨-, hp, -⟩ := createFrom_ok h
  rw [amount_eq (keys_normalize hk 1), amount_eq hk]
  unfold whole
  rw [← sum_eq]
  split
  · rename_i hs
    rw [normalize_blank hs]; exact get_zero_of_blank hp hs n
  · rename_i hs
    rw [get_normalize hs]; ring

theorem loadComposition_ok {isnuc : ℕ → Bool} {s : St} {c : ℕ} (h : Core isnuc s) (hc : s.recorded c = true) :
    loadComposition isnuc s.db c = .ok (Cyclus.CompMath.normalize (s.comp c) 1) := by
  obtain ⟨hlt, hrows⟩ := h.recd c hc
  obtain ⟨hk, hcf⟩ := h.comps c hlt
  unfold loadComposition
  rw [hrows, foldl_put c _ [] (by simpa [Cyclus.CompMath.Keys] using Cyclus.CompMath.keys_normalize hk 1)]
  exact createFrom_normalize hcf

/-- Reading back one resource at any later time. -/
theorem load_good {isnuc : ℕ → Bool} {eps : ℚ} {nt : Prop} {s s' : St} {i : ℕ} (hc : Core isnuc s)
    (hc' : Core isnuc s') (he : Ext s s') (hi : i < s.n) (hq : eps < (s.res i).qty) (hg : Good eps nt s i) :
    ∃ l, loadResource isnuc s'.db (s.res i).sid = some (.ok l) ∧ Restored s i l ∧
      (nt → (s.res i).what.mat = true → l.prev = (s.res i).prev) := by
  obtain ⟨row, h1, h2, h3, h4, h5⟩ := hg
  obtain ⟨g1, g2, g3⟩ := h4 hq
  have hkn := hc.known i hi
  unfold loadResource
  rw [find_prefix he.rows h1]
  simp only
  cases hw : (s.res i).what with
  | comp c =>
    rw [hw] at h3 h5 hkn g2
    obtain ⟨p, p1, p2⟩ := h5 rfl
    have hm : row.mat = true := h3
    have hq' : row.qual = c := g2
    rw [if_pos hm, find_prefix he.info p1, hq', loadComposition_ok hc' (he.recd c (g3 c hw))]
    refine ⟨_, rfl, ⟨g1, rfl, h2, ?_⟩, fun hn _ => p2 hn⟩
    rw [hw, he.comps c hkn]
    obtain ⟨a, b⟩ := hc.comps c hkn
    exact ⟨rfl, _, rfl, fractions_normalize a b⟩
  | quality q =>
    rw [hw] at h3 hkn g2
    obtain ⟨k, hk⟩ := hkn
    have hm : row.mat = false := h3
    have hq' : row.qual = k := by rw [g2]; simp [qualId, hk]
    rw [if_neg (by simp [hm]), hq', find_prefix he.prods (hc.quals q k hk)]
    refine ⟨_, rfl, ⟨g1, rfl, h2, ?_⟩, fun _ hn => by cases hn⟩
    rw [hw]; exact ⟨rfl, hk⟩

/-! ## Resources -/

/-- Every resource above the resolution can be read back from the tables, at once or at any later time, with its
quantity, ids and content as they were; the time of its last decay too, if compositions were only changed when
it was up to date.  Missing for the full property: the package name is not restored (`C104_fails_package`), the
decay time is wrong after a transmutation (`C104_fails_decay_time`), emptied resources come back full
(`C104_fails_emptied`), and resources that are not tracked cannot be read (`C104_fails_untracked`). -/
theorem C104_resource_partial (isnuc : ℕ → Bool) (eps : ℚ) (heps : 0 ≤ eps) (ops ops' : List Op) (i : ℕ)
    (hi : i < (run isnuc eps init ops).n) (ht : ((run isnuc eps init ops).res i).tracked = true)
    (hq : eps < ((run isnuc eps init ops).res i).qty) :
    ∃ l, loadResource isnuc (run isnuc eps init (ops ++ ops')).db ((run isnuc eps init ops).res i).sid
        = some (.ok l) ∧
      Restored (run isnuc eps init ops) i l ∧
      (Timely isnuc eps init ops → ((run isnuc eps init ops).res i).what.mat = true →
        l.prev = ((run isnuc eps init ops).res i).prev) := by
  have h1 := run_fine (isnuc := isnuc) (eps := eps) (nt := Timely isnuc eps init ops) heps ops init init_inv id
  have h0 := run_fine (isnuc := isnuc) (eps := eps) (nt := False) heps ops' (run isnuc eps init ops)
    (run_fine heps ops init init_inv False.elim).1 False.elim
  rw [run_append]
  exact load_good h1.1.core h0.1.core h0.2 hi hq (h1.1.good i hi id ht)

/-- All nuclides are valid in the examples. -/
def anyNuc : ℕ → Bool := fun _ => true

/-- A material of two nuclides and a product; part of the material is taken and the rest decays. -/
def life : List Op :=
  [.newComp [(92235, 1), (92238, 3)], .createMat 10 1 unpackaged, .createProd 4 "bananas" "crate",
   .extractComp 0 2 1 0, .tick, .newComp [(92235, 1), (92238, 4)], .decay 0 1 2]

example : (run anyNuc (1/1000000) init life).n = 3 ∧ ((run anyNuc (1/1000000) init life).res 0).tracked = true ∧
    ((run anyNuc (1/1000000) init life).res 0).qty = 8 ∧ ((run anyNuc (1/1000000) init life).res 0).sid = 6 ∧
    (loadResource anyNuc (run anyNuc (1/1000000) init life).db 6
      = some (.ok ⟨.inl [(92235, 1/5), (92238, 4/5)], 2, 8, 1, unpackaged, 6, 1⟩)) := by decide +kernel

/-! ## Inventories -/

/-- The inventories' table and the time. -/
def rest (s : St) : List InvRow × ℤ := (s.db.inv, s.time)

theorem step_rest (isnuc : ℕ → Bool) (eps : ℚ) (s : St) (op : Op) (h : ∀ x, op ≠ .snapshot x) (h' : op ≠ .tick) :
    rest (step isnuc eps s op) = rest s := by
  have hrc : ∀ (s : St) c, rest (recordComp s c) = rest s := by
    intro s c; unfold recordComp; split <;> rfl
  have hrec : ∀ (s : St) i b, rest (record s i b) = rest s := by
    intro s i b; unfold record
    cases b <;> simp only [Bool.false_eq_true, if_false, if_true] <;> split <;>
      first | rfl | (rw [hrc]; rfl)
  have htr : ∀ (s : St) i b, rest (track s i b) = rest s := by
    intro s i b; unfold track; split <;> first | exact hrec s i b | rfl
  have hte : ∀ (s : St) i j, rest (trackExtract eps s i j) = rest s := by
    intro s i j; unfold trackExtract; simp only
    split
    · rfl
    · split
      · rw [hrec, hrec]
      · rw [hrec]
  have hnc : ∀ (s s1 : St) v c, newComp isnuc s v = .ok (s1, c) → rest s1 = rest s := by
    intro s s1 v c hh; unfold newComp at hh
    split at hh
    · cases hh
    · cases hh; rfl
  have hfa : ∀ (s : St) i j, rest (finishAbsorb s i j) = rest s := by
    intro s i j; unfold finishAbsorb; rw [htr]; rfl
  have htm : ∀ (s : St) i c, rest (transmute s i c) = rest s := by
    intro s i c; unfold transmute
    split
    · rfl
    · simp only
      split
      · show rest (track _ _ _) = _
        rw [htr]; rfl
      · rw [htr]; rfl
  unfold step
  split
  · rfl
  · cases op with
    | snapshot x => exact absurd rfl (h x)
    | tick => exact absurd rfl h'
    | newComp v =>
      simp only
      split
      · rename_i s1 c hm; exact hnc s s1 v c hm
      · rfl
    | createMat q c g => exact htr _ _ _
    | createUntracked q c => rfl
    | createProd q x g =>
      simp only [createProd]
      rw [htr]
      show rest (if _ then _ else s : St) = _
      split <;> rfl
    | extractComp i q c thr =>
      simp only [extractComp]
      split
      · rfl
      · split
        · rfl
        · split
          · rfl
          · rename_i s1 c1 hm
            rw [hte]
            show rest s1 = _
            split at hm
            · split at hm
              · cases hm
              · exact hnc _ _ _ _ hm
            · cases hm; rfl
    | extractProd i q =>
      simp only [extractProd]
      split
      · rfl
      · split
        · rfl
        · rw [hte]; rfl
    | absorb i j =>
      simp only [absorb]
      split
      · split
        · rfl
        · rename_i s1 c1 hm
          rw [hfa]
          show rest s1 = _
          split at hm
          · exact hnc _ _ _ _ hm
          · cases hm; rfl
      · split
        · rfl
        · exact hfa _ _ _
      · rfl
    | transmute i c => exact htm _ _ _
    | decay i t c =>
      simp only [decay]
      split
      · rfl
      · rw [htm]; rfl
    | packageExtract i q g =>
      simp only [packageExtract]
      split
      · rfl
      · split
        · rw [htr, htr]; rfl
        · rw [htr]; rfl
    | changePackage i g =>
      simp only [changePackage]
      split
      · rfl
      · split
        · split
          · rfl
          · rw [htr]; rfl
        · split
          · rfl
          · rw [htr]; rfl

theorem step_inv (isnuc : ℕ → Bool) (eps : ℚ) (s : St) (op : Op) (h : ∀ x, op ≠ .snapshot x) :
    (step isnuc eps s op).db.inv = s.db.inv := by
  by_cases h' : op = .tick
  · subst h'; rfl
  · exact congrArg Prod.fst (step_rest isnuc eps s op h h')

theorem step_tick (isnuc : ℕ → Bool) (eps : ℚ) (s : St) :
    (step isnuc eps s .tick).time = s.time + 1 ∧ (step isnuc eps s .tick).db.inv = s.db.inv := ⟨rfl, rfl⟩

/-- Rows of later times only. -/
theorem later_rows {isnuc : ℕ → Bool} {eps : ℚ} (heps : 0 ≤ eps) : ∀ (ops : List Op) (s : St) (t : ℤ),
    Inv isnuc eps False s → t < s.time →
    (run isnuc eps s ops).db.inv.filter (fun r => r.time = t) = s.db.inv.filter (fun r => r.time = t) := by
  intro ops
  induction ops with
  | nil => intro s t _ _; rfl
  | cons op ops ih =>
    intro s t h ht
    have h1 := step_fine heps op h False.elim
    show (run isnuc eps (step isnuc eps s op) ops).db.inv.filter _ = _
    rw [ih _ t h1.1 (lt_of_lt_of_le ht h1.2.time)]
    by_cases hop : ∃ x, op = .snapshot x
    · obtain ⟨x, rfl⟩ := hop
      show (s.db.inv ++ invRows s x).filter _ = _
      rw [List.filter_append]
      have : (invRows s x).filter (fun r => decide (r.time = t)) = [] := by
        rw [List.filter_eq_nil_iff]
        intro r hr
        simp only [invRows, List.mem_flatMap, List.mem_map] at hr
        obtain ⟨a, -, y, -, i, -, rfl⟩ := hr
        simpa using ne_of_gt ht
      rw [this, List.append_nil]
    · rw [step_inv isnuc eps s op (fun x hx => hop ⟨x, hx⟩)]

theorem after_rows {isnuc : ℕ → Bool} {eps : ℚ} (heps : 0 ≤ eps) : ∀ (ops : List Op) (s : St),
    Inv isnuc eps False s → quiet ops = true →
    ∀ t ≤ s.time, (run isnuc eps s ops).db.inv.filter (fun r => r.time = t)
      = s.db.inv.filter (fun r => r.time = t) := by
  intro ops
  induction ops with
  | nil => intro s _ _ t _; rfl
  | cons op ops ih =>
    intro s h hq t ht
    have h1 := step_fine heps op h False.elim
    show (run isnuc eps (step isnuc eps s op) ops).db.inv.filter _ = _
    by_cases hop : op = .tick
    · subst hop
      rw [later_rows heps ops _ t h1.1 (by rw [(step_tick isnuc eps s).1]; omega)]
      rfl
    · have hns : ∀ x, op ≠ .snapshot x := by rintro x rfl; simp [quiet] at hq
      have hq' : quiet ops = true := by
        cases op <;> first | exact hq | exact absurd rfl hop | exact absurd rfl (hns _)
      rw [ih _ h1.1 hq' t (ht.trans h1.2.time), step_inv isnuc eps s op hns]

/-- Without a snapshot since the last time step there are no rows of the present. -/
theorem before_rows {isnuc : ℕ → Bool} {eps : ℚ} (heps : 0 ≤ eps) : ∀ (rev : List Op), quiet rev = true →
    (run isnuc eps init rev.reverse).db.inv.filter
      (fun r => r.time = (run isnuc eps init rev.reverse).time) = [] := by
  intro rev
  induction rev with
  | nil => intro _; rfl
  | cons op rev ih =>
    intro hq
    have hinv := (run_fine (isnuc := isnuc) (eps := eps) (nt := False) heps rev.reverse init init_inv
      False.elim).1
    have hrun : run isnuc eps init (op :: rev).reverse
        = step isnuc eps (run isnuc eps init rev.reverse) op := by
      rw [List.reverse_cons, run_append]; rfl
    rw [hrun]
    by_cases hop : op = .tick
    · subst hop
      rw [(step_tick _ _ _).1, (step_tick _ _ _).2, List.filter_eq_nil_iff]
      intro r hr
      have := hinv.core.inv_le r hr
      simp only [decide_eq_true_eq]; omega
    · have hns : ∀ x, op ≠ .snapshot x := by rintro x rfl; simp [quiet] at hq
      have hq' : quiet rev = true := by
        cases op <;> first | exact hq | exact absurd rfl hop | exact absurd rfl (hns _)
      have htime : (step isnuc eps (run isnuc eps init rev.reverse) op).time
          = (run isnuc eps init rev.reverse).time := by
        exact congrArg Prod.snd (step_rest isnuc eps _ op hns hop)
      rw [step_inv _ _ _ _ hns, htime]; exact ih hq'

/-- What an agent holds, as pairs of name and resource. -/
def pairs (h : Holdings) (agent : ℕ) : List (String × ℕ) :=
  h.flatMap fun a => if a.1 = agent then a.2.flatMap fun x => x.2.map fun i => (x.1, i) else []

theorem filter_flatMap' {α β : Type*} (p : β → Bool) (f : α → List β) (l : List α) :
    (l.flatMap f).filter p = l.flatMap fun a => (f a).filter p := by
  induction l with
  | nil => rfl
  | cons a l ih => simp only [List.flatMap_cons, List.filter_append, ih]

theorem pairs_held (h : Holdings) (agent : ℕ) (name : String) :
    ((pairs h agent).filter fun p => p.1 = name).map Prod.snd = held h agent name := by
  unfold pairs held
  rw [filter_flatMap', List.map_flatMap]
  congr 1
  funext a
  split
  · rw [filter_flatMap', List.map_flatMap]
    congr 1
    funext x
    by_cases hx : x.1 = name
    · rw [if_pos hx, List.filter_eq_self.2 (by
        intro p hp; obtain ⟨i, -, rfl⟩ := List.mem_map.1 hp; simpa using hx), List.map_map]
      exact List.map_id _
    · rw [if_neg hx, List.filter_eq_nil_iff.2 (by
        intro p hp; obtain ⟨i, -, rfl⟩ := List.mem_map.1 hp; simpa using hx)]
      rfl
  · rfl

theorem rows_pairs (s : St) (h : Holdings) (agent : ℕ) :
    (invRows s h).filter (fun r => r.agent = agent)
      = (pairs h agent).map fun p => ⟨agent, s.time, p.1, (s.res p.2).sid⟩ := by
  unfold invRows pairs
  rw [filter_flatMap', List.map_flatMap]
  congr 1
  funext a
  split
  · rename_i ha
    rw [filter_flatMap', List.map_flatMap]
    congr 1
    funext x
    rw [List.filter_eq_self.2 (by
      intro p hp; obtain ⟨i, -, rfl⟩ := List.mem_map.1 hp; simpa using ha), List.map_map, ← ha]
    rfl
  · rename_i ha
    rw [List.filter_eq_nil_iff.2 (by
      intro p hp
      simp only [List.mem_flatMap, List.mem_map] at hp
      obtain ⟨x, -, i, -, rfl⟩ := hp
      simpa using ha)]
    rfl

theorem loadRows_ok {isnuc : ℕ → Bool} {db : Db} {agent : ℕ} {t : ℤ} {sid : ℕ → ℕ} {Q : ℕ → Loaded → Prop} :
    ∀ ps : List (String × ℕ), (∀ p ∈ ps, ∃ l, loadResource isnuc db (sid p.2) = some (.ok l) ∧ Q p.2 l) →
    ∃ L, loadRows isnuc db (ps.map fun p => ⟨agent, t, p.1, sid p.2⟩) = some (.ok L) ∧
      List.Forall₂ (fun p e => e.1 = p.1 ∧ Q p.2 e.2) ps L := by
  intro ps
  induction ps with
  | nil => intro _; exact ⟨[], rfl, List.Forall₂.nil⟩
  | cons p ps ih =>
    intro h
    obtain ⟨l, hl, hQ⟩ := h p (by simp)
    obtain ⟨L, hL, hF⟩ := ih (fun q hq => h q (by simp [hq]))
    refine ⟨(p.1, l) :: L, ?_, List.Forall₂.cons ⟨rfl, hQ⟩ hF⟩
    simp only [List.map_cons, loadRows, hl, hL]

theorem forall₂_filter {Q : ℕ → Loaded → Prop} (name : String) : ∀ {ps : List (String × ℕ)}
    {L : List (String × Loaded)}, List.Forall₂ (fun p e => e.1 = p.1 ∧ Q p.2 e.2) ps L →
    List.Forall₂ Q ((ps.filter fun p => p.1 = name).map Prod.snd) (inventory L name) := by
  intro ps L h
  unfold inventory
  induction h with
  | nil => exact List.Forall₂.nil
  | cons h1 _ ih =>
    rename_i p e ps L _
    by_cases hp : p.1 = name
    · rw [List.filter_cons_of_pos (by simpa using hp), List.filter_cons_of_pos (by simpa [h1.1] using hp)]
      exact List.Forall₂.cons h1.2 ih
    · rw [List.filter_cons_of_neg (by simpa using hp), List.filter_cons_of_neg (by simpa [h1.1] using hp)]
      exact ih

/-- Restarting from a snapshot, now or after the simulation has gone on, gives an agent under each name of its
inventories the resources it held when the snapshot was taken, in order, with their quantities, ids and contents
(and decay times, as above), provided they were tracked and above the resolution and only one snapshot was taken
at that time.  Missing for the full property: as in `C104_resource_partial`. -/
theorem C104_inventories_partial (isnuc : ℕ → Bool) (eps : ℚ) (heps : 0 ≤ eps) (ops ops' : List Op) (h : Holdings)
    (agent : ℕ) (hb : quietBefore ops = true) (ha : quiet ops' = true)
    (hh : ∀ name, ∀ i ∈ held h agent name, i < (run isnuc eps init ops).n ∧
      ((run isnuc eps init ops).res i).tracked = true ∧ eps < ((run isnuc eps init ops).res i).qty) :
    ∃ L, loadInventories isnuc (run isnuc eps init (ops ++ .snapshot h :: ops')).db (run isnuc eps init ops).time
        agent = some (.ok L) ∧
      ∀ name, List.Forall₂ (fun i l => Restored (run isnuc eps init ops) i l ∧
        (Timely isnuc eps init ops → ((run isnuc eps init ops).res i).what.mat = true →
          l.prev = ((run isnuc eps init ops).res i).prev)) (held h agent name) (inventory L name) := by
  generalize hs : run isnuc eps init ops = s at *
  have hinv : Inv isnuc eps False s := by
    rw [← hs]; exact (run_fine heps ops init init_inv False.elim).1
  have hsnap := step_fine (isnuc := isnuc) (eps := eps) heps (.snapshot h) hinv False.elim
  have hrow : (run isnuc eps init (ops ++ .snapshot h :: ops')).db.inv.filter (fun r => r.time = s.time)
      = invRows s h := by
    rw [run_append, hs]
    show (run isnuc eps (step isnuc eps s (.snapshot h)) ops').db.inv.filter _ = _
    rw [after_rows heps ops' _ hsnap.1 ha s.time le_rfl]
    show (s.db.inv ++ invRows s h).filter _ = _
    have h0 := before_rows (isnuc := isnuc) (eps := eps) heps ops.reverse hb
    rw [List.reverse_reverse, hs] at h0
    rw [List.filter_append, h0, List.nil_append, List.filter_eq_self]
    intro r hr
    simp only [invRows, List.mem_flatMap, List.mem_map] at hr
    obtain ⟨a, -, y, -, i, -, rfl⟩ := hr
    simp
  have hrows : (run isnuc eps init (ops ++ .snapshot h :: ops')).db.inv.filter
      (fun r => decide (r.time = s.time ∧ r.agent = agent))
      = (pairs h agent).map fun p => ⟨agent, s.time, p.1, (s.res p.2).sid⟩ := by
    rw [← rows_pairs, ← hrow, List.filter_filter]
    congr 1
    funext r
    simp [Bool.and_comm]
  obtain ⟨L, hL, hF⟩ := loadRows_ok (isnuc := isnuc) (db := (run isnuc eps init (ops ++ .snapshot h :: ops')).db)
    (agent := agent) (t := s.time) (sid := fun i => (s.res i).sid)
    (Q := fun i l => Restored s i l ∧ (Timely isnuc eps init ops → (s.res i).what.mat = true →
      l.prev = (s.res i).prev)) (pairs h agent) (by
    intro p hp
    have hm : p.2 ∈ held h agent p.1 := by
      rw [← pairs_held]
      exact List.mem_map.2 ⟨p, List.mem_filter.2 ⟨hp, by simp⟩, rfl⟩
    obtain ⟨a, b, c⟩ := hh _ _ hm
    have := C104_resource_partial isnuc eps heps ops (.snapshot h :: ops') p.2 (by rw [hs]; exact a)
      (by rw [hs]; exact b) (by rw [hs]; exact c)
    rw [hs] at this
    exact this)
  refine ⟨L, ?_, fun name => ?_⟩
  · unfold loadInventories
    rw [hrows]; exact hL
  · rw [← pairs_held]; exact forall₂_filter name hF

/-- A snapshot of an agent with two inventories, after which the simulation goes on. -/
example : quietBefore life = true ∧ quiet [.tick, .transmute 0 1, .snapshot [(7, [("a", [0])])]] = true ∧
    (loadInventories anyNuc (run anyNuc (1/1000000) init (life ++ .snapshot [(7, [("a", [0, 2]), ("b", [1])])] ::
      [.tick, .transmute 0 1, .snapshot [(7, [("a", [0])])]])).db 1 7
    = some (.ok [("a", ⟨.inl [(92235, 1/5), (92238, 4/5)], 2, 8, 1, unpackaged, 6, 1⟩),
        ("a", ⟨.inl [(92235, 1/4), (92238, 3/4)], 1, 2, 0, unpackaged, 4, 3⟩),
        ("b", ⟨.inr "bananas", 1, 4, 0, unpackaged, 2, 2⟩)])) ∧
    ((run anyNuc (1/1000000) init life).res 0).qty = 8 ∧ ((run anyNuc (1/1000000) init life).res 1).qty = 4 ∧
    ((run anyNuc (1/1000000) init life).res 2).qty = 2 := by decide +kernel

/-! ## Where the code does not keep the inventories -/

/-- The package is lost: whatever is restored is unpackaged. -/
theorem C104_fails_package : (∀ isnuc db sid l, loadResource isnuc db sid = some (.ok l) → l.pkg = unpackaged) ∧
    ∃ ops l, ((run anyNuc (1/1000000) init ops).res 0).pkg = "crate" ∧
      loadResource anyNuc (run anyNuc (1/1000000) init ops).db ((run anyNuc (1/1000000) init ops).res 0).sid
        = some (.ok l) ∧ l.pkg ≠ ((run anyNuc (1/1000000) init ops).res 0).pkg := by
  constructor
  · intro isnuc db sid l h
    unfold loadResource at h
    split at h
    · cases h
    · split at h
      · split at h
        · cases h
        · split at h
          · cases h
          · cases h; rfl
      · split at h
        · cases h
        · cases h; rfl
  · exact ⟨[.createProd 4 "bananas" "crate"], ⟨.inr "bananas", 1, 4, 0, unpackaged, 1, 1⟩, by decide +kernel⟩

/-- The decay time recorded with a transmutation is the one before it: a material transmuted at time 5 is
restored as if its composition had last changed at time 0, and will decay for these 5 steps again. -/
theorem C104_fails_decay_time : ∃ ops l, ((run anyNuc (1/1000000) init ops).res 0).prev = 5 ∧
    loadResource anyNuc (run anyNuc (1/1000000) init ops).db ((run anyNuc (1/1000000) init ops).res 0).sid
      = some (.ok l) ∧ l.prev = 0 :=
  ⟨[.newComp [(1, 1)], .newComp [(2, 1)], .createMat 10 1 unpackaged, .tick, .tick, .tick, .tick, .tick,
    .transmute 0 2], ⟨.inl [(2, 1)], 2, 10, 0, unpackaged, 2, 1⟩, by decide +kernel⟩

/-- Resources emptied by an extraction or absorbed into another come back with the quantity they had: 10 kg of
material become 20 kg. -/
theorem C104_fails_emptied :
    (∃ ops l l', ((run anyNuc (1/1000000) init ops).res 0).qty = 0 ∧
      ((run anyNuc (1/1000000) init ops).res 1).qty = 10 ∧
      loadResource anyNuc (run anyNuc (1/1000000) init ops).db ((run anyNuc (1/1000000) init ops).res 0).sid
        = some (.ok l) ∧ l.qty = 10 ∧
      loadResource anyNuc (run anyNuc (1/1000000) init ops).db ((run anyNuc (1/1000000) init ops).res 1).sid
        = some (.ok l') ∧ l'.qty = 10) ∧
    (∃ ops l, ((run anyNuc (1/1000000) init ops).res 1).qty = 0 ∧
      loadResource anyNuc (run anyNuc (1/1000000) init ops).db ((run anyNuc (1/1000000) init ops).res 1).sid
        = some (.ok l) ∧ l.qty = 3) :=
  ⟨⟨[.newComp [(1, 1)], .createMat 10 1 unpackaged, .extractComp 0 10 1 0],
    ⟨.inl [(1, 1)], 1, 10, 0, unpackaged, 1, 1⟩, ⟨.inl [(1, 1)], 1, 10, 0, unpackaged, 3, 2⟩, by decide +kernel⟩,
   ⟨[.newComp [(1, 1)], .createMat 10 1 unpackaged, .createMat 3 1 unpackaged, .absorb 0 1],
    ⟨.inl [(1, 1)], 1, 3, 0, unpackaged, 2, 2⟩, by decide +kernel⟩⟩

/-- A resource that is not tracked has no row, and the restart of an agent that holds it is undefined. -/
theorem C104_fails_untracked : ∃ ops, ((run anyNuc (1/1000000) init ops).res 0).qty = 10 ∧
    loadInventories anyNuc (run anyNuc (1/1000000) init (ops ++ [.snapshot [(7, [("a", [0])])]])).db 0 7 = none :=
  ⟨[.newComp [(1, 1)], .createUntracked 10 1], by decide +kernel⟩

/-- The database of a restarted simulation lacks what was restored: a snapshot of it cannot be restarted from
while an agent holds a resource it had; what is made of a restored composition is read back blank, and a product
of a restored quality not at all. -/
theorem C104_fails_again :
    (∀ isnuc eps old ls h agent, (∃ name, held h agent name ≠ []) →
      loadInventories isnuc (step isnuc eps (restart old ls) (.snapshot h)).db (restart old ls).time agent = none) ∧
    (∃ old ls, (∃ l ∈ ls, l.content = .inl [(1, 1)]) ∧
      loadResource anyNuc (step anyNuc (1/1000000) (restart old ls) (.createMat 2 1 unpackaged)).db old.nextS
        = some (.ok ⟨.inl [], 1, 2, 0, unpackaged, old.nextS, old.nextO⟩)) ∧
    (∃ old ls, (∃ l ∈ ls, l.content = .inr "bananas") ∧
      loadResource anyNuc (step anyNuc (1/1000000) (restart old ls) (.createProd 2 "bananas" unpackaged)).db
        old.nextS = none) := by
  refine ⟨?_, ?_, ?_⟩
  · rintro isnuc eps old ls h agent ⟨name, hname⟩
    unfold loadInventories
    have hrows : (step isnuc eps (restart old ls) (.snapshot h)).db.inv.filter
        (fun r => decide (r.time = (restart old ls).time ∧ r.agent = agent))
        = (pairs h agent).map fun p => ⟨agent, (restart old ls).time, p.1, ((restart old ls).res p.2).sid⟩ := by
      rw [← rows_pairs]
      show (invRows (restart old ls) h).filter _ = _
      apply List.filter_congr
      intro r hr
      simp only [invRows, List.mem_flatMap, List.mem_map] at hr
      obtain ⟨a, -, y, -, i, -, rfl⟩ := hr
      simp
    rw [hrows]
    cases hp : pairs h agent with
    | nil =>
      exfalso; apply hname
      rw [← pairs_held, hp]; rfl
    | cons p ps => rfl
  · exact ⟨run anyNuc (1/1000000) init [.newComp [(1, 1)], .createMat 10 1 unpackaged],
      [⟨.inl [(1, 1)], 1, 10, 0, unpackaged, 1, 1⟩], by decide +kernel⟩
  · exact ⟨run anyNuc (1/1000000) init [.createProd 10 "bananas" unpackaged],
      [⟨.inr "bananas", 1, 10, 0, unpackaged, 1, 1⟩], by decide +kernel⟩

end Cyclus.Stock.C104
