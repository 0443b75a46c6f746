import Verif.Spec.Decayer
import Verif.Lemmas.UniformTaylor
import Mathlib.Data.List.Nodup

/-!
# Lemmas about `Decayer`
-/

namespace Cyclus.Decayer

open Cyclus.LMat Real

theorem lookup_put {β : Type} (l : List (ℕ × β)) (k : ℕ) (v : β) (k' : ℕ) :
    (put l k v).lookup k' = if k' = k then some v else l.lookup k' := by
  unfold put
  induction l with
  | nil =>
    simp only [List.filter_nil, List.nil_append, List.lookup_cons, List.lookup_nil]
    by_cases h : k' = k
    · simp [h]
    · have : (k' == k) = false := by simpa using h
      simp [h, this]
  | cons e l ih =>
    obtain ⟨a, b⟩ := e
    by_cases hak : a = k
    · subst hak
      rw [List.filter_cons_of_neg (by simp), ih]
      by_cases h : k' = a
      · simp [h]
      · have : (k' == a) = false := by simpa using h
        simp [h, List.lookup_cons, this]
    · rw [List.filter_cons_of_pos (by simpa using hak), List.cons_append, List.lookup_cons, ih,
        List.lookup_cons]
      by_cases h : k' = a
      · subst h
        simp [hak]
      · have : (k' == a) = false := by simpa using h
        simp [this]

theorem put_new {β : Type} {l : List (ℕ × β)} {k : ℕ} {v : β} (h : k ∉ l.map Prod.fst) :
    put l k v = l ++ [(k, v)] := by
  unfold put
  rw [List.filter_eq_self.mpr]
  intro e he
  simp only [ne_eq, decide_not, Bool.not_eq_eq_eq_not, Bool.not_true, decide_eq_false_iff_not]
  intro hk
  exact h (hk ▸ List.mem_map_of_mem (f := Prod.fst) he)

theorem idxOf_append_old {l : List ℕ} {a b : ℕ} (h : a ∈ l) :
    (l ++ [b]).idxOf a = l.idxOf a := List.idxOf_append_of_mem h

theorem tables_init (d : Data) (P : List ℕ) : Tables d P Static.init where
  nodup := List.nodup_nil
  size := rfl
  keys := rfl
  parent := by intro _ h; simp [Static.init] at h
  closed := by intro _ h; simp [Static.init] at h
  daughters := by intro _ h; simp [Static.init] at h

/-- The list of the tracked nuclides grows at its end, by nuclides that `nuc` decays into. -/
inductive Reach (d : Data) (nuc : ℕ) : ℕ → Prop
  | self : Reach d nuc nuc
  | step {a b : ℕ} : Reach d nuc a → b ∈ d.kids a → Reach d nuc b

theorem Reach.head {d : Data} {a b c : ℕ} (h : b ∈ d.kids a) (h' : Reach d b c) : Reach d a c := by
  induction h' with
  | self => exact .step .self h
  | step _ hk ih => exact .step ih hk

/-- The effect of adding nuclides. -/
structure Grows (d : Data) (from_ : List ℕ) (s s' : Static) : Prop where
  ext : ∃ e, s'.tracked = s.tracked ++ e ∧ ∀ a ∈ e, ∃ b ∈ from_, Reach d b a
  matrix : s'.matrix = s.matrix

theorem Grows.mem {d : Data} {f : List ℕ} {s s' : Static} (h : Grows d f s s') {a : ℕ}
    (ha : a ∈ s.tracked) : a ∈ s'.tracked := by
  obtain ⟨e, he, _⟩ := h.ext
  rw [he]
  exact List.mem_append_left _ ha

theorem Grows.column {d : Data} {f : List ℕ} {s s' : Static} (h : Grows d f s s') {a : ℕ}
    (ha : a ∈ s.tracked) : column s' a = column s a := by
  obtain ⟨e, he, _⟩ := h.ext
  unfold Decayer.column
  rw [he, List.idxOf_append_of_mem ha]

theorem Grows.refl (d : Data) (f : List ℕ) (s : Static) : Grows d f s s :=
  ⟨⟨[], by simp, by simp⟩, rfl⟩

theorem Grows.trans {d : Data} {f g h : List ℕ} {s t u : Static} (h1 : Grows d f s t)
    (h2 : Grows d g t u) (hf : ∀ a ∈ f, a ∈ h) (hg : ∀ a ∈ g, a ∈ h) : Grows d h s u := by
  obtain ⟨e, he, re⟩ := h1.ext
  obtain ⟨e', he', re'⟩ := h2.ext
  refine ⟨⟨e ++ e', by rw [he', he, List.append_assoc], ?_⟩, h2.matrix.trans h1.matrix⟩
  intro a ha
  rcases List.mem_append.mp ha with ha | ha
  · obtain ⟨b, hb, hr⟩ := re a ha
    exact ⟨b, hf b hb, hr⟩
  · obtain ⟨b, hb, hr⟩ := re' a ha
    exact ⟨b, hg b hb, hr⟩

theorem tables_addParent {d : Data} {P : List ℕ} {s : Static} (h : Tables d P s) {nuc : ℕ}
    (hn : nuc ∉ s.tracked) :
    Tables d (nuc :: P) (addParent d s nuc) := by
  have hk : nuc ∉ s.parent.map Prod.fst := by rw [h.keys]; exact hn
  have hcol : ∀ a ∈ s.tracked, column (addParent d s nuc) a = column s a := by
    intro a ha
    unfold column addParent
    simp only [List.idxOf_append_of_mem ha]
  refine ⟨?_, ?_, ?_, ?_, ?_, ?_⟩
  · unfold addParent
    simp only
    rw [List.nodup_append]
    refine ⟨h.nodup, by simp, ?_⟩
    intro a ha b hb
    rw [List.mem_singleton] at hb
    rintro rfl
    exact hn (hb ▸ ha)
  · unfold addParent
    simp [put_new hk, h.size]
  · unfold addParent
    simp [put_new hk, h.keys]
  · intro a ha
    have : (addParent d s nuc).parent.lookup a =
        if a = nuc then some (s.parent.length + 1, d.lam nuc) else s.parent.lookup a :=
      lookup_put _ _ _ _
    rw [this]
    by_cases e : a = nuc
    · subst e
      rw [if_pos rfl, h.size]
      unfold column addParent
      simp only
      rw [List.idxOf_append_of_notMem hn]
      simp
    · rw [if_neg e]
      have ha' : a ∈ s.tracked := by
        have : a ∈ s.tracked ++ [nuc] := ha
        rcases List.mem_append.mp this with h1 | h1
        · exact h1
        · exact absurd (List.mem_singleton.mp h1) e
      rw [hcol a ha', h.parent a ha']
  · intro a ha hP k hk'
    rw [List.mem_cons, not_or] at hP
    have ha' : a ∈ s.tracked := by
      have : a ∈ s.tracked ++ [nuc] := ha
      rcases List.mem_append.mp this with h1 | h1
      · exact h1
      · exact absurd (List.mem_singleton.mp h1) hP.1
    exact List.mem_append_left _ (h.closed a ha' hP.2 k hk')
  · intro a ha hP
    rw [List.mem_cons, not_or] at hP
    have ha' : a ∈ s.tracked := by
      have : a ∈ s.tracked ++ [nuc] := ha
      rcases List.mem_append.mp this with h1 | h1
      · exact h1
      · exact absurd (List.mem_singleton.mp h1) hP.1
    rw [hcol a ha']
    exact h.daughters a ha' hP.2

theorem column_inj {s : Static} {a b : ℕ} (ha : a ∈ s.tracked)
    (h : column s a = column s b) : a = b := by
  unfold column at h
  exact (List.idxOf_inj ha).mp (by omega)

theorem tables_addDaughters {d : Data} {P : List ℕ} {s : Static} {nuc : ℕ}
    (h : Tables d (nuc :: P) s) (hn : nuc ∈ s.tracked) (hk : ∀ k ∈ d.kids nuc, k ∈ s.tracked) :
    Tables d P (addDaughters d s (column s nuc) nuc) := by
  refine ⟨h.nodup, h.size, h.keys, h.parent, ?_, ?_⟩
  · intro a ha hP
    by_cases e : a = nuc
    · subst e
      exact hk
    · exact h.closed a ha (by simp [e, hP])
  · intro a ha hP
    change a ∈ s.tracked at ha
    have : (addDaughters d s (column s nuc) nuc).daughters.lookup (column s a) =
        if column s a = column s nuc then some ((d.kids nuc).map fun k => (k, d.br nuc k))
        else s.daughters.lookup (column s a) := lookup_put _ _ _ _
    have e' : column (addDaughters d s (column s nuc) nuc) a = column s a := rfl
    rw [e', this]
    by_cases e : a = nuc
    · subst e
      rw [if_pos rfl]
    · rw [if_neg fun hc => e (column_inj ha hc)]
      exact h.daughters a ha (by simp [e, hP])

/-- What `AddNucToMaps` does. -/
theorem addNuc_spec (d : Data) : ∀ (fuel : ℕ) (P : List ℕ) (s s' : Static) (nuc : ℕ),
    Tables d P s → addNuc d fuel s nuc = some s' →
      Tables d P s' ∧ Grows d [nuc] s s' ∧ nuc ∈ s'.tracked
  | 0, _, _, _, _, _, h => by simp [addNuc] at h
  | fuel + 1, P, s, s', nuc, hT, h => by
    unfold addNuc at h
    by_cases hn : nuc ∈ s.tracked
    · rw [if_pos hn] at h
      cases h
      exact ⟨hT, Grows.refl _ _ _, hn⟩
    · rw [if_neg hn] at h
      have fold : ∀ (ks : List ℕ) (u u' : Static), Tables d (nuc :: P) u →
          ks.foldlM (addNuc d fuel) u = some u' →
          Tables d (nuc :: P) u' ∧ Grows d ks u u' ∧ ∀ k ∈ ks, k ∈ u'.tracked := by
        intro ks
        induction ks with
        | nil =>
          intro u u' hu hf
          cases hf
          exact ⟨hu, Grows.refl _ _ _, by simp⟩
        | cons k ks ih =>
          intro u u' hu hf
          rw [List.foldlM_cons] at hf
          cases h1 : addNuc d fuel u k with
          | none => rw [h1] at hf; cases hf
          | some v =>
            rw [h1] at hf
            obtain ⟨t1, g1, m1⟩ := addNuc_spec d fuel (nuc :: P) u v k hu h1
            obtain ⟨t2, g2, m2⟩ := ih v u' t1 hf
            refine ⟨t2, g1.trans g2 (by simp) (fun a ha => List.mem_cons_of_mem _ ha), ?_⟩
            intro a ha
            rcases List.mem_cons.mp ha with rfl | ha
            · exact g2.mem m1
            · exact m2 a ha
      cases h1 : (d.kids nuc).foldlM (addNuc d fuel) (addParent d s nuc) with
      | none => rw [h1] at h; cases h
      | some u =>
        rw [h1] at h
        simp only [Option.some.injEq] at h
        obtain ⟨t1, g1, m1⟩ := fold _ _ _ (tables_addParent hT hn) h1
        have hnp : nuc ∈ (addParent d s nuc).tracked := by simp [addParent]
        have hc : s.parent.length + 1 = column u nuc := by
          rw [g1.column hnp, hT.size]
          unfold column addParent
          simp only
          rw [List.idxOf_append_of_notMem hn]
          simp
        rw [hc] at h
        subst h
        refine ⟨tables_addDaughters t1 (g1.mem hnp) m1, ?_, g1.mem hnp⟩
        obtain ⟨e, he, re⟩ := g1.ext
        refine ⟨⟨nuc :: e, ?_, ?_⟩, g1.matrix⟩
        · change u.tracked = _
          rw [he]
          simp [addParent]
        · intro a ha
          refine ⟨nuc, by simp, ?_⟩
          rcases List.mem_cons.mp ha with rfl | ha
          · exact .self
          · obtain ⟨b, hb, hr⟩ := re a ha
            exact hr.head hb

/-- Enough fuel: the nuclides of a finite list that is closed under decay. -/
theorem addNuc_total (d : Data) (U : List ℕ) (hU : ∀ a ∈ U, ∀ k ∈ d.kids a, k ∈ U) :
    ∀ (fuel : ℕ) (s : Static) (P : List ℕ) (nuc : ℕ), Tables d P s → nuc ∈ U →
      (U.filter (fun a => a ∉ s.tracked)).length < fuel → ∃ s', addNuc d fuel s nuc = some s'
  | 0, _, _, _, _, _, h => by omega
  | fuel + 1, s, P, nuc, hT, hn, hf => by
    unfold addNuc
    by_cases hm : nuc ∈ s.tracked
    · exact ⟨s, if_pos hm⟩
    · rw [if_neg hm]
      have fold : ∀ (ks : List ℕ) (u : Static), (∀ k ∈ ks, k ∈ U) → Tables d (nuc :: P) u →
          (U.filter (fun a => a ∉ u.tracked)).length < fuel →
          ∃ u', ks.foldlM (addNuc d fuel) u = some u' := by
        intro ks
        induction ks with
        | nil => intro u _ _ _; exact ⟨u, rfl⟩
        | cons k ks ih =>
          intro u hks hu hl
          obtain ⟨v, hv⟩ := addNuc_total d U hU fuel u _ k hu (hks k (by simp)) hl
          obtain ⟨t1, g1, _⟩ := addNuc_spec d fuel _ u v k hu hv
          have hlen : (U.filter (fun a => a ∉ v.tracked)).length ≤
              (U.filter (fun a => a ∉ u.tracked)).length := by
            apply List.Sublist.length_le
            apply List.monotone_filter_right
            intro a ha
            simp only [decide_eq_true_eq] at ha ⊢
            exact fun h => ha (g1.mem h)
          obtain ⟨u', hu'⟩ := ih v (fun a ha => hks a (List.mem_cons_of_mem _ ha)) t1 (by omega)
          refine ⟨u', ?_⟩
          rw [List.foldlM_cons, hv]
          exact hu'
      have hlt : (U.filter (fun a => a ∉ (addParent d s nuc).tracked)).length <
          (U.filter (fun a => a ∉ s.tracked)).length := by
        have e : (U.filter (fun a => a ∉ (addParent d s nuc).tracked)) =
            (U.filter (fun a => a ∉ s.tracked)).filter (fun a => a ≠ nuc) := by
          rw [List.filter_filter]
          apply List.filter_congr
          intro a _
          simp [addParent, not_or, and_comm]
        rw [e]
        apply List.length_filter_lt_length_iff_exists.mpr
        exact ⟨nuc, by simp [hn, hm], by simp⟩
      obtain ⟨u, hu⟩ := fold (d.kids nuc) _ (hU nuc hn) (tables_addParent hT hm) (by omega)
      exact ⟨_, by rw [hu]⟩

/-- `M` has the rows and columns of the tracked nuclides and the elements `f`. -/
def NucMatrix (s : Static) (M : LMatrix ℝ) (f : ℕ → ℕ → ℝ) : Prop :=
  Denotes M (fun i j : Fin s.tracked.length => f s.tracked[i] s.tracked[j])

/-- `V` has the rows of the tracked nuclides and the elements `g`. -/
def NucVec (s : Static) (V : LMatrix ℝ) (g : ℕ → ℝ) : Prop :=
  IsVec V (fun i : Fin s.tracked.length => g s.tracked[i])

theorem idx_iff {l : List ℕ} (hl : l.Nodup) {a : ℕ} (ha : a ∈ l) (i : Fin l.length) :
    i = ⟨l.idxOf a, List.idxOf_lt_length_iff.mpr ha⟩ ↔ l[i] = a := by
  constructor
  · rintro rfl
    simp
  · intro h
    subst h
    apply Fin.ext
    simp only [Fin.getElem_fin]
    exact (hl.idxOf_getElem i.1 i.2).symm

theorem NucMatrix.set {s : Static} {M : LMatrix ℝ} {f : ℕ → ℕ → ℝ} (hs : s.tracked.Nodup)
    (h : NucMatrix s M f) {a b : ℕ} (ha : a ∈ s.tracked) (hb : b ∈ s.tracked) (v : ℝ) :
    ∃ M', M.setElement (column s a) (column s b) v = some M' ∧
      NucMatrix s M' (fun x y => if x = a ∧ y = b then v else f x y) := by
  obtain ⟨M', h1, h2⟩ := denotes_set h ⟨s.tracked.idxOf a, List.idxOf_lt_length_iff.mpr ha⟩
    ⟨s.tracked.idxOf b, List.idxOf_lt_length_iff.mpr hb⟩ v
  refine ⟨M', h1, ?_⟩
  simp only [idx_iff hs ha, idx_iff hs hb] at h2
  exact h2

theorem NucMatrix.congr {s : Static} {M : LMatrix ℝ} {f g : ℕ → ℕ → ℝ} (h : NucMatrix s M f)
    (hfg : ∀ x ∈ s.tracked, ∀ y ∈ s.tracked, f x y = g x y) : NucMatrix s M g := by
  have e : (fun i j : Fin s.tracked.length => f s.tracked[i] s.tracked[j]) =
      fun i j : Fin s.tracked.length => g s.tracked[i] s.tracked[j] := by
    funext i j
    exact hfg _ (List.getElem_mem _) _ (List.getElem_mem _)
  unfold NucMatrix at h ⊢
  rw [← e]
  exact h

theorem NucVec.set {s : Static} {V : LMatrix ℝ} {g : ℕ → ℝ} (hs : s.tracked.Nodup)
    (h : NucVec s V g) {a : ℕ} (ha : a ∈ s.tracked) (v : ℝ) :
    ∃ V', V.setElement (column s a) 1 v = some V' ∧
      NucVec s V' (fun x => if x = a then v else g x) := by
  obtain ⟨V', h1, h2⟩ := denotes_set h ⟨s.tracked.idxOf a, List.idxOf_lt_length_iff.mpr ha⟩
    (0 : Fin 1) v
  refine ⟨V', h1, ?_⟩
  simp only [idx_iff hs ha] at h2
  have e : (fun (i : Fin s.tracked.length) (b : Fin 1) =>
      if s.tracked[i] = a ∧ b = 0 then v else colOf (fun i => g s.tracked[i]) i b) =
      colOf (fun i : Fin s.tracked.length => if s.tracked[i] = a then v else g s.tracked[i]) := by
    funext i b
    have : b = 0 := Subsingleton.elim _ _
    subst this
    simp [colOf]
  rw [e] at h2
  exact h2

theorem buildCells {d : Data} {s : Static} (hT : Tables d [] s) {b : ℕ} (hb : b ∈ s.tracked)
    (lam : ℝ) : ∀ (ks : List ℕ), (∀ k ∈ ks, k ∈ s.tracked) → ∀ (M : LMatrix ℝ) (f : ℕ → ℕ → ℝ),
      NucMatrix s M f →
      ∃ M', (ks.map fun k => (k, d.br b k)).foldlM (buildCell s (column s b) lam) M = some M' ∧
        NucMatrix s M' (fun x y => if y = b ∧ x ∈ ks then d.br b x * lam else f x y)
  | [], _, M, f, h => ⟨M, rfl, by simpa using h⟩
  | k :: ks, hk, M, f, h => by
    have hk0 := hk k (by simp)
    obtain ⟨M1, h1, n1⟩ := h.set hT.nodup hk0 hb (d.br b k * lam)
    obtain ⟨M2, h2, n2⟩ := buildCells hT hb lam ks
      (fun a ha => hk a (List.mem_cons_of_mem _ ha)) M1 _ n1
    refine ⟨M2, ?_, n2.congr fun x _ y _ => ?_⟩
    · rw [List.map_cons, List.foldlM_cons]
      have : buildCell s (column s b) lam M (k, d.br b k) = some M1 := by
        simp only [buildCell, hT.parent k hk0, h1]
      rw [this]
      exact h2
    · by_cases hy : y = b
      · subst hy
        by_cases hx : x ∈ ks
        · simp [hx]
        · by_cases hxk : x = k
          · subst hxk
            simp [hx]
          · simp [hx, hxk]
      · simp [hy]

theorem buildCol_spec {d : Data} {z : ℝ → Bool} {s : Static} (hT : Tables d [] s)
    (hself : ∀ a, a ∉ d.kids a) {b : ℕ} (hb : b ∈ s.tracked) {M : LMatrix ℝ} {f : ℕ → ℕ → ℝ}
    (h : NucMatrix s M f) (hf : ∀ x ∈ s.tracked, f x b = 0) :
    ∃ M', buildCol z s M (b, column s b, d.lam b) = some M' ∧
      NucMatrix s M' (fun x y => if y = b then rate d z x b else f x y) := by
  obtain ⟨M1, h1, n1⟩ := h.set hT.nodup hb hb (-1 * effective z (d.lam b))
  obtain ⟨M2, h2, n2⟩ := buildCells hT hb (effective z (d.lam b)) (d.kids b)
    (hT.closed b hb (by simp)) M1 _ n1
  refine ⟨M2, ?_, n2.congr fun x hx y _ => ?_⟩
  · simp only [buildCol, h1, hT.daughters b hb (by simp), h2]
  · by_cases hy : y = b
    · subst hy
      by_cases hxb : x = y
      · subst hxb
        simp [hself, rate]
      · by_cases hk : x ∈ d.kids y
        · simp [hxb, hk, rate]
        · simp [hxb, hk, rate, hf x hx]
    · simp [hy]

theorem buildAll {d : Data} {z : ℝ → Bool} {s : Static} (hT : Tables d [] s)
    (hself : ∀ a, a ∉ d.kids a) : ∀ (L : List ℕ), L.Nodup → (∀ b ∈ L, b ∈ s.tracked) →
      ∀ (M : LMatrix ℝ) (f : ℕ → ℕ → ℝ), NucMatrix s M f →
      (∀ b ∈ L, ∀ x ∈ s.tracked, f x b = 0) →
      ∃ M', (L.map fun b => (b, column s b, d.lam b)).foldlM (buildCol z s) M = some M' ∧
        NucMatrix s M' (fun x y => if y ∈ L then rate d z x y else f x y)
  | [], _, _, M, f, h, _ => ⟨M, rfl, by simpa using h⟩
  | b :: L, hn, hL, M, f, h, hf => by
    obtain ⟨M1, h1, n1⟩ := buildCol_spec (z := z) hT hself (hL b (by simp)) h (hf b (by simp))
    rw [List.nodup_cons] at hn
    obtain ⟨M2, h2, n2⟩ := buildAll hT hself L hn.2
      (fun a ha => hL a (List.mem_cons_of_mem _ ha)) M1 _ n1
      (by
        intro c hc x hx
        have : c ≠ b := fun e => hn.1 (e ▸ hc)
        simp only [this, if_false]
        exact hf c (List.mem_cons_of_mem _ hc) x hx)
    refine ⟨M2, ?_, n2.congr fun x _ y _ => ?_⟩
    · rw [List.map_cons, List.foldlM_cons, h1]
      exact h2
    · by_cases hy : y ∈ L
      · simp [hy]
      · by_cases hyb : y = b
        · subst hyb
          simp [hy]
        · simp [hy, hyb]

/-- The entries of the table of parents. -/
theorem parent_eq {d : Data} {P : List ℕ} {s : Static} (hT : Tables d P s) :
    s.parent = s.tracked.map fun b => (b, column s b, d.lam b) := by
  have hnd : (s.parent.map Prod.fst).Nodup := by rw [hT.keys]; exact hT.nodup
  have look : ∀ e ∈ s.parent, s.parent.lookup e.1 = some e.2 := by
    intro e he
    generalize s.parent = l at hnd he
    induction l with
    | nil => simp at he
    | cons x l ih =>
      obtain ⟨a, v⟩ := x
      rw [List.map_cons, List.nodup_cons] at hnd
      rcases List.mem_cons.mp he with rfl | he
      · simp
      · have hne : (e.1 == a) = false := by
          simp only [beq_eq_false_iff_ne, ne_eq]
          intro h
          exact hnd.1 (List.mem_map.mpr ⟨e, he, h⟩)
        rw [List.lookup_cons, hne]
        exact ih hnd.2 he
  have e1 : s.parent = s.parent.map fun e => (e.1, column s e.1, d.lam e.1) := by
    conv_lhs => rw [← List.map_id s.parent]
    apply List.map_congr_left
    intro e he
    have hmem : e.1 ∈ s.tracked := by
      rw [← hT.keys]
      exact List.mem_map_of_mem (f := Prod.fst) he
    have := (look e he).symm.trans (hT.parent e.1 hmem)
    simp only [Option.some.injEq] at this
    exact Prod.ext rfl this
  conv_lhs => rw [e1]
  rw [← hT.keys, List.map_map]
  rfl

/-- An order of the table of parents is an order of the nuclides. -/
theorem ord_eq {d : Data} {P : List ℕ} {s : Static} (hT : Tables d P s)
    {ord : List Entry → List Entry} (hord : ∀ l, (ord l).Perm l) :
    ∃ L : List ℕ, L.Perm s.tracked ∧ ord s.parent = L.map fun b => (b, column s b, d.lam b) := by
  have hp := hord s.parent
  refine ⟨(ord s.parent).map Prod.fst, ?_, ?_⟩
  · have := hp.map Prod.fst
    rwa [hT.keys] at this
  · rw [List.map_map]
    conv_lhs => rw [← List.map_id (ord s.parent)]
    apply List.map_congr_left
    intro e he
    have he' : e ∈ s.parent := hp.mem_iff.mp he
    rw [parent_eq hT] at he'
    obtain ⟨b, _, rfl⟩ := List.mem_map.mp he'
    rfl

theorem nuc_zeros (s : Static) :
    NucMatrix s (zeros s.tracked.length s.tracked.length) (fun _ _ => 0) :=
  denotes_zeros _ _

theorem nucVec_zeros (s : Static) : NucVec s (zeros s.tracked.length 1) (fun _ => 0) :=
  denotes_zeros _ _

theorem build_spec {d : Data} {z : ℝ → Bool} {ord : List Entry → List Entry} {s : Static}
    (hT : Tables d [] s) (hself : ∀ a, a ∉ d.kids a) (hord : ∀ l, (ord l).Perm l) :
    ∃ M, build z ord s = some { s with matrix := M } ∧ Denotes M (decayMatrix d z s) := by
  obtain ⟨L, hL, e⟩ := ord_eq hT hord
  obtain ⟨M, h1, n1⟩ := buildAll (z := z) hT hself L (hL.nodup_iff.mpr hT.nodup)
    (fun b hb => hL.mem_iff.mp hb) _ _ (nuc_zeros s) (fun _ _ _ _ => rfl)
  refine ⟨M, ?_, ?_⟩
  · unfold build
    rw [e, hT.size, h1]
  · exact n1.congr (g := rate d z) fun x _ y hy => if_pos (hL.mem_iff.mpr hy)

theorem fill_spec {d : Data} {s : Static} (hT : Tables d [] s) : ∀ (comp : List (ℕ × ℝ)),
    (comp.map Prod.fst).Nodup → (∀ e ∈ comp, e.1 ∈ s.tracked) → ∀ (V : LMatrix ℝ) (g : ℕ → ℝ),
      NucVec s V g → ∃ V', comp.foldlM (fillCell s) V = some V' ∧
        NucVec s V' (fun x => (comp.lookup x).getD (g x))
  | [], _, _, V, g, h => ⟨V, rfl, by simpa using h⟩
  | (a, v) :: comp, hn, hc, V, g, h => by
    have ha := hc (a, v) (by simp)
    obtain ⟨V1, h1, n1⟩ := h.set hT.nodup ha v
    rw [List.map_cons, List.nodup_cons] at hn
    obtain ⟨V2, h2, n2⟩ := fill_spec hT comp hn.2 (fun e he => hc e (List.mem_cons_of_mem _ he))
      V1 _ n1
    refine ⟨V2, ?_, ?_⟩
    · rw [List.foldlM_cons]
      have : fillCell s V (a, v) = some V1 := by
        simp only [fillCell, hT.parent a ha, h1]
      rw [this]
      exact h2
    · have e : (fun x => (comp.lookup x).getD (if x = a then v else g x)) =
          fun x => (((a, v) :: comp).lookup x).getD (g x) := by
        funext x
        rw [List.lookup_cons]
        by_cases hx : x = a
        · subst hx
          have : comp.lookup x = none := by
            rw [List.lookup_eq_none_iff]
            intro p hp
            simp only [ne_eq, bne_iff_ne]
            intro h
            exact hn.1 (List.mem_map.mpr ⟨p, hp, h.symm⟩)
          simp [this]
        · have hx' : (x == a) = false := by simpa using hx
          simp [hx, hx']
      rw [← e]
      exact n2

theorem result_fold {d : Data} {s : Static} (hT : Tables d [] s) {i : Inst} {y : ℕ → ℝ}
    (hi : NucVec s i.post y) : ∀ (L : List ℕ), (∀ b ∈ L, b ∈ s.tracked) → ∀ comp : ℕ → Option ℝ,
      ∃ out, (L.map fun b => (b, column s b, d.lam b)).foldlM (resultStep i) comp = some out ∧
        ∀ x, out x = if x ∈ L ∧ 0 < y x then some (y x) else comp x
  | [], _, comp => ⟨comp, rfl, by simp⟩
  | b :: L, hL, comp => by
    have hb := hL b (by simp)
    have hlt := List.idxOf_lt_length_iff.mpr hb
    have hget : i.post.get (column s b) 1 = some (y b) := by
      have := denotes_get hi ⟨s.tracked.idxOf b, hlt⟩ (0 : Fin 1)
      simpa [colOf, column] using this
    have hle : column s b ≤ i.post.rows := by
      rw [hi.1]
      exact hlt
    have hstep : resultStep i comp (b, column s b, d.lam b) =
        some (if y b > 0 then Function.update comp b (some (y b)) else comp) := by
      simp only [resultStep, hle, if_true, hget]
    obtain ⟨out, h1, h2⟩ := result_fold hT hi L (fun a ha => hL a (List.mem_cons_of_mem _ ha))
      (if y b > 0 then Function.update comp b (some (y b)) else comp)
    refine ⟨out, ?_, ?_⟩
    · rw [List.map_cons, List.foldlM_cons, hstep]
      exact h1
    · intro x
      rw [h2 x]
      by_cases hx : x ∈ L ∧ 0 < y x
      · simp [hx]
      · rw [if_neg hx]
        by_cases hxb : x = b
        · subst hxb
          by_cases hy : 0 < y x
          · simp [hy]
          · simp [hy]
        · have : ¬ (x ∈ b :: L ∧ 0 < y x) := by
            rintro ⟨h, h'⟩
            rcases List.mem_cons.mp h with h | h
            · exact hxb h
            · exact hx ⟨h, h'⟩
          rw [if_neg this]
          split
          · exact Function.update_of_ne hxb _ _
          · rfl

theorem addAll_spec (d : Data) (fuel : ℕ) : ∀ (comp : List (ℕ × ℝ)) (s s' : Static) (b b' : Bool),
    Tables d [] s → addAll d fuel comp (s, b) = some (s', b') →
      Tables d [] s' ∧ Grows d (comp.map Prod.fst) s s' ∧ (∀ e ∈ comp, e.1 ∈ s'.tracked) ∧
        (b' = false → s' = s ∧ b = false)
  | [], s, s', b, b', hT, h => by
    simp only [addAll, Option.some.injEq, Prod.mk.injEq] at h
    obtain ⟨rfl, rfl⟩ := h
    exact ⟨hT, Grows.refl _ _ _, by simp, fun h => ⟨rfl, h⟩⟩
  | (nuc, v) :: comp, s, s', b, b', hT, h => by
    unfold addAll at h
    by_cases hn : nuc ∈ s.tracked
    · rw [if_pos hn] at h
      obtain ⟨t1, g1, m1, e1⟩ := addAll_spec d fuel comp s s' b b' hT h
      refine ⟨t1, (Grows.refl d [] s).trans g1 (by simp) (fun a ha => by simp [ha]), ?_, e1⟩
      intro e he
      rcases List.mem_cons.mp he with rfl | he
      · exact g1.mem hn
      · exact m1 e he
    · rw [if_neg hn] at h
      cases h1 : addNuc d fuel s nuc with
      | none => rw [h1] at h; cases h
      | some u =>
        rw [h1] at h
        obtain ⟨t0, g0, m0⟩ := addNuc_spec d fuel [] s u nuc hT h1
        obtain ⟨t1, g1, m1, e1⟩ := addAll_spec d fuel comp u s' true b' t0 h
        refine ⟨t1, g0.trans g1 (by simp) (fun a ha => by simp [ha]), ?_, ?_⟩
        · intro e he
          rcases List.mem_cons.mp he with rfl | he
          · exact g1.mem m0
          · exact m1 e he
        · intro hb
          exact absurd (e1 hb).2 (by simp)

theorem addAll_total (d : Data) (U : List ℕ) (hU : ∀ a ∈ U, ∀ k ∈ d.kids a, k ∈ U) :
    ∀ (comp : List (ℕ × ℝ)) (s : Static) (b : Bool), Tables d [] s → (∀ e ∈ comp, e.1 ∈ U) →
      ∀ fuel, U.length < fuel → ∃ r, addAll d fuel comp (s, b) = some r
  | [], s, b, _, _, _, _ => ⟨_, rfl⟩
  | (nuc, v) :: comp, s, b, hT, hc, fuel, hf => by
    unfold addAll
    by_cases hn : nuc ∈ s.tracked
    · rw [if_pos hn]
      exact addAll_total d U hU comp s b hT (fun e he => hc e (List.mem_cons_of_mem _ he)) fuel hf
    · rw [if_neg hn]
      obtain ⟨u, hu⟩ := addNuc_total d U hU fuel s [] nuc hT (hc (nuc, v) (by simp))
        (lt_of_le_of_lt (List.length_filter_le _ _) hf)
      rw [hu]
      exact addAll_total d U hU comp u true (addNuc_spec d fuel [] s u nuc hT hu).1
        (fun e he => hc e (List.mem_cons_of_mem _ he)) fuel hf

end Cyclus.Decayer
