import Verif.Spec.VLFiles
import Mathlib.Tactic.Tauto
import Mathlib.Tactic.Linarith

/-!
# Lemmas about the data sets of variable-length values
-/

namespace Cyclus.VLFiles

variable {T N D : Type} [DecidableEq T] [DecidableEq N]
variable {ty : Types T N D} {H : Val N D → Digest} {U : Val N D → Prop}

/-! ### What the steps leave alone -/

/-- The cells, the keys and the known keys are the same. -/
def Keeps (s s' : Back T N D) : Prop :=
  (∀ n k, s'.file.cell n k = s.file.cell n k) ∧ s'.file.keys = s.file.keys ∧ s'.known = s.known ∧
    s'.kopen = s.kopen ∧ ∀ n, s.file.cells n ≠ none → s'.file.cells n ≠ none

theorem Keeps.refl (s : Back T N D) : Keeps s s := ⟨fun _ _ => rfl, rfl, rfl, rfl, fun _ h => h⟩

theorem Keeps.trans {a b c : Back T N D} (h : Keeps a b) (g : Keeps b c) : Keeps a c :=
  ⟨fun n k => (g.1 n k).trans (h.1 n k), g.2.1.trans h.2.1, g.2.2.1.trans h.2.2.1,
    g.2.2.2.1.trans h.2.2.2.1, fun n hn => g.2.2.2.2 n (h.2.2.2.2 n hn)⟩

theorem index_keeps (s : Back T N D) (t : T) : Keeps s (s.index t) := by
  unfold Back.index; split <;> exact ⟨fun _ _ => rfl, rfl, rfl, rfl, fun _ h => h⟩

theorem index_file (s : Back T N D) (t : T) : (s.index t).file = s.file := by
  unfold Back.index; split <;> rfl

theorem access_keeps (s : Back T N D) (t : T) (k : Digest) (h : Bool) : Keeps s (s.access t k h).1 := by
  unfold Back.access
  split
  · exact Keeps.refl s
  · dsimp only
    split
    · split <;> exact index_keeps s t
    · exact index_keeps s t

theorem access_file (s : Back T N D) (t : T) (k : Digest) (h : Bool) : (s.access t k h).1.file = s.file := by
  unfold Back.access
  split
  · rfl
  · dsimp only
    split
    · split <;> exact index_file s t
    · exact index_file s t

theorem openVals_keeps (s : Back T N D) (t : T) : Keeps s (s.openVals ty t).1 := by
  unfold Back.openVals
  dsimp only
  split
  · exact Keeps.refl s
  · split
    · exact ⟨fun _ _ => rfl, rfl, rfl, rfl, fun _ h => h⟩
    · rename_i hc
      split
      · refine ⟨fun n k => ?_, ?_, ?_, ?_, fun n hn => ?_⟩
        · simp only [File.cell, index_file]
          by_cases hn : n = ty.fam t
          · subst hn; simp [hc]
          · simp [Function.update_of_ne hn]
        · simp [index_file]
        · exact (index_keeps s t).2.2.1
        · exact (index_keeps s t).2.2.2.1
        · simp only [index_file]
          by_cases hn' : n = ty.fam t
          · subst hn'; simp
          · simpa [Function.update_of_ne hn'] using hn
      · obtain ⟨a, b, c, d, e⟩ := index_keeps s t
        exact ⟨a, b, c, d, e⟩

theorem readKids_keeps {rd : N → Digest → Back T N D → Option (Outcome (Back T N D) (Val N D))}
    (hrd : ∀ n k s s' r, rd n k s = some (s', r) → Keeps s s') :
    ∀ (ks : List (N × Digest)) (s s' : Back T N D) r, readKids rd ks s = some (s', r) → Keeps s s'
  | [], s, s', r, h => by
    simp only [readKids, Option.some.injEq, Prod.mk.injEq] at h
    exact h.1 ▸ Keeps.refl s
  | (n, k) :: ks, s, s', r, h => by
    simp only [readKids] at h
    split at h
    · cases h
    · rename_i h1
      simp only [Option.some.injEq, Prod.mk.injEq] at h
      exact h.1 ▸ hrd _ _ _ _ _ h1
    · rename_i s1 v h1
      have k1 := hrd _ _ _ _ _ h1
      split at h
      · cases h
      · rename_i h2
        simp only [Option.some.injEq, Prod.mk.injEq] at h
        exact h.1 ▸ k1.trans (readKids_keeps hrd _ _ _ _ h2)
      · rename_i h2
        simp only [Option.some.injEq, Prod.mk.injEq] at h
        exact h.1 ▸ k1.trans (readKids_keeps hrd _ _ _ _ h2)

theorem read_keeps : ∀ (f : ℕ) (t : T) (k : Digest) (s s' : Back T N D) r,
    read ty f t k s = some (s', r) → Keeps s s'
  | 0, t, k, s, s', r, h => by simp [read] at h
  | f + 1, t, k, s, s', r, h => by
    simp only [read] at h
    have k1 := openVals_keeps (ty := ty) s t
    have k2 := k1.trans (access_keeps (s.openVals ty t).1 t k (s.openVals ty t).2)
    split at h
    · rename_i h1
      rw [h1] at k2
      simp only [Option.some.injEq, Prod.mk.injEq] at h
      exact h.1 ▸ k2
    · rename_i h1
      rw [h1] at k2
      have hk := readKids_keeps (rd := fun n k s => read ty f (ty.full n) k s)
        (fun n k s s' r hr => read_keeps f _ k s s' r hr)
      split at h
      · cases h
      · rename_i h2
        simp only [Option.some.injEq, Prod.mk.injEq] at h
        exact h.1 ▸ k2.trans (hk _ _ _ _ h2)
      · rename_i h2
        simp only [Option.some.injEq, Prod.mk.injEq] at h
        exact h.1 ▸ k2.trans (hk _ _ _ _ h2)

/-! ### What the file contains -/

/-- What `VLValToBuf` makes of a value. -/
def cellOf (H : Val N D → Digest) (x : Val N D) : Cell N D := ⟨x.data, x.kids.map fun y => (y.type, H y)⟩

/-- The state after writes without exceptions: the cells are those of values of `U`, the keys those of values
that the file holds, the known keys are among the keys. -/
structure Inv (ty : Types T N D) (H : Val N D → Digest) (U : Val N D → Prop) (s : Back T N D) : Prop where
  cell : ∀ n k c, s.file.cell n k = some c → ∃ x, U x ∧ x.type = n ∧ H x = k ∧ c = cellOf H x
  keys : ∀ n ks k, s.file.keys n = some ks → k ∈ ks → ∃ x, U x ∧ x.type = n ∧ H x = k ∧ Holds H s.file x
  known : ∀ t k, k ∈ s.known t → ∃ ks, s.file.keys (ty.fam t) = some ks ∧ k ∈ ks

theorem Holds.congr {f f' : File N D} (h : ∀ n k, f'.cell n k = f.cell n k) {v : Val N D}
    (hv : Holds H f v) : Holds H f' v := fun x hx => (h _ _).trans (hv x hx)

/-- Cells are kept. -/
def Grows (f f' : File N D) : Prop := ∀ n k c, f.cell n k = some c → f'.cell n k = some c

theorem Grows.refl (f : File N D) : Grows f f := fun _ _ _ h => h

theorem Grows.trans {a b c : File N D} (h : Grows a b) (g : Grows b c) : Grows a c :=
  fun n k x hx => g n k x (h n k x hx)

theorem Holds.grows {f f' : File N D} (h : Grows f f') {v : Val N D} (hv : Holds H f v) : Holds H f' v :=
  fun x hx => h _ _ _ (hv x hx)

theorem Inv.of_keeps {s s' : Back T N D} (h : Keeps s s') (i : Inv ty H U s) : Inv ty H U s' where
  cell n k c hc := i.cell n k c (by rw [← h.1]; exact hc)
  keys n ks k hk hm := by
    rw [h.2.1] at hk
    obtain ⟨x, a, b, c, d⟩ := i.keys n ks k hk hm
    exact ⟨x, a, b, c, d.congr h.1⟩
  known t k hk := by
    rw [h.2.2.1] at hk
    rw [h.2.1]
    exact i.known t k hk

theorem Keeps.grows {s s' : Back T N D} (h : Keeps s s') : Grows s.file s'.file :=
  fun n k c hc => by rw [h.1]; exact hc

theorem openKeys_cells (s : Back T N D) (t : T) : (s.openKeys ty t).file.cells = s.file.cells := by
  unfold Back.openKeys
  dsimp only
  split
  · rfl
  · split <;> rfl

theorem openKeys_cell (s : Back T N D) (t : T) (n : N) (k : Digest) :
    (s.openKeys ty t).file.cell n k = s.file.cell n k := by
  unfold File.cell; rw [openKeys_cells]

theorem openKeys_inv {s : Back T N D} (t : T) (i : Inv ty H U s) : Inv ty H U (s.openKeys ty t) := by
  have hcell := openKeys_cell (ty := ty) s t
  have hkeys : ∀ n, (s.openKeys ty t).file.keys n = s.file.keys n ∨
      s.file.keys n = none ∧ (s.openKeys ty t).file.keys n = some [] := by
    intro n
    unfold Back.openKeys
    dsimp only
    split
    · exact .inl rfl
    · split
      · exact .inl rfl
      · rename_i h
        by_cases hn : n = ty.fam t
        · subst hn; exact .inr ⟨h, by simp⟩
        · exact .inl (by simp [Function.update_of_ne hn])
  refine ⟨fun n k c hc => i.cell n k c (by rw [← hcell]; exact hc), fun n ks k hk hm => ?_,
    fun t' k hk => ?_⟩
  · rcases hkeys n with h | ⟨_, h⟩
    · rw [h] at hk
      obtain ⟨x, a, b, c, d⟩ := i.keys n ks k hk hm
      exact ⟨x, a, b, c, d.congr hcell⟩
    · rw [h] at hk
      cases hk
      cases hm
  · have hold : k ∈ s.known t' ∨ t' = t ∧ ∃ ks, s.file.keys (ty.fam t) = some ks ∧ k ∈ ks := by
      unfold Back.openKeys at hk
      dsimp only at hk
      split at hk
      · exact .inl hk
      · split at hk
        · rename_i ks h
          by_cases ht : t' = t
          · subst ht
            simp only [Function.update_self, List.mem_append] at hk
            exact hk.imp id fun hk => ⟨rfl, ks, h, hk⟩
          · simp only [Function.update_of_ne ht] at hk
            exact .inl hk
        · exact .inl hk
    have : ∃ ks, s.file.keys (ty.fam t') = some ks ∧ k ∈ ks := by
      rcases hold with h | ⟨rfl, h⟩
      · exact i.known t' k h
      · exact h
    obtain ⟨ks, h1, h2⟩ := this
    rcases hkeys (ty.fam t') with h | ⟨h, _⟩
    · exact ⟨ks, by rw [h]; exact h1, h2⟩
    · rw [h] at h1; cases h1

theorem self_mem_subs (v : Val N D) : v ∈ v.subs := by
  cases v; simp [Val.subs]

theorem subs_eq (v : Val N D) : v.subs = v :: subsKids v.kids := by
  cases v; simp [Val.subs, Val.kids]

theorem mem_subsKids {x : Val N D} : ∀ {vs : List (Val N D)}, x ∈ subsKids vs ↔ ∃ v ∈ vs, x ∈ v.subs
  | [] => by simp [subsKids]
  | v :: vs => by
    simp only [subsKids, List.mem_append, List.mem_cons, exists_eq_or_imp]
    rw [mem_subsKids (vs := vs)]

/-- Storing a value whose parts are held. -/
theorem store_inv (hU : Apart H U) {s s' : Back T N D} {t : T} {v : Val N D} {h : Bool} {r : Unit}
    (hv : U v) (ht : ty.fam t = v.type) (hk : ∀ x ∈ v.kids, Holds H s.file x) (i : Inv ty H U s)
    (hs : (s.appendKey ty t (H v)).insertVal ty t (H v) h (cellOf H v) = (s', .ok r)) :
    Inv ty H U s' ∧ Grows s.file s'.file ∧ Holds H s'.file v := by
  unfold Back.insertVal at hs
  have ka := access_keeps (s.appendKey ty t (H v)) t (H v) h
  have fa := access_file (s.appendKey ty t (H v)) t (H v) h
  split at hs
  · cases hs
  · rename_i s1 h1
    rw [h1] at ka fa
    dsimp only at ka fa
    simp only [Prod.mk.injEq, and_true] at hs
    have hcells : s1.file.cells = s.file.cells := by rw [fa]; rfl
    have hcell : ∀ n k, s'.file.cell n k =
        if n = v.type ∧ k = H v then some (cellOf H v) else s.file.cell n k := by
      intro n k
      rw [← hs]
      unfold File.cell
      simp only [hcells, ht]
      by_cases hn : n = v.type
      · subst hn
        by_cases hk' : k = H v
        · subst hk'; simp
        · simp only [Function.update_self, Option.bind_some, Function.update_of_ne hk', hk', and_false,
            if_false]
          cases s.file.cells v.type <;> rfl
      · simp [Function.update_of_ne hn, hn]
    have hg : Grows s.file s'.file := by
      intro n k c hc
      rw [hcell]
      split
      · rename_i hnk
        obtain ⟨x, ux, tx, hx, cx⟩ := i.cell n k c hc
        have : x = v := hU.2 x v ux hv (tx.trans hnk.1) (hx.trans hnk.2)
        rw [cx, this]
      · exact hc
    have hh : Holds H s'.file v := by
      intro x hx
      rw [subs_eq, List.mem_cons] at hx
      rcases hx with rfl | hx
      · rw [hcell]; simp [cellOf]
      · obtain ⟨y, hy, hxy⟩ := mem_subsKids.1 hx
        exact (hk y hy).grows hg x hxy
    have hkeys : ∀ n, s'.file.keys n = if n = v.type then some ((s.file.keys n).getD [] ++ [H v])
        else s.file.keys n := by
      intro n
      rw [← hs]
      simp only [ka.2.1, Back.appendKey, ht]
      by_cases hn : n = v.type
      · subst hn; simp
      · simp [Function.update_of_ne hn, hn]
    have hknown : s'.known = Function.update s.known t (s.known t ++ [H v]) := by
      rw [← hs]; exact ka.2.2.1
    refine ⟨⟨fun n k c hc => ?_, fun n ks k hks hm => ?_, fun t' k hk' => ?_⟩, hg, hh⟩
    · rw [hcell] at hc
      split at hc
      · rename_i hnk
        exact ⟨v, hv, hnk.1.symm, hnk.2.symm, (Option.some.inj hc).symm⟩
      · exact i.cell n k c hc
    · rw [hkeys] at hks
      split at hks
      · rename_i hn
        rw [← Option.some.inj hks, List.mem_append] at hm
        rcases hm with hm | hm
        · cases hks' : s.file.keys n with
          | none => rw [hks'] at hm; simp at hm
          | some ks' =>
            rw [hks'] at hm
            obtain ⟨x, a, b, c, d⟩ := i.keys n ks' k hks' hm
            exact ⟨x, a, b, c, d.grows hg⟩
        · exact ⟨v, hv, hn.symm, (List.mem_singleton.1 hm).symm, hh⟩
      · obtain ⟨x, a, b, c, d⟩ := i.keys n ks k hks hm
        exact ⟨x, a, b, c, d.grows hg⟩
    · rw [hkeys]
      have : k ∈ s.known t' ∨ t' = t ∧ k = H v := by
        rw [hknown] at hk'
        by_cases htt : t' = t
        · subst htt
          simp only [Function.update_self, List.mem_append, List.mem_singleton] at hk'
          tauto
        · rw [Function.update_of_ne htt] at hk'; exact .inl hk'
      rcases this with h2 | ⟨rfl, rfl⟩
      · obtain ⟨ks, h3, h4⟩ := i.known t' k h2
        split
        · exact ⟨_, rfl, by rw [h3]; simp [h4]⟩
        · exact ⟨ks, h3, h4⟩
      · simp [ht]

mutual
theorem write_ok (hU : Apart H U) (hfull : ∀ n, ty.fam (ty.full n) = n) : ∀ (v : Val N D) (t : T)
    (s s' : Back T N D) (k : Digest), U v → ty.fam t = v.type → Inv ty H U s →
    write ty H t v s = (s', .ok k) → Inv ty H U s' ∧ Grows s.file s'.file ∧ Holds H s'.file v ∧ k = H v
  | .node n d kids, t, s, s', k, hv, ht, i, hw => by
    simp only [write] at hw
    have i1 := openKeys_inv t i
    have i2 := i1.of_keeps (openVals_keeps (ty := ty) (s.openKeys ty t) t)
    have g2 : Grows s.file ((s.openKeys ty t).openVals ty t).1.file :=
      Grows.trans (fun n k c hc => by rw [openKeys_cell]; exact hc) (openVals_keeps (ty := ty) _ t).grows
    split at hw
    · rename_i hmem
      simp only [Prod.mk.injEq, Except.ok.injEq] at hw
      obtain ⟨rfl, rfl⟩ := hw
      obtain ⟨ks, h1, h2⟩ := i2.known _ _ hmem
      obtain ⟨x, ux, tx, hx, hh⟩ := i2.keys _ _ _ h1 h2
      have : x = .node n d kids := hU.2 _ _ ux hv (tx.trans ht) hx
      exact ⟨i2, g2, this ▸ hh, rfl⟩
    · split at hw
      · cases hw
      · rename_i s3 ks h3
        obtain ⟨i3, g3, hk3, hks⟩ := writeKids_ok hU hfull kids _ _ _ (hU.1 _ hv) i2 h3
        split at hw
        · cases hw
        · rename_i s4 h4
          simp only [Prod.mk.injEq, Except.ok.injEq] at hw
          obtain ⟨rfl, rfl⟩ := hw
          subst hks
          obtain ⟨i4, g4, h5⟩ := store_inv (v := .node n d kids) hU hv ht hk3 i3 h4
          exact ⟨i4, g2.trans (g3.trans g4), h5, rfl⟩

theorem writeKids_ok (hU : Apart H U) (hfull : ∀ n, ty.fam (ty.full n) = n) : ∀ (vs : List (Val N D))
    (s s' : Back T N D) (ks : List (N × Digest)), (∀ v ∈ vs, U v) → Inv ty H U s →
    writeKids ty H vs s = (s', .ok ks) → Inv ty H U s' ∧ Grows s.file s'.file ∧
      (∀ v ∈ vs, Holds H s'.file v) ∧ ks = vs.map fun v => (v.type, H v)
  | [], s, s', ks, _, i, hw => by
    simp only [writeKids, Prod.mk.injEq, Except.ok.injEq] at hw
    obtain ⟨rfl, rfl⟩ := hw
    exact ⟨i, .refl _, by simp, rfl⟩
  | v :: vs, s, s', ks, hv, i, hw => by
    simp only [writeKids] at hw
    split at hw
    · cases hw
    · rename_i s1 k h1
      obtain ⟨i1, g1, hh1, rfl⟩ := write_ok hU hfull v _ _ _ _ (hv v (by simp)) (hfull _) i h1
      split at hw
      · cases hw
      · rename_i s2 ks' h2
        obtain ⟨i2, g2, hh2, rfl⟩ := writeKids_ok hU hfull vs _ _ _ (fun x hx => hv x (by simp [hx])) i1 h2
        simp only [Prod.mk.injEq, Except.ok.injEq] at hw
        obtain ⟨rfl, rfl⟩ := hw
        refine ⟨i2, g1.trans g2, fun x hx => ?_, rfl⟩
        rcases List.mem_cons.1 hx with rfl | hx
        · exact hh1.grows g2
        · exact hh2 x hx
end

theorem create_file (s : Back T N D) (ts : List T) : (s.create ts).file = s.file ∧
    (s.create ts).known = s.known ∧ (s.create ts).kopen = s.kopen ∧ (s.create ts).vopen = s.vopen := by
  induction ts generalizing s with
  | nil => exact ⟨rfl, rfl, rfl, rfl⟩
  | cons t ts ih =>
    simp only [Back.create]
    obtain ⟨a, b, c, d⟩ := ih (if s.dts t = none then { s with dts := Function.update s.dts t (some true) }
      else s)
    rw [a, b, c, d]
    split <;> exact ⟨rfl, rfl, rfl, rfl⟩

theorem create_dts (s : Back T N D) (ts : List T) (t : T) :
    (s.create ts).dts t = if t ∈ ts ∧ s.dts t = none then some true else s.dts t := by
  induction ts generalizing s with
  | nil => simp [Back.create]
  | cons a ts ih =>
    simp only [Back.create]
    rw [ih]
    by_cases hat : t = a
    · subst hat
      cases hd : s.dts t <;> simp [hd]
    · split
      · simp [Function.update_of_ne hat, hat]
      · simp [hat]

theorem create_keeps (s : Back T N D) (ts : List T) : Keeps s (s.create ts) := by
  obtain ⟨a, b, c, d⟩ := create_file s ts
  exact ⟨fun n k => by rw [a], by rw [a], b, c, fun n h => by rw [a]; exact h⟩

theorem open_inv {s : Back T N D} (i : Inv ty H U s) : Inv ty H U (.open ty s.file) :=
  ⟨i.cell, i.keys, fun t k hk => by simp [Back.open] at hk⟩

theorem Reach.inv (hU : Apart H U) (hfull : ∀ n, ty.fam (ty.full n) = n) {w : List (T × Val N D)}
    {s : Back T N D} (h : Reach ty H U w s) : Inv ty H U s ∧ ∀ p ∈ w, Holds H s.file p.2 := by
  induction h with
  | new =>
    refine ⟨⟨fun n k c hc => ?_, fun n ks k hk => ?_, fun t k hk => ?_⟩, by simp⟩
    · simp [File.cell, Back.open, File.new] at hc
    · simp [Back.open, File.new] at hk
    · simp [Back.open] at hk
  | create ts _ ih =>
    exact ⟨ih.1.of_keeps (create_keeps _ ts), fun p hp => (ih.2 p hp).congr (create_keeps _ ts).1⟩
  | reopen _ ih => exact ⟨open_inv ih.1, ih.2⟩
  | write t v _ hv ht hw ih =>
    obtain ⟨i, g, hh, _⟩ := write_ok hU hfull v t _ _ _ hv ht ih.1 hw
    refine ⟨i, fun p hp => ?_⟩
    rcases List.mem_cons.1 hp with rfl | hp
    · exact hh
    · exact (ih.2 p hp).grows g
  | read f t k _ hr ih =>
    have hk := read_keeps _ _ _ _ _ _ hr
    exact ⟨ih.1.of_keeps hk, fun p hp => (ih.2 p hp).congr hk.1⟩

/-! ### Types that can be used -/

/-- The types `P` are in `vldts_` with a valid handle, or are not yet there and the only one of `P` with their
data set, which is not open. -/
def Usable (ty : Types T N D) (P : T → Prop) (s : Back T N D) : Prop :=
  ∀ t, P t → (s.dts t = some true ∧ s.vopen (ty.fam t) ≠ some false) ∨
    (s.dts t = none ∧ s.vopen (ty.fam t) = none ∧ ∀ t', P t' → ty.fam t' = ty.fam t → t' = t)

/-- The types `P` are in `vldts_`, with a valid handle if the data set is open. -/
def Ready (ty : Types T N D) (P : T → Prop) (s : Back T N D) : Prop :=
  ∀ t, P t → s.dts t = some true ∧ s.vopen (ty.fam t) ≠ some false

theorem Ready.usable {P : T → Prop} {s : Back T N D} (h : Ready ty P s) : Usable ty P s :=
  fun t ht => .inl (h t ht)

theorem index_eq {s : Back T N D} {t : T} (h : s.dts t = some true) : s.index t = s := by
  unfold Back.index; simp [h]

theorem openVals_usable {P : T → Prop} {s : Back T N D} (hu : Usable ty P s) {t : T} (ht : P t)
    (hc : s.file.cells (ty.fam t) ≠ none ∨ s.dts t = some true) :
    (s.openVals ty t).2 = true ∧ (s.openVals ty t).1.dts t = some true ∧
      Usable ty P (s.openVals ty t).1 := by
  unfold Back.openVals
  dsimp only
  cases hv : s.vopen (ty.fam t) with
  | some h =>
    rcases hu t ht with ⟨h1, h2⟩ | ⟨_, h2, _⟩
    · rw [hv] at h2
      cases h
      · simp at h2
      · exact ⟨rfl, h1, hu⟩
    · rw [hv] at h2; cases h2
  | none =>
    dsimp only
    cases hcs : s.file.cells (ty.fam t) with
    | some cs =>
      have hd : (if s.dts t = none then Function.update s.dts t (some true) else s.dts) t = some true := by
        rcases hu t ht with ⟨h1, _⟩ | ⟨h1, _⟩
        · simp [h1]
        · simp [h1]
      refine ⟨rfl, hd, fun t' ht' => ?_⟩
      dsimp only
      by_cases htt : t' = t
      · subst htt
        exact .inl ⟨hd, by simp⟩
      · rcases hu t' ht' with ⟨h1, h2⟩ | ⟨h1, h2, h3⟩
        · refine .inl ⟨?_, ?_⟩
          · split
            · rw [Function.update_of_ne htt]; exact h1
            · exact h1
          · by_cases hf : ty.fam t' = ty.fam t
            · rw [hf]; simp
            · rw [Function.update_of_ne hf]; exact h2
        · have hf : ty.fam t' ≠ ty.fam t := fun hf => htt (h3 t ht hf.symm).symm
          refine .inr ⟨?_, ?_, h3⟩
          · split
            · rw [Function.update_of_ne htt]; exact h1
            · exact h1
          · rw [Function.update_of_ne hf]; exact h2
    | none =>
      have hd : s.dts t = some true := by
        rcases hc with h | h
        · exact absurd hcs h
        · exact h
      dsimp only
      rw [index_eq hd]
      simp only [hd, if_true]
      refine ⟨trivial, trivial, fun t' ht' => ?_⟩
      dsimp only
      by_cases hf : ty.fam t' = ty.fam t
      · rcases hu t' ht' with ⟨h1, h2⟩ | ⟨h1, h2, h3⟩
        · exact .inl ⟨h1, by rw [hf]; simp⟩
        · have := h3 t ht hf.symm
          subst this
          rw [hd] at h1; cases h1
      · rw [Function.update_of_ne hf]; exact hu t' ht'

theorem openVals_ready {P : T → Prop} {s : Back T N D} (hu : Ready ty P s) {t : T} (ht : P t) :
    (s.openVals ty t).2 = true ∧ Ready ty P (s.openVals ty t).1 := by
  have h := openVals_usable hu.usable ht (.inr (hu t ht).1)
  refine ⟨h.1, fun t' ht' => ?_⟩
  have hd : (s.openVals ty t).1.dts t' = some true := by
    unfold Back.openVals
    dsimp only
    have h1 := (hu t' ht').1
    have h2 := (hu t ht).1
    split
    · exact h1
    · split
      · simp [h1, h2]
      · rw [index_eq h2]; split <;> exact h1
  rcases h.2.2 t' ht' with h | h
  · exact h
  · rw [hd] at h; cases h.1

theorem access_ok {s : Back T N D} {t : T} {k : Digest} (hd : s.dts t = some true) (hk : fits k = true) :
    s.access t k true = (s, .ok ()) := by
  unfold Back.access
  simp [index_eq hd, hd, hk]

theorem length_subs_pos (v : Val N D) : 1 ≤ v.subs.length := by rw [subs_eq]; simp

mutual
theorem read_usable {P : T → Prop} (hfull : ∀ n, ty.fam (ty.full n) = n) : ∀ (v : Val N D) (f : ℕ) (t : T)
    (s : Back T N D), v.subs.length ≤ f → ty.fam t = v.type → P t →
    (∀ x ∈ subsKids v.kids, P (ty.full x.type)) → (∀ x ∈ v.subs, fits (H x) = true) → Holds H s.file v →
    Usable ty P s → ∃ s', read ty f t (H v) s = some (s', .ok v) ∧ Usable ty P s' ∧ Keeps s s'
  | .node n d kids, f, t, s, hf, ht, hP, hPk, hfit, hh, hu => by
    obtain ⟨f, rfl⟩ : ∃ g, f = g + 1 := ⟨f - 1, by
      have := length_subs_pos (Val.node n d kids); omega⟩
    have hcell := hh _ (self_mem_subs _)
    have hsub : ∀ x ∈ kids, ∀ y ∈ x.subs, y ∈ (Val.node n d kids).subs := by
      intro x hx y hy
      rw [subs_eq]
      exact List.mem_cons_of_mem _ (mem_subsKids.2 ⟨x, hx, hy⟩)
    have hex : s.file.cells (ty.fam t) ≠ none := by
      rw [ht]
      intro hn
      simp [File.cell, hn] at hcell
    obtain ⟨o1, o2, o3⟩ := openVals_usable hu hP (.inl hex)
    have ok1 := openVals_keeps (ty := ty) s t
    simp only [read]
    rw [o1, access_ok o2 (hfit _ (self_mem_subs _))]
    dsimp only
    have hc1 := (ok1.1 _ _).trans hcell
    have hcc : ((((s.openVals ty t).1.file.cells (ty.fam t)).getD fun _ => none) (H (.node n d kids))) =
        some ⟨d, kids.map fun y => (y.type, H y)⟩ := by
      rw [ht]
      unfold File.cell at hc1
      cases hcs : (s.openVals ty t).1.file.cells (Val.node n d kids).type with
      | none => rw [hcs] at hc1; simp at hc1
      | some cs => rw [hcs] at hc1; exact hc1
    rw [hcc]
    dsimp only [Option.getD_some]
    obtain ⟨s', h1, h2, h3⟩ := readKids_usable hfull kids f (s.openVals ty t).1
      (by simp only [Val.subs, List.length_cons] at hf; omega)
      (fun x hx => hPk x hx) (fun x hx y hy => hfit y (hsub x hx y hy))
      (fun x hx => Holds.congr ok1.1 (fun y hy => hh y (hsub x hx y hy))) o3
    rw [h1]
    dsimp only
    refine ⟨s', ?_, h2, ok1.trans h3⟩
    rw [ht]; rfl

theorem readKids_usable {P : T → Prop} (hfull : ∀ n, ty.fam (ty.full n) = n) : ∀ (vs : List (Val N D))
    (f : ℕ) (s : Back T N D), (subsKids vs).length ≤ f →
    (∀ x ∈ subsKids vs, P (ty.full x.type)) → (∀ x ∈ vs, ∀ y ∈ x.subs, fits (H y) = true) →
    (∀ x ∈ vs, Holds H s.file x) → Usable ty P s →
    ∃ s', readKids (fun n k s => read ty f (ty.full n) k s) (vs.map fun y => (y.type, H y)) s =
      some (s', .ok vs) ∧ Usable ty P s' ∧ Keeps s s'
  | [], f, s, _, _, _, _, hu => ⟨s, rfl, hu, .refl s⟩
  | v :: vs, f, s, hf, hP, hfit, hh, hu => by
    simp only [subsKids, List.length_append] at hf
    have hPv : ∀ x ∈ v.subs, P (ty.full x.type) := fun x hx => hP x (by simp [subsKids, hx])
    obtain ⟨s1, h1, h2, h3⟩ := read_usable hfull v f (ty.full v.type) s (by omega) (hfull _)
      (hPv v (self_mem_subs v)) (fun x hx => hPv x (by rw [subs_eq]; simp [hx])) (hfit v (by simp))
      (hh v (by simp)) hu
    obtain ⟨s2, g1, g2, g3⟩ := readKids_usable hfull vs f s1 (by omega)
      (fun x hx => hP x (by simp [subsKids, hx])) (fun x hx => hfit x (by simp [hx]))
      (fun x hx => (hh x (by simp [hx])).congr h3.1) h2
    refine ⟨s2, ?_, g2, h3.trans g3⟩
    simp only [List.map_cons, readKids]
    rw [h1]
    dsimp only
    rw [g1]
end

theorem openKeys_ready {P : T → Prop} {s : Back T N D} (hu : Ready ty P s) (t : T) :
    Ready ty P (s.openKeys ty t) := by
  intro t' ht'
  unfold Back.openKeys
  dsimp only
  split
  · exact hu t' ht'
  · split <;> exact hu t' ht'

theorem insertVal_ready {P : T → Prop} {s : Back T N D} (hu : Ready ty P s) {t : T} (ht : P t) {k : Digest}
    (hk : fits k = true) (c : Cell N D) :
    ∃ s', (s.appendKey ty t k).insertVal ty t k true c = (s', .ok ()) ∧ Ready ty P s' := by
  unfold Back.insertVal
  have hd : (s.appendKey ty t k).dts t = some true := (hu t ht).1
  rw [access_ok hd hk]
  exact ⟨_, rfl, fun t' ht' => hu t' ht'⟩

mutual
theorem write_ready {P : T → Prop} : ∀ (v : Val N D) (t : T) (s : Back T N D), P t →
    (∀ x ∈ subsKids v.kids, P (ty.full x.type)) → (∀ x ∈ v.subs, fits (H x) = true) → Ready ty P s →
    ∃ s', write ty H t v s = (s', .ok (H v)) ∧ Ready ty P s'
  | .node n d kids, t, s, ht, hP, hfit, hu => by
    obtain ⟨o1, o2⟩ := openVals_ready (openKeys_ready hu t) ht
    simp only [write]
    split
    · exact ⟨_, rfl, o2⟩
    · obtain ⟨s', ks, h1, h2⟩ := writeKids_ready kids _ hP (fun x hx y hy => hfit y (by
        rw [subs_eq]; exact List.mem_cons_of_mem _ (mem_subsKids.2 ⟨x, hx, hy⟩))) o2
      rw [h1]
      dsimp only
      rw [o1]
      obtain ⟨s2, h3, h4⟩ := insertVal_ready h2 ht (hfit _ (self_mem_subs _)) ⟨d, ks⟩
      rw [h3]
      exact ⟨s2, rfl, h4⟩

theorem writeKids_ready {P : T → Prop} : ∀ (vs : List (Val N D)) (s : Back T N D),
    (∀ x ∈ subsKids vs, P (ty.full x.type)) → (∀ x ∈ vs, ∀ y ∈ x.subs, fits (H y) = true) →
    Ready ty P s → ∃ s' ks, writeKids ty H vs s = (s', .ok ks) ∧ Ready ty P s'
  | [], s, _, _, hu => ⟨s, [], rfl, hu⟩
  | v :: vs, s, hP, hfit, hu => by
    have hPv : ∀ x ∈ v.subs, P (ty.full x.type) := fun x hx => hP x (by simp [subsKids, hx])
    obtain ⟨s1, h1, h2⟩ := write_ready v (ty.full v.type) s (hPv v (self_mem_subs v))
      (fun x hx => hPv x (by rw [subs_eq]; simp [hx])) (hfit v (by simp)) hu
    obtain ⟨s2, ks, h3, h4⟩ := writeKids_ready vs s1 (fun x hx => hP x (by simp [subsKids, hx]))
      (fun x hx => hfit x (by simp [hx])) h2
    refine ⟨s2, (v.type, H v) :: ks, ?_, h4⟩
    simp only [writeKids]
    rw [h1]
    dsimp only
    rw [h3]
end

theorem writeAll_ready {P : T → Prop} : ∀ (ws : List (T × Val N D)) (s : Back T N D),
    (∀ p ∈ ws, P p.1 ∧ (∀ x ∈ subsKids p.2.kids, P (ty.full x.type)) ∧ ∀ x ∈ p.2.subs, fits (H x) = true) →
    Ready ty P s → ∃ s', writeAll ty H ws s = (s', .ok (ws.map fun p => H p.2)) ∧ Ready ty P s'
  | [], s, _, hu => ⟨s, rfl, hu⟩
  | (t, v) :: ws, s, h, hu => by
    obtain ⟨a, b, c⟩ := h (t, v) (by simp)
    obtain ⟨s1, h1, h2⟩ := write_ready v t s a b c hu
    obtain ⟨s2, h3, h4⟩ := writeAll_ready ws s1 (fun p hp => h p (by simp [hp])) h2
    refine ⟨s2, ?_, h4⟩
    simp only [writeAll]
    rw [h1]
    dsimp only
    rw [h3]
    rfl

theorem writeAll_reach : ∀ (ws : List (T × Val N D)) (s s' : Back T N D) (ks : List Digest)
    (w : List (T × Val N D)), Reach ty H U w s → (∀ p ∈ ws, U p.2 ∧ ty.fam p.1 = p.2.type) →
    writeAll ty H ws s = (s', .ok ks) → Reach ty H U (ws.reverse ++ w) s'
  | [], s, s', ks, w, hr, _, h => by
    simp only [writeAll, Prod.mk.injEq] at h
    exact h.1 ▸ hr
  | (t, v) :: ws, s, s', ks, w, hr, hp, h => by
    simp only [writeAll] at h
    split at h
    · cases h
    · rename_i s1 k h1
      split at h
      · cases h
      · rename_i s2 ks' h2
        simp only [Prod.mk.injEq] at h
        have hv := hp (t, v) (by simp)
        have := writeAll_reach ws s1 s2 ks' ((t, v) :: w) (.write t v hr hv.1 hv.2 h1)
          (fun p hp' => hp p (by simp [hp'])) h2
        rw [← h.1]
        simpa using this

theorem readAll_usable {P : T → Prop} (hfull : ∀ n, ty.fam (ty.full n) = n) (f : ℕ) :
    ∀ (rs : List (T × Val N D)) (s : Back T N D),
    (∀ p ∈ rs, p.2.subs.length ≤ f ∧ ty.fam p.1 = p.2.type ∧ P p.1 ∧
      (∀ x ∈ subsKids p.2.kids, P (ty.full x.type)) ∧ (∀ x ∈ p.2.subs, fits (H x) = true) ∧
      Holds H s.file p.2) → Usable ty P s →
    ∃ s', readAll ty f (rs.map fun p => (p.1, H p.2)) s = some (s', .ok (rs.map Prod.snd)) ∧
      Usable ty P s' ∧ Keeps s s'
  | [], s, _, hu => ⟨s, rfl, hu, .refl s⟩
  | (t, v) :: rs, s, h, hu => by
    obtain ⟨a, b, c, d, e, g⟩ := h (t, v) (by simp)
    obtain ⟨s1, h1, h2, h3⟩ := read_usable hfull v f t s a b c d e g hu
    obtain ⟨s2, g1, g2, g3⟩ := readAll_usable hfull f rs s1 (fun p hp => by
      obtain ⟨a, b, c, d, e, g⟩ := h p (by simp [hp])
      exact ⟨a, b, c, d, e, g.congr h3.1⟩) h2
    refine ⟨s2, ?_, g2, h3.trans g3⟩
    simp only [List.map_cons, readAll]
    rw [h1]
    dsimp only
    rw [g1]

theorem length_le_sum {p : T × Val N D} : ∀ {rs : List (T × Val N D)}, p ∈ rs →
    p.2.subs.length ≤ (rs.map fun p => p.2.subs.length).sum
  | [], h => by simp at h
  | r :: rs, h => by
    simp only [List.map_cons, List.sum_cons]
    rcases List.mem_cons.1 h with rfl | h
    · omega
    · have := length_le_sum h; omega

/-! ### The keys -/

/-- The keys of each data set are different, and when the data set is open, they are known for the one
variation that is used. -/
def KeyInv (pick : N → T) (s : Back T N D) : Prop :=
  ∀ n, ((s.file.keys n).getD []).Nodup ∧
    (s.kopen n = true → ∀ k ∈ (s.file.keys n).getD [], k ∈ s.known (pick n))

theorem KeyInv.of_keeps {pick : N → T} {s s' : Back T N D} (h : Keeps s s') (i : KeyInv pick s) :
    KeyInv pick s' := by
  intro n
  rw [h.2.1, h.2.2.1, h.2.2.2.1]
  exact i n

theorem openKeys_keyInv {pick : N → T} {s : Back T N D} {t : T} (ht : t = pick (ty.fam t))
    (i : KeyInv pick s) : KeyInv pick (s.openKeys ty t) ∧ (s.openKeys ty t).kopen (ty.fam t) = true ∧
      ∀ n, ((s.openKeys ty t).file.keys n).getD [] = (s.file.keys n).getD [] := by
  unfold Back.openKeys
  dsimp only
  split
  · rename_i h
    exact ⟨i, h, fun _ => rfl⟩
  · cases hk : s.file.keys (ty.fam t) with
    | some ks =>
      refine ⟨fun n => ⟨(i n).1, fun ho k hm => ?_⟩, by simp, fun _ => rfl⟩
      dsimp only at ho hm ⊢
      by_cases hn : n = ty.fam t
      · subst hn
        rw [← ht]
        rw [hk] at hm
        simp only [Function.update_self, List.mem_append]
        exact .inr hm
      · rw [Function.update_of_ne hn] at ho
        have := (i n).2 ho k hm
        by_cases hp : pick n = t
        · rw [hp] at this ⊢
          simp [this]
        · rw [Function.update_of_ne hp]; exact this
    | none =>
      have he : ∀ n, ((Function.update s.file.keys (ty.fam t) (some [])) n).getD [] =
          (s.file.keys n).getD [] := by
        intro n
        by_cases hn : n = ty.fam t
        · subst hn; simp [hk]
        · rw [Function.update_of_ne hn]
      refine ⟨fun n => ?_, by simp, he⟩
      dsimp only
      rw [he]
      refine ⟨(i n).1, fun ho k hm => ?_⟩
      by_cases hn : n = ty.fam t
      · subst hn; rw [hk] at hm; simp at hm
      · rw [Function.update_of_ne hn] at ho
        exact (i n).2 ho k hm

theorem insertVal_keeps (s : Back T N D) (t : T) (k : Digest) (h : Bool) (c : Cell N D) :
    (s.insertVal ty t k h c).1.file.keys = s.file.keys ∧ (s.insertVal ty t k h c).1.known = s.known ∧
      (s.insertVal ty t k h c).1.kopen = s.kopen := by
  unfold Back.insertVal
  have ka := access_keeps s t k h
  split
  · rename_i h1; rw [h1] at ka; exact ⟨ka.2.1, ka.2.2.1, ka.2.2.2.1⟩
  · rename_i h1; rw [h1] at ka; exact ⟨ka.2.1, ka.2.2.1, ka.2.2.2.1⟩

theorem appendKey_keyInv {pick : N → T} (hpick : ∀ n, ty.fam (pick n) = n) {s : Back T N D} {t : T}
    {k : Digest} (ht : t = pick (ty.fam t)) (i : KeyInv pick s)
    (hk : k ∉ (s.file.keys (ty.fam t)).getD []) : KeyInv pick (s.appendKey ty t k) := by
  intro n
  unfold Back.appendKey
  dsimp only
  by_cases hn : n = ty.fam t
  · subst hn
    rw [← ht]
    simp only [Function.update_self, Option.getD_some]
    refine ⟨List.nodup_append.2 ⟨(i _).1, by simp, ?_⟩, fun ho k' hm => ?_⟩
    · intro a ha b hb hab
      rw [List.mem_singleton] at hb
      subst hb hab
      exact hk ha
    · have := (i (ty.fam t)).2 ho
      rw [← ht] at this
      rcases List.mem_append.1 hm with hm | hm
      · simp [this k' hm]
      · simp [List.mem_singleton.1 hm]
  · rw [Function.update_of_ne hn]
    refine ⟨(i n).1, fun ho k' hm => ?_⟩
    have hp : pick n ≠ t := fun hp => hn (by rw [← hp, hpick])
    rw [Function.update_of_ne hp]
    exact (i n).2 ho k' hm

mutual
theorem length_le_subs : ∀ (v x : Val N D), x ∈ v.subs → x.subs.length ≤ v.subs.length
  | .node n d kids, x, hx => by
    simp only [Val.subs, List.mem_cons] at hx
    rcases hx with rfl | hx
    · exact le_refl _
    · have := length_lt_subsKids kids x hx
      simp only [Val.subs, List.length_cons]
      omega

theorem length_lt_subsKids : ∀ (vs : List (Val N D)) (x : Val N D), x ∈ subsKids vs →
    x.subs.length ≤ (subsKids vs).length
  | [], x, hx => by simp [subsKids] at hx
  | v :: vs, x, hx => by
    simp only [subsKids, List.mem_append, List.length_append] at hx ⊢
    rcases hx with hx | hx
    · have := length_le_subs v x hx; omega
    · have := length_lt_subsKids vs x hx; omega
end

theorem not_mem_kids (v : Val N D) : v ∉ subsKids v.kids := by
  intro h
  have h1 := length_lt_subsKids _ _ h
  have h2 : v.subs.length = (subsKids v.kids).length + 1 := by rw [subs_eq]; rfl
  omega

theorem apart_subs (hU : Apart H U) : ∀ (m : ℕ) (v : Val N D), v.subs.length ≤ m → U v → ∀ x ∈ v.subs, U x
  | 0, v, h, _, _, _ => absurd h (by have := length_subs_pos v; omega)
  | m + 1, v, h, hv, x, hx => by
    rw [subs_eq, List.mem_cons] at hx
    rcases hx with rfl | hx
    · exact hv
    · obtain ⟨y, hy, hxy⟩ := mem_subsKids.1 hx
      refine apart_subs hU m y ?_ (hU.1 v hv y hy) x hxy
      have h1 : y.subs.length ≤ (subsKids v.kids).length :=
        length_lt_subsKids _ _ (mem_subsKids.2 ⟨y, hy, self_mem_subs y⟩)
      have h2 : v.subs.length = (subsKids v.kids).length + 1 := by rw [subs_eq]; rfl
      omega

mutual
theorem write_keys {pick : N → T} (hpick : ∀ n, ty.fam (pick n) = n) (hU : Apart H U)
    (hk : ∀ x, U x → ∀ y ∈ x.kids, ty.full y.type = pick y.type) : ∀ (v : Val N D) (t : T)
    (s s' : Back T N D) (r : Except Err Digest), U v → ty.fam t = v.type → t = pick (ty.fam t) →
    KeyInv pick s → write ty H t v s = (s', r) → KeyInv pick s' ∧
      ∀ n, ∀ k ∈ (s'.file.keys n).getD [], k ∈ (s.file.keys n).getD [] ∨
        ∃ x ∈ v.subs, x.type = n ∧ H x = k
  | .node n d kids, t, s, s', r, hv, ht, htp, i, hw => by
    simp only [write] at hw
    obtain ⟨i1, ho, he⟩ := openKeys_keyInv htp i
    have kv := openVals_keeps (ty := ty) (s.openKeys ty t) t
    have i2 := i1.of_keeps kv
    have he2 : ∀ m, (((s.openKeys ty t).openVals ty t).1.file.keys m).getD [] =
        (s.file.keys m).getD [] := fun m => by rw [kv.2.1]; exact he m
    have ho2 : ((s.openKeys ty t).openVals ty t).1.kopen (ty.fam t) = true := by
      rw [kv.2.2.2.1]; exact ho
    split at hw
    · simp only [Prod.mk.injEq] at hw
      obtain ⟨rfl, rfl⟩ := hw
      exact ⟨i2, fun m k hm => .inl (by rw [he2] at hm; exact hm)⟩
    · rename_i hmem
      have hkids : ∀ s3 r3, writeKids ty H kids ((s.openKeys ty t).openVals ty t).1 = (s3, r3) →
          KeyInv pick s3 ∧ ∀ m, ∀ k ∈ (s3.file.keys m).getD [], k ∈ (s.file.keys m).getD [] ∨
            ∃ x ∈ subsKids kids, x.type = m ∧ H x = k := by
        intro s3 r3 h3
        obtain ⟨a, b⟩ := writeKids_keys hpick hU hk kids _ _ _ (hU.1 _ hv)
          (fun y hy => hk _ hv y hy) i2 h3
        exact ⟨a, fun m k hm => by rw [← he2]; exact b m k hm⟩
      have hsub : ∀ x ∈ subsKids kids, x ∈ (Val.node n d kids).subs := fun x hx => by
        rw [subs_eq]; exact List.mem_cons_of_mem _ hx
      split at hw
      · rename_i s3 e h3
        simp only [Prod.mk.injEq] at hw
        obtain ⟨rfl, rfl⟩ := hw
        obtain ⟨a, b⟩ := hkids _ _ h3
        exact ⟨a, fun m k hm => (b m k hm).imp id fun ⟨x, hx, h⟩ => ⟨x, hsub x hx, h⟩⟩
      · rename_i s3 ks h3
        obtain ⟨a, b⟩ := hkids _ _ h3
        have hnew : H (.node n d kids) ∉ (s3.file.keys (ty.fam t)).getD [] := by
          intro hin
          rcases b _ _ hin with h | ⟨x, hx, hxt, hxh⟩
          · rw [← he2] at h
            have := (i2 (ty.fam t)).2 ho2 _ h
            rw [← htp] at this
            exact hmem this
          · have hux : U x := apart_subs hU _ _ (le_refl _) hv x (hsub x hx)
            have : x = .node n d kids := hU.2 _ _ hux hv (hxt.trans ht) hxh
            rw [this] at hx
            exact not_mem_kids (.node n d kids) hx
        have a4 := appendKey_keyInv hpick htp a hnew
        have ki := insertVal_keeps (ty := ty) (s3.appendKey ty t (H (.node n d kids))) t
          (H (.node n d kids)) ((s.openKeys ty t).openVals ty t).2 ⟨d, ks⟩
        have fin : ∀ s4 : Back T N D, s4.file.keys = (s3.appendKey ty t (H (.node n d kids))).file.keys →
            s4.known = (s3.appendKey ty t (H (.node n d kids))).known →
            s4.kopen = (s3.appendKey ty t (H (.node n d kids))).kopen → KeyInv pick s4 ∧
            ∀ m, ∀ k ∈ (s4.file.keys m).getD [], k ∈ (s.file.keys m).getD [] ∨
              ∃ x ∈ (Val.node n d kids).subs, x.type = m ∧ H x = k := by
          intro s4 e1 e2 e3
          refine ⟨fun m => by rw [e1, e2, e3]; exact a4 m, fun m k hm => ?_⟩
          rw [e1] at hm
          unfold Back.appendKey at hm
          dsimp only at hm
          by_cases hmt : m = ty.fam t
          · subst hmt
            simp only [Function.update_self, Option.getD_some, List.mem_append,
              List.mem_singleton] at hm
            rcases hm with hm | rfl
            · exact (b _ k hm).imp id fun ⟨x, hx, h⟩ => ⟨x, hsub x hx, h⟩
            · exact .inr ⟨_, self_mem_subs _, ht.symm, rfl⟩
          · rw [Function.update_of_ne hmt] at hm
            exact (b _ k hm).imp id fun ⟨x, hx, h⟩ => ⟨x, hsub x hx, h⟩
        split at hw
        · rename_i h4
          rw [h4] at ki
          simp only [Prod.mk.injEq] at hw
          obtain ⟨rfl, rfl⟩ := hw
          exact fin _ ki.1 ki.2.1 ki.2.2
        · rename_i h4
          rw [h4] at ki
          simp only [Prod.mk.injEq] at hw
          obtain ⟨rfl, rfl⟩ := hw
          exact fin _ ki.1 ki.2.1 ki.2.2

theorem writeKids_keys {pick : N → T} (hpick : ∀ n, ty.fam (pick n) = n) (hU : Apart H U)
    (hk : ∀ x, U x → ∀ y ∈ x.kids, ty.full y.type = pick y.type) : ∀ (vs : List (Val N D))
    (s s' : Back T N D) (r : Except Err (List (N × Digest))), (∀ v ∈ vs, U v) →
    (∀ v ∈ vs, ty.full v.type = pick v.type) →
    KeyInv pick s → writeKids ty H vs s = (s', r) → KeyInv pick s' ∧
      ∀ n, ∀ k ∈ (s'.file.keys n).getD [], k ∈ (s.file.keys n).getD [] ∨
        ∃ x ∈ subsKids vs, x.type = n ∧ H x = k
  | [], s, s', r, _, _, i, hw => by
    simp only [writeKids, Prod.mk.injEq] at hw
    obtain ⟨rfl, rfl⟩ := hw
    exact ⟨i, fun n k h => .inl h⟩
  | v :: vs, s, s', r, hv, hf, i, hw => by
    simp only [writeKids] at hw
    have hft : ty.fam (ty.full v.type) = v.type := by rw [hf v (by simp), hpick]
    have hone := fun s1 r1 h1 => write_keys hpick hU hk v (ty.full v.type) s s1 r1 (hv v (by simp)) hft
      (by rw [hft]; exact hf v (by simp)) i h1
    split at hw
    · rename_i s1 e h1
      simp only [Prod.mk.injEq] at hw
      obtain ⟨rfl, rfl⟩ := hw
      obtain ⟨a, b⟩ := hone _ _ h1
      exact ⟨a, fun m k hm => (b m k hm).imp id fun ⟨x, hx, h⟩ => ⟨x, by simp [subsKids, hx], h⟩⟩
    · rename_i s1 k1 h1
      obtain ⟨a, b⟩ := hone _ _ h1
      have htwo := fun s2 r2 h2 => writeKids_keys hpick hU hk vs s1 s2 r2 (fun x hx => hv x (by simp [hx]))
        (fun x hx => hf x (by simp [hx])) a h2
      have hmem : ∀ s2 : Back T N D, (∀ m, ∀ k ∈ (s2.file.keys m).getD [], k ∈ (s1.file.keys m).getD [] ∨
          ∃ x ∈ subsKids vs, x.type = m ∧ H x = k) → ∀ m, ∀ k ∈ (s2.file.keys m).getD [],
          k ∈ (s.file.keys m).getD [] ∨ ∃ x ∈ subsKids (v :: vs), x.type = m ∧ H x = k := by
        intro s2 h2 m k hm
        rcases h2 m k hm with h | ⟨x, hx, h⟩
        · exact (b m k h).imp id fun ⟨x, hx, h⟩ => ⟨x, by simp [subsKids, hx], h⟩
        · exact .inr ⟨x, by simp [subsKids, hx], h⟩
      split at hw
      · rename_i h2
        simp only [Prod.mk.injEq] at hw
        obtain ⟨rfl, rfl⟩ := hw
        obtain ⟨c, d⟩ := htwo _ _ h2
        exact ⟨c, hmem _ d⟩
      · rename_i h2
        simp only [Prod.mk.injEq] at hw
        obtain ⟨rfl, rfl⟩ := hw
        obtain ⟨c, d⟩ := htwo _ _ h2
        exact ⟨c, hmem _ d⟩
end

theorem Reach.keyInv {pick : N → T} (hpick : ∀ n, ty.fam (pick n) = n) (hU : Apart H U)
    (hk : ∀ x, U x → ∀ y ∈ x.kids, ty.full y.type = pick y.type) {w : List (T × Val N D)}
    {s : Back T N D} (h : Reach ty H U w s) (hw : ∀ p ∈ w, p.1 = pick (ty.fam p.1)) : KeyInv pick s := by
  induction h with
  | new => intro n; simp [Back.open, File.new]
  | create ts _ ih => exact (ih hw).of_keeps (create_keeps _ ts)
  | reopen _ ih => exact fun n => ⟨(ih hw n).1, by simp [Back.open]⟩
  | write t v _ hv ht hwr ih =>
    exact (write_keys hpick hU hk v t _ _ _ hv ht (hw (t, v) (by simp))
      (ih fun p hp => hw p (by simp [hp])) hwr).1
  | read f t k _ hr ih => exact (ih hw).of_keeps (read_keeps _ _ _ _ _ _ hr)

end Cyclus.VLFiles
