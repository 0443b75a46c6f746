import Verif.Lemmas.GreedyCond

/-! # What the greedy solver leaves unmatched -/

namespace Cyclus.Exchange

open Spec

namespace Dbl

/-- `x ≤ d`. -/
def Lb (d : Dbl) (x : ℚ) : Prop := match d with
  | fin q => x ≤ q
  | pinf => True
  | _ => False

theorem Lb_min {a b : Dbl} {x : ℚ} (ha : a.Lb x) (hb : b.Lb x) : (min a b).Lb x := by
  unfold min; split <;> assumption

theorem minElem_lb (x : Dbl) (xs : List Dbl) {b : ℚ} (h : ∀ y ∈ x :: xs, y.Lb b) :
    (minElem x xs).Lb b := by
  induction xs generalizing x with
  | nil => exact h x (by simp)
  | cons y ys ih =>
    refine ih _ ?_
    intro z hz
    rcases List.mem_cons.1 hz with rfl | hz
    · show Lb (if _ then _ else _) b
      split <;> apply h <;> simp
    · exact h z (by simp [hz])

theorem Lb_of_lt {a b : Dbl} {x : ℚ} (h : lt a b = true) (k : a.Lb x) : b.Lb x := by
  cases a <;> cases b <;> simp_all [lt, Lb]
  linarith

theorem Lb_of_not_lt {a b : Dbl} {x : ℚ} (ha : a ≠ nan) (h : lt a b = false) (k : b.Lb x) :
    a.Lb x := by
  cases a <;> cases b <;> simp_all [lt, Lb]
  linarith

theorem maxElem_lb (x : Dbl) (xs : List Dbl) (h : ∀ y ∈ x :: xs, y ≠ nan) {b : ℚ} {y : Dbl}
    (hy : y ∈ x :: xs) (hb : y.Lb b) : (maxElem x xs).Lb b := by
  induction xs generalizing x y with
  | nil => simp at hy; subst hy; exact hb
  | cons z zs ih =>
    have hne : (if lt x z then z else x) ≠ nan := by split <;> apply h <;> simp
    have hall : ∀ w ∈ (if lt x z then z else x) :: zs, w ≠ nan := by
      intro w hw
      rcases List.mem_cons.1 hw with rfl | hw
      · exact hne
      · exact h w (by simp [hw])
    show (maxElem (if lt x z then z else x) zs).Lb b
    rcases List.mem_cons.1 hy with rfl | hy
    · refine ih _ hall (y := if lt y z then z else y) (by simp) ?_
      split
      · rename_i hl; exact Lb_of_lt hl hb
      · exact hb
    · rcases List.mem_cons.1 hy with rfl | hy
      · refine ih _ hall (y := if lt x y then y else x) (by simp) ?_
        split
        · exact hb
        · rename_i hl
          exact Lb_of_not_lt (h x (by simp)) (by simpa using hl) hb
      · exact ih _ hall (y := y) (by simp [hy]) hb

end Dbl

theorem capEntry_lb {p : Params} {g : Graph} (hn : Nonneg p.dmax g) (hun : Uniform p.dmax g)
    {ms : List (Arc × ℚ)} (hms : ∀ m ∈ ms, m.1 ∈ g.arcs ∧ 0 ≤ m.2) {a : Arc} (ha : a ∈ g.arcs)
    {grp i : ℕ} {c u x : ℚ} (hc : (g.group grp).caps[i]? = some c) (hu : UnitCap g a grp i u)
    (hx : x ≤ p.dmax) (h : c = p.dmax ∨ load g ms grp i + x * u ≤ c) :
    (capEntry p (if c = p.dmax then p.dmax else c - load g ms grp i) u).Lb x := by
  by_cases hcd : c = p.dmax
  · simp [hcd, capEntry, Dbl.Lb, hx]
  · obtain ⟨h1, h2, h3⟩ := capEntry_spec hn hun hms ha hc hu
    have h := h.resolve_left hcd
    rcases (hn.unit a ha grp i u hu).lt_or_eq with hu0 | hu0
    · rw [h3 hcd hu0]
      show x ≤ _
      rw [le_div_iff₀ hu0]; linarith
    · subst hu0
      revert h1 h2
      simp only [hcd, if_false, capEntry]
      split
      · rename_i he; intro _ _; show x ≤ p.dmax; exact hx
      · unfold Dbl.div
        simp only [ne_eq, not_true_eq_false, if_false]
        split_ifs <;> simp [Dbl.Lb]

/-- The entries of the capacity vector, by index. -/
theorem entries_mem {p : Params} {g : Graph} {s : St} (h : Led p g s) {a : Arc} {n grp : ℕ}
    (hin : grp ∈ g.reqs ∨ grp ∈ g.sups) (d : Dbl) :
    d ∈ List.zipWith (capEntry p) (s.caps grp) ((g.node n).unitCaps (a.u, a.v)) ↔
    ∃ (i : ℕ) (c u : ℚ), (g.group grp).caps[i]? = some c ∧
      ((g.node n).unitCaps (a.u, a.v))[i]? = some u ∧
      d = capEntry p (if c = p.dmax then p.dmax else c - load g s.matches_ grp i) u := by
  constructor
  · intro hd
    obtain ⟨i, hi⟩ := List.mem_iff_getElem?.1 hd
    rw [List.getElem?_zipWith, h.caps grp hin i] at hi
    cases hc : (g.group grp).caps[i]? with
    | none => rw [hc] at hi; simp at hi
    | some c =>
      cases hu : ((g.node n).unitCaps (a.u, a.v))[i]? with
      | none => rw [hc, hu] at hi; simp at hi
      | some u =>
        rw [hc, hu] at hi
        simp only [Option.map_some, Option.some.injEq] at hi
        exact ⟨i, c, u, hc, hu, hi.symm⟩
  · rintro ⟨i, c, u, hc, hu, rfl⟩
    refine List.mem_iff_getElem?.2 ⟨i, ?_⟩
    rw [List.getElem?_zipWith, h.caps grp hin i, hc, hu]; rfl

theorem arcCap_lb {p : Params} {g : Graph} (hwf : WF g) (hn : Nonneg p.dmax g)
    (hun : Uniform p.dmax g) (heps : 0 ≤ p.eps) (hq : ∀ n, (g.node n).qty ≤ p.dmax) {s : St}
    (h : Led p g s) {a : Arc} (ha : a ∈ g.arcs) {x : ℚ} (hf : Fits p.dmax g s.matches_ a x)
    {cap : Dbl} (hc : arcCap p g s a = .ok cap) : cap.Lb x := by
  obtain ⟨r, hr, hu, hlu⟩ := hwf.req a ha
  obtain ⟨sg, hsg, hv, hlv⟩ := hwf.sup a ha
  have hms : ∀ m ∈ s.matches_, m.1 ∈ g.arcs ∧ 0 ≤ m.2 := fun m hm =>
    ⟨(h.mem m hm).1, heps.trans (h.mem m hm).2.1.le⟩
  have hx : x ≤ p.dmax := by
    have h1 := hf.u
    have h2 := flow_nonneg (fun m hm => (hms m hm).2) a.u
    have h3 := hq a.u
    linarith
  have hkey : a.key = (a.u, a.v) := rfl
  unfold arcCap at hc
  split at hc
  · cases hc
  · rename_i du hdu
    split at hc
    · cases hc
    · rename_i dv hdv
      cases hc
      refine Dbl.Lb_min ?_ ?_
      · unfold nodeCap at hdu
        rw [hu] at hdu
        simp only [hkey] at hdu
        have hq' : (Dbl.fin ((g.node a.u).qty - s.nq a.u)).Lb x := by
          show x ≤ _; rw [h.nq]; have := hf.u; linarith
        split at hdu
        · cases hdu; exact hq'
        · rename_i h0
          split at hdu
          · cases hdu
          · split at hdu
            · cases hdu
            · rename_i y ys hz
              cases hdu
              refine Dbl.Lb_min ?_ hq'
              simp only [Bool.false_eq_true, if_false]
              rcases hf.req r hu with he | ⟨i, c, w, h1, h2, h3⟩
              · rw [he] at hlu; exact absurd hlu h0
              · refine Dbl.maxElem_lb y ys ?_ (y := capEntry p (if c = p.dmax then p.dmax else
                  c - load g s.matches_ r i) w) ?_ ?_
                · intro d hd
                  rw [← hz] at hd
                  obtain ⟨j, c', w', k1, k2, rfl⟩ := (entries_mem h (Or.inl hr) d).1 hd
                  exact (capEntry_spec hn hun hms ha k1 ⟨a.u, Or.inl rfl, hu, k2⟩).1
                · rw [← hz]; exact (entries_mem h (Or.inl hr) _).2 ⟨i, c, w, h1, h2, rfl⟩
                · exact capEntry_lb hn hun hms ha h1 ⟨a.u, Or.inl rfl, hu, h2⟩ hx h3
      · unfold nodeCap at hdv
        rw [hv] at hdv
        simp only [hkey] at hdv
        have hq' : (Dbl.fin ((g.node a.v).qty - s.nq a.v)).Lb x := by
          show x ≤ _; rw [h.nq]; have := hf.v; linarith
        split at hdv
        · cases hdv; exact hq'
        · split at hdv
          · cases hdv
          · split at hdv
            · cases hdv
            · rename_i y ys hz
              cases hdv
              refine Dbl.Lb_min ?_ hq'
              simp only [if_true]
              refine Dbl.minElem_lb y ys ?_
              intro d hd
              rw [← hz] at hd
              obtain ⟨i, c, w, k1, k2, rfl⟩ := (entries_mem h (Or.inr hsg) d).1 hd
              refine capEntry_lb hn hun hms ha k1 ⟨a.v, Or.inr rfl, hv, k2⟩ hx ?_
              by_cases hcd : c = p.dmax
              · exact Or.inl hcd
              · exact Or.inr (hf.sup sg i c w hv k1 hcd k2)

theorem Fits.undo {p : Params} {g : Graph} (hwf : WF g) {ms : List (Arc × ℚ)} {a : Arc}
    (ha : a ∈ g.arcs) {q x : ℚ} (hf : Fits p.dmax g (ms ++ [(a, q)]) a x) :
    Fits p.dmax g ms a (x + q) := by
  obtain ⟨r, hr, hu, hlu⟩ := hwf.req a ha
  obtain ⟨sg, hsg, hv, hlv⟩ := hwf.sup a ha
  have hne : r ≠ sg := fun e => hwf.disj r hr (e ▸ hsg)
  have huv : a.u ≠ a.v := by
    intro e; rw [e, hv] at hu; exact hne (Option.some.inj hu).symm
  refine ⟨?_, ?_, ?_, ?_⟩
  · have := hf.u; rw [flow_snoc] at this; simp [Ne.symm huv] at this; linarith
  · have := hf.v; rw [flow_snoc] at this; simp [huv] at this; linarith
  · intro sg' i c y h1 h2 h3 h4
    have := hf.sup sg' i c y h1 h2 h3 h4
    rw [hv] at h1; cases h1
    rw [load_snoc, hu, hv] at this
    simp only [Option.some.injEq, hne, if_false, if_true, List.getD_eq_getElem?_getD, h4,
      Option.getD_some] at this
    linarith
  · intro r' h1
    rcases hf.req r' h1 with h | ⟨i, c, y, h2, h3, h4⟩
    · exact Or.inl h
    · right
      refine ⟨i, c, y, h2, h3, ?_⟩
      rcases h4 with h4 | h4
      · exact Or.inl h4
      · right
        rw [hu] at h1; cases h1
        rw [load_snoc, hu, hv] at h4
        simp only [Option.some.injEq, Ne.symm hne, if_false, if_true, List.getD_eq_getElem?_getD, h3,
          Option.getD_some] at h4
        linarith

theorem Fits.down {p : Params} {g : Graph} (hn : Nonneg p.dmax g) {ms : List (Arc × ℚ)} {a : Arc}
    (ha : a ∈ g.arcs) {x y : ℚ} (hxy : y ≤ x) (hf : Fits p.dmax g ms a x) :
    Fits p.dmax g ms a y := by
  refine ⟨by have := hf.u; linarith, by have := hf.v; linarith, ?_, ?_⟩
  · intro sg i c w h1 h2 h3 h4
    have := hf.sup sg i c w h1 h2 h3 h4
    have hw := hn.unit a ha sg i w ⟨a.v, Or.inr rfl, h1, h4⟩
    nlinarith
  · intro r h1
    rcases hf.req r h1 with h | ⟨i, c, w, h2, h3, h4⟩
    · exact Or.inl h
    · right
      refine ⟨i, c, w, h2, h3, h4.imp id fun h4 => ?_⟩
      have hw := hn.unit a ha r i w ⟨a.u, Or.inl rfl, h1, h3⟩
      nlinarith

/-- More matches on the graph. -/
def Ext (g : Graph) (ms ms' : List (Arc × ℚ)) : Prop :=
  ∃ ex, ms' = ms ++ ex ∧ ∀ m ∈ ex, m.1 ∈ g.arcs ∧ 0 ≤ m.2

theorem Ext.refl (g : Graph) (ms : List (Arc × ℚ)) : Ext g ms ms := ⟨[], by simp, by simp⟩

theorem Ext.trans {g : Graph} {a b c : List (Arc × ℚ)} (h : Ext g a b) (k : Ext g b c) :
    Ext g a c := by
  obtain ⟨x, rfl, hx⟩ := h
  obtain ⟨y, rfl, hy⟩ := k
  exact ⟨x ++ y, by simp, fun m hm => (List.mem_append.1 hm).elim (hx m) (hy m)⟩

theorem load_append (g : Graph) (a b : List (Arc × ℚ)) (grp i : ℕ) :
    load g (a ++ b) grp i = load g a grp i + load g b grp i := by simp [load]

theorem flow_append (a b : List (Arc × ℚ)) (n : ℕ) : flow (a ++ b) n = flow a n + flow b n := by
  simp [flow]

theorem groupFlow_ext {g : Graph} {ms ms' : List (Arc × ℚ)} (h : Ext g ms ms') (r : ℕ) :
    groupFlow g ms r ≤ groupFlow g ms' r := by
  obtain ⟨ex, rfl, hex⟩ := h
  have : 0 ≤ groupFlow g ex r := by
    unfold groupFlow
    refine List.sum_nonneg ?_
    intro x hx
    obtain ⟨m, hm, rfl⟩ := List.mem_map.1 hx
    have := (hex m hm).2
    split <;> first | exact this | exact le_rfl
  have e : groupFlow g (ms ++ ex) r = groupFlow g ms r + groupFlow g ex r := by simp [groupFlow]
  linarith

theorem Fits.ext {p : Params} {g : Graph} (hn : Nonneg p.dmax g) {ms ms' : List (Arc × ℚ)}
    (he : Ext g ms ms') {a : Arc} {x : ℚ} (hf : Fits p.dmax g ms' a x) :
    Fits p.dmax g ms a x := by
  obtain ⟨ex, rfl, hex⟩ := he
  have hl : ∀ grp i, 0 ≤ load g ex grp i := fun grp i => load_nonneg hn hex grp i
  have hfl : ∀ n, 0 ≤ flow ex n := flow_nonneg fun m hm => (hex m hm).2
  refine ⟨?_, ?_, ?_, ?_⟩
  · have := hf.u; rw [flow_append] at this; have := hfl a.u; linarith
  · have := hf.v; rw [flow_append] at this; have := hfl a.v; linarith
  · intro sg i c w h1 h2 h3 h4
    have := hf.sup sg i c w h1 h2 h3 h4
    rw [load_append] at this; have := hl sg i; linarith
  · intro r h1
    rcases hf.req r h1 with h | ⟨i, c, w, h2, h3, h4⟩
    · exact Or.inl h
    · right
      refine ⟨i, c, w, h2, h3, h4.imp id fun h4 => ?_⟩
      rw [load_append] at h4; have := hl r i; linarith

/-- Nothing above `eps` fits on the arc any more, as long as at most `rem` is wanted. -/
def NoRoom (p : Params) (g : Graph) (ms : List (Arc × ℚ)) (rem : ℚ) (a : Arc) : Prop :=
  ∀ x, p.eps < x → x ≤ rem → ¬ Fits p.dmax g ms a x

theorem NoRoom.ext {p : Params} {g : Graph} (hn : Nonneg p.dmax g) {ms ms' : List (Arc × ℚ)}
    (he : Ext g ms ms') {rem rem' : ℚ} (hr : rem' ≤ rem) {a : Arc} (h : NoRoom p g ms rem a) :
    NoRoom p g ms' rem' a :=
  fun x hx hxr hf => h x hx (hxr.trans hr) (Exchange.Fits.ext hn he hf)

/-- The facts the following lemmas assume. -/
structure Hyp (p : Params) (g : Graph) (tol : ℚ → ℚ) : Prop where
  wf : WF g
  nonneg : Nonneg p.dmax g
  unif : Uniform p.dmax g
  ulp : Ulp p tol
  eps : 0 ≤ p.eps
  qty : ∀ n, (g.node n).qty ≤ p.dmax

/-- What one step does, for the purposes of maximality. -/
theorem arcStep_max {p : Params} {g : Graph} {tol : ℚ → ℚ} (H : Hyp p g tol) {s s' : St} {a : Arc}
    {rem q : ℚ} (ha : a ∈ g.arcs) (h : Led p g s) (hst : arcStep p g s a rem = (s', .ok q)) :
    Led p g s' ∧ 0 ≤ q ∧
    (∃ ex, s'.matches_ = s.matches_ ++ ex ∧
      ∀ m ∈ ex, m.1 = a ∧ 0 ≤ m.2 ∧ (a.exclusive = false → p.eps < rem)) ∧
    (a.exclusive = false → NoRoom p g s'.matches_ (rem - q) a) := by
  have hled := h.arcStep H.wf H.nonneg H.eps ha hst
  obtain ⟨r, hr, hu, hlu⟩ := H.wf.req a ha
  obtain ⟨sg, hsg, hv, hlv⟩ := H.wf.sup a ha
  have hne : r ≠ sg := fun e => H.wf.disj r hr (e ▸ hsg)
  unfold arcStep at hst
  split at hst
  · cases hst
  · rename_i cap hcap
    split at hst
    · cases hst
    · rename_i t ht
      have key : a.exclusive = false → ∀ x, p.eps < x → x ≤ rem → Fits p.dmax g s.matches_ a x →
          ∃ q, above p t = some q ∧ x ≤ q := by
        intro he x hx hxr hf
        have hlb := arcCap_lb H.wf H.nonneg H.unif H.eps H.qty h ha hf hcap
        unfold toMatch at ht
        simp only [he] at ht
        cases ht
        have hmin : (Dbl.min (.fin rem) cap).Lb x := Dbl.Lb_min hxr hlb
        have hnp : Dbl.min (.fin rem) cap ≠ .pinf := by
          unfold Dbl.min; cases cap <;> simp [Dbl.lt]; split <;> simp
        cases hm : Dbl.min (.fin rem) cap with
        | fin q =>
          rw [hm] at hmin
          have hmin : x ≤ q := hmin
          exact ⟨q, by simp [above, lt_of_lt_of_le hx hmin], hmin⟩
        | pinf => exact absurd hm hnp
        | ninf => rw [hm] at hmin; exact hmin.elim
        | nan => rw [hm] at hmin; exact hmin.elim
      split at hst
      · rename_i hab
        obtain ⟨rfl, hq⟩ := Prod.mk.inj hst
        cases hq
        refine ⟨h, le_rfl, ⟨[], by simp, by simp⟩, fun he x hx hxr hf => ?_⟩
        obtain ⟨q, hq, _⟩ := key he x hx (by simpa using hxr) hf
        rw [hab] at hq; cases hq
      · rename_i q' hab
        rcases addMatch_cases hu hv hne hst with ⟨⟨e, he⟩, _⟩ | ⟨hq, rfl⟩
        · cases he
        · cases hq
          have hqe := (toMatch_exclusive H.eps ht hab).1
          have hq0 : 0 ≤ q := H.eps.trans hqe.le
          refine ⟨hled, hq0, ⟨[(a, q)], rfl, ?_⟩, ?_⟩
          · intro m hm
            simp only [List.mem_singleton] at hm
            subst hm
            refine ⟨rfl, hq0, fun he => ?_⟩
            have := (toMatch_bound H.ulp H.eps ht hab).1
            simp only [he] at this
            simp at this
            linarith
          · intro he x hx hxr hf
            have hf' := Exchange.Fits.undo H.wf ha hf
            have hxq : p.eps < x + q := by linarith
            obtain ⟨q2, hq2, hle⟩ := key he (x + q) hxq (by linarith) hf'
            rw [hab] at hq2; cases hq2
            have := H.eps
            linarith

/-- The preference order of the arcs of a node. -/
theorem reqPrefComp_weakOrder (g : Graph) : WeakOrder (reqPrefComp g) := by
  constructor
  · intro a b h
    unfold reqPrefComp at *
    simp only at *
    split_ifs at h ⊢ <;> simp_all
    · linarith
    · omega
  · intro a b c h k
    unfold reqPrefComp at *
    simp only at *
    split_ifs at h k ⊢ <;> simp_all
    · linarith
    · rename_i h1 _; exact absurd (le_antisymm h k) h1
    · omega

/-- Nothing more than `eps` fits on `a` if an arc of the same request node that it prefers less
has got anything. -/
def Prio (p : Params) (g : Graph) (ms : List (Arc × ℚ)) (a : Arc) : Prop :=
  ∀ m ∈ ms, m.1.exclusive = false → m.1.u = a.u →
    (g.node m.1.u).pref m.1.key < (g.node a.u).pref a.key →
    ∀ x, p.eps < x → ¬ Fits p.dmax g ms a x

theorem Prio.ext {p : Params} {g : Graph} (hn : Nonneg p.dmax g) {ms ex : List (Arc × ℚ)}
    {a : Arc} (hex : ∀ m ∈ ex, m.1 ∈ g.arcs ∧ 0 ≤ m.2) (hne : ∀ m ∈ ex, m.1.u ≠ a.u)
    (h : Prio p g ms a) : Prio p g (ms ++ ex) a := by
  intro m hm he hu hp x hx hf
  rcases List.mem_append.1 hm with hm | hm
  · exact h m hm he hu hp x hx (Exchange.Fits.ext hn ⟨ex, rfl, hex⟩ hf)
  · exact hne m hm hu

theorem arcLoop_max {p : Params} {g : Graph} {tol : ℚ → ℚ} (H : Hyp p g tol) {target : ℚ}
    (as : List Arc) (has : ∀ a ∈ as, a ∈ g.arcs) (s s' : St) (m m' : ℚ) (hled : Led p g s)
    (h : arcLoop p g target s m as = (s', .ok m')) :
    Led p g s' ∧ m ≤ m' ∧
    (∃ ex, s'.matches_ = s.matches_ ++ ex ∧
      (∀ x ∈ ex, x.1 ∈ as ∧ 0 ≤ x.2 ∧ (x.1.exclusive = false → p.eps < target - m)) ∧
      (as.Pairwise (fun a b => reqPrefComp g b a = false) →
        ∀ a ∈ as, a.exclusive = false → ∀ x ∈ ex, x.1.exclusive = false → x.1.u = a.u →
          (g.node x.1.u).pref x.1.key < (g.node a.u).pref a.key →
          ∀ y, p.eps < y → ¬ Fits p.dmax g s'.matches_ a y)) ∧
    (∀ a ∈ as, a.exclusive = false → NoRoom p g s'.matches_ (target - m') a) := by
  induction as generalizing s m with
  | nil =>
    unfold arcLoop at h; obtain ⟨rfl, he⟩ := Prod.mk.inj h; cases he
    exact ⟨hled, le_rfl, ⟨[], by simp, by simp, by simp⟩, by simp⟩
  | cons a as ih =>
    have ha := has a (by simp)
    unfold arcLoop at h
    split at h
    · rename_i hm
      split at h
      · cases h
      · rename_i s1 q hst
        obtain ⟨l1, q0, ⟨ex1, e1, x1⟩, n1⟩ := arcStep_max H ha hled hst
        obtain ⟨l2, m2, ⟨ex2, e2, x2, p2⟩, n2⟩ := ih (fun b hb => has b (by simp [hb])) s1 (m + q)
          l1 h
        have hext2 : Ext g s1.matches_ s'.matches_ :=
          ⟨ex2, e2, fun x hx => ⟨has _ (by simp [(x2 x hx).1]), (x2 x hx).2.1⟩⟩
        refine ⟨l2, by linarith, ⟨ex1 ++ ex2, by rw [e2, e1]; simp, ?_, ?_⟩, ?_⟩
        · intro x hx
          rcases List.mem_append.1 hx with hx | hx
          · obtain ⟨h1, h2, h3⟩ := x1 x hx
            exact ⟨by simp [h1], h2, fun he => h3 (h1 ▸ he)⟩
          · obtain ⟨h1, h2, h3⟩ := x2 x hx
            exact ⟨by simp [h1], h2, fun he => by have := h3 he; linarith⟩
        · intro hpw b hb hbe x hx hxe hxu hpref y hy hf
          obtain ⟨pw1, pw2⟩ := List.pairwise_cons.1 hpw
          rcases List.mem_cons.1 hb with rfl | hb
          · rcases List.mem_append.1 hx with hx | hx
            · have := (x1 x hx).1
              rw [this] at hpref; exact absurd hpref (lt_irrefl _)
            · have hrem := (x2 x hx).2.2 hxe
              have hf1 := Exchange.Fits.ext H.nonneg hext2 hf
              have hn := n1 hbe
              refine hn (min y (target - (m + q))) (lt_min hy hrem) ?_
                (Exchange.Fits.down H.nonneg ha (min_le_left _ _) hf1)
              refine (min_le_right _ _).trans ?_
              linarith
          · rcases List.mem_append.1 hx with hx | hx
            · have hxa := (x1 x hx).1
              have := pw1 b hb
              unfold reqPrefComp at this
              rw [hxa] at hpref hxu
              simp only at this
              rw [if_pos (ne_of_gt hpref)] at this
              simp at this
              linarith
            · exact p2 pw2 b hb hbe x hx hxe hxu hpref y hy hf
        · intro b hb hbe
          rcases List.mem_cons.1 hb with rfl | hb
          · exact (n1 hbe).ext H.nonneg hext2 (by linarith)
          · exact n2 b hb hbe
    · rename_i hm
      obtain ⟨rfl, he⟩ := Prod.mk.inj h
      cases he
      refine ⟨hled, le_rfl, ⟨[], by simp, by simp, by simp⟩, ?_⟩
      intro b hb _ x hx hxr _
      have := H.eps
      linarith

/-- Nothing has been matched on request node `n`. -/
def NoMatch (ms : List (Arc × ℚ)) (n : ℕ) : Prop := ∀ m ∈ ms, m.1.u ≠ n

theorem nodeLoop_max {p : Params} {g : Graph} {tol : ℚ → ℚ} (H : Hyp p g tol) {target : ℚ}
    (ns : List ℕ) (hnd : ns.Nodup) (hns : ∀ n ∈ ns, ∀ a ∈ g.nodeArcs n, a.u = n) (s s' : St)
    (m m' : ℚ) (hled : Led p g s) (hnm : ∀ n ∈ ns, NoMatch s.matches_ n)
    (h : nodeLoop p g target s m ns = (s', .ok m')) :
    Led p g s' ∧ m ≤ m' ∧
    (∃ ex, s'.matches_ = s.matches_ ++ ex ∧
      (∀ x ∈ ex, x.1 ∈ g.arcs ∧ 0 ≤ x.2 ∧ x.1.u ∈ ns)) ∧
    (∀ a ∈ g.arcs, a.u ∈ ns → a.exclusive = false →
      NoRoom p g s'.matches_ (target - m') a ∧ Prio p g s'.matches_ a) := by
  induction ns generalizing s m with
  | nil =>
    unfold nodeLoop at h; obtain ⟨rfl, he⟩ := Prod.mk.inj h; cases he
    exact ⟨hled, le_rfl, ⟨[], by simp, by simp⟩, by simp⟩
  | cons n ns ih =>
    obtain ⟨hn1, hn2⟩ := List.nodup_cons.1 hnd
    unfold nodeLoop at h
    split at h
    · split at h
      · cases h
      · rename_i s1 m1 hst
        have hmem : ∀ a ∈ stableSort (reqPrefComp g) (g.nodeArcs n), a ∈ g.arcs ∧ a.u = n :=
          fun a ha => ⟨(mem_nodeArcs (mem_stableSort.1 ha)).1,
            hns n (by simp) a (mem_stableSort.1 ha)⟩
        obtain ⟨l1, mm1, ⟨ex1, e1, x1, p1⟩, n1⟩ := arcLoop_max H _ (fun a ha => (hmem a ha).1)
          s s1 m m1 hled hst
        have hex1 : ∀ x ∈ ex1, x.1 ∈ g.arcs ∧ 0 ≤ x.2 ∧ x.1.u = n := fun x hx =>
          ⟨(hmem _ (x1 x hx).1).1, (x1 x hx).2.1, (hmem _ (x1 x hx).1).2⟩
        have hnm1 : ∀ k ∈ ns, NoMatch s1.matches_ k := by
          intro k hk x hx
          rw [e1] at hx
          rcases List.mem_append.1 hx with hx | hx
          · exact hnm k (by simp [hk]) x hx
          · rw [(hex1 x hx).2.2]; rintro rfl; exact hn1 hk
        obtain ⟨l2, mm2, ⟨ex2, e2, x2⟩, n2⟩ := ih hn2 (fun b hb => hns b (by simp [hb])) s1 m1 l1
          hnm1 h
        have hext2 : Ext g s1.matches_ s'.matches_ :=
          ⟨ex2, e2, fun x hx => ⟨(x2 x hx).1, (x2 x hx).2.1⟩⟩
        refine ⟨l2, by linarith, ⟨ex1 ++ ex2, by rw [e2, e1]; simp, ?_⟩, ?_⟩
        · intro x hx
          rcases List.mem_append.1 hx with hx | hx
          · obtain ⟨h1, h2, h3⟩ := hex1 x hx
            exact ⟨h1, h2, by simp [h3]⟩
          · obtain ⟨h1, h2, h3⟩ := x2 x hx
            exact ⟨h1, h2, by simp [h3]⟩
        · intro a ha hau hae
          rcases List.mem_cons.1 hau with hau | hau
          · have hin : a ∈ stableSort (reqPrefComp g) (g.nodeArcs n) := by
              refine mem_stableSort.2 (List.mem_flatMap.2 ⟨a, ha, ?_⟩)
              simp [hau]
            refine ⟨(n1 a hin hae).ext H.nonneg hext2 (by linarith), ?_⟩
            rw [e2]
            refine Prio.ext H.nonneg (fun x hx => ⟨(x2 x hx).1, (x2 x hx).2.1⟩) ?_ ?_
            · intro x hx; rw [hau]; rintro rfl; exact hn1 (x2 x hx).2.2
            · intro x hx hxe hxu hpref y hy
              have hx' : x ∈ ex1 := by
                rw [e1] at hx
                rcases List.mem_append.1 hx with hx | hx
                · exact absurd (hxu.trans hau) (hnm n (by simp) x hx)
                · exact hx
              exact p1 (stableSort_pairwise (reqPrefComp_weakOrder g) _) a hin hae x hx' hxe hxu
                hpref y hy
          · exact n2 a ha hau hae
    · rename_i hm
      obtain ⟨rfl, he⟩ := Prod.mk.inj h
      cases he
      refine ⟨hled, le_rfl, ⟨[], by simp, by simp⟩, ?_⟩
      intro a ha hau _
      refine ⟨?_, ?_⟩
      · intro x hx hxr _
        have := H.eps
        linarith
      · intro x hx _ hxu
        exact absurd hxu (hnm _ hau x hx)

theorem groupLoop_max {p : Params} {g : Graph} {tol : ℚ → ℚ} (H : Hyp p g tol)
    (hqty : ∀ r ∈ g.reqs, 0 ≤ (g.group r).qty) (hnodup : ∀ r ∈ g.reqs, (g.group r).nodes.Nodup)
    (rs : List ℕ) (hsub : ∀ r ∈ rs, r ∈ g.reqs) (hnd : rs.Nodup) (s s' : St)
    (hled : Led p g s) (hnm : ∀ r ∈ rs, ∀ m ∈ s.matches_, (g.node m.1.u).group ≠ some r)
    (h : groupLoop p g s rs = (s', .ok ())) :
    (∃ ex, s'.matches_ = s.matches_ ++ ex ∧
      (∀ x ∈ ex, x.1 ∈ g.arcs ∧ 0 ≤ x.2 ∧ ∃ r ∈ rs, (g.node x.1.u).group = some r)) ∧
    (∀ a ∈ g.arcs, ∀ r ∈ rs, a.u ∈ (g.group r).nodes → a.exclusive = false →
      NoRoom p g s'.matches_ ((g.group r).qty - groupFlow g s'.matches_ r) a ∧
      Prio p g s'.matches_ a) := by
  induction rs generalizing s with
  | nil =>
    unfold groupLoop at h; obtain ⟨rfl, he⟩ := Prod.mk.inj h
    exact ⟨⟨[], by simp, by simp⟩, by simp⟩
  | cons r rs ih =>
    obtain ⟨hn1, hn2⟩ := List.nodup_cons.1 hnd
    have hr := hsub r (by simp)
    unfold groupLoop at h
    split at h
    · cases h
    · rename_i s1 hst
      have h0 : groupFlow g s.matches_ r = 0 := by
        unfold groupFlow
        refine List.sum_eq_zero ?_
        intro x hx
        obtain ⟨m, hm, rfl⟩ := List.mem_map.1 hx
        rw [if_neg (hnm r (by simp) m hm)]
      have hflow := satisfySet_flow H.wf H.nonneg H.ulp H.eps hr (hqty r hr) hled h0 hst
      have hled1 := (hflow.2.2.2 rfl).1
      have hst' := hst
      unfold satisfySet at hst'
      simp only at hst'
      split at hst'
      · cases hst'
      · rename_i s2 m2 hl
        have hms : s1.matches_ = s2.matches_ := by
          obtain ⟨rfl, _⟩ := Prod.mk.inj hst'; rfl
        have harc : ∀ n ∈ stableSort (avgPrefComp g) (g.group r).nodes, ∀ a ∈ g.nodeArcs n,
            a.u = n := fun n hn a ha => (arcs_of_group H.wf hr (mem_stableSort.1 hn) ha).2.1
        have hgrp : ∀ n ∈ stableSort (avgPrefComp g) (g.group r).nodes,
            (g.node n).group = some r := fun n hn => H.wf.member r hr n (mem_stableSort.1 hn)
        obtain ⟨l2, mm2, ⟨ex1, e1, x1⟩, n1⟩ := nodeLoop_max H _
          ((stableSort_perm _ _).nodup_iff.2 (hnodup r hr)) harc s s2 0 m2 hled
          (fun n hn m hm => by
            rintro rfl; exact hnm r (by simp) m hm (hgrp _ hn)) hl
        have hinv := (nodeLoop_ind' (p := p) (g := g) (K := GroupInv p g tol s r)
          (J := fun _ => True)
          (target := (g.group r).qty) (P := fun a => a ∈ g.arcs ∧ (g.node a.u).group = some r)
          (fun s1 s2 a m q ha _ hK hst => hK.step H.wf H.nonneg H.ulp H.eps ha.1 ha.2 hst)
          (fun s1 s2 a m e ha _ hK hst => trivial)
          _ (fun n hn a ha => by
            have := arcs_of_group H.wf hr (mem_stableSort.1 hn) ha
            exact ⟨this.1, this.2.2⟩) s s2 0 _
            ⟨hled, h0, Or.inl (hqty r hr), fun _ _ => rfl, fun _ h => h, by simp, rfl⟩ hl).1 _ rfl
        rw [← hms] at e1 n1
        obtain ⟨⟨ex2, e2, x2⟩, n2⟩ := ih (fun b hb => hsub b (by simp [hb])) hn2 s1 hled1
          (fun r' hr' m hm => by
            rw [e1] at hm
            rcases List.mem_append.1 hm with hm | hm
            · exact hnm r' (by simp [hr']) m hm
            · rw [hgrp _ (x1 m hm).2.2]
              intro e; cases e; exact hn1 hr') h
        have hex2 : ∀ x ∈ ex2, x.1 ∈ g.arcs ∧ 0 ≤ x.2 := fun x hx => ⟨(x2 x hx).1, (x2 x hx).2.1⟩
        have hext2 : Ext g s1.matches_ s'.matches_ := ⟨ex2, e2, hex2⟩
        refine ⟨⟨ex1 ++ ex2, by rw [e2, e1]; simp, ?_⟩, ?_⟩
        · intro x hx
          rcases List.mem_append.1 hx with hx | hx
          · obtain ⟨h1, h2, h3⟩ := x1 x hx
            exact ⟨h1, h2, r, by simp, hgrp _ h3⟩
          · obtain ⟨h1, h2, r', h3, h4⟩ := x2 x hx
            exact ⟨h1, h2, r', by simp [h3], h4⟩
        · intro a ha r' hr' hau hae
          rcases List.mem_cons.1 hr' with rfl | hr'
          · obtain ⟨k1, k2⟩ := n1 a ha (mem_stableSort.2 hau) hae
            refine ⟨k1.ext H.nonneg hext2 ?_, ?_⟩
            · have := groupFlow_ext hext2 r'
              rw [hms, hinv.flow] at this
              linarith
            · rw [e2]
              refine Prio.ext H.nonneg hex2 ?_ k2
              intro x hx e
              obtain ⟨_, _, r2, h3, h4⟩ := x2 x hx
              rw [e, hgrp _ (mem_stableSort.2 hau)] at h4
              cases h4
              exact hn1 h3
          · exact n2 a ha r' hr' hau hae

end Cyclus.Exchange
