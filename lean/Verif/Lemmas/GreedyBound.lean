import Verif.Lemmas.Greedy

/-! # Bounds kept by the greedy solver -/

namespace Cyclus.Exchange

open Spec

theorem load_zero {g : Graph} {ms : List (Arc × ℚ)} (hms : ∀ m ∈ ms, m.1 ∈ g.arcs) {grp i : ℕ}
    (h0 : ∀ a ∈ g.arcs, ∀ u, UnitCap g a grp i u → u = 0) : load g ms grp i = 0 := by
  have hz : ∀ a ∈ g.arcs, ∀ n, (n = a.u ∨ n = a.v) → (g.node n).group = some grp →
      ((g.node n).unitCaps (a.u, a.v)).getD i 0 = 0 := by
    intro a ha n hn hg
    rw [List.getD_eq_getElem?_getD]
    cases h : ((g.node n).unitCaps (a.u, a.v))[i]? with
    | none => rfl
    | some u => exact h0 a ha u ⟨n, hn, hg, h⟩
  unfold load
  refine List.sum_eq_zero ?_
  intro x hx
  obtain ⟨m, hm, rfl⟩ := List.mem_map.1 hx
  have ha := hms m hm
  have h1 : (if (g.node m.1.u).group = some grp
      then m.2 * ((g.node m.1.u).unitCaps (m.1.u, m.1.v)).getD i 0 else 0) = 0 := by
    split
    · rename_i h; rw [hz _ ha _ (Or.inl rfl) h, mul_zero]
    · rfl
  have h2 : (if (g.node m.1.v).group = some grp
      then m.2 * ((g.node m.1.v).unitCaps (m.1.u, m.1.v)).getD i 0 else 0) = 0 := by
    split
    · rename_i h; rw [hz _ ha _ (Or.inr rfl) h, mul_zero]
    · rfl
  rw [h1, h2, add_zero]

/-- One entry of the capacity vector: a number, or `+inf`, and if it is a limited constraint with
positive unit capacity then what is left divided by the unit capacity. -/
theorem capEntry_spec {p : Params} {g : Graph} (hn : Nonneg p.dmax g) (hun : Uniform p.dmax g)
    {ms : List (Arc × ℚ)} (hms : ∀ m ∈ ms, m.1 ∈ g.arcs ∧ 0 ≤ m.2) {a : Arc} (ha : a ∈ g.arcs)
    {grp i : ℕ} {c u : ℚ} (hc : (g.group grp).caps[i]? = some c) (hu : UnitCap g a grp i u) :
    let d := capEntry p (if c = p.dmax then p.dmax else c - load g ms grp i) u
    d ≠ .nan ∧ d ≠ .ninf ∧ (c ≠ p.dmax → 0 < u → d = .fin ((c - load g ms grp i) / u)) := by
  simp only
  by_cases h : c = p.dmax
  · simp [h, capEntry]
  · have h1 := lt_of_le_of_ne (hn.cap grp i c hc) h
    have h2 := load_nonneg hn hms grp i
    rw [if_neg h]
    have h3 : c - load g ms grp i ≠ p.dmax := by intro e; linarith
    unfold capEntry
    rw [if_neg h3]
    unfold Dbl.div
    by_cases h0 : u = 0
    · subst h0
      have hall : ∀ a ∈ g.arcs, ∀ u, UnitCap g a grp i u → u = 0 := by
        rcases hun.unif grp i c hc h with h | h
        · exact absurd (h a ha 0 hu) (lt_irrefl _)
        · exact h
      have := load_zero (fun m hm => (hms m hm).1) hall
      rw [this, sub_zero]
      have hp := hun.pos grp i c hc
      simp [hp]
    · simp [h0]

theorem nodeCap_spec {p : Params} {g : Graph} (hn : Nonneg p.dmax g) (hun : Uniform p.dmax g)
    (heps : 0 ≤ p.eps) {s : St} (h : Led p g s) {a : Arc} (ha : a ∈ g.arcs) {n grp : ℕ}
    (hend : n = a.u ∨ n = a.v) (hg : (g.node n).group = some grp)
    (hin : grp ∈ g.reqs ∨ grp ∈ g.sups)
    (hl : ((g.node n).unitCaps (a.u, a.v)).length = (g.group grp).caps.length) (b : Bool)
    (curr : ℚ) :
    ∃ d, nodeCap p g s n a b curr = .ok d ∧ d ≠ .nan ∧ d ≠ .ninf ∧ d.Bd ((g.node n).qty - curr) ∧
      ((b = true ∨ (g.group grp).caps.length ≤ 1) →
        ∀ (i : ℕ) (c u : ℚ), (g.group grp).caps[i]? = some c → c ≠ p.dmax →
          ((g.node n).unitCaps (a.u, a.v))[i]? = some u → 0 < u →
          d.Bd ((c - load g s.matches_ grp i) / u)) := by
  have hms : ∀ m ∈ s.matches_, m.1 ∈ g.arcs ∧ 0 ≤ m.2 := fun m hm =>
    ⟨(h.mem m hm).1, heps.trans (h.mem m hm).2.1.le⟩
  have hlen := h.length hin
  unfold nodeCap
  rw [hg]
  simp only
  have hkey : a.key = (a.u, a.v) := rfl
  rw [hkey]
  split
  · rename_i h0
    refine ⟨_, rfl, by simp, by simp, le_rfl, ?_⟩
    intro _ i c u hc _ hu
    rw [List.length_eq_zero_iff.1 h0] at hu; simp at hu
  · rename_i h0
    rw [if_neg (by omega)]
    have hent : ∀ d ∈ List.zipWith (capEntry p) (s.caps grp) ((g.node n).unitCaps (a.u, a.v)),
        d ≠ .nan ∧ d ≠ .ninf := by
      intro d hd
      obtain ⟨i, hi⟩ := List.mem_iff_getElem?.1 hd
      rw [List.getElem?_zipWith, h.caps grp hin i] at hi
      cases hc : (g.group grp).caps[i]? with
      | none => rw [hc] at hi; simp at hi
      | some c =>
        cases hu : ((g.node n).unitCaps (a.u, a.v))[i]? with
        | none => rw [hc, hu] at hi; simp at hi
        | some u =>
          rw [hc, hu] at hi
          simp only [Option.map_some, Option.some.injEq] at hi
          have := capEntry_spec hn hun hms ha hc ⟨n, hend, hg, hu⟩
          rw [← hi]; exact ⟨this.1, this.2.1⟩
    have hidx : ∀ (i : ℕ) (c u : ℚ), (g.group grp).caps[i]? = some c → c ≠ p.dmax →
          ((g.node n).unitCaps (a.u, a.v))[i]? = some u → 0 < u →
        Dbl.fin ((c - load g s.matches_ grp i) / u) ∈
          List.zipWith (capEntry p) (s.caps grp) ((g.node n).unitCaps (a.u, a.v)) := by
      intro i c u hc hcd hu hu0
      have := (capEntry_spec hn hun hms ha hc ⟨n, hend, hg, hu⟩).2.2 hcd hu0
      rw [← this]
      refine List.mem_iff_getElem?.2 ⟨i, ?_⟩
      rw [List.getElem?_zipWith, h.caps grp hin i, hc, hu]; rfl
    have hzlen : (List.zipWith (capEntry p) (s.caps grp)
        ((g.node n).unitCaps (a.u, a.v))).length = (g.group grp).caps.length := by
      rw [List.length_zipWith]; omega
    split
    · rename_i hz; rw [hz] at hzlen; simp at hzlen; omega
    · rename_i x xs hz
      rw [hz] at hent hidx hzlen
      have hnan := fun y hy => (hent y hy).1
      have hsel : (if b = true then Dbl.minElem x xs else Dbl.maxElem x xs) ≠ .nan := by
        split
        · exact Dbl.minElem_ne_nan x xs hnan
        · exact Dbl.maxElem_ne_nan x xs hnan
      have hninf : ∀ (f : Dbl → Dbl → Dbl), (∀ a b, f a b = a ∨ f a b = b) → ∀ x (xs : List Dbl),
          (∀ y ∈ x :: xs, y ≠ .ninf) → xs.foldl f x ≠ .ninf := by
        intro f hf x xs
        induction xs generalizing x with
        | nil => intro h; exact h x (by simp)
        | cons y ys ih =>
          intro h
          refine ih _ ?_
          intro z hz
          rcases List.mem_cons.1 hz with rfl | hz
          · rcases hf x y with e | e <;> rw [e] <;> apply h <;> simp
          · exact h z (by simp [hz])
      have hsel2 : (if b = true then Dbl.minElem x xs else Dbl.maxElem x xs) ≠ .ninf := by
        have hy := fun y hy => (hent y hy).2
        split
        · exact hninf _ (by intro a b; split <;> simp) x xs hy
        · exact hninf _ (by intro a b; split <;> simp) x xs hy
      refine ⟨_, rfl, Dbl.min_ne_nan hsel (by simp), Dbl.min_ne_ninf hsel2 (by simp),
        Dbl.min_bd_right hsel le_rfl, ?_⟩
      · intro hb i c u hc hcd hu hu0
        refine Dbl.min_bd_left ?_
        have hmem := hidx i c u hc hcd hu hu0
        have hbd : (Dbl.fin ((c - load g s.matches_ grp i) / u)).Bd
          ((c - load g s.matches_ grp i) / u) := le_rfl
        rcases hb with rfl | hb
        · exact Dbl.minElem_bd x xs hnan hmem hbd
        · have hxs : xs = [] := by
            have : xs.length = 0 := by simp at hzlen; omega
            exact List.length_eq_zero_iff.1 this
          subst hxs
          simp only [List.mem_singleton] at hmem
          have : (if b = true then Dbl.minElem x [] else Dbl.maxElem x []) = x := by
            split <;> rfl
          rw [this, ← hmem]; exact hbd

/-- What is known about the quantity of a new match. -/
structure QtyOK (p : Params) (g : Graph) (tol : ℚ → ℚ) (s : St) (a : Arc) (rem q : ℚ)
    (r sg : ℕ) : Prop where
  rem : q ≤ rem + (if a.exclusive then tol q else 0)
  u : q ≤ (g.node a.u).qty - s.nq a.u + (if a.exclusive then tol q else 0)
  v : q ≤ (g.node a.v).qty - s.nq a.v + (if a.exclusive then tol q else 0)
  sup : ∀ (i : ℕ) (c x : ℚ), (g.group sg).caps[i]? = some c → c ≠ p.dmax →
    ((g.node a.v).unitCaps (a.u, a.v))[i]? = some x → 0 < x →
    q ≤ (c - load g s.matches_ sg i) / x + (if a.exclusive then tol q else 0)
  req : (g.group r).caps.length ≤ 1 →
    ∀ (i : ℕ) (c x : ℚ), (g.group r).caps[i]? = some c → c ≠ p.dmax →
    ((g.node a.u).unitCaps (a.u, a.v))[i]? = some x → 0 < x →
    q ≤ (c - load g s.matches_ r i) / x + (if a.exclusive then tol q else 0)

theorem toMatch_bound {p : Params} {tol : ℚ → ℚ} (hulp : Ulp p tol) (heps : 0 ≤ p.eps) {a : Arc}
    {rem q : ℚ} {cap t : Dbl} (ht : toMatch p a rem cap = .ok t) (hq : above p t = some q) :
    q ≤ rem + (if a.exclusive then tol q else 0) ∧
    ∀ x, cap.Bd x → q ≤ x + (if a.exclusive then tol q else 0) := by
  have hpos : t = .fin q ∧ p.eps < q := by
    cases t <;> simp [above] at hq
    obtain ⟨h1, rfl⟩ := hq; exact ⟨rfl, h1⟩
  unfold toMatch at ht
  simp only at ht
  by_cases he : a.exclusive = true
  · simp only [he, if_true] at ht ⊢
    split at ht
    · rename_i q0 hq0
      have h1 := Except.ok.inj ht
      rw [hpos.1] at h1
      have h1 := Dbl.fin.inj h1
      have hle : q ≤ q0 + tol q := by
        split at h1
        · have h2 := hpos.2; subst h1; exact absurd heps (not_le.2 h2)
        · rename_i hd
          subst h1
          exact hulp.near _ _ (not_le.1 hd)
      refine ⟨hle.trans (by have := Dbl.min_fin_fin hq0; linarith), fun x hx => hle.trans ?_⟩
      have := Dbl.min_bd_right (a := .fin rem) (by simp) hx
      rw [hq0] at this
      have : q0 ≤ x := this
      linarith
    · cases ht
  · simp only [he] at ht ⊢
    have h1 := Except.ok.inj ht
    rw [hpos.1] at h1
    refine ⟨by have := Dbl.min_fin_fin h1; simpa using this, fun x hx => ?_⟩
    have := Dbl.min_bd_right (a := .fin rem) (by simp) hx
    rw [h1] at this
    have : q ≤ x := this
    simpa using this

theorem arcStep_qty {p : Params} {g : Graph} {tol : ℚ → ℚ} (hn : Nonneg p.dmax g)
    (hun : Uniform p.dmax g) (hulp : Ulp p tol) (heps : 0 ≤ p.eps) {s : St} (h : Led p g s)
    {a : Arc} (ha : a ∈ g.arcs) {rem q : ℚ} {cap t : Dbl} {r sg : ℕ}
    (hr : r ∈ g.reqs) (hu : (g.node a.u).group = some r)
    (hsg : sg ∈ g.sups) (hv : (g.node a.v).group = some sg)
    (hlu : ((g.node a.u).unitCaps (a.u, a.v)).length = (g.group r).caps.length)
    (hlv : ((g.node a.v).unitCaps (a.u, a.v)).length = (g.group sg).caps.length)
    (hc : arcCap p g s a = .ok cap) (ht : toMatch p a rem cap = .ok t)
    (hq : above p t = some q) : QtyOK p g tol s a rem q r sg := by
  obtain ⟨du, e1, n1, _, b1, c1⟩ := nodeCap_spec hn hun heps h ha (Or.inl rfl) hu (Or.inl hr) hlu
    false (s.nq a.u)
  obtain ⟨dv, e2, n2, _, b2, c2⟩ := nodeCap_spec hn hun heps h ha (Or.inr rfl) hv (Or.inr hsg) hlv
    true (s.nq a.v)
  unfold arcCap at hc
  rw [e1, e2] at hc
  have hc := Except.ok.inj hc
  subst hc
  obtain ⟨t1, t2⟩ := toMatch_bound hulp heps ht hq
  refine ⟨t1, ?_, ?_, ?_, ?_⟩
  · exact t2 _ (Dbl.min_bd_left b1)
  · exact t2 _ (Dbl.min_bd_right n1 b2)
  · intro i c x h1 h2 h3 h4
    exact t2 _ (Dbl.min_bd_right n1 (c2 (Or.inl rfl) i c x h1 h2 h3 h4))
  · intro hl i c x h1 h2 h3 h4
    exact t2 _ (Dbl.min_bd_left (c1 (Or.inr hl) i c x h1 h2 h3 h4))

/-! ## Constraint and node bounds -/

structure Bounds (p : Params) (g : Graph) (tol : ℚ → ℚ) (ms : List (Arc × ℚ)) : Prop where
  cap : ∀ (grp i : ℕ) (c : ℚ), Limited g grp → (g.group grp).caps[i]? = some c → c ≠ p.dmax →
    CapOK g tol ms grp i c
  node : ∀ n, 0 ≤ (g.node n).qty → NodeOK g tol ms n

theorem capOK_snoc {p : Params} {g : Graph} {tol : ℚ → ℚ} (hun : Uniform p.dmax g)
    {ms : List (Arc × ℚ)} {a : Arc} (ha : a ∈ g.arcs) {q : ℚ} {grp i : ℕ} {c : ℚ} {n : ℕ}
    (hend : n = a.u ∨ n = a.v) (hg : (g.node n).group = some grp)
    (hc : (g.group grp).caps[i]? = some c) (hcd : c ≠ p.dmax)
    (hl : ((g.node n).unitCaps (a.u, a.v)).length = (g.group grp).caps.length)
    (hload : load g (ms ++ [(a, q)]) grp i =
      load g ms grp i + q * ((g.node n).unitCaps (a.u, a.v)).getD i 0)
    (hb : ∀ x, ((g.node n).unitCaps (a.u, a.v))[i]? = some x → 0 < x →
      q ≤ (c - load g ms grp i) / x + (if a.exclusive then tol q else 0))
    (hold : CapOK g tol ms grp i c) : CapOK g tol (ms ++ [(a, q)]) grp i c := by
  have hi : i < ((g.node n).unitCaps (a.u, a.v)).length := by
    rw [hl]; exact (List.getElem?_eq_some_iff.1 hc).1
  have hx := List.getElem?_eq_getElem hi
  set x := ((g.node n).unitCaps (a.u, a.v))[i] with hxd
  have hD : ((g.node n).unitCaps (a.u, a.v)).getD i 0 = x := by
    rw [List.getD_eq_getElem?_getD, hx]; rfl
  rw [hD] at hload
  have huc : UnitCap g a grp i x := ⟨n, hend, hg, hx⟩
  rcases hun.unif grp i c hc hcd with hpos | hz
  · have h0 := hpos a ha x huc
    have h1 := hb x hx h0
    have h2 : q * x ≤ c - load g ms grp i + (if a.exclusive then tol q else 0) * x := by
      have := mul_le_mul_of_nonneg_right h1 h0.le
      rw [add_mul, div_mul_cancel₀ _ h0.ne'] at this
      exact this
    by_cases he : a.exclusive = true
    · right
      refine ⟨(a, q), by simp, he, x, huc, ?_⟩
      rw [hload]; simp only [he, if_true] at h2; linarith
    · left
      rw [hload]; simp only [he] at h2; simp at h2; linarith
  · have h0 := hz a ha x huc
    rw [h0, mul_zero, add_zero] at hload
    rcases hold with h | ⟨m, hm, h1, u, h2, h3⟩
    · left; rw [hload]; exact h
    · right; exact ⟨m, by simp [hm], h1, u, h2, by rw [hload]; exact h3⟩

theorem capOK_same {g : Graph} {tol : ℚ → ℚ} {ms : List (Arc × ℚ)} {a : Arc} {q : ℚ} {grp i : ℕ}
    {c : ℚ} (hload : load g (ms ++ [(a, q)]) grp i = load g ms grp i)
    (hold : CapOK g tol ms grp i c) : CapOK g tol (ms ++ [(a, q)]) grp i c := by
  rcases hold with h | ⟨m, hm, h1, u, h2, h3⟩
  · left; rw [hload]; exact h
  · right; exact ⟨m, by simp [hm], h1, u, h2, by rw [hload]; exact h3⟩

theorem Bounds.snoc {p : Params} {g : Graph} {tol : ℚ → ℚ} (hun : Uniform p.dmax g) {s : St}
    (h : Led p g s) (hb : Bounds p g tol s.matches_) {a : Arc} (ha : a ∈ g.arcs) {rem q : ℚ}
    {r sg : ℕ} (hne : r ≠ sg) (hrs : r ∉ g.sups)
    (hu : (g.node a.u).group = some r) (hv : (g.node a.v).group = some sg)
    (hlu : ((g.node a.u).unitCaps (a.u, a.v)).length = (g.group r).caps.length)
    (hlv : ((g.node a.v).unitCaps (a.u, a.v)).length = (g.group sg).caps.length)
    (hq : QtyOK p g tol s a rem q r sg) : Bounds p g tol (s.matches_ ++ [(a, q)]) := by
  have huv : a.u ≠ a.v := by
    intro e; rw [e, hv] at hu; exact hne (Option.some.inj hu).symm
  refine ⟨?_, ?_⟩
  · intro grp i c hlim hc hcd
    have hold := hb.cap grp i c hlim hc hcd
    by_cases h1 : sg = grp
    · subst h1
      refine capOK_snoc hun ha (Or.inr rfl) hv hc hcd hlv ?_ (hq.sup i c · hc hcd) hold
      rw [load_snoc, hu, hv]; simp [hne]
    · by_cases h2 : r = grp
      · subst h2
        have hlen : (g.group r).caps.length ≤ 1 := by
          rcases hlim with h | h
          · exact absurd h hrs
          · exact h.2
        refine capOK_snoc hun ha (Or.inl rfl) hu hc hcd hlu ?_ (hq.req hlen i c · hc hcd) hold
        rw [load_snoc, hu, hv]; simp [h1]
      · refine capOK_same ?_ hold
        rw [load_snoc, hu, hv]; simp [h1, h2]
  · intro n hn0
    have hold := hb.node n hn0
    have step : ∀ k, flow (s.matches_ ++ [(a, q)]) k = s.nq k + q →
        (a.u = k ∨ a.v = k) →
        q ≤ (g.node k).qty - s.nq k + (if a.exclusive then tol q else 0) →
        NodeOK g tol (s.matches_ ++ [(a, q)]) k := by
      intro k e1 e2 e3
      by_cases he : a.exclusive = true
      · right; refine ⟨(a, q), by simp, he, e2, ?_⟩
        rw [e1]; simp only [he, if_true] at e3; linarith
      · left; rw [e1]; simp [he] at e3; linarith
    by_cases h1 : a.u = n
    · subst h1
      exact step a.u (by rw [flow_snoc, h.nq]; simp [Ne.symm huv]) (Or.inl rfl) hq.u
    · by_cases h2 : a.v = n
      · subst h2
        exact step a.v (by rw [flow_snoc, h.nq]; simp [huv]) (Or.inr rfl) hq.v
      · have e : flow (s.matches_ ++ [(a, q)]) n = flow s.matches_ n := by
          rw [flow_snoc]; simp [h1, h2]
        rcases hold with h | ⟨m, hm, h1, h2, h3⟩
        · left; rw [e]; exact h
        · right; exact ⟨m, by simp [hm], h1, h2, by rw [e]; exact h3⟩

theorem Bounds.init {p : Params} {g : Graph} {tol : ℚ → ℚ} (hun : Uniform p.dmax g) :
    Bounds p g tol [] := by
  refine ⟨?_, ?_⟩
  · intro grp i c _ hc _
    left; simpa [load] using (hun.pos grp i c hc).le
  · intro n h; left; simpa [flow] using h

/-! ## The loops with the matched amount -/

theorem arcLoop_ind' {p : Params} {g : Graph} {K : St → ℚ → Prop} {J : St → Prop} {target : ℚ}
    {P : Arc → Prop}
    (hok : ∀ s s' a m q, P a → m ≤ target → K s m →
      arcStep p g s a (target - m) = (s', .ok q) → K s' (m + q))
    (herr : ∀ s s' a m e, P a → m ≤ target → K s m →
      arcStep p g s a (target - m) = (s', .error e) → J s')
    (as : List Arc) (has : ∀ a ∈ as, P a) (s s' : St) (m : ℚ) (res : Except Stop ℚ)
    (hI : K s m) (h : arcLoop p g target s m as = (s', res)) :
    (∀ m', res = .ok m' → K s' m') ∧ (∀ e, res = .error e → J s') := by
  induction as generalizing s m with
  | nil =>
    unfold arcLoop at h; obtain ⟨rfl, rfl⟩ := Prod.mk.inj h
    exact ⟨fun _ e => (by cases e; exact hI), fun _ h => (by cases h)⟩
  | cons a as ih =>
    unfold arcLoop at h
    split at h
    · rename_i hm
      split at h
      · rename_i hst
        obtain ⟨rfl, rfl⟩ := Prod.mk.inj h
        exact ⟨fun _ h => (by cases h), fun _ _ => herr _ _ _ _ _ (has a (by simp)) hm hI hst⟩
      · rename_i hst
        exact ih (fun b hb => has b (by simp [hb])) _ _
          (hok _ _ _ _ _ (has a (by simp)) hm hI hst) h
    · obtain ⟨rfl, rfl⟩ := Prod.mk.inj h
      exact ⟨fun _ e => (by cases e; exact hI), fun _ h => (by cases h)⟩

theorem nodeLoop_ind' {p : Params} {g : Graph} {K : St → ℚ → Prop} {J : St → Prop} {target : ℚ}
    {P : Arc → Prop}
    (hok : ∀ s s' a m q, P a → m ≤ target → K s m →
      arcStep p g s a (target - m) = (s', .ok q) → K s' (m + q))
    (herr : ∀ s s' a m e, P a → m ≤ target → K s m →
      arcStep p g s a (target - m) = (s', .error e) → J s')
    (ns : List ℕ) (hns : ∀ n ∈ ns, ∀ a ∈ g.nodeArcs n, P a)
    (s s' : St) (m : ℚ) (res : Except Stop ℚ)
    (hI : K s m) (h : nodeLoop p g target s m ns = (s', res)) :
    (∀ m', res = .ok m' → K s' m') ∧ (∀ e, res = .error e → J s') := by
  induction ns generalizing s m with
  | nil =>
    unfold nodeLoop at h; obtain ⟨rfl, rfl⟩ := Prod.mk.inj h
    exact ⟨fun _ e => (by cases e; exact hI), fun _ h => (by cases h)⟩
  | cons n ns ih =>
    unfold nodeLoop at h
    split at h
    · have hmem : ∀ a ∈ stableSort (reqPrefComp g) (g.nodeArcs n), P a :=
        fun a ha => hns n (by simp) a (mem_stableSort.1 ha)
      split at h
      · rename_i hst
        obtain ⟨rfl, rfl⟩ := Prod.mk.inj h
        exact ⟨fun _ h => (by cases h),
          fun _ _ => (arcLoop_ind' hok herr _ hmem _ _ _ _ hI hst).2 _ rfl⟩
      · rename_i hst
        exact ih (fun b hb => hns b (by simp [hb])) _ _
          ((arcLoop_ind' hok herr _ hmem _ _ _ _ hI hst).1 _ rfl) h
    · obtain ⟨rfl, rfl⟩ := Prod.mk.inj h
      exact ⟨fun _ e => (by cases e; exact hI), fun _ h => (by cases h)⟩

/-- The arcs of the nodes of a request group start in the group. -/
theorem arcs_of_group {g : Graph} (hwf : WF g) {r : ℕ} (hr : r ∈ g.reqs) {n : ℕ}
    (hn : n ∈ (g.group r).nodes) {a : Arc} (ha : a ∈ g.nodeArcs n) :
    a ∈ g.arcs ∧ a.u = n ∧ (g.node a.u).group = some r := by
  obtain ⟨h1, h2⟩ := mem_nodeArcs ha
  have hg := hwf.member r hr n hn
  rcases h2 with h2 | h2
  · exact ⟨h1, h2, h2 ▸ hg⟩
  · obtain ⟨sg, hsg, hv, _⟩ := hwf.sup a h1
    rw [h2, hg] at hv
    exact absurd (Option.some.inj hv ▸ hsg) (hwf.disj r hr)

theorem groupOK_mono {g : Graph} {tol : ℚ → ℚ} {ms ms' : List (Arc × ℚ)} {r : ℕ}
    (he : groupFlow g ms' r = groupFlow g ms r) (hm : ∀ m ∈ ms, m ∈ ms')
    (h : GroupOK g tol ms r) : GroupOK g tol ms' r := by
  rcases h with h | ⟨m, h1, h2, h3, h4⟩
  · left; rw [he]; exact h
  · right; exact ⟨m, hm m h1, h2, h3, by rw [he]; exact h4⟩

/-- Invariant of the processing of request group `r`, started in `s0`. -/
structure GroupInv (p : Params) (g : Graph) (tol : ℚ → ℚ) (s0 : St) (r : ℕ) (s : St) (m : ℚ) :
    Prop where
  led : Led p g s
  flow : groupFlow g s.matches_ r = m
  le : m ≤ (g.group r).qty ∨ ∃ x ∈ s.matches_, x.1.exclusive = true ∧
    (g.node x.1.u).group = some r ∧ m ≤ (g.group r).qty + tol x.2
  other : ∀ r', r' ≠ r → groupFlow g s.matches_ r' = groupFlow g s0.matches_ r'
  sub : ∀ x ∈ s0.matches_, x ∈ s.matches_
  total : totalFlow s.matches_ = totalFlow s0.matches_ + m
  unm : s.unmatched = s0.unmatched

theorem GroupInv.step {p : Params} {g : Graph} {tol : ℚ → ℚ} (hwf : WF g)
    (hn : Nonneg p.dmax g) (hulp : Ulp p tol) (heps : 0 ≤ p.eps)
    {s0 s s' : St} {r : ℕ} {m q : ℚ} {a : Arc} (ha : a ∈ g.arcs)
    (hu' : (g.node a.u).group = some r) (h : GroupInv p g tol s0 r s m)
    (hst : arcStep p g s a ((g.group r).qty - m) = (s', .ok q)) :
    GroupInv p g tol s0 r s' (m + q) := by
  obtain ⟨r1, hr, hu, hlu⟩ := hwf.req a ha
  obtain ⟨sg, hsg, hv, hlv⟩ := hwf.sup a ha
  have : r1 = r := by rw [hu] at hu'; exact Option.some.inj hu'
  subst this
  have hne : r1 ≠ sg := fun e => hwf.disj r1 hr (e ▸ hsg)
  have hled := h.led.arcStep hwf hn heps ha hst
  rcases arcStep_cases hu hv hne hst with ⟨hq, rfl⟩ | ⟨⟨e, he⟩, _⟩ | ⟨q', cap, t, hc, ht, hq, hr', rfl⟩
  · cases hq; simpa using h
  · cases he
  · cases hr'
    have h1 := (toMatch_bound hulp heps ht hq).1
    refine ⟨hled, ?_, ?_, ?_, ?_, ?_, h.unm⟩
    · simp only [matchedSt, groupFlow_snoc, hu, h.flow, if_true]
    · by_cases he : a.exclusive = true
      · right; refine ⟨(a, q), by simp [matchedSt], he, hu, ?_⟩
        simp only [he, if_true] at h1; linarith
      · left; simp [he] at h1; linarith
    · intro r' hr''
      simp only [matchedSt, groupFlow_snoc, hu, Option.some.injEq, Ne.symm hr'', if_false, add_zero]
      exact h.other r' hr''
    · intro x hx; simp [matchedSt, h.sub x hx]
    · simp only [matchedSt, totalFlow_snoc, h.total]; ring

theorem satisfySet_flow {p : Params} {g : Graph} {tol : ℚ → ℚ} (hwf : WF g)
    (hn : Nonneg p.dmax g) (hulp : Ulp p tol) (heps : 0 ≤ p.eps)
    {s s' : St} {r : ℕ} (hr : r ∈ g.reqs) (hq : 0 ≤ (g.group r).qty) {res : Except Stop Unit}
    (hled : Led p g s) (h0 : groupFlow g s.matches_ r = 0)
    (h : satisfySet p g s r = (s', res)) :
    GroupOK g tol s'.matches_ r ∧
    (∀ r', r' ≠ r → groupFlow g s'.matches_ r' = groupFlow g s.matches_ r') ∧
    (∀ x ∈ s.matches_, x ∈ s'.matches_) ∧
    (res = .ok () → Led p g s' ∧
      s'.unmatched + totalFlow s'.matches_ =
        s.unmatched + totalFlow s.matches_ + (g.group r).qty) := by
  have hinit : GroupInv p g tol s r s 0 :=
    ⟨hled, h0, Or.inl hq, fun _ _ => rfl, fun _ h => h, by simp, rfl⟩
  have hP : ∀ n ∈ stableSort (avgPrefComp g) (g.group r).nodes, ∀ a ∈ g.nodeArcs n,
      a ∈ g.arcs ∧ (g.node a.u).group = some r := by
    intro n hn' a ha
    have := arcs_of_group hwf hr (mem_stableSort.1 hn') ha
    exact ⟨this.1, this.2.2⟩
  have hind := fun res s' => nodeLoop_ind' (p := p) (g := g) (K := GroupInv p g tol s r)
    (J := fun s' => ∃ s1 m, GroupInv p g tol s r s1 m ∧ s'.matches_ = s1.matches_)
    (target := (g.group r).qty) (P := fun a => a ∈ g.arcs ∧ (g.node a.u).group = some r)
    (fun s1 s2 a m q ha _ hK hst => hK.step hwf hn hulp heps ha.1 ha.2 hst)
    (fun s1 s2 a m e ha _ hK hst => ⟨s1, m, hK, arcStep_err_matches hwf ha.1 hst⟩)
    _ hP s s' 0 res hinit
  unfold satisfySet at h
  simp only at h
  have fin : ∀ (ms : List (Arc × ℚ)) s1 m, GroupInv p g tol s r s1 m → ms = s1.matches_ →
      GroupOK g tol ms r ∧
      (∀ r', r' ≠ r → groupFlow g ms r' = groupFlow g s.matches_ r') ∧
      (∀ x ∈ s.matches_, x ∈ ms) := by
    rintro ms s1 m hK rfl
    refine ⟨?_, hK.other, hK.sub⟩
    unfold GroupOK
    rw [hK.flow]
    exact hK.le
  split at h
  · rename_i hl
    obtain ⟨rfl, rfl⟩ := Prod.mk.inj h
    obtain ⟨s1, m, hK, e⟩ := (hind _ _ hl).2 _ rfl
    obtain ⟨f1, f2, f3⟩ := fin _ s1 m hK e
    exact ⟨f1, f2, f3, fun h => by cases h⟩
  · rename_i s1 m hl
    obtain ⟨rfl, rfl⟩ := Prod.mk.inj h
    have hK := (hind _ _ hl).1 _ rfl
    obtain ⟨f1, f2, f3⟩ := fin s1.matches_ s1 m hK rfl
    refine ⟨f1, f2, f3, fun _ => ⟨⟨hK.led.caps, hK.led.nq, hK.led.mem, hK.led.obj⟩, ?_⟩⟩
    show s1.unmatched + _ + totalFlow s1.matches_ = _
    rw [hK.total, hK.unm]; ring

theorem groupLoop_flow {p : Params} {g : Graph} {tol : ℚ → ℚ} (hwf : WF g)
    (hn : Nonneg p.dmax g) (hulp : Ulp p tol) (heps : 0 ≤ p.eps)
    (hqty : ∀ r ∈ g.reqs, 0 ≤ (g.group r).qty) (rs : List ℕ) (hsub : ∀ r ∈ rs, r ∈ g.reqs)
    (hnd : rs.Nodup) {s s' : St} {res : Except Stop Unit} (hled : Led p g s)
    (h0 : ∀ r ∈ rs, groupFlow g s.matches_ r = 0)
    (hok : ∀ r ∈ g.reqs, r ∉ rs → GroupOK g tol s.matches_ r)
    (h : groupLoop p g s rs = (s', res)) :
    (∀ r ∈ g.reqs, GroupOK g tol s'.matches_ r) ∧
    (res = .ok () → Led p g s' ∧ s'.unmatched + totalFlow s'.matches_ =
      s.unmatched + totalFlow s.matches_ + (rs.map fun r => (g.group r).qty).sum) := by
  induction rs generalizing s with
  | nil =>
    unfold groupLoop at h; obtain ⟨rfl, rfl⟩ := Prod.mk.inj h
    exact ⟨fun r hr => hok r hr (by simp), fun _ => ⟨hled, by simp⟩⟩
  | cons r rs ih =>
    have hr := hsub r (by simp)
    have hnd' := List.nodup_cons.1 hnd
    unfold groupLoop at h
    split at h
    · rename_i s1 e hst
      obtain ⟨rfl, rfl⟩ := Prod.mk.inj h
      obtain ⟨f1, f2, f3, _⟩ := satisfySet_flow hwf hn hulp heps hr (hqty r hr) hled
        (h0 r (by simp)) hst
      refine ⟨?_, fun h => by cases h⟩
      intro r' hr'
      by_cases he : r' = r
      · subst he; exact f1
      · by_cases hm : r' ∈ rs
        · left; rw [f2 r' he, h0 r' (by simp [hm])]; exact hqty r' hr'
        · exact groupOK_mono (f2 r' he) f3 (hok r' hr' (by simp [he, hm]))
    · rename_i s1 hst
      obtain ⟨f1, f2, f3, f4⟩ := satisfySet_flow hwf hn hulp heps hr (hqty r hr) hled
        (h0 r (by simp)) hst
      obtain ⟨l1, l2⟩ := f4 rfl
      have := ih (fun r' h => hsub r' (by simp [h])) hnd'.2 l1
        (fun r' hr' => by
          rw [f2 r' (by rintro rfl; exact hnd'.1 hr')]; exact h0 r' (by simp [hr']))
        (fun r' hr' hm => by
          by_cases he : r' = r
          · subst he; exact f1
          · exact groupOK_mono (f2 r' he) f3 (hok r' hr' (by simp [he, hm]))) h
      refine ⟨this.1, fun e => ⟨(this.2 e).1, ?_⟩⟩
      rw [(this.2 e).2, l2]; simp; ring

end Cyclus.Exchange
