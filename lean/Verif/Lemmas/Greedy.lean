import Verif.Spec.Greedy
import Verif.Lemmas.StableSort
import Mathlib.Tactic.Linarith
import Mathlib.Tactic.Ring
import Mathlib.Tactic.FieldSimp
import Mathlib.Algebra.Order.Field.Basic
import Mathlib.Algebra.Order.BigOperators.Group.List

/-! # Invariants of the greedy solver -/

namespace Cyclus.Exchange

open Spec

/-! ## Doubles -/

namespace Dbl

/-- `d ≤ x`. -/
def Bd (d : Dbl) (x : ℚ) : Prop := match d with
  | fin q => q ≤ x
  | ninf => True
  | _ => False

theorem min_ne_nan {a b : Dbl} (ha : a ≠ nan) (hb : b ≠ nan) : min a b ≠ nan := by
  unfold min; split <;> assumption

theorem min_ne_ninf {a b : Dbl} (ha : a ≠ ninf) (hb : b ≠ ninf) : min a b ≠ ninf := by
  unfold min; split <;> assumption

theorem min_bd_left {a b : Dbl} {x : ℚ} (h : a.Bd x) : (min a b).Bd x := by
  cases a <;> cases b <;> simp_all [min, lt, Bd]
  split_ifs
  · show _ ≤ _; linarith
  · exact h

theorem min_bd_right {a b : Dbl} {x : ℚ} (ha : a ≠ nan) (h : b.Bd x) : (min a b).Bd x := by
  cases a <;> cases b <;> simp_all [min, lt, Bd]
  split_ifs
  · exact h
  · show _ ≤ _; linarith

theorem lt_trans' {a b c : Dbl} (h : lt a b = true) (k : lt b c = true) : lt a c = true := by
  cases a <;> cases b <;> cases c <;> simp_all [lt]
  exact _root_.lt_trans h k

theorem Bd_of_lt {a b : Dbl} {x : ℚ} (h : lt a b = true) (k : b.Bd x) : a.Bd x := by
  cases a <;> cases b <;> simp_all [lt, Bd]
  linarith

theorem Bd_of_not_lt {a b : Dbl} {x : ℚ} (hb : b ≠ nan) (h : lt a b = false) (k : a.Bd x) :
    b.Bd x := by
  cases a <;> cases b <;> simp_all [lt, Bd]
  linarith

theorem minElem_ne_nan (x : Dbl) (xs : List Dbl) (h : ∀ y ∈ x :: xs, y ≠ nan) :
    minElem x xs ≠ nan := by
  induction xs generalizing x with
  | nil => exact h x (by simp)
  | cons y ys ih =>
    refine ih _ ?_
    intro z hz
    rcases List.mem_cons.1 hz with rfl | hz
    · show (if _ then _ else _) ≠ nan
      split <;> apply h <;> simp
    · exact h z (by simp [hz])

theorem maxElem_ne_nan (x : Dbl) (xs : List Dbl) (h : ∀ y ∈ x :: xs, y ≠ nan) :
    maxElem x xs ≠ nan := by
  induction xs generalizing x with
  | nil => exact h x (by simp)
  | cons y ys ih =>
    refine ih _ ?_
    intro z hz
    rcases List.mem_cons.1 hz with rfl | hz
    · show (if _ then _ else _) ≠ nan
      split <;> apply h <;> simp
    · exact h z (by simp [hz])

theorem minElem_bd (x : Dbl) (xs : List Dbl) (h : ∀ y ∈ x :: xs, y ≠ nan) {b : ℚ} {y : Dbl}
    (hy : y ∈ x :: xs) (hb : y.Bd b) : (minElem x xs).Bd b := by
  induction xs generalizing x y with
  | nil => simp at hy; subst hy; exact hb
  | cons z zs ih =>
    have hne : (if lt z x then z else x) ≠ nan := by split <;> apply h <;> simp
    have hall : ∀ w ∈ (if lt z x then z else x) :: zs, w ≠ nan := by
      intro w hw
      rcases List.mem_cons.1 hw with rfl | hw
      · exact hne
      · exact h w (by simp [hw])
    show (minElem (if lt z x then z else x) zs).Bd b
    rcases List.mem_cons.1 hy with rfl | hy
    · refine ih _ hall (y := if lt z y then z else y) (by simp) ?_
      split
      · rename_i hl; exact Bd_of_lt hl hb
      · exact hb
    · rcases List.mem_cons.1 hy with rfl | hy
      · refine ih _ hall (y := if lt y x then y else x) (by simp) ?_
        split
        · exact hb
        · rename_i hl
          exact Bd_of_not_lt (h x (by simp)) (by simpa using hl) hb
      · exact ih _ hall (y := y) (by simp [hy]) hb

theorem min_fin_fin {r : ℚ} {b : Dbl} {q : ℚ} (h : min (fin r) b = fin q) : q ≤ r := by
  cases b <;> simp_all [min, lt]
  · split at h <;> simp_all; linarith
  
end Dbl

/-! ## What one step does -/

/-- The state after a match has been added. -/
def matchedSt (p : Params) (g : Graph) (s : St) (a : Arc) (q : ℚ) (r sg : ℕ) : St where
  caps := Function.update
    (Function.update s.caps r
      (List.zipWith (capUpdate p q) (s.caps r) ((g.node a.u).unitCaps a.key))) sg
      (List.zipWith (capUpdate p q) (s.caps sg) ((g.node a.v).unitCaps a.key))
  nq := Function.update (Function.update s.nq a.u (s.nq a.u + q)) a.v
    ((Function.update s.nq a.u (s.nq a.u + q)) a.v + q)
  matches_ := s.matches_ ++ [(a, q)]
  obj := s.obj + q / (g.node a.u).pref a.key
  unmatched := s.unmatched

theorem addMatch_cases {p : Params} {g : Graph} {s s' : St} {a : Arc} {q : ℚ} {r sg : ℕ}
    {res : Except Stop ℚ} (hu : (g.node a.u).group = some r) (hv : (g.node a.v).group = some sg)
    (hne : r ≠ sg) (h : addMatch p g s a q = (s', res)) :
    ((∃ e, res = .error e) ∧ s'.matches_ = s.matches_) ∨
    (res = .ok q ∧ s' = matchedSt p g s a q r sg) := by
  unfold addMatch at h
  set u1 := updateCapacity p g s a.u a q with hu'
  unfold updateCapacity at hu'
  rw [hu] at hu'
  simp only at hu'
  rw [hu'] at h
  clear_value u1
  split_ifs at h with h1 h2
  · obtain ⟨rfl, rfl⟩ := Prod.mk.inj h; left; exact ⟨⟨_, rfl⟩, rfl⟩
  · obtain ⟨rfl, rfl⟩ := Prod.mk.inj h; left; exact ⟨⟨_, rfl⟩, rfl⟩
  · simp only at h
    unfold updateCapacity at h
    rw [hv] at h
    simp only [Function.update_of_ne (Ne.symm hne)] at h
    split_ifs at h with h3 h4
    · obtain ⟨rfl, rfl⟩ := Prod.mk.inj h; left; exact ⟨⟨_, rfl⟩, rfl⟩
    · obtain ⟨rfl, rfl⟩ := Prod.mk.inj h; left; exact ⟨⟨_, rfl⟩, rfl⟩
    · obtain ⟨rfl, rfl⟩ := Prod.mk.inj h
      right
      exact ⟨rfl, rfl⟩

theorem arcStep_cases {p : Params} {g : Graph} {s s' : St} {a : Arc} {rem : ℚ} {r sg : ℕ}
    {res : Except Stop ℚ} (hu : (g.node a.u).group = some r) (hv : (g.node a.v).group = some sg)
    (hne : r ≠ sg) (h : arcStep p g s a rem = (s', res)) :
    (res = .ok 0 ∧ s' = s) ∨
    ((∃ e, res = .error e) ∧ s'.matches_ = s.matches_) ∨
    (∃ q cap t, arcCap p g s a = .ok cap ∧ toMatch p a rem cap = .ok t ∧ above p t = some q ∧
      res = .ok q ∧ s' = matchedSt p g s a q r sg) := by
  unfold arcStep at h
  split at h
  · obtain ⟨rfl, rfl⟩ := Prod.mk.inj h; right; left; exact ⟨⟨_, rfl⟩, rfl⟩
  · rename_i cap hcap
    split at h
    · obtain ⟨rfl, rfl⟩ := Prod.mk.inj h; right; left; exact ⟨⟨_, rfl⟩, rfl⟩
    · rename_i t ht
      split at h
      · obtain ⟨rfl, rfl⟩ := Prod.mk.inj h; left; exact ⟨rfl, rfl⟩
      · rename_i q hq
        rcases addMatch_cases hu hv hne h with h | ⟨h1, h2⟩
        · right; left; exact h
        · right; right; exact ⟨q, cap, t, hcap, ht, hq, h1, h2⟩

/-! ## Running the loops -/

theorem mem_nodeArcs {g : Graph} {n : ℕ} {a : Arc} (h : a ∈ g.nodeArcs n) :
    a ∈ g.arcs ∧ (a.u = n ∨ a.v = n) := by
  unfold Graph.nodeArcs at h
  obtain ⟨b, hb, h⟩ := List.mem_flatMap.1 h
  rcases List.mem_append.1 h with h | h <;> split at h <;> simp_all

/-- A predicate on states that every completed step keeps is kept by the solver, and if every
failing step leads to `J`, then the state after a failing run satisfies `J`. -/
theorem arcLoop_ind {p : Params} {g : Graph} {I J : St → Prop} {target : ℚ}
    (hok : ∀ s s' a rem q, a ∈ g.arcs → I s → arcStep p g s a rem = (s', .ok q) → I s')
    (herr : ∀ s s' a rem e, a ∈ g.arcs → I s → arcStep p g s a rem = (s', .error e) → J s')
    (as : List Arc) (has : ∀ a ∈ as, a ∈ g.arcs) (s s' : St) (m : ℚ) (res : Except Stop ℚ)
    (hI : I s) (h : arcLoop p g target s m as = (s', res)) :
    (∀ m', res = .ok m' → I s') ∧ (∀ e, res = .error e → J s') := by
  induction as generalizing s m with
  | nil =>
    unfold arcLoop at h; obtain ⟨rfl, rfl⟩ := Prod.mk.inj h
    exact ⟨fun _ _ => hI, fun _ h => by cases h⟩
  | cons a as ih =>
    unfold arcLoop at h
    split at h
    · split at h
      · rename_i hst
        obtain ⟨rfl, rfl⟩ := Prod.mk.inj h
        exact ⟨fun _ h => (by cases h), fun _ _ => herr _ _ _ _ _ (has a (by simp)) hI hst⟩
      · rename_i hst
        exact ih (fun b hb => has b (by simp [hb])) _ _ (hok _ _ _ _ _ (has a (by simp)) hI hst) h
    · obtain ⟨rfl, rfl⟩ := Prod.mk.inj h
      exact ⟨fun _ _ => hI, fun _ h => by cases h⟩

theorem nodeLoop_ind {p : Params} {g : Graph} {I J : St → Prop} {target : ℚ}
    (hok : ∀ s s' a rem q, a ∈ g.arcs → I s → arcStep p g s a rem = (s', .ok q) → I s')
    (herr : ∀ s s' a rem e, a ∈ g.arcs → I s → arcStep p g s a rem = (s', .error e) → J s')
    (ns : List ℕ) (s s' : St) (m : ℚ) (res : Except Stop ℚ)
    (hI : I s) (h : nodeLoop p g target s m ns = (s', res)) :
    (∀ m', res = .ok m' → I s') ∧ (∀ e, res = .error e → J s') := by
  induction ns generalizing s m with
  | nil =>
    unfold nodeLoop at h; obtain ⟨rfl, rfl⟩ := Prod.mk.inj h
    exact ⟨fun _ _ => hI, fun _ h => by cases h⟩
  | cons n ns ih =>
    unfold nodeLoop at h
    split at h
    · have hmem : ∀ a ∈ stableSort (reqPrefComp g) (g.nodeArcs n), a ∈ g.arcs :=
        fun a ha => (mem_nodeArcs (mem_stableSort.1 ha)).1
      split at h
      · rename_i hst
        obtain ⟨rfl, rfl⟩ := Prod.mk.inj h
        exact ⟨fun _ h => (by cases h),
          fun _ _ => (arcLoop_ind hok herr _ hmem _ _ _ _ hI hst).2 _ rfl⟩
      · rename_i hst
        exact ih _ _ ((arcLoop_ind hok herr _ hmem _ _ _ _ hI hst).1 _ rfl) h
    · obtain ⟨rfl, rfl⟩ := Prod.mk.inj h
      exact ⟨fun _ _ => hI, fun _ h => by cases h⟩

theorem groupLoop_ind {p : Params} {g : Graph} {I J : St → Prop}
    (hok : ∀ s s' a rem q, a ∈ g.arcs → I s → arcStep p g s a rem = (s', .ok q) → I s')
    (herr : ∀ s s' a rem e, a ∈ g.arcs → I s → arcStep p g s a rem = (s', .error e) → J s')
    (hun : ∀ s x, I s → I { s with unmatched := x })
    (rs : List ℕ) (s s' : St) (res : Except Stop Unit)
    (hI : I s) (h : groupLoop p g s rs = (s', res)) :
    (res = .ok () → I s') ∧ (∀ e, res = .error e → J s') := by
  induction rs generalizing s with
  | nil =>
    unfold groupLoop at h; obtain ⟨rfl, rfl⟩ := Prod.mk.inj h
    exact ⟨fun _ => hI, fun _ h => by cases h⟩
  | cons r rs ih =>
    unfold groupLoop at h
    split at h
    · rename_i hst
      obtain ⟨rfl, rfl⟩ := Prod.mk.inj h
      refine ⟨fun h => (by cases h), fun e he => ?_⟩
      unfold satisfySet at hst
      simp only at hst
      split at hst
      · rename_i hn
        obtain ⟨rfl, he'⟩ := Prod.mk.inj hst
        exact (nodeLoop_ind hok herr _ _ _ _ _ hI hn).2 _ rfl
      · cases hst
    · rename_i hst
      refine ih _ ?_ h
      unfold satisfySet at hst
      simp only at hst
      split at hst
      · cases hst
      · rename_i hn
        obtain ⟨rfl, he'⟩ := Prod.mk.inj hst
        exact hun _ _ ((nodeLoop_ind hok herr _ _ _ _ _ hI hn).1 _ rfl)

/-! ## The ledger -/

theorem load_snoc (g : Graph) (ms : List (Arc × ℚ)) (a : Arc) (q : ℚ) (grp i : ℕ) :
    load g (ms ++ [(a, q)]) grp i = load g ms grp i +
      ((if (g.node a.u).group = some grp
        then q * ((g.node a.u).unitCaps (a.u, a.v)).getD i 0 else 0) +
      (if (g.node a.v).group = some grp
        then q * ((g.node a.v).unitCaps (a.u, a.v)).getD i 0 else 0)) := by
  simp [load]

theorem flow_snoc (ms : List (Arc × ℚ)) (a : Arc) (q : ℚ) (n : ℕ) :
    flow (ms ++ [(a, q)]) n =
      flow ms n + ((if a.u = n then q else 0) + (if a.v = n then q else 0)) := by
  simp [flow]

theorem groupFlow_snoc (g : Graph) (ms : List (Arc × ℚ)) (a : Arc) (q : ℚ) (r : ℕ) :
    groupFlow g (ms ++ [(a, q)]) r =
      groupFlow g ms r + (if (g.node a.u).group = some r then q else 0) := by
  simp [groupFlow]

theorem totalFlow_snoc (ms : List (Arc × ℚ)) (a : Arc) (q : ℚ) :
    totalFlow (ms ++ [(a, q)]) = totalFlow ms + q := by
  simp [totalFlow]

theorem totalCost_snoc (g : Graph) (ms : List (Arc × ℚ)) (a : Arc) (q : ℚ) :
    totalCost g (ms ++ [(a, q)]) = totalCost g ms + q / (g.node a.u).pref a.key := by
  simp [totalCost, Node.pref, Arc.key]

theorem unit_getD_nonneg {dmax : ℚ} {g : Graph} (hn : Nonneg dmax g) {a : Arc} (ha : a ∈ g.arcs)
    {n grp : ℕ} (hm : n = a.u ∨ n = a.v) (hg : (g.node n).group = some grp) (i : ℕ) :
    0 ≤ ((g.node n).unitCaps (a.u, a.v)).getD i 0 := by
  rw [List.getD_eq_getElem?_getD]
  cases h : ((g.node n).unitCaps (a.u, a.v))[i]? with
  | none => simp
  | some u => simpa using hn.unit a ha grp i u ⟨n, hm, hg, h⟩

theorem load_nonneg {dmax : ℚ} {g : Graph} (hn : Nonneg dmax g) {ms : List (Arc × ℚ)}
    (hms : ∀ m ∈ ms, m.1 ∈ g.arcs ∧ 0 ≤ m.2) (grp i : ℕ) : 0 ≤ load g ms grp i := by
  unfold load
  refine List.sum_nonneg ?_
  intro x hx
  obtain ⟨m, hm, rfl⟩ := List.mem_map.1 hx
  obtain ⟨h1, h2⟩ := hms m hm
  refine add_nonneg ?_ ?_
  · split
    · rename_i h; exact mul_nonneg h2 (unit_getD_nonneg hn h1 (Or.inl rfl) h i)
    · exact le_rfl
  · split
    · rename_i h; exact mul_nonneg h2 (unit_getD_nonneg hn h1 (Or.inr rfl) h i)
    · exact le_rfl

/-- The state and the matches tell the same story. -/
structure Led (p : Params) (g : Graph) (s : St) : Prop where
  caps : ∀ (grp : ℕ), (grp ∈ g.reqs ∨ grp ∈ g.sups) → ∀ i : ℕ,
    (s.caps grp)[i]? = ((g.group grp).caps[i]?).map
      (fun c => if c = p.dmax then p.dmax else c - load g s.matches_ grp i)
  nq : ∀ n, s.nq n = flow s.matches_ n
  mem : ∀ m ∈ s.matches_, m.1 ∈ g.arcs ∧ p.eps < m.2 ∧
    (m.1.exclusive = true → m.2 = m.1.exclVal)
  obj : s.obj = totalCost g s.matches_

theorem Led.length {p : Params} {g : Graph} {s : St} (h : Led p g s) {grp : ℕ}
    (hg : grp ∈ g.reqs ∨ grp ∈ g.sups) : (s.caps grp).length = (g.group grp).caps.length := by
  refine le_antisymm ?_ ?_
  · by_contra hc
    have := h.caps grp hg (g.group grp).caps.length
    rw [List.getElem?_eq_getElem (by omega)] at this
    simp at this
  · by_contra hc
    have := h.caps grp hg (s.caps grp).length
    rw [List.getElem?_eq_getElem (l := (g.group grp).caps) (by omega)] at this
    simp at this

theorem toMatch_exclusive {p : Params} {a : Arc} {rem q : ℚ} {cap t : Dbl} (heps : 0 ≤ p.eps)
    (ht : toMatch p a rem cap = .ok t) (hq : above p t = some q) :
    p.eps < q ∧ (a.exclusive = true → q = a.exclVal) := by
  have hpos : t = .fin q ∧ p.eps < q := by
    cases t <;> simp [above] at hq
    obtain ⟨h1, rfl⟩ := hq; exact ⟨rfl, h1⟩
  refine ⟨hpos.2, fun he => ?_⟩
  unfold toMatch at ht
  simp only [he, if_true] at ht
  split at ht
  · have := Except.ok.inj ht
    rw [hpos.1] at this
    have := Dbl.fin.inj this
    split at this
    · have h2 := hpos.2; subst this; exact absurd heps (not_le.2 h2)
    · exact this.symm
  · cases ht

theorem capUpdate_led {p : Params} {g : Graph} (hn : Nonneg p.dmax g) {ms : List (Arc × ℚ)}
    (hms : ∀ m ∈ ms, m.1 ∈ g.arcs ∧ 0 ≤ m.2) {grp i : ℕ} {c q u : ℚ}
    (hc : (g.group grp).caps[i]? = some c) :
    capUpdate p q (if c = p.dmax then p.dmax else c - load g ms grp i) u =
      if c = p.dmax then p.dmax else c - (load g ms grp i + q * u) := by
  unfold capUpdate
  by_cases h : c = p.dmax
  · simp [h]
  · have h1 := lt_of_le_of_ne (hn.cap grp i c hc) h
    have h2 := load_nonneg hn hms grp i
    rw [if_neg h, if_neg (by intro e; linarith), if_neg h]
    ring

theorem Led.matched {p : Params} {g : Graph} {s : St} (hwf : WF g) (hn : Nonneg p.dmax g)
    (heps : 0 ≤ p.eps) (h : Led p g s) {a : Arc} (ha : a ∈ g.arcs) {q : ℚ} {r sg : ℕ}
    (hr : r ∈ g.reqs) (hu : (g.node a.u).group = some r)
    (hsg : sg ∈ g.sups) (hv : (g.node a.v).group = some sg)
    (hlu : ((g.node a.u).unitCaps (a.u, a.v)).length = (g.group r).caps.length)
    (hlv : ((g.node a.v).unitCaps (a.u, a.v)).length = (g.group sg).caps.length)
    (hq : p.eps < q) (hx : a.exclusive = true → q = a.exclVal) :
    Led p g (matchedSt p g s a q r sg) := by
  have hne : r ≠ sg := fun e => hwf.disj r hr (e ▸ hsg)
  have hms : ∀ m ∈ s.matches_, m.1 ∈ g.arcs ∧ 0 ≤ m.2 := fun m hm =>
    ⟨(h.mem m hm).1, heps.trans (h.mem m hm).2.1.le⟩
  have key : ∀ (grp n : ℕ), (grp ∈ g.reqs ∨ grp ∈ g.sups) →
      ((g.node n).unitCaps (a.u, a.v)).length = (g.group grp).caps.length → ∀ i : ℕ,
      (List.zipWith (capUpdate p q) (s.caps grp) ((g.node n).unitCaps a.key))[i]? =
      ((g.group grp).caps[i]?).map (fun c => if c = p.dmax then p.dmax else
        c - (load g s.matches_ grp i + q * ((g.node n).unitCaps (a.u, a.v)).getD i 0)) := by
    intro grp n hg hl i
    rw [List.getElem?_zipWith, h.caps grp hg i]
    cases hc : (g.group grp).caps[i]? with
    | none => simp
    | some c =>
      have hi : i < ((g.node n).unitCaps (a.u, a.v)).length := by
        rw [hl]; exact (List.getElem?_eq_some_iff.1 hc).1
      have : ((g.node n).unitCaps a.key)[i]? =
          some (((g.node n).unitCaps (a.u, a.v)).getD i 0) := by
        rw [List.getD_eq_getElem?_getD]
        show ((g.node n).unitCaps (a.u, a.v))[i]? = _
        rw [List.getElem?_eq_getElem hi]; rfl
      rw [this]
      simp only [Option.map_some, Option.some.injEq]
      exact capUpdate_led hn hms hc
  refine ⟨?_, ?_, ?_, ?_⟩
  · intro grp hg i
    simp only [matchedSt, load_snoc, hu, hv, Option.some.injEq]
    by_cases h1 : sg = grp
    · subst h1
      rw [Function.update_self, key sg a.v hg hlv i, if_neg hne, if_pos rfl, zero_add]
    · rw [Function.update_of_ne (Ne.symm h1), if_neg h1]
      by_cases h2 : r = grp
      · subst h2
        rw [Function.update_self, key r a.u hg hlu i, if_pos rfl, add_zero]
      · rw [Function.update_of_ne (Ne.symm h2), if_neg h2, h.caps grp hg i, add_zero, add_zero]
  · intro n
    show Function.update _ a.v _ n = _
    simp only [matchedSt, flow_snoc]
    have huv : a.u ≠ a.v := by
      intro e; rw [e, hv] at hu; exact hne (Option.some.inj hu).symm
    by_cases h1 : a.v = n
    · subst h1
      rw [Function.update_self, Function.update_of_ne (Ne.symm huv), h.nq, if_neg huv]; simp
    · rw [Function.update_of_ne (Ne.symm h1)]
      by_cases h2 : a.u = n
      · subst h2
        rw [Function.update_self, h.nq]; simp [h1]
      · rw [Function.update_of_ne (Ne.symm h2), h.nq]; simp [h1, h2]
  · intro m hm
    rcases List.mem_append.1 hm with hm | hm
    · exact h.mem m hm
    · simp only [List.mem_singleton] at hm; subst hm; exact ⟨ha, hq, hx⟩
  · show s.obj + _ = _
    simp only [matchedSt, totalCost_snoc, h.obj]

theorem Led.arcStep {p : Params} {g : Graph} (hwf : WF g) (hn : Nonneg p.dmax g)
    (heps : 0 ≤ p.eps) {s s' : St} {a : Arc} {rem q : ℚ} (ha : a ∈ g.arcs) (h : Led p g s)
    (hst : arcStep p g s a rem = (s', .ok q)) : Led p g s' := by
  obtain ⟨r, hr, hu, hlu⟩ := hwf.req a ha
  obtain ⟨sg, hsg, hv, hlv⟩ := hwf.sup a ha
  have hne : r ≠ sg := fun e => hwf.disj r hr (e ▸ hsg)
  rcases arcStep_cases hu hv hne hst with ⟨_, rfl⟩ | ⟨⟨e, he⟩, _⟩ | ⟨q', cap, t, _, ht, hq, _, rfl⟩
  · exact h
  · cases he
  · obtain ⟨h1, h2⟩ := toMatch_exclusive heps ht hq
    exact h.matched hwf hn heps ha hr hu hsg hv hlu hlv h1 h2

theorem Led.init (p : Params) (g : Graph) (prev : ℕ → List ℚ) : Led p g (initSt g prev []) := by
  refine ⟨?_, ?_, ?_, ?_⟩
  · intro grp hg i
    simp only [initSt, hg, if_true, load, List.map_nil, List.sum_nil, sub_zero]
    cases (g.group grp).caps[i]? with
    | none => rfl
    | some c => simp
  · intro n; simp [initSt, flow]
  · intro m hm; simp [initSt] at hm
  · simp [initSt, totalCost]

theorem arcStep_err_matches {p : Params} {g : Graph} (hwf : WF g) {s s' : St} {a : Arc} {rem : ℚ}
    {e : Stop} (ha : a ∈ g.arcs) (hst : Exchange.arcStep p g s a rem = (s', .error e)) :
    s'.matches_ = s.matches_ := by
  obtain ⟨r, hr, hu, hlu⟩ := hwf.req a ha
  obtain ⟨sg, hsg, hv, hlv⟩ := hwf.sup a ha
  have hne : r ≠ sg := fun e => hwf.disj r hr (e ▸ hsg)
  rcases arcStep_cases hu hv hne hst with ⟨he, _⟩ | ⟨_, h⟩ | ⟨q', cap, t, _, ht, hq, he, _⟩
  · cases he
  · exact h
  · cases he

end Cyclus.Exchange
