import Verif.Lemmas.ProgSolver
import Verif.Lemmas.LinProg

/-!
# C128: the mathematical programming solver finds the cheapest admissible matching
-/

namespace Cyclus.Prog.Props

open Cyclus.Exchange Cyclus.Exchange.Spec Cyclus.Prog.Spec

/-- The libraries are exact: where a program has an optimal solution they find one, the linear
library leaving out integrality, and the value is that of the objective. -/
structure Exact (lib : Lib) : Prop where
  lp : ∀ P, (∃ y, Optimal { P with ints := [] } y) →
    ∃ x, lib.lp P = some x ∧ Optimal { P with ints := [] } x
  mip : ∀ P, (∃ y, Optimal P y) → ∃ x, lib.mip P = some x ∧ Optimal P x
  value : ∀ P x, lib.value P x = objective P x

open Classical in
/-- Exact libraries. -/
noncomputable def exactLib : Lib where
  lp P := if h : ∃ y, Optimal { P with ints := [] } y then some h.choose else none
  mip P := if h : ∃ y, Optimal P y then some h.choose else none
  value := objective

theorem exactLib_exact : Exact exactLib where
  lp P h := ⟨h.choose, by simp [exactLib, h], h.choose_spec⟩
  mip P h := ⟨h.choose, by simp [exactLib, h], h.choose_spec⟩
  value _ _ := rfl

theorem hasInt_false {P : Program} (hi : ∀ i ∈ P.ints, i < P.n) (h : hasInt P = false) :
    P.ints = [] := by
  rw [List.eq_nil_iff_forall_not_mem]
  intro i hm
  simp only [hasInt, List.any_eq_false, List.mem_range, decide_eq_true_eq] at h
  exact h i (hi i hm) hm

theorem solveProg_exact {lib : Lib} (hl : Exact lib) {P : Program} (hi : ∀ i ∈ P.ints, i < P.n)
    (ho : ∃ y, Optimal P y) : ∃ x, solveProg lib P = some x ∧ Optimal P x := by
  unfold solveProg
  cases h : hasInt P
  · have he : { P with ints := [] } = P := by
      have := hasInt_false hi h
      cases P
      simp only at this
      subst this
      rfl
    have := hl.lp P (by rw [he]; exact ho)
    rw [he] at this
    simpa using this
  · simpa using hl.mip P ho

/-- A lower and an upper bound as constraints. -/
def limits (l : List (ℕ × ℚ)) (lb : ℚ) (ub : Option ℚ) : List (List (ℕ × ℚ) × ℚ) :=
  (l.map fun c => (c.1, -1 * c.2), -lb) :: ub.toList.map fun u => (l, u)

theorem limits_spec (l : List (ℕ × ℚ)) (lb : ℚ) (ub : Option ℚ) (x : ℕ → ℚ) :
    LinProg.Holds (limits l lb ub) x ↔ lb ≤ LinProg.val x l ∧ Below (LinProg.val x l) ub := by
  cases ub with
  | none =>
    simp only [LinProg.Holds, limits, Option.toList, List.map_nil, List.mem_singleton, forall_eq,
      LinProg.val_scale, Below, and_true]
    constructor <;> intro h <;> linarith
  | some u =>
    simp only [LinProg.Holds, limits, Option.toList, List.map_cons, List.map_nil, List.mem_cons,
      List.not_mem_nil, or_false, forall_eq_or_imp, forall_eq, LinProg.val_scale, Below]
    constructor <;> rintro ⟨h, h'⟩ <;> exact ⟨by linarith, h'⟩

/-- A program all of whose integer columns are between 0 and 1 that has a feasible point and is
bounded below has an optimal solution. -/
theorem exists_optimal {P : Program} (h01 : ∀ x, Feasible P x → ∀ i ∈ P.ints, x i = 0 ∨ x i = 1)
    (hf : ∃ x, Feasible P x) (hb : ∃ b, ∀ x, Feasible P x → b ≤ objective P x) :
    ∃ x, Optimal P x := by
  set C := (P.rows.flatMap fun r => limits r.coeffs r.lb r.ub) ++
    ((P.cols.take P.n).zipIdx.flatMap fun c => limits [(c.2, 1)] c.1.lb c.1.ub) with hC
  set o := (P.cols.take P.n).zipIdx.map fun c => (c.2, c.1.obj) with ho
  have hobj : ∀ x, LinProg.val x o = objective P x := by
    intro x
    simp only [LinProg.val, ho, objective, List.map_map]
    rfl
  have hH : ∀ x, (LinProg.Holds C x ∧ ∀ i ∈ P.ints, x i = 0 ∨ x i = 1) ↔ Feasible P x := by
    intro x
    have h1 : LinProg.Holds C x ↔
        (∀ r ∈ P.rows, r.lb ≤ rowVal x r ∧ Below (rowVal x r) r.ub) ∧
        ∀ (i : ℕ) (c : Col), i < P.n → P.cols[i]? = some c → c.lb ≤ x i ∧ Below (x i) c.ub := by
      have hsplit : LinProg.Holds C x ↔
          (∀ r ∈ P.rows, LinProg.Holds (limits r.coeffs r.lb r.ub) x) ∧
          ∀ c ∈ (P.cols.take P.n).zipIdx, LinProg.Holds (limits [(c.2, 1)] c.1.lb c.1.ub) x := by
        simp only [LinProg.Holds, hC, List.mem_append, List.mem_flatMap]
        constructor
        · intro h
          exact ⟨fun r hr c hc => h c (.inl ⟨r, hr, hc⟩), fun d hd c hc => h c (.inr ⟨d, hd, hc⟩)⟩
        · rintro ⟨h1, h2⟩ c (⟨r, hr, hc⟩ | ⟨d, hd, hc⟩)
          · exact h1 r hr c hc
          · exact h2 d hd c hc
      rw [hsplit]
      simp only [limits_spec, LinProg.val_cons, LinProg.val_nil, one_mul, add_zero]
      refine and_congr Iff.rfl ?_
      constructor
      · intro h i c hi hc
        refine h (c, i) (List.mem_zipIdx_iff_getElem?.2 ?_)
        rw [List.getElem?_take_of_lt hi]
        exact hc
      · rintro h ⟨c, i⟩ hm
        have := List.mem_zipIdx_iff_getElem?.1 hm
        simp only [List.getElem?_take] at this
        split at this
        · exact h i c ‹_› this
        · simp at this
    rw [h1]
    constructor
    · rintro ⟨⟨h2, h3⟩, h4⟩
      refine ⟨h3, h2, fun i hi => ?_⟩
      rcases h4 i hi with h | h
      · exact ⟨0, by simp [h]⟩
      · exact ⟨1, by simp [h]⟩
    · intro h
      exact ⟨⟨h.row, h.col⟩, h01 x h⟩
  obtain ⟨x, hx, hm⟩ := LinProg.zo_min P.ints C o
    (by obtain ⟨x, hx⟩ := hf; exact ⟨x, (hH x).2 hx⟩)
    (by
      obtain ⟨b, hb⟩ := hb
      exact ⟨b, fun x h1 h2 => by rw [hobj]; exact hb x ((hH x).1 ⟨h1, h2⟩)⟩)
  refine ⟨x, (hH x).1 hx, fun y hy => ?_⟩
  have := (hH y).2 hy
  rw [← hobj, ← hobj]
  exact hm y this.1 this.2

theorem zero_admissible {p : Params} {g : Graph} (hg : Regular p g) :
    Admissible p.excl g (fun _ => 0) := by
  refine ⟨fun _ _ => le_refl 0, fun a ha => (hg.qty a ha).1, fun _ _ _ _ => .inl rfl, ?_, ?_⟩
  · intro sg hsg j c hj
    have : load g (g.arcs.map fun a => (a, (0 : ℚ))) sg j = 0 := by
      simp only [load, List.map_map]
      apply List.sum_eq_zero
      intro y hy
      obtain ⟨a, -, rfl⟩ := List.mem_map.1 hy
      simp only [Function.comp]
      split <;> split <;> simp
    rw [this]
    exact (hg.cap sg hsg c (List.mem_of_getElem? hj)).1
  · intro _ _ _ _ _ _ a _ b _ _ _ h
    exact absurd rfl h

theorem foldr_max_nonneg (l : List ℚ) : 0 ≤ l.foldr max 0 := by
  induction l with
  | nil => simp
  | cons a l ih => exact le_trans ih (le_max_right _ _)

theorem cost_nonneg {g : Graph} {f : Arc → ℚ} (hp : ∀ a ∈ g.arcs, 0 < a.pref)
    (hf : ∀ a ∈ g.arcs, 0 ≤ f a) {ps : ℚ} (hps : 0 ≤ ps) (big : ℚ) : 0 ≤ cost big ps g f := by
  unfold cost
  refine add_nonneg (List.sum_nonneg ?_) (mul_nonneg hps (List.sum_nonneg ?_))
  · intro y hy
    obtain ⟨a, ha, rfl⟩ := List.mem_map.1 hy
    exact div_nonneg (hf a ha) (hp a ha).le
  · intro y hy
    obtain ⟨a, -, rfl⟩ := List.mem_map.1 hy
    exact foldr_max_nonneg _

theorem ints_lt {p : Params} {g : Graph} {P : Program} (hg : Regular p g)
    (h : toProg p g = some (.ok P)) : ∀ i ∈ P.ints, i < P.n := by
  obtain ⟨hn, -⟩ := toProg_exact hg.wf hg.complete hg.requested h
  have hints := (toProg_cols hg.wf hg.complete.keys h).2.2.2.2
  intro i hi
  rw [hints] at hi
  split at hi
  · obtain ⟨a, ha, rfl⟩ := List.mem_map.1 hi
    have := arcId_lt hg.complete (List.mem_filter.1 ha).1
    omega
  · simp at hi

/-- With exact libraries the solver, once its greedy solver has run, sets as matches the quantities
above `eps` of a flow that is admissible — within nodes and capacities of the suppliers, exclusive arcs
used whole or not at all, at most one arc in an exclusive group — and that costs least among all
admissible flows.  It returns that cost. -/
theorem C128_best {lib : Lib} (hl : Exact lib) (q : Setup) {type : String}
    (ht : type = "clp" ∨ type = "cbc") {g : Graph} (hg : Regular (q.params g) g)
    (hp : ∀ a ∈ g.arcs, 0 < a.pref) (old : List (Arc × ℚ))
    {s : Exchange.St} {v₀ : ℚ}
    (hr : Exchange.solveGraph q.gp q.excl (condition []) g (fun _ => []) old = (s, .ok v₀)) :
    ∃ f v, solveGraph lib q type g old =
        (g.arcs.filterMap fun a => if q.gp.eps < f a then some (a, f a) else none, .ok v) ∧
      Admissible q.excl g f ∧ v = cost q.big (pseudoCost q.excl g) g f ∧
      ∀ f', Admissible q.excl g f' → v ≤ cost q.big (pseudoCost q.excl g) g f' := by
  have hS := same_afterGreedy g
  have hpar : q.params (afterGreedy g) = q.params g := by
    simp only [Setup.params, pseudoCost_same hS]
  have hg' := hS.regular hg
  have hp' : ∀ a ∈ (afterGreedy g).arcs, 0 < a.pref := by rw [hS.base.arcs]; exact hp
  have hps : 0 ≤ (q.params g).pseudo := (pseudoCost_spec q.excl g).nonneg
  obtain ⟨P, hP⟩ := toProg_total hg'.wf hg'.complete hp'
  have hatt : ∀ f, Admissible q.excl (afterGreedy g) f →
      ∃ y, Feasible P y ∧ objective P y = cost q.big (q.params g).pseudo (afterGreedy g) f :=
    fun f hf => cost_attained hg'.wf hg'.complete hg'.requested hg'.groups hg'.nodup hg'.unit
      (fun a ha => (hg'.excl a ha).1) hP hf
  have hle : ∀ x, Feasible P x →
      cost q.big (q.params g).pseudo (afterGreedy g) (flowOf q.excl (afterGreedy g) x) ≤
        objective P x :=
    fun x hx => cost_le hg'.wf hg'.complete hg'.requested hg'.nodup hps hP hx
  obtain ⟨x, hx, ho⟩ := solveProg_exact hl (ints_lt hg' hP) (exists_optimal (feasible_01 hg' hP)
    (by
      obtain ⟨y, hy, -⟩ := hatt _ (zero_admissible (p := q.params g) hg')
      exact ⟨y, hy⟩)
    ⟨0, fun y hy => le_trans (cost_nonneg hp' (flowOf_admissible hg' hP hy).nonneg hps q.big)
      (hle y hy)⟩)
  have hadm : Admissible q.excl (afterGreedy g) (flowOf q.excl (afterGreedy g) x) :=
    flowOf_admissible hg' hP ho.1
  obtain ⟨y, hy, hye⟩ := hatt _ hadm
  have hval : objective P x =
      cost q.big (q.params g).pseudo (afterGreedy g) (flowOf q.excl (afterGreedy g) x) :=
    le_antisymm (hye ▸ ho.2 y hy) (hle x ho.1)
  refine ⟨flowOf q.excl (afterGreedy g) x, objective P x, ?_, (hS.admissible _ _).1 hadm, ?_, ?_⟩
  · simp only [solveGraph, ht, if_true, hr, hpar, hP, hx, hl.value,
      fromProg_eq hg'.complete, hS.base.arcs]
  · rw [hval, hS.cost_eq]; rfl
  · intro f' hf'
    obtain ⟨z, hz, hze⟩ := hatt f' ((hS.admissible _ _).2 hf')
    have := ho.2 z hz
    rw [hze, hS.cost_eq] at this
    exact this

/-- The solver knows two types of solvers; with any other it stops with a `ValueError` before it touches
the matches. -/
theorem C128_type (lib : Lib) (q : Setup) {type : String} (h1 : type ≠ "clp") (h2 : type ≠ "cbc")
    (g : Graph) (old : List (Arc × ℚ)) : solveGraph lib q type g old = (old, .error .value) := by
  simp [solveGraph, h1, h2]

/-- A preference that is not positive is refused with a `ValueError`, and no matches are left. -/
theorem C128_refused (lib : Lib) (q : Setup) {type : String} (ht : type = "clp" ∨ type = "cbc")
    {g : Graph} (hg : Regular (q.params g) g) {a : Arc} (ha : a ∈ g.arcs) (hle : a.pref ≤ 0)
    (old : List (Arc × ℚ)) {s : Exchange.St} {v₀ : ℚ}
    (hr : Exchange.solveGraph q.gp q.excl (condition []) g (fun _ => []) old = (s, .ok v₀)) :
    solveGraph lib q type g old = ([], .error .value) := by
  have hS := same_afterGreedy g
  have hpar : q.params (afterGreedy g) = q.params g := by
    simp only [Setup.params, pseudoCost_same hS]
  have hg' := hS.regular hg
  have := toProg_refused hg'.wf hg'.complete hg'.requested (a := a) (by rw [hS.base.arcs]; exact ha)
    hle
  simp only [solveGraph, ht, if_true, hr, hpar, this]

/-- A library that finds no solution is not noticed: the null pointer it leaves is read. -/
theorem C128_null (lib : Lib) (hl : ∀ P, lib.lp P = none) (hm : ∀ P, lib.mip P = none) (q : Setup) {type : String}
    (ht : type = "clp" ∨ type = "cbc") {g : Graph} (hg : Regular (q.params g) g) (hp : ∀ a ∈ g.arcs, 0 < a.pref)
    (old : List (Arc × ℚ)) {s : Exchange.St} {v₀ : ℚ}
    (hr : Exchange.solveGraph q.gp q.excl (condition []) g (fun _ => []) old = (s, .ok v₀)) :
    solveGraph lib q type g old = ([], .error .null) := by
  have hS := same_afterGreedy g
  have hpar : q.params (afterGreedy g) = q.params g := by
    simp only [Setup.params, pseudoCost_same hS]
  have hg' := hS.regular hg
  have hp' : ∀ a ∈ (afterGreedy g).arcs, 0 < a.pref := by rw [hS.base.arcs]; exact hp
  obtain ⟨P, hP⟩ := toProg_total hg'.wf hg'.complete hp'
  have : solveProg lib P = none := by
    unfold solveProg
    split
    · exact hm P
    · exact hl P
  simp only [solveGraph, ht, if_true, hr, hpar, hP, this]

/-- Whatever stops the greedy solver stops the solver, with the matches that the greedy solver had
made. -/
theorem C128_stopped (lib : Lib) (q : Setup) {type : String} (ht : type = "clp" ∨ type = "cbc")
    (g : Graph) (old : List (Arc × ℚ)) {s : Exchange.St} {e : Stop}
    (hr : Exchange.solveGraph q.gp q.excl (condition []) g (fun _ => []) old = (s, .error e)) :
    solveGraph lib q type g old = (s.matches_, .error (.greedy e)) := by
  simp only [solveGraph, ht, if_true, hr]

/-- Neither the matches that were on the graph before nor those of the greedy solver remain or matter, and
`"clp"` and `"cbc"` are the same. -/
theorem C128_forgets (lib : Lib) (q : Setup) {type type' : String}
    (ht : type = "clp" ∨ type = "cbc") (ht' : type' = "clp" ∨ type' = "cbc") (g : Graph)
    (old old' : List (Arc × ℚ)) {s s' : Exchange.St} {v₀ v₀' : ℚ}
    (hr : Exchange.solveGraph q.gp q.excl (condition []) g (fun _ => []) old = (s, .ok v₀))
    (hr' : Exchange.solveGraph q.gp q.excl (condition []) g (fun _ => []) old' = (s', .ok v₀')) :
    solveGraph lib q type g old = solveGraph lib q type' g old' := by
  simp only [solveGraph, ht, ht', if_true, hr, hr']

theorem isPseudoCost_unique {eo : Bool} {g : Graph} {x y : ℚ} (hx : IsPseudoCost eo g x)
    (hy : IsPseudoCost eo g y) : x = y := by
  have key : ∀ {x y}, IsPseudoCost eo g x → IsPseudoCost eo g y → x ≤ y := by
    intro x y hx hy
    rcases hx.attained with h | ⟨a, ha, h⟩
    · rw [h]; exact hy.nonneg
    · rw [h]; exact hy.upper a ha
  exact le_antisymm (key hx hy) (key hy hx)

/-- The solver is at least as good as the greedy solver: what it returns is at most the objective of the
greedy solver, provided every request group has its quantity as its only capacity and the matches of
the greedy solver are admissible.

Full statement: the same without the hypothesis on the matches of the greedy solver.  That is false,
see `C128_fails_greedy`. -/
theorem C128_greedy_partial {lib : Lib} (hl : Exact lib) (q : Setup) {type : String}
    (ht : type = "clp" ∨ type = "cbc") {g : Graph} (hg : Regular (q.params g) g)
    (hp : ∀ a ∈ g.arcs, 0 < a.pref)
    (hcap : ∀ r ∈ g.reqs, (g.group r).caps = [(g.group r).qty] ∧ 0 ≤ (g.group r).qty ∧
      (g.group r).qty ≤ q.big)
    (hone : ∀ a ∈ g.arcs, (g.node a.u).unitCaps (a.u, a.v) = [1])
    (hpref : ∀ a ∈ g.arcs, (g.node a.u).prefs.lookup (a.u, a.v) = some a.pref)
    (hn : Nonneg q.gp.dmax g) {tol : ℚ → ℚ} (hulp : Ulp q.gp tol) (heps : 0 ≤ q.gp.eps)
    {s : Exchange.St} {v₀ : ℚ}
    (hr : Exchange.solveGraph q.gp q.excl (condition []) g (fun _ => []) [] = (s, .ok v₀))
    (hadm : Admissible q.excl g (amount s.matches_))
    (hflow : ∀ r ∈ g.reqs, groupFlow g s.matches_ r ≤ (g.group r).qty) :
    ∃ ms v, solveGraph lib q type g [] = (ms, .ok v) ∧ v ≤ v₀ := by
  obtain ⟨f, v, hrun, -, -, hbest⟩ := C128_best hl q ht hg hp [] hr
  refine ⟨_, v, hrun, (hbest _ hadm).trans ?_⟩
  have hcond : Conditioner (condition []) := Or.inr ⟨_, rfl⟩
  have hpos := C13_positive hcond hg.wf hn heps hr
  have hmem : ∀ m ∈ s.matches_, m.1 ∈ g.arcs := fun m hm => (hpos m hm).1
  have hv₀ : v₀ = totalCost g s.matches_ +
      ((g.reqs.map fun r => (g.group r).qty).sum - totalFlow s.matches_) * pseudoCost q.excl g :=
    by
      obtain ⟨pc, hpc, hv, -⟩ :=
        C15_objective hcond hg.wf hn hulp heps (fun r hr => (hcap r hr).2.1) hr
      rw [hv, isPseudoCost_unique hpc (pseudoCost_spec q.excl g)]
  have hps : 0 ≤ pseudoCost q.excl g := (pseudoCost_spec q.excl g).nonneg
  have hnd : g.arcs.Nodup := hg.complete.keys.of_map _ fun a b h e => h (by rw [e])
  have hcost : (g.arcs.map fun a => amount s.matches_ a / a.pref).sum =
      totalCost g s.matches_ := by
    have := sum_amount hnd (fun a => 1 / a.pref) hmem
    simp only [mul_one_div] at this
    rw [this]
    unfold totalCost
    congr 1
    refine List.map_congr_left fun m hm => ?_
    rw [hpref m.1 (hmem m hm), Option.getD_some]
  have hsf : ∀ r ∈ g.reqs, shortfall q.big g (amount s.matches_) r =
      (g.group r).qty - groupFlow g s.matches_ r := by
    intro r hr
    have hload : load g (g.arcs.map fun a => (a, amount s.matches_ a)) r 0 =
        groupFlow g s.matches_ r := by
      have h1 := sum_amount hnd (fun a => if (g.node a.u).group = some r then 1 else 0) hmem
      simp only [load, List.map_map]
      rw [show groupFlow g s.matches_ r = (s.matches_.map fun m => m.2 *
        (if (g.node m.1.u).group = some r then 1 else 0)).sum by
          unfold groupFlow
          congr 1
          refine List.map_congr_left fun m _ => ?_
          split <;> simp, ← h1]
      congr 1
      refine List.map_congr_left fun a ha => ?_
      have hv : (g.node a.v).group ≠ some r := by
        obtain ⟨sg, hsg, h2, -⟩ := hg.wf.sup a ha
        rw [h2]
        intro e
        injection e with e
        exact hg.wf.disj r hr (e ▸ hsg)
      simp only [Function.comp, hv, if_false, add_zero, hone a ha, List.getD_cons_zero]
      split <;> simp
    obtain ⟨h1, -, h3⟩ := hcap r hr
    have hle := hflow r hr
    simp only [shortfall, h1, List.zipIdx_cons, List.zipIdx_nil, List.map_cons, List.map_nil,
      List.foldr_cons, List.foldr_nil, hload, min_eq_left h3]
    exact max_eq_left (by linarith)
  have hsum : ((wanted g).map (shortfall q.big g (amount s.matches_))).sum ≤
      (g.reqs.map fun r => (g.group r).qty).sum - totalFlow s.matches_ := by
    rw [← sum_groupFlow hg.wf hmem]
    have h1 : ((wanted g).map (shortfall q.big g (amount s.matches_))).sum ≤
        (g.reqs.map fun r => (g.group r).qty - groupFlow g s.matches_ r).sum := by
      unfold wanted
      have : ∀ l : List ℕ, (∀ r ∈ l, r ∈ g.reqs) →
          ((l.filter fun r => decide (∃ n ∈ (g.group r).nodes, (g.node n).prefs ≠ [])).map
            (shortfall q.big g (amount s.matches_))).sum ≤
          (l.map fun r => (g.group r).qty - groupFlow g s.matches_ r).sum := by
        intro l
        induction l with
        | nil => simp
        | cons r l ih =>
          intro hl
          have h2 := ih fun r h => hl r (by simp [h])
          have h3 := hsf r (hl r (by simp))
          have h4 := hflow r (hl r (by simp))
          rw [List.filter_cons]
          split
          · simp only [List.map_cons, List.sum_cons]
            linarith
          · simp only [List.map_cons, List.sum_cons]
            linarith
      exact this g.reqs fun _ h => h
    refine h1.trans (le_of_eq ?_)
    clear h1
    induction g.reqs with
    | nil => simp
    | cons r l ih => simp only [List.map_cons, List.sum_cons, ih]; ring
  rw [hv₀]
  unfold cost
  rw [hcost, mul_comm (pseudoCost q.excl g)]
  exact add_le_add (le_refl _) (mul_le_mul_of_nonneg_right hsum hps)

/-- On graphs where the greedy solver meets no zero unit capacities the solver always ends normally, with
the cheapest admissible flow. -/
theorem C128_ends {lib : Lib} (hl : Exact lib) (q : Setup) {type : String}
    (ht : type = "clp" ∨ type = "cbc") {g : Graph} (hg : Regular (q.params g) g)
    (hp : ∀ a ∈ g.arcs, 0 < a.pref) (hn : Nonneg q.gp.dmax g) (hun : Uniform q.gp.dmax g)
    {tol : ℚ → ℚ} (hulp : Ulp q.gp tol) (htol : ∀ x, tol x ≤ q.gp.eps) (heps : 0 ≤ q.gp.eps) :
    ∃ f v, solveGraph lib q type g [] =
        (g.arcs.filterMap fun a => if q.gp.eps < f a then some (a, f a) else none, .ok v) ∧
      Admissible q.excl g f ∧ v = cost q.big (pseudoCost q.excl g) g f ∧
      ∀ f', Admissible q.excl g f' → v ≤ cost q.big (pseudoCost q.excl g) g f' := by
  obtain ⟨s, v, h⟩ := C57_no_exception (eo := q.excl) (prev := fun _ => [])
    (cond := condition []) (Or.inr ⟨_, rfl⟩) hg.wf hn hun hulp htol heps
  exact C128_best hl q ht hg hp [] h

/-! ## Concrete exchanges -/

/-- Two requests for one unit each, and one exclusive bid of one unit for each of them.  `gs` are the
exclusive groups of the supplier. -/
def exSale (gs : List (List ℕ)) : Graph where
  node n :=
    if n = 0 then ⟨some 0, fun _ => [1], [((0, 1), 1)], false, "a", 0, 1⟩
    else if n = 3 then ⟨some 3, fun _ => [1], [((3, 2), 1)], false, "a", 3, 1⟩
    else ⟨some 1, fun _ => [1], [], true, "a", 1, 1⟩
  group r :=
    if r = 0 then ⟨[0], [1], [], 1⟩ else if r = 3 then ⟨[3], [1], [], 1⟩
    else ⟨[1, 2], [2], gs, 0⟩
  reqs := [0, 3]
  sups := [1]
  arcs := [⟨0, 1, true, 1, 1⟩, ⟨3, 2, true, 1, 1⟩]

def exSetup : Setup :=
  ⟨Exchange.exParams, true, 10 ^ 30, 10 ^ 15, fun _ _ => true, fun _ _ => false⟩

theorem exSale_unitCaps (gs : List (List ℕ)) (n : ℕ) (k : ArcKey) :
    ((exSale gs).node n).unitCaps k = [1] := by
  simp only [exSale]
  split
  · rfl
  · split <;> rfl

theorem exSale_unit (gs : List (List ℕ)) {a : Arc} {grp i : ℕ} {u : ℚ}
    (h : UnitCap (exSale gs) a grp i u) : u = 1 := by
  obtain ⟨n, -, -, h⟩ := h
  rw [exSale_unitCaps] at h
  cases i with
  | zero => simpa using h.symm
  | succ i => simp at h

theorem exSale_caps (gs : List (List ℕ)) {r : ℕ} {c : ℚ} (h : c ∈ ((exSale gs).group r).caps) :
    c = 1 ∨ c = 2 := by
  simp only [exSale] at h
  split at h
  · simp_all
  · split at h <;> simp_all

theorem exSale_regular {gs : List (List ℕ)} (h1 : ∀ ns ∈ gs, ns.Nodup)
    (h2 : ∀ ns ∈ gs, ∀ n ∈ ns, n = 1 ∨ n = 2) :
    Regular (exSetup.params (exSale gs)) (exSale gs) where
  wf := by
    constructor <;> simp [exSale]
  complete := by
    constructor <;> simp [exSale, exSetup, Setup.params]
  requested := by
    constructor <;> simp [exSale, exSetup, Setup.params]
  groups := by
    constructor
    · intro r hr ns hns
      have : r = 1 ∨ r = 0 ∨ r = 3 := by simpa [exSale] using hr
      rcases this with rfl | rfl | rfl
      · exact h1 ns (by simpa [exSale] using hns)
      · simp [exSale] at hns
      · simp [exSale] at hns
    · intro r hr ns hns
      simp [exSale]
    · intro r hr ns hns a ha hc
      have hr' : r = 1 ∨ r = 0 ∨ r = 3 := by simpa [exSale] using hr
      rcases hr' with rfl | rfl | rfl
      · have h3 := h2 ns (by simpa [exSale] using hns) a.u hc.1
        have h4 : a = ⟨0, 1, true, 1, 1⟩ ∨ a = ⟨3, 2, true, 1, 1⟩ := by simpa [exSale] using ha
        rcases h4 with rfl | rfl <;> simp at h3
      · simp [exSale] at hns
      · simp [exSale] at hns
  nodup := by simp [exSale]
  inside := by simp [exSale]
  unit := by
    intro a _ grp i u h
    rw [exSale_unit gs h]
    norm_num
  qty := by
    simp only [exSale, exSetup, Setup.params]
    norm_num
  cap := by
    intro sg _ c hc
    rcases exSale_caps gs hc with rfl | rfl <;> norm_num [exSetup, Setup.params]
  excl := by simp [exSale]

theorem exSale_pref (gs : List (List ℕ)) : ∀ a ∈ (exSale gs).arcs, 0 < a.pref := by simp [exSale]

theorem exSale_nonneg (gs : List (List ℕ)) : Nonneg exSetup.gp.dmax (exSale gs) := by
  constructor
  · intro grp i c hc
    rcases exSale_caps gs (List.mem_of_getElem? hc) with rfl | rfl <;>
      norm_num [exSetup, Exchange.exParams]
  · intro a _ grp i u h
    rw [exSale_unit gs h]
    norm_num

theorem exSale_uniform (gs : List (List ℕ)) : Uniform exSetup.gp.dmax (exSale gs) := by
  constructor
  · intro grp i c hc
    rcases exSale_caps gs (List.mem_of_getElem? hc) with rfl | rfl <;> norm_num
  · intro grp i c _ _
    left
    intro a _ u h
    rw [exSale_unit gs h]
    norm_num

/-- The matches of the greedy solver: both bids. -/
def exSold : List (Arc × ℚ) := [(⟨0, 1, true, 1, 1⟩, 1), (⟨3, 2, true, 1, 1⟩, 1)]

theorem exSale_run (gs : List (List ℕ)) {v : ℚ} {ms : List (Arc × ℚ)}
    (h : (Exchange.solveGraph exSetup.gp exSetup.excl (condition []) (exSale gs) (fun _ => [])
      []).1.matches_ = ms)
    (hv : (Exchange.solveGraph exSetup.gp exSetup.excl (condition []) (exSale gs) (fun _ => [])
      []).2.toOption = some v) : ∃ s,
    Exchange.solveGraph exSetup.gp exSetup.excl (condition []) (exSale gs) (fun _ => []) [] =
      (s, .ok v) ∧ s.matches_ = ms := by
  generalize Exchange.solveGraph exSetup.gp exSetup.excl (condition []) (exSale gs) (fun _ => [])
    [] = r at h hv
  obtain ⟨s, e | w⟩ := r
  · simp [Except.toOption] at hv
  · simp only [Except.toOption, Option.some.injEq] at hv
    exact ⟨s, by rw [hv], h⟩

theorem exSale_apart : ∃ s,
    Exchange.solveGraph exSetup.gp exSetup.excl (condition []) (exSale [[1], [2]]) (fun _ => []) [] =
      (s, .ok 2) ∧ s.matches_ = exSold :=
  exSale_run _ (by decide +kernel) (by decide +kernel)

theorem exSale_shared : ∃ s,
    Exchange.solveGraph exSetup.gp exSetup.excl (condition []) (exSale [[1, 2]]) (fun _ => []) [] =
      (s, .ok 2) ∧ s.matches_ = exSold :=
  exSale_run _ (by decide +kernel) (by decide +kernel)

/-- The hypotheses of `C128_best`, `C128_ends` and `C128_greedy_partial` hold for two separate offers, both
of which the greedy solver sells. -/
example : Exact exactLib ∧ ("cbc" = "clp" ∨ "cbc" = "cbc") ∧
    Regular (exSetup.params (exSale [[1], [2]])) (exSale [[1], [2]]) ∧
    (∀ a ∈ (exSale [[1], [2]]).arcs, 0 < a.pref) ∧
    (∀ r ∈ (exSale [[1], [2]]).reqs,
      ((exSale [[1], [2]]).group r).caps = [((exSale [[1], [2]]).group r).qty] ∧
      0 ≤ ((exSale [[1], [2]]).group r).qty ∧ ((exSale [[1], [2]]).group r).qty ≤ exSetup.big) ∧
    (∀ a ∈ (exSale [[1], [2]]).arcs, ((exSale [[1], [2]]).node a.u).unitCaps (a.u, a.v) = [1]) ∧
    (∀ a ∈ (exSale [[1], [2]]).arcs,
      ((exSale [[1], [2]]).node a.u).prefs.lookup (a.u, a.v) = some a.pref) ∧
    Nonneg exSetup.gp.dmax (exSale [[1], [2]]) ∧ Uniform exSetup.gp.dmax (exSale [[1], [2]]) ∧
    Ulp exSetup.gp (fun _ => 0) ∧ (∀ x : ℚ, (fun _ => (0 : ℚ)) x ≤ exSetup.gp.eps) ∧
    0 ≤ exSetup.gp.eps ∧
    ∃ s, Exchange.solveGraph exSetup.gp exSetup.excl (condition []) (exSale [[1], [2]])
        (fun _ => []) [] = (s, .ok 2) ∧
      Admissible exSetup.excl (exSale [[1], [2]]) (amount s.matches_) ∧
      ∀ r ∈ (exSale [[1], [2]]).reqs,
        groupFlow (exSale [[1], [2]]) s.matches_ r ≤ ((exSale [[1], [2]]).group r).qty := by
  obtain ⟨s, hs, hm⟩ := exSale_apart
  refine ⟨exactLib_exact, .inr rfl, exSale_regular (by decide) (by decide), exSale_pref _,
    by decide +kernel, by decide +kernel, by decide +kernel, exSale_nonneg _,
    exSale_uniform _, exParams_ulp, fun _ => by norm_num [exSetup, Exchange.exParams],
    by norm_num [exSetup, Exchange.exParams], s, hs, ?_, ?_⟩
  · rw [hm]
    have h1 : ∀ a ∈ (exSale [[1], [2]]).arcs, amount exSold a = 1 := by decide +kernel
    refine ⟨by decide +kernel, by decide +kernel, ?_, ?_, ?_⟩
    · intro _ a ha _
      right
      rw [h1 a ha]
      revert a
      decide +kernel
    · intro sg hsg j c hj
      have : sg = 1 := by simpa [exSale] using hsg
      subst this
      cases j with
      | zero =>
        have : c = 2 := by simpa [exSale] using hj.symm
        subst this
        decide +kernel
      | succ j => simp [exSale] at hj
    · intro _ r hr ns hns
      have hr' : r = 1 ∨ r = 0 ∨ r = 3 := by simpa [exSale] using hr
      rcases hr' with rfl | rfl | rfl
      · have : ns = [1] ∨ ns = [2] := by simpa [exSale] using hns
        rcases this with rfl | rfl <;> simp [exSale]
      · simp [exSale] at hns
      · simp [exSale] at hns
  · rw [hm]
    decide +kernel

/-- An arc with a preference of 0 meets the hypotheses of `C128_refused`. -/
example : ∃ g, Regular (exSetup.params g) g ∧ (∃ a ∈ g.arcs, a.pref ≤ 0) ∧
    ∃ s v₀, Exchange.solveGraph exSetup.gp exSetup.excl (condition []) g (fun _ => []) [] =
      (s, .ok v₀) := by
  have hreg := exSale_regular (gs := [[1], [2]]) (by decide) (by decide)
  have hw : WF { exSale [[1], [2]] with arcs := [⟨0, 1, true, 1, 0⟩] } := by
    constructor <;> simp [exSale]
  refine ⟨{ exSale [[1], [2]] with arcs := [⟨0, 1, true, 1, 0⟩] }, ⟨hw, ?_, ?_, ?_, hreg.nodup,
    hreg.inside, ?_, ?_, hreg.cap, ?_⟩, ⟨⟨0, 1, true, 1, 0⟩, by simp, le_refl 0⟩, ?_⟩
  · constructor <;> simp [exSale, exSetup, Setup.params]
  · constructor <;> simp [exSale, exSetup, Setup.params]
  · refine ⟨hreg.groups.nodup, ?_, ?_⟩
    · intro r hr ns hns
      simp
    · intro r hr ns hns a ha hc
      have := hreg.groups.side r hr ns hns ⟨0, 1, true, 1, 1⟩ (by simp [exSale])
      simp only [List.mem_singleton] at ha
      subst ha
      exact this hc
  · intro a _ grp i u h
    rw [exSale_unit [[1], [2]] h]
    norm_num
  · simp only [exSale, exSetup, Setup.params]
    norm_num
  · simp [exSale]
  · exact C57_no_exception (tol := fun _ => 0) (Or.inr ⟨_, rfl⟩) hw
      ⟨(exSale_nonneg _).cap, fun a _ grp i u h => by
        rw [exSale_unit [[1], [2]] h]; norm_num⟩
      ⟨(exSale_uniform [[1], [2]]).pos, fun grp i c _ _ => .inl fun a _ u h => by
        rw [exSale_unit [[1], [2]] h]; norm_num⟩
      exParams_ulp (fun _ => by norm_num [exSetup, Exchange.exParams])
      (by norm_num [exSetup, Exchange.exParams])

/-- The full property fails: the greedy solver does not look at the exclusive groups and sells the same
offer twice, for an objective of 2; the program sells it once, and returns 2.1. -/
theorem C128_fails_greedy : ∃ q g, Regular (Setup.params q g) g ∧ (∀ a ∈ g.arcs, 0 < a.pref) ∧
    (∃ s, Exchange.solveGraph q.gp q.excl (condition []) g (fun _ => []) [] = (s, .ok 2) ∧
      ¬ Admissible q.excl g (amount s.matches_)) ∧
    ∀ lib, Exact lib → ∃ ms, solveGraph lib q "cbc" g [] = (ms, .ok (21 / 10)) := by
  obtain ⟨s, hs, hm⟩ := exSale_shared
  have hreg := exSale_regular (gs := [[1, 2]]) (by decide) (by decide)
  refine ⟨exSetup, exSale [[1, 2]], hreg, exSale_pref _, ⟨s, hs, ?_⟩, ?_⟩
  · rw [hm]
    intro h
    have := h.one rfl 1 (.inl (by simp [exSale])) [1, 2] (by simp [exSale]) ⟨0, 1, true, 1, 1⟩
      (by simp [exSale]) ⟨3, 2, true, 1, 1⟩ (by simp [exSale]) (by simp) (by simp)
      (by decide +kernel) (by decide +kernel)
    simp at this
  · intro lib hl
    obtain ⟨f, v, hrun, hadm, hv, hbest⟩ := C128_best hl exSetup (.inr rfl) hreg (exSale_pref _) [] hs
    have hpc : pseudoCost exSetup.excl (exSale [[1, 2]]) = 11 / 10 := by decide +kernel
    have hwant : wanted (exSale [[1, 2]]) = [0, 3] := by decide +kernel
    have hc : ∀ f, cost exSetup.big (11 / 10) (exSale [[1, 2]]) f =
        f ⟨0, 1, true, 1, 1⟩ + f ⟨3, 2, true, 1, 1⟩ +
          11 / 10 * (max (1 - f ⟨0, 1, true, 1, 1⟩) 0 + max (1 - f ⟨3, 2, true, 1, 1⟩) 0) := by
      intro f
      unfold cost
      rw [hwant]
      have hmin : min (1 : ℚ) (10 ^ 15) = 1 := min_eq_left (by norm_num)
      simp [shortfall, load, exSale, exSetup, hmin]
    rw [hpc] at hv hbest
    have hup : v ≤ 21 / 10 := by
      have := hbest (fun a => if a.u = 0 then 1 else 0) ?_
      · rw [hc] at this
        norm_num at this
        linarith
      · refine ⟨by decide +kernel, by decide +kernel, by decide +kernel, ?_, ?_⟩
        · intro sg hsg j c hj
          have : sg = 1 := by simpa [exSale] using hsg
          subst this
          cases j with
          | zero =>
            have : c = 2 := by simpa [exSale] using hj.symm
            subst this
            decide +kernel
          | succ j => simp [exSale] at hj
        · intro _ r hr ns hns
          simp [exSale]
    have hlow : 21 / 10 ≤ v := by
      rw [hv, hc]
      have h1 := hadm.all rfl ⟨0, 1, true, 1, 1⟩ (by simp [exSale]) rfl
      have h2 := hadm.all rfl ⟨3, 2, true, 1, 1⟩ (by simp [exSale]) rfl
      have h3 := hadm.one rfl 1 (.inl (by simp [exSale])) [1, 2] (by simp [exSale])
        ⟨0, 1, true, 1, 1⟩ (by simp [exSale]) ⟨3, 2, true, 1, 1⟩ (by simp [exSale]) (by simp)
        (by simp)
      rcases h1 with h1 | h1 <;> rcases h2 with h2 | h2 <;> rw [h1, h2]
      · norm_num
      · norm_num
      · norm_num
      · exact absurd (h3 (by rw [h1]; norm_num) (by rw [h2]; norm_num)) (by simp)
    exact ⟨_, by rw [hrun, le_antisymm hup hlow]⟩

/-- A type of solver that meets the hypotheses of `C128_type`. -/
example : "glpk" ≠ "clp" ∧ "glpk" ≠ "cbc" := by decide

end Cyclus.Prog.Props
