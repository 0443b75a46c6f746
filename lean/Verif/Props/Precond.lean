import Verif.Model.Precond
import Verif.Lemmas.StableSort
import Mathlib.Tactic.Linarith
import Mathlib.Algebra.BigOperators.Group.List.Basic

/-!
# C16: preconditioning only reorders the exchange graph
-/

namespace Cyclus.Exchange

/-! ## Specification -/

namespace Spec

/-- The mean of a list of numbers (0 for the empty list). -/
def mean (l : List ℚ) : ℚ := if l = [] then 0 else l.sum / l.length

/-- The weight of a commodity: 1 if no weights were given, 0 for a commodity without weight. -/
def commodWeight (w : List (String × ℚ)) (c : String) : ℚ :=
  if w = [] then 1
  else match w.find? (fun e => e.1 == c) with
    | some e => e.2
    | none => 0

/-- The documented conditioning weight of a node (`greedy_preconditioner.h:30-37`):
`w_commod * (1 + p / (1 + p))` with `p` the mean preference over its arcs. -/
def weight (w : List (String × ℚ)) (n : Node) : ℚ :=
  let p := mean (n.prefs.map Prod.snd)
  commodWeight w n.commod * (1 + p / (1 + p))

/-- The weight of a request group: the mean weight of its nodes. -/
def groupWeight (w : List (String × ℚ)) (g : Graph) (r : ℕ) : ℚ :=
  mean ((g.group r).nodes.map fun n => weight w (g.node n))

/-- `l'` is `l` stably sorted by descending `key`: a permutation, in descending order, and the
elements of equal key are in their old order. -/
structure StablySorted {α : Type} (key : α → ℚ) (l l' : List α) : Prop where
  perm : l'.Perm l
  desc : l'.Pairwise fun a b => key b ≤ key a
  stable : ∀ k, l'.filter (fun a => decide (key a = k)) = l.filter (fun a => decide (key a = k))

/-- The two groups agree except for the order in which the nodes are listed. -/
structure SameButOrder (a b : Group) : Prop where
  caps : a.caps = b.caps
  excl : a.exclGroups = b.exclGroups
  qty : a.qty = b.qty

end Spec

theorem mean_eq (l : List ℚ) : (if l.length > 0 then l.sum / l.length else 0) = Spec.mean l := by
  unfold Spec.mean
  cases l <;> simp

theorem avgPref_eq (n : Node) : n.avgPref = Spec.mean (n.prefs.map Prod.snd) := by
  rw [← mean_eq]; simp [Node.avgPref]

theorem lookup_find (w : Weights) (c : String) :
    (w.lookup c).getD 0 = match w.find? (fun e => e.1 == c) with
      | some e => e.2
      | none => 0 := by
  induction w with
  | nil => rfl
  | cons e es ih =>
    obtain ⟨k, v⟩ := e
    by_cases h : k = c
    · subst h; simp [List.lookup]
    · have h' : (c == k) = false := by simpa using fun e => h e.symm
      have h'' : (k == c) = false := by simpa using h
      simp [List.lookup, List.find?, h', h'', ih]

theorem nodeKey_eq (w : Weights) (g : Graph) (n : ℕ) : nodeKey w g n = Spec.weight w (g.node n) := by
  unfold nodeKey nodeWeight Spec.weight Spec.commodWeight
  rw [avgPref_eq, lookup_find]
  cases w <;> simp

theorem descBy_weakOrder {α : Type} (key : α → ℚ) : WeakOrder (descBy key) where
  asymm a b h := by simp only [descBy, decide_eq_true_eq, decide_eq_false_iff_not] at *; linarith
  ntrans a b c h k := by simp only [descBy, decide_eq_false_iff_not] at *; linarith

theorem stablySorted_desc {α : Type} (key : α → ℚ) (l : List α) :
    Spec.StablySorted key l (stableSort (descBy key) l) where
  perm := stableSort_perm _ _
  desc := (stableSort_pairwise (descBy_weakOrder key) l).imp (by
    intro a b h; simp only [descBy, decide_eq_false_iff_not] at h; exact not_lt.1 h)
  stable k := filter_stableSort _ (by
    intro a b ha hb
    simp only [decide_eq_true_eq] at ha hb
    simp [descBy, ha, hb]) l

theorem groupWeight_eq (w : Weights) (g : Graph) (nodes : List ℕ) :
    groupWeight w g nodes = Spec.mean (nodes.map fun n => Spec.weight w (g.node n)) := by
  have hk : nodeKey w g = fun n => Spec.weight w (g.node n) := funext (nodeKey_eq w g)
  rw [← mean_eq]
  simp [groupWeight, hk]

theorem mean_perm {l l' : List ℚ} (h : l.Perm l') : Spec.mean l = Spec.mean l' := by
  unfold Spec.mean
  rw [h.sum_eq, h.length_eq]
  have : (l = []) = (l' = []) := by
    simp only [eq_iff_iff]
    constructor
    · rintro rfl; exact h.symm.eq_nil
    · rintro rfl; exact h.eq_nil
  simp [this]

/-- **C16.** For every graph and every weight map `Condition` sorts the nodes of every request
group, and the request groups, stably by descending weight, and changes nothing else: not the
nodes, the arcs, the supply groups, nor the capacities, exclusive groups and quantity of any
group. -/
theorem C16_condition (w : Weights) (g : Graph) :
    (condition w g).node = g.node ∧ (condition w g).arcs = g.arcs ∧
    (condition w g).sups = g.sups ∧
    Spec.StablySorted (Spec.groupWeight w g) g.reqs (condition w g).reqs ∧
    (∀ r, Spec.SameButOrder ((condition w g).group r) (g.group r)) ∧
    (∀ r ∈ g.reqs, Spec.StablySorted (fun n => Spec.weight w (g.node n)) (g.group r).nodes
      ((condition w g).group r).nodes) ∧
    (∀ r, r ∉ g.reqs → (condition w g).group r = g.group r) := by
  have hkey : (fun n => Spec.weight w (g.node n)) = nodeKey w g := by
    funext n; rw [nodeKey_eq]
  refine ⟨rfl, rfl, rfl, ?_, ?_, ?_, ?_⟩
  · have : ∀ r, groupWeight w g ((condition w g).group r).nodes = Spec.groupWeight w g r := by
      intro r
      rw [groupWeight_eq]
      unfold Spec.groupWeight
      refine mean_perm (List.Perm.map _ ?_)
      show (List.Perm (if r ∈ g.reqs then _ else g.group r : Group).nodes _)
      split
      · exact stableSort_perm _ _
      · exact List.Perm.refl _
    have h := stablySorted_desc (fun r => groupWeight w g ((condition w g).group r).nodes) g.reqs
    simp only [this] at h
    have e : (condition w g).reqs =
        stableSort (descBy fun r => groupWeight w g ((condition w g).group r).nodes) g.reqs := rfl
    rw [e]
    simp only [this]
    exact h
  · intro r
    show Spec.SameButOrder (if r ∈ g.reqs then _ else g.group r : Group) _
    split <;> exact ⟨rfl, rfl, rfl⟩
  · intro r hr
    show Spec.StablySorted _ _ (if r ∈ g.reqs then _ else g.group r : Group).nodes
    rw [if_pos hr, hkey]
    exact stablySorted_desc _ _
  · intro r hr
    show (if r ∈ g.reqs then _ else g.group r : Group) = _
    rw [if_neg hr]

/-- Two request groups whose weights reverse their order, and nodes of different commodity. -/
def exGraph16 : Graph where
  node := fun n => ⟨some (n / 2), fun _ => [], [((n, 9), n)], false,
    if n % 2 = 0 then "eggs" else "spam", n, 5⟩
  group := fun r => ⟨[2 * r, 2 * r + 1], [], [], 5⟩
  reqs := [0, 1]
  sups := []
  arcs := []

example : (condition [("eggs", 2), ("spam", 5)] exGraph16).reqs = [1, 0] ∧
    ((condition [("eggs", 2), ("spam", 5)] exGraph16).group 0).nodes = [1, 0] := by
  decide +kernel

theorem foldl_min_mem (x : ℚ) (xs : List ℚ) :
    xs.foldl (fun b y => if y < b then y else b) x ∈ x :: xs ∧
    ∀ y ∈ x :: xs, xs.foldl (fun b y => if y < b then y else b) x ≤ y := by
  induction xs generalizing x with
  | nil => simp
  | cons z zs ih =>
    simp only [List.foldl_cons]
    obtain ⟨h1, h2⟩ := ih (if z < x then z else x)
    have hle := h2 _ (List.mem_cons_self)
    refine ⟨?_, ?_⟩
    · rcases List.mem_cons.1 h1 with h | h
      · rw [h]; split <;> simp
      · exact List.mem_cons_of_mem _ (List.mem_cons_of_mem _ h)
    · intro y hy
      rcases List.mem_cons.1 hy with rfl | hy
      · refine hle.trans ?_; split <;> linarith
      · rcases List.mem_cons.1 hy with rfl | hy
        · refine hle.trans ?_; split <;> linarith
        · exact h2 y (List.mem_cons_of_mem _ hy)

theorem foldl_max_mem (x : ℚ) (xs : List ℚ) :
    xs.foldl (fun b y => if b < y then y else b) x ∈ x :: xs ∧
    ∀ y ∈ x :: xs, y ≤ xs.foldl (fun b y => if b < y then y else b) x := by
  induction xs generalizing x with
  | nil => simp
  | cons z zs ih =>
    simp only [List.foldl_cons]
    obtain ⟨h1, h2⟩ := ih (if x < z then z else x)
    have hle := h2 _ (List.mem_cons_self)
    refine ⟨?_, ?_⟩
    · rcases List.mem_cons.1 h1 with h | h
      · rw [h]; split <;> simp
      · exact List.mem_cons_of_mem _ (List.mem_cons_of_mem _ h)
    · intro y hy
      rcases List.mem_cons.1 hy with rfl | hy
      · refine le_trans ?_ hle; split <;> linarith
      · rcases List.mem_cons.1 hy with rfl | hy
        · refine le_trans ?_ hle; split <;> linarith
        · exact h2 y (List.mem_cons_of_mem _ hy)

/-- **C16**, weights given lightest first: reversing a nonnegative weight map keeps the
commodities and reflects every weight at the middle of the range, so the order of any two
commodities is reversed and all weights stay within the old range; a negative weight aborts. -/
theorem C16_reverse (w : Weights) (lo hi : ℚ)
    (hlo : lo ∈ w.map Prod.snd) (hhi : hi ∈ w.map Prod.snd)
    (hmin : ∀ e ∈ w, lo ≤ e.2) (hmax : ∀ e ∈ w, e.2 ≤ hi) :
    (0 ≤ lo → processWeights true w = some (w.map fun e => (e.1, hi + lo - e.2)) ∧
      processWeights false w = some w) ∧
    (lo < 0 → ∀ b, processWeights b w = none) := by
  cases hw : w.map Prod.snd with
  | nil => rw [hw] at hlo; simp at hlo
  | cons x xs =>
    obtain ⟨m1, m2⟩ := foldl_min_mem x xs
    obtain ⟨x1, x2⟩ := foldl_max_mem x xs
    rw [← hw] at m1 m2 x1 x2
    have e1 : xs.foldl (fun b y => if y < b then y else b) x = lo := by
      refine le_antisymm (m2 _ hlo) ?_
      obtain ⟨e, he, h⟩ := List.mem_map.1 m1
      rw [← h]; exact hmin e he
    have e2 : xs.foldl (fun b y => if b < y then y else b) x = hi := by
      refine le_antisymm ?_ (x2 _ hhi)
      obtain ⟨e, he, h⟩ := List.mem_map.1 x1
      rw [← h]; exact hmax e he
    unfold processWeights
    rw [hw]
    simp only [e1, e2]
    constructor
    · intro h; simp [h]
    · intro h b; simp [not_le.2 h]

example : processWeights true [("eggs", 2), ("spam", 5)] = some [("eggs", 5), ("spam", 2)] ∧
    processWeights false [("eggs", -2)] = none := by decide +kernel

end Cyclus.Exchange
