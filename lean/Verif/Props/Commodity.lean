import Verif.Model.Commodity
import Mathlib.Algebra.BigOperators.Group.List.Basic
import Mathlib.Algebra.Order.BigOperators.Group.List
import Mathlib.Algebra.Order.Floor.Ring
import Mathlib.Data.Rat.Floor
import Mathlib.Tactic.Linarith
import Mathlib.Tactic.NormNum
import Mathlib.Tactic.Ring

/-!
# Commodity producers (C51, C73, C74)
-/

namespace Cyclus.Commod

namespace Spec

/-- What a producer contributes to the supply of a commodity. -/
def offer (p : Producer) (c : ℕ) : ℚ :=
  match p.commods c with
  | some i => i.capacity
  | none => 0

/-- What a producer costs. -/
def price (p : Producer) (c : ℕ) : ℚ :=
  match p.commods c with
  | some i => i.cost
  | none => 0

/-- The sum over a set of producers. -/
def total (P : ℕ → Producer) (c : ℕ) (ps : List ℕ) : ℚ := (ps.map fun p => offer (P p) c).sum

/-- What a list of orders adds to the supply. -/
def covered (P : ℕ → Producer) (c : ℕ) (os : List Order) : ℚ :=
  (os.map fun o => o.number * offer (P o.producer) c).sum

/-- What a list of orders costs. -/
def costs (P : ℕ → Producer) (c : ℕ) (os : List Order) : ℚ :=
  (os.map fun o => o.number * price (P o.producer) c).sum

/-- An order that can be placed with the builders. -/
def Possible (P : ℕ → Producer) (B : ℕ → List ℕ) (bs : List ℕ) (c : ℕ) (o : Order) : Prop :=
  0 ≤ o.number ∧ o.builder ∈ bs ∧ o.producer ∈ B o.builder ∧ (P o.producer).commods c ≠ none

/-- The point is feasible: integer, not negative, of `int` size, and the row is met. -/
def Feasible (cols : List Col) (demand : ℚ) (sol : List ℚ) : Prop :=
  sol.length = cols.length ∧ (∀ x ∈ sol, ∃ n : ℕ, x = n) ∧
    demand ≤ ((cols.zip sol).map fun cs => cs.1.capacity * cs.2).sum

/-- The objective. -/
def objective (cols : List Col) (sol : List ℚ) : ℚ :=
  ((cols.zip sol).map fun cs => cs.1.cost * cs.2).sum

end Spec

open Spec

theorem entry_offer {klim : ℚ} {p : Producer} {c : ℕ} (h : p.produces c = true) :
    (p.capacity klim c).2 = offer p c ∧ (p.cost klim c).2 = price p c := by
  unfold Producer.produces at h
  unfold Producer.capacity Producer.cost Producer.entry offer price
  cases hc : p.commods c with
  | none => rw [hc] at h; cases h
  | some i => simp

theorem offer_none {p : Producer} {c : ℕ} (h : p.produces c = false) : offer p c = 0 := by
  unfold Producer.produces at h
  unfold offer
  cases hc : p.commods c with
  | none => rfl
  | some i => rw [hc] at h; cases h

/-- **C51, total capacity**: the sum over the registered producers, whatever their order. -/
theorem C51_total (klim : ℚ) (P : ℕ → Producer) (c : ℕ) (ps : List ℕ) :
    totalCapacity klim P c ps = total P c ps ∧
      ∀ qs, ps.Perm qs → totalCapacity klim P c qs = totalCapacity klim P c ps := by
  have key : ∀ (ps : List ℕ) (t : ℚ),
      ps.foldl (fun t p => if (P p).produces c then t + ((P p).capacity klim c).2 else t) t =
        t + total P c ps := by
    intro ps
    induction ps with
    | nil => intro t; simp [total]
    | cons p ps ih =>
      intro t
      rw [List.foldl_cons, ih]
      have : total P c (p :: ps) = offer (P p) c + total P c ps := by simp [total]
      rw [this]
      cases hp : (P p).produces c with
      | true => rw [if_pos rfl, (entry_offer hp).1]; ring
      | false => rw [if_neg (by simp), offer_none hp]; ring
  have h : ∀ ps, totalCapacity klim P c ps = total P c ps := fun ps => by
    unfold totalCapacity; rw [key]; ring
  refine ⟨h ps, fun qs hq => ?_⟩
  rw [h, h]
  exact (List.Perm.sum_eq (hq.map _)).symm

/-- **C51, registering**: a new producer adds what it offers, one that is registered adds nothing. -/
theorem C51_register (klim : ℚ) (P : ℕ → Producer) (c : ℕ) (ps : List ℕ) (p : ℕ) :
    totalCapacity klim P c (setInsert ps p) =
      totalCapacity klim P c ps + (if p ∈ ps then 0 else offer (P p) c) := by
  rw [(C51_total _ _ _ _).1, (C51_total _ _ _ _).1]
  unfold setInsert
  split
  · simp
  · simp [total]; ring

/-- **C51, unregistering**: unregistering takes away what the producer offers, so unregistering a
producer that was added restores the previous total. -/
theorem C51_unregister (klim : ℚ) (P : ℕ → Producer) (c : ℕ) (ps : List ℕ) (p : ℕ)
    (hn : ps.Nodup) :
    totalCapacity klim P c (setErase ps p) =
      totalCapacity klim P c ps - (if p ∈ ps then offer (P p) c else 0) ∧
    (p ∉ ps → totalCapacity klim P c (setErase (setInsert ps p) p) = totalCapacity klim P c ps) := by
  have hid : ∀ ps : List ℕ, p ∉ ps → setErase ps p = ps := by
    intro ps h
    unfold setErase
    rw [List.filter_eq_self]
    intro a ha
    simp only [Bool.not_eq_true', decide_eq_false_iff_not]
    rintro rfl; exact h ha
  constructor
  · rw [(C51_total _ _ _ _).1, (C51_total _ _ _ _).1]
    induction ps with
    | nil => simp [setErase, total]
    | cons q ps ih =>
      rw [List.nodup_cons] at hn
      by_cases hq : q = p
      · subst hq
        have : setErase (q :: ps) q = setErase ps q := by simp [setErase]
        rw [this, hid ps hn.1]
        simp [total]
      · have he : setErase (q :: ps) p = q :: setErase ps p := by simp [setErase, hq]
        have ih := ih hn.2
        simp only [total] at ih
        rw [he]
        simp only [total, List.map_cons, List.sum_cons, ih, List.mem_cons, Ne.symm hq, false_or]
        ring
  · intro h
    have : setErase (setInsert ps p) p = ps := by
      unfold setInsert
      rw [if_neg h]
      have : setErase (p :: ps) p = setErase ps p := by simp [setErase]
      rw [this, hid ps h]
    rw [this]

/-- **C51, supply**: the sum over the managers of the sum over their producers. -/
theorem C51_supply (klim : ℚ) (P : ℕ → Producer) (M : ℕ → List ℕ) (s : SD) (c : ℕ) :
    s.supply klim P M c = total P c (s.managers.flatMap M) := by
  have key : ∀ (ms : List ℕ) (v : ℚ),
      ms.foldl (fun v m => v + totalCapacity klim P c (M m)) v = v + total P c (ms.flatMap M) := by
    intro ms
    induction ms with
    | nil => intro v; simp [total]
    | cons m ms ih =>
      intro v
      rw [List.foldl_cons, ih, (C51_total _ _ _ _).1]
      simp [total, List.flatMap_cons]
      ring
  unfold SD.supply
  rw [key]; ring

theorem mem_setUp {klim : ℚ} {P : ℕ → Producer} {B : ℕ → List ℕ} {c : ℕ} {bs : List ℕ} {k : Col}
    (h : k ∈ setUp klim P B c bs) :
    k.builder ∈ bs ∧ k.producer ∈ B k.builder ∧ (P k.producer).commods c ≠ none ∧
      k.cost = price (P k.producer) c ∧ k.capacity = offer (P k.producer) c := by
  unfold setUp at h
  rw [List.mem_flatMap] at h
  obtain ⟨b, hb, h⟩ := h
  rw [List.mem_map] at h
  obtain ⟨p, hp, rfl⟩ := h
  rw [List.mem_filter] at hp
  have := entry_offer (klim := klim) hp.2
  refine ⟨hb, hp.1, ?_, this.2, this.1⟩
  have h2 := hp.2
  unfold Producer.produces at h2
  intro hc
  simp only at hc
  rw [hc] at h2; cases h2

theorem divTrunc_nat {n : ℕ} (hn : (n : ℤ) ≤ Package.intMax) : Package.divTrunc (n : ℚ) 1 = n := by
  unfold Package.divTrunc Package.toInt
  rw [if_neg (by norm_num)]
  have h0 : (0 : ℚ) ≤ n / 1 := by positivity
  rw [if_pos h0, div_one, Int.floor_natCast, if_pos]
  exact ⟨by unfold Package.intMin; omega, hn⟩

/-- The last builder of a producer is one of its builders. -/
theorem builderOf_mem (cols : List Col) (p : ℕ) (h : ∃ k ∈ cols, k.producer = p) :
    ∃ k ∈ cols, k.producer = p ∧ builderOf cols p = k.builder := by
  unfold builderOf
  have key : ∀ (cols : List Col) (b : ℕ),
      (cols.foldl (fun b col => if col.producer = p then col.builder else b) b = b ∧
        ∀ k ∈ cols, k.producer ≠ p) ∨
      ∃ k ∈ cols, k.producer = p ∧
        cols.foldl (fun b col => if col.producer = p then col.builder else b) b = k.builder := by
    intro cols
    induction cols with
    | nil => intro b; left; simp
    | cons k cols ih =>
      intro b
      rw [List.foldl_cons]
      by_cases hk : k.producer = p
      · rw [if_pos hk]
        rcases ih k.builder with ⟨h1, h2⟩ | ⟨k', h1, h2, h3⟩
        · right; exact ⟨k, by simp, hk, h1⟩
        · right; exact ⟨k', by simp [h1], h2, h3⟩
      · rw [if_neg hk]
        rcases ih b with ⟨h1, h2⟩ | ⟨k', h1, h2, h3⟩
        · left
          refine ⟨h1, fun a ha => ?_⟩
          rcases List.mem_cons.1 ha with rfl | ha
          · exact hk
          · exact h2 a ha
        · right; exact ⟨k', by simp [h1], h2, h3⟩
  rcases key cols 0 with ⟨-, h2⟩ | h2
  · obtain ⟨k, hk, hkp⟩ := h
    exact absurd hkp (h2 k hk)
  · exact h2

/-- **C51, orders**: whatever COIN returns, orders are for positive numbers, of producers of the
commodity, with a builder that has them; and there are none without demand. -/
theorem C51_orders {klim : ℚ} {P : ℕ → Producer} {B : ℕ → List ℕ} {bs : List ℕ} {c : ℕ}
    {demand : ℚ} {solver : List Col → ℚ → List ℚ} {os : List Order}
    (h : makeDecision klim P B bs c demand solver = some os) :
    (∀ o ∈ os, 0 < o.number ∧ Possible P B bs c o) ∧ (demand ≤ 0 → os = []) := by
  unfold makeDecision at h
  by_cases hd : 0 < demand
  · rw [if_pos hd] at h
    simp only at h
    split at h
    · cases h
    · injection h with h
      refine ⟨?_, fun hc => absurd hc (not_le.2 hd)⟩
      intro o ho
      rw [← h] at ho
      unfold orders at ho
      rw [List.mem_filterMap] at ho
      obtain ⟨⟨k, x⟩, hk, ho⟩ := ho
      simp only at ho
      split at ho
      · rename_i hn
        injection ho with ho
        have hkm := (List.of_mem_zip hk).1
        obtain ⟨k', h1, h2, h3⟩ := builderOf_mem _ k.producer ⟨k, hkm, rfl⟩
        obtain ⟨g1, g2, -⟩ := mem_setUp h1
        obtain ⟨-, -, g3, -⟩ := mem_setUp hkm
        subst ho
        refine ⟨hn, le_of_lt hn, ?_, ?_, g3⟩
        · simp only; rw [h3]; exact g1
        · simp only; rw [h3, ← h2]; exact g2
      · cases ho
  · rw [if_neg hd] at h
    injection h with h
    subst h
    simp

theorem orders_sums {klim : ℚ} {P : ℕ → Producer} {B : ℕ → List ℕ} {c : ℕ} {bs : List ℕ}
    (cols0 : List Col) : ∀ (cols : List Col) (sol : List ℚ),
    (∀ k ∈ cols, k ∈ setUp klim P B c bs) →
    (∀ x ∈ sol, ∃ n : ℕ, x = n ∧ (n : ℤ) ≤ Package.intMax) →
    let os := (cols.zip sol).filterMap fun cs =>
      let n := Package.divTrunc cs.2 1
      if 0 < n then some (⟨n, builderOf cols0 cs.1.producer, cs.1.producer⟩ : Order) else none
    covered P c os = ((cols.zip sol).map fun cs => cs.1.capacity * cs.2).sum ∧
      costs P c os = ((cols.zip sol).map fun cs => cs.1.cost * cs.2).sum := by
  intro cols
  induction cols with
  | nil => intro sol _ _; simp [covered, costs]
  | cons k cols ih =>
    intro sol hk hs
    cases sol with
    | nil => simp [covered, costs]
    | cons x sol =>
      obtain ⟨i1, i2⟩ := ih sol (fun a ha => hk a (by simp [ha])) (fun a ha => hs a (by simp [ha]))
      obtain ⟨n, rfl, hn⟩ := hs x (by simp)
      obtain ⟨-, -, -, hc, hq⟩ := mem_setUp (hk k (by simp))
      simp only at i1 i2
      simp only [List.zip_cons_cons, List.filterMap_cons, divTrunc_nat hn, List.map_cons,
        List.sum_cons]
      by_cases h0 : 0 < (n : ℤ)
      · simp only [h0, if_true, covered, costs, List.map_cons, List.sum_cons]
        simp only [covered] at i1
        simp only [costs] at i2
        rw [i1, i2, hc, hq]
        constructor <;> (push_cast; ring)
      · have : n = 0 := by omega
        subst this
        simp only [h0, if_false]
        rw [i1, i2]
        constructor <;> simp

/-- **C51, demand is met (partial)**: if COIN returns a feasible point, the orders cover the demand.
Missing: commodities that no producer can supply (`C51_fails_none`, `C51_fails_capacity`) and points
that are integer within the tolerance of COIN only (`C51_fails_truncate`). -/
theorem C51_cover_partial {klim : ℚ} {P : ℕ → Producer} {B : ℕ → List ℕ} {bs : List ℕ} {c : ℕ}
    {demand : ℚ} {solver : List Col → ℚ → List ℚ} {os : List Order}
    (hf : Feasible (setUp klim P B c bs) demand (solver (setUp klim P B c bs) demand))
    (hsmall : ∀ x ∈ solver (setUp klim P B c bs) demand, x ≤ Package.intMax) (hd : 0 < demand)
    (h : makeDecision klim P B bs c demand solver = some os) : demand ≤ covered P c os := by
  unfold makeDecision at h
  rw [if_pos hd] at h
  simp only at h
  split at h
  · cases h
  · injection h with h
    have := (orders_sums (klim := klim) (P := P) (B := B) (c := c) (bs := bs)
      (setUp klim P B c bs) (setUp klim P B c bs) (solver (setUp klim P B c bs) demand)
      (fun _ h => h) (fun x hx => by
        obtain ⟨n, hn⟩ := hf.2.1 x hx
        exact ⟨n, hn, by have := hsmall x hx; rw [hn] at this; exact_mod_cast this⟩)).1
    rw [← h]
    unfold orders
    rw [this]
    exact hf.2.2

/-- The number of a builder's producer that a list of orders asks for. -/
def amount (os : List Order) (k : Col) : ℤ :=
  ((os.filter fun o => decide (o.builder = k.builder) && decide (o.producer = k.producer)).map
    Order.number).sum

theorem setUp_nodup {klim : ℚ} {P : ℕ → Producer} {B : ℕ → List ℕ} {c : ℕ} {bs : List ℕ}
    (hb : bs.Nodup) (hB : ∀ b ∈ bs, (B b).Nodup) :
    (setUp klim P B c bs).Pairwise fun a b => ¬ (a.builder = b.builder ∧ a.producer = b.producer) := by
  unfold setUp
  rw [List.pairwise_flatMap]
  constructor
  · intro b hbm
    rw [List.pairwise_map]
    refine List.Pairwise.imp ?_ ((hB b hbm).filter _)
    intro x y hxy h
    exact hxy h.2
  · refine List.Pairwise.imp ?_ hb
    intro b b' hbb x hx y hy h
    rw [List.mem_map] at hx hy
    obtain ⟨_, _, rfl⟩ := hx
    obtain ⟨_, _, rfl⟩ := hy
    exact hbb h.1

theorem setUp_complete {klim : ℚ} {P : ℕ → Producer} {B : ℕ → List ℕ} {c : ℕ} {bs : List ℕ}
    {o : Order} (h : Possible P B bs c o) :
    ∃ k ∈ setUp klim P B c bs, o.builder = k.builder ∧ o.producer = k.producer := by
  obtain ⟨-, h1, h2, h3⟩ := h
  refine ⟨⟨o.builder, o.producer, ((P o.producer).cost klim c).2,
    ((P o.producer).capacity klim c).2⟩, ?_, rfl, rfl⟩
  unfold setUp
  rw [List.mem_flatMap]
  refine ⟨o.builder, h1, List.mem_map.2 ⟨o.producer, List.mem_filter.2 ⟨h2, ?_⟩, rfl⟩⟩
  unfold Producer.produces
  exact Option.isSome_iff_ne_none.2 h3

/-- The sum over the columns of a price per producer, times the number ordered. -/
theorem sum_amount (g : ℕ → ℚ) (cols : List Col)
    (hn : cols.Pairwise fun a b => ¬ (a.builder = b.builder ∧ a.producer = b.producer)) :
    ∀ os : List Order, (∀ o ∈ os, ∃ k ∈ cols, o.builder = k.builder ∧ o.producer = k.producer) →
    (cols.map fun k => g k.producer * (amount os k : ℚ)).sum =
      (os.map fun o => (o.number : ℚ) * g o.producer).sum := by
  intro os
  induction os with
  | nil => intro _; simp [amount]
  | cons o os ih =>
    intro h
    have ih := ih fun a ha => h a (by simp [ha])
    have hsplit : ∀ k : Col, g k.producer * (amount (o :: os) k : ℚ) =
        (if o.builder = k.builder ∧ o.producer = k.producer then (o.number : ℚ) * g o.producer
          else 0) + g k.producer * (amount os k : ℚ) := by
      intro k
      unfold amount
      by_cases hk : o.builder = k.builder ∧ o.producer = k.producer
      · rw [if_pos hk]
        simp only [List.filter_cons, hk.1, hk.2, decide_true, Bool.and_self, if_true, List.map_cons,
          List.sum_cons]
        push_cast
        ring
      · rw [if_neg hk]
        have : (decide (o.builder = k.builder) && decide (o.producer = k.producer)) = false := by
          simp only [Bool.and_eq_false_iff, decide_eq_false_iff_not]
          tauto
        simp only [List.filter_cons, this]
        simp
    have hone : ∀ (cols : List Col),
        cols.Pairwise (fun a b => ¬ (a.builder = b.builder ∧ a.producer = b.producer)) →
        (∃ k ∈ cols, o.builder = k.builder ∧ o.producer = k.producer) → ∀ v : ℚ,
        (cols.map fun k => if o.builder = k.builder ∧ o.producer = k.producer then v else 0).sum =
          v := by
      intro cols
      induction cols with
      | nil => rintro _ ⟨k, hk, _⟩; cases hk
      | cons k cols ihc =>
        intro hp hex v
        rw [List.pairwise_cons] at hp
        rw [List.map_cons, List.sum_cons]
        by_cases hk : o.builder = k.builder ∧ o.producer = k.producer
        · rw [if_pos hk]
          have hz : (cols.map fun k => if o.builder = k.builder ∧ o.producer = k.producer then v
              else 0).sum = 0 := by
            apply List.sum_eq_zero
            intro x hx
            rw [List.mem_map] at hx
            obtain ⟨k', hk', rfl⟩ := hx
            rw [if_neg]
            rintro ⟨h1, h2⟩
            exact hp.1 k' hk' ⟨hk.1.symm.trans h1, hk.2.symm.trans h2⟩
          rw [hz, add_zero]
        · rw [if_neg hk, zero_add]
          refine ihc hp.2 ?_ v
          obtain ⟨k', hk', h'⟩ := hex
          rcases List.mem_cons.1 hk' with rfl | hk'
          · exact absurd h' hk
          · exact ⟨k', hk', h'⟩
    simp only [hsplit, List.sum_map_add]
    rw [hone cols hn (h o (by simp)), ih]
    simp

/-- **C51, cheapest (partial)**: if COIN returns a feasible point that is optimal among feasible
points, no orders that can be placed with the builders cover the demand at a lower cost.  Missing:
what is missing in `C51_cover_partial`. -/
theorem C51_cheapest_partial {klim : ℚ} {P : ℕ → Producer} {B : ℕ → List ℕ} {bs : List ℕ} {c : ℕ}
    {demand : ℚ} {solver : List Col → ℚ → List ℚ} {os : List Order} (hb : bs.Nodup)
    (hB : ∀ b ∈ bs, (B b).Nodup)
    (hf : Feasible (setUp klim P B c bs) demand (solver (setUp klim P B c bs) demand))
    (hopt : ∀ sol, Feasible (setUp klim P B c bs) demand sol →
      objective (setUp klim P B c bs) (solver (setUp klim P B c bs) demand) ≤
        objective (setUp klim P B c bs) sol)
    (hsmall : ∀ x ∈ solver (setUp klim P B c bs) demand, x ≤ Package.intMax) (hd : 0 < demand)
    (h : makeDecision klim P B bs c demand solver = some os) :
    ∀ os', (∀ o ∈ os', Possible P B bs c o) → demand ≤ covered P c os' →
      costs P c os ≤ costs P c os' := by
  intro os' hp hcov
  unfold makeDecision at h
  rw [if_pos hd] at h
  simp only at h
  split at h
  · cases h
  · injection h with h
    have hz : ∀ (cols : List Col) (g : Col → ℚ), cols.zip (cols.map g) = cols.map fun k => (k, g k) := by
      intro cols g
      induction cols with
      | nil => rfl
      | cons k cols ih => simp [ih]
    have hcols := (orders_sums (klim := klim) (P := P) (B := B) (c := c) (bs := bs)
      (setUp klim P B c bs) (setUp klim P B c bs) (solver (setUp klim P B c bs) demand)
      (fun _ h => h) (fun x hx => by
        obtain ⟨n, hn⟩ := hf.2.1 x hx
        exact ⟨n, hn, by have := hsmall x hx; rw [hn] at this; exact_mod_cast this⟩)).2
    have hmem : ∀ o ∈ os', ∃ k ∈ setUp klim P B c bs, o.builder = k.builder ∧
        o.producer = k.producer := fun o ho => setUp_complete (hp o ho)
    have hsum : ∀ (gp : ℕ → ℚ) (gk : Col → ℚ),
        (∀ k ∈ setUp klim P B c bs, gk k = gp k.producer) →
        (((setUp klim P B c bs).zip ((setUp klim P B c bs).map fun k => (amount os' k : ℚ))).map
          fun cs => gk cs.1 * cs.2).sum =
        (os'.map fun o => (o.number : ℚ) * gp o.producer).sum := by
      intro gp gk hg
      rw [hz, List.map_map, ← sum_amount gp _ (setUp_nodup hb hB) os' hmem]
      congr 1
      apply List.map_congr_left
      intro k hk
      simp only [Function.comp]
      rw [hg k hk]
    have := hopt ((setUp klim P B c bs).map fun k => (amount os' k : ℚ)) ⟨by simp, by
        intro x hx
        rw [List.mem_map] at hx
        obtain ⟨k, hk, rfl⟩ := hx
        have h0 : 0 ≤ amount os' k := by
          unfold amount
          apply List.sum_nonneg
          intro y hy
          rw [List.mem_map] at hy
          obtain ⟨o, ho, rfl⟩ := hy
          exact (hp o (List.mem_filter.1 ho).1).1
        refine ⟨(amount os' k).toNat, ?_⟩
        have : ((amount os' k).toNat : ℤ) = amount os' k := Int.toNat_of_nonneg h0
        exact_mod_cast this.symm, by
        rw [hsum (fun p => offer (P p) c) Col.capacity (fun k hk => (mem_setUp hk).2.2.2.2)]
        exact hcov⟩
    unfold objective at this
    rw [hsum (fun p => price (P p) c) Col.cost (fun k hk => (mem_setUp hk).2.2.2.1)] at this
    rw [← h]
    unfold orders
    rw [hcols]
    exact this

/-! ### A concrete case -/

/-- A small and a large producer. -/
def exP (p : ℕ) : Producer :=
  ⟨fun c => if c = 7 then (if p = 1 then some ⟨2, 3⟩ else if p = 2 then some ⟨5, 6⟩ else none)
    else none, 0, 0⟩

/-- Builder 0 has producers 1 and 3, builder 1 has producer 2. -/
def exB (b : ℕ) : List ℕ := if b = 0 then [1, 3] else [2]

/-- Total capacity, and a decision for a demand of 6: one of each. -/
example : totalCapacity 100 exP 7 [1, 2, 3] = 7 ∧
    setUp 100 exP exB 7 [0, 1] = [⟨0, 1, 3, 2⟩, ⟨1, 2, 6, 5⟩] ∧
    Feasible [⟨0, 1, 3, 2⟩, ⟨1, 2, 6, 5⟩] 6 [1, 1] ∧
    makeDecision 100 exP exB [0, 1] 7 6 (fun _ _ => [1, 1]) = some [⟨1, 0, 1⟩, ⟨1, 1, 2⟩] := by
  refine ⟨by decide +kernel, by decide +kernel, ⟨rfl, ?_, by norm_num⟩, by decide +kernel⟩
  intro x hx
  exact ⟨1, by simpa using hx⟩

/-- The point of the example is optimal: the hypothesis of `C51_cheapest_partial` holds. -/
example : ∀ sol, Feasible [⟨0, 1, 3, 2⟩, ⟨1, 2, 6, 5⟩] 6 sol →
    objective [⟨0, 1, 3, 2⟩, ⟨1, 2, 6, 5⟩] [1, 1] ≤ objective [⟨0, 1, 3, 2⟩, ⟨1, 2, 6, 5⟩] sol := by
  rintro sol ⟨hl, hi, hd⟩
  match sol, hl with
  | [x, y], _ =>
    obtain ⟨n, rfl⟩ := hi x (by simp)
    obtain ⟨m, rfl⟩ := hi y (by simp)
    simp only [List.zip_cons_cons, List.zip_nil_left, List.map_cons, List.map_nil, List.sum_cons,
      List.sum_nil, objective] at hd ⊢
    have hd' : 6 ≤ 2 * n + 5 * m := by
      have : (6 : ℚ) ≤ 2 * n + 5 * m := by linarith
      exact_mod_cast this
    have : 9 ≤ 3 * n + 6 * m := by omega
    have : (9 : ℚ) ≤ 3 * n + 6 * m := by exact_mod_cast this
    linarith

/-- Without a producer of the commodity, the code takes the address of the first element of an
empty vector. -/
theorem C51_fails_none : ∃ demand : ℚ, 0 < demand ∧
    ∀ solver, makeDecision 100 exP exB [0, 1] 8 demand solver = none := by
  refine ⟨1, by norm_num, fun solver => ?_⟩
  have : setUp 100 exP exB 8 [0, 1] = [] := by decide +kernel
  simp [makeDecision, this]

/-- A producer of the commodity with the default capacity of 0: no orders cover the demand, and
there is no error. -/
theorem C51_fails_capacity : ∃ (P : ℕ → Producer) (B : ℕ → List ℕ), ∀ solver,
    ∃ os, makeDecision 100 P B [0] 7 1 solver = some os ∧ covered P 7 os < 1 := by
  refine ⟨fun _ => ⟨fun _ => some ⟨0, 1⟩, 0, 0⟩, fun _ => [0], fun solver => ?_⟩
  have hs : setUp 100 (fun _ => ⟨fun _ => some ⟨0, 1⟩, 0, 0⟩) (fun _ => [0]) 7 [0] =
      [⟨0, 0, 1, 0⟩] := by decide +kernel
  refine ⟨_, by simp only [makeDecision]; rw [if_pos (by norm_num), hs]; rfl, ?_⟩
  generalize orders _ _ = os
  have : covered (fun _ => ⟨fun _ => some ⟨0, 1⟩, 0, 0⟩) 7 os = 0 := by
    simp [covered, offer]
  rw [this]; norm_num

/-- COIN accepts a value as integer within a tolerance.  A value just below 3 is truncated to 2, and
the demand is not covered. -/
theorem C51_fails_truncate : ∃ (x : ℚ), |x - 3| ≤ 1 / 10000000 ∧
    makeDecision 100 exP exB [0, 1] 7 6 (fun _ _ => [x, 0]) = some [⟨2, 0, 1⟩] ∧
    covered exP 7 [⟨2, 0, 1⟩] < 6 := by
  refine ⟨3 - 1 / 10000000, by norm_num [abs_le], by decide +kernel, by decide +kernel⟩

/-! ## C73 -/

/-- **C73, entries**: a setter changes the entry that it names, `Add` creates an entry with the
defaults unless there is one, and `Rm` removes it; nothing else changes. -/
theorem C73_entries (klim : ℚ) (p : Producer) (c d : ℕ) (q : ℚ) (i : Info) :
    (offer (p.setCapacity klim c q) d = if d = c then q else offer p d) ∧
    (price (p.setCost klim c q) d = if d = c then q else price p d) ∧
    (p.commods c ≠ none → offer (p.setCost klim c q) d = offer p d ∧
      price (p.setCapacity klim c q) d = price p d) ∧
    ((p.addInfo c i).commods d = if d = c ∧ p.commods c = none then some i else p.commods d) ∧
    ((p.add c).commods d =
      if d = c ∧ p.commods c = none then some ⟨p.defCapacity, p.defCost⟩ else p.commods d) ∧
    ((p.rm c).commods d = if d = c then none else p.commods d) := by
  have hadd : ∀ i : Info, (p.addInfo c i).commods d =
      if d = c ∧ p.commods c = none then some i else p.commods d := by
    intro i
    unfold Producer.addInfo
    cases hc : p.commods c with
    | some j => simp
    | none => simp [put]
  refine ⟨?_, ?_, ?_, hadd i, hadd _, rfl⟩
  · unfold offer Producer.setCapacity put
    by_cases h : d = c <;> simp [h]
  · unfold price Producer.setCost put
    by_cases h : d = c <;> simp [h]
  · intro hne
    obtain ⟨j, hj⟩ := Option.ne_none_iff_exists'.1 hne
    unfold offer price Producer.setCost Producer.setCapacity Producer.entry put
    by_cases h : d = c
    · subst h; simp [hj]
    · simp [h]

/-- **C73, copying**: after `Copy`, every commodity of the source has the entry of the source, and
the others are as before. -/
theorem C73_copy (klim : ℚ) (p src : Producer) (cs : List ℕ)
    (hcs : ∀ c, c ∈ cs ↔ src.commods c ≠ none) (d : ℕ) :
    (p.copy klim src cs).commods d =
      match src.commods d with
      | some i => some i
      | none => p.commods d := by
  have step : ∀ (p : Producer) (c : ℕ), src.commods c ≠ none → ∀ d,
      (((p.add c).setCapacity klim c (src.capacity klim c).2).setCost klim c
        (src.cost klim c).2).commods d = if d = c then src.commods c else p.commods d := by
    intro p c hc d
    obtain ⟨j, hj⟩ := Option.ne_none_iff_exists'.1 hc
    have e1 : (src.capacity klim c).2 = j.capacity := by
      simp [Producer.capacity, Producer.entry, hj]
    have e2 : (src.cost klim c).2 = j.cost := by simp [Producer.cost, Producer.entry, hj]
    rw [e1, e2]
    by_cases h : d = c
    · subst h
      simp [Producer.setCost, Producer.setCapacity, Producer.entry, put, hj]
    · have : (p.add c).commods d = p.commods d := by
        rw [(C73_entries klim p c d 0 ⟨0, 0⟩).2.2.2.2.1]; simp [h]
      simp [Producer.setCost, Producer.setCapacity, put, h, this]
  have key : ∀ (cs : List ℕ) (p : Producer), (∀ c ∈ cs, src.commods c ≠ none) →
      (cs.foldl (fun p c =>
        ((p.add c).setCapacity klim c (src.capacity klim c).2).setCost klim c
          (src.cost klim c).2) p).commods d = if d ∈ cs then src.commods d else p.commods d := by
    intro cs
    induction cs with
    | nil => intro p _; simp
    | cons c cs ih =>
      intro p h
      rw [List.foldl_cons, ih _ (fun a ha => h a (by simp [ha])), step p c (h c (by simp))]
      by_cases h1 : d ∈ cs
      · simp [h1]
      · by_cases h2 : d = c
        · subst h2; simp [h1]
        · simp [h1, h2]
  unfold Producer.copy
  rw [key cs p fun c hc => (hcs c).1 hc]
  cases hd : src.commods d with
  | none => rw [if_neg (by rw [hcs]; simp [hd])]
  | some i => rw [if_pos ((hcs d).2 (by simp [hd]))]

/-- **C73, queries**: asking for capacity or cost of a commodity that is produced changes
nothing. -/
theorem C73_query (klim : ℚ) (p : Producer) (c : ℕ) (h : p.commods c ≠ none) :
    p.capacity klim c = (p, offer p c) ∧ p.cost klim c = (p, price p c) := by
  obtain ⟨j, hj⟩ := Option.ne_none_iff_exists'.1 h
  simp [Producer.capacity, Producer.cost, Producer.entry, offer, price, hj]

/-- A producer, and a copy into an empty one: the hypotheses of the theorems hold. -/
example : (∀ c, c ∈ [7] ↔ (exP 1).commods c ≠ none) ∧
    offer ((exP 3).copy 100 (exP 1) [7]) 7 = 2 := by
  refine ⟨fun c => ?_, by decide +kernel⟩
  simp [exP]

/-- Asking for the capacity of a commodity that is not produced makes the producer a producer of
it. -/
theorem C73_fails_query : ∃ (p : Producer) (c : ℕ), p.produces c = false ∧
    (p.capacity 100 c).1.produces c = true :=
  ⟨exP 3, 7, by decide +kernel, by decide +kernel⟩

/-- The entry that a query creates has not the defaults of the producer but those of `CommodInfo`. -/
theorem C73_fails_default : ∃ (p : Producer) (c : ℕ), p.produces c = false ∧
    (p.capacity 100 c).2 ≠ p.defCapacity :=
  ⟨⟨fun _ => none, 5, 1⟩, 7, by decide +kernel, by decide +kernel⟩

/-! ## C74 -/

/-- **C74**: the demand of a registered commodity is that of the function that was registered first;
registering does not change other commodities. -/
theorem C74_demand (s : SD) (c d : ℕ) (f g : ℤ → ℚ) (t : ℤ) (h : s.manages c = false) :
    (s.register c f).demandAt c t = some (f t) ∧
    ((s.register c f).register c g).demandAt c t = some (f t) ∧
    (s.register c f).manages c = true ∧
    (d ≠ c → (s.register c f).demandAt d t = s.demandAt d t ∧
      (s.register c f).manages d = s.manages d) := by
  have hc : s.demand c = none := by
    unfold SD.manages at h
    cases hd : s.demand c with
    | none => rfl
    | some x => rw [hd] at h; cases h
  have hr : s.register c f = { s with demand := fun d => if d = c then some (some f) else s.demand d } := by
    simp [SD.register, hc]
  refine ⟨by simp [hr, SD.demandAt, SD.demandFunction], ?_, by simp [hr, SD.manages], ?_⟩
  · rw [hr]; simp [SD.register, SD.demandAt, SD.demandFunction]
  · intro hd
    constructor
    · simp only [hr, SD.demandAt, SD.demandFunction, hd, if_false]
      cases s.demand d <;> rfl
    · simp [hr, SD.manages, hd]

/-- The empty manager manages nothing. -/
example : (⟨fun _ => none, []⟩ : SD).manages 3 = false := rfl

/-- The demand of a commodity that is not registered is a use of a NULL pointer, and asking for its
function makes the manager claim to manage it. -/
theorem C74_fails_unknown : ∃ (s : SD) (c : ℕ), s.manages c = false ∧ s.demandAt c 0 = none ∧
    (s.demandFunction c).1.manages c = true :=
  ⟨⟨fun _ => none, []⟩, 3, rfl, rfl, rfl⟩

/-- A commodity that was asked for before it was registered can not be registered any more. -/
theorem C74_fails_lost : ∃ (s : SD) (c : ℕ) (f : ℤ → ℚ), s.manages c = false ∧
    (((s.demandFunction c).1).register c f).demandAt c 0 = none :=
  ⟨⟨fun _ => none, []⟩, 3, fun _ => 1, rfl, rfl⟩

end Cyclus.Commod
