import Verif.Model.BuyPolicy
import Verif.Props.ResBuf
import Mathlib.Tactic.Linarith
import Mathlib.Tactic.Positivity
import Mathlib.Algebra.Order.Floor.Ring

/-!
# C53, C47, C68 and C69: inventory tracker and buy policy
-/

namespace Cyclus.Policy

open ResBuf (St Reachable sumQty Inv totQty)

/-! ## C53 -/

namespace Spec

/-- The quantity in a list of buffers. -/
def total (B : ℕ → Buf) : List ℕ → ℚ
  | [] => 0
  | b :: bs => (B b).qty + total B bs

/-- The capacity of a list of buffers is `c` (all are limited). -/
def Caps (B : ℕ → Buf) : List ℕ → ℚ → Prop
  | [], c => c = 0
  | b :: bs, c => ∃ x y, (B b).cap = some x ∧ Caps B bs y ∧ c = x + y

end Spec

open Spec

theorem foldl_qty (B : ℕ → Buf) (l : List ℕ) (x : ℚ) :
    l.foldl (fun q b => q + (B b).qty) x = x + total B l := by
  induction l generalizing x with
  | nil => simp [total]
  | cons b l ih => simp only [List.foldl_cons, ih, total]; ring

theorem foldl_cap_none (B : ℕ → Buf) (l : List ℕ) :
    l.foldl (fun c b => addInf c (B b).cap) none = none := by
  induction l with
  | nil => rfl
  | cons b l ih => simpa [addInf] using ih

theorem foldl_cap (B : ℕ → Buf) (l : List ℕ) (x c : ℚ) :
    l.foldl (fun c b => addInf c (B b).cap) (some x) = some c ↔ Caps B l (c - x) := by
  induction l generalizing x with
  | nil => simp [Caps]; constructor <;> intro h <;> linarith
  | cons b l ih =>
    simp only [List.foldl_cons, Caps]
    cases hb : (B b).cap with
    | none =>
      rw [show addInf (some x) none = none from rfl, foldl_cap_none]
      simp
    | some y =>
      rw [show addInf (some x) (some y) = some (x + y) from rfl, ih]
      simp only [Option.some.injEq]
      constructor
      · intro h
        exact ⟨y, _, rfl, h, by ring⟩
      · rintro ⟨y', z, rfl, hz, he⟩
        rw [show c - (x + y) = z by linarith]
        exact hz

theorem caps_unique {B : ℕ → Buf} {l : List ℕ} {c c' : ℚ} (h : Caps B l c) (h' : Caps B l c') :
    c = c' := by
  induction l generalizing c c' with
  | nil => simp [Caps] at h h'; rw [h, h']
  | cons b l ih =>
    obtain ⟨x, y, h1, h2, rfl⟩ := h
    obtain ⟨x', y', h1', h2', rfl⟩ := h'
    rw [h1] at h1'
    cases h1'
    rw [ih h2 h2']

/-- What the functions of an initialised tracker compute. -/
theorem tracker_vals {t : Tracker} (B : ℕ → Buf) (ht : t.bufs ≠ []) :
    t.quantity B = .ok (total B t.bufs) ∧
    ∃ c, t.capacity B = .ok c ∧ c ≤ t.maxInv ∧ (∀ k, Caps B t.bufs k → c ≤ k) ∧
      (c = t.maxInv ∨ Caps B t.bufs c) ∧
      t.space B = .ok (max 0 (c - total B t.bufs)) := by
  have hl : t.bufs.length ≠ 0 := by simpa using ht
  have hq : t.quantity B = .ok (total B t.bufs) := by
    simp [Tracker.quantity, hl, foldl_qty]
  refine ⟨hq, ?_⟩
  cases hc : t.bufs.foldl (fun c b => addInf c (B b).cap) (some 0) with
  | none =>
    refine ⟨t.maxInv, by simp [Tracker.capacity, Tracker.bufsCap, hl, hc, minInf], le_refl _, ?_,
      .inl rfl, by simp [Tracker.space, Tracker.capacity, Tracker.bufsCap, hl, hc, minInf, hq]⟩
    intro k hk
    have := (foldl_cap B t.bufs 0 k).2 (by simpa using hk)
    rw [hc] at this
    cases this
  | some c =>
    have hcap : Caps B t.bufs c := by simpa using (foldl_cap B t.bufs 0 c).1 hc
    refine ⟨min c t.maxInv, by simp [Tracker.capacity, Tracker.bufsCap, hl, hc, minInf],
      min_le_right _ _, ?_, ?_,
      by simp [Tracker.space, Tracker.capacity, Tracker.bufsCap, hl, hc, minInf, hq]⟩
    · intro k hk
      rw [caps_unique hk hcap]
      exact min_le_left _ _
    · rcases min_choice c t.maxInv with h | h
      · right; rw [h]; exact hcap
      · left; exact h

/-- **C53, space**: the space is never negative, never above what the total capacity leaves beside
the tracked quantity, never above what the capacities of the buffers leave, and one of the two
bounds is met. -/
theorem C53_space {t : Tracker} {B : ℕ → Buf} {sp : ℚ} (h : t.space B = .ok sp) :
    0 ≤ sp ∧ sp ≤ max 0 (t.maxInv - total B t.bufs) ∧
    (∀ c, Caps B t.bufs c → sp ≤ max 0 (c - total B t.bufs)) ∧
    (sp = max 0 (t.maxInv - total B t.bufs) ∨
      ∃ c, Caps B t.bufs c ∧ sp = max 0 (c - total B t.bufs)) := by
  have ht : t.bufs ≠ [] := by
    intro he
    simp [Tracker.space, Tracker.capacity, Tracker.bufsCap, he] at h
  obtain ⟨-, c, -, h1, h2, h3, h4⟩ := tracker_vals B ht
  rw [h4] at h
  cases h
  refine ⟨le_max_left _ _, max_le_max (le_refl _) (by linarith), ?_, ?_⟩
  · intro k hk
    exact max_le_max (le_refl _) (by have := h2 k hk; linarith)
  · rcases h3 with h3 | h3
    · left; rw [h3]
    · right; exact ⟨c, h3, rfl⟩

/-- **C53, one buffer**: the space for a buffer is at most its own space and at most the total
space, and equal to one of them. -/
theorem C53_buffer {t : Tracker} {B : ℕ → Buf} {b : ℕ} {x : ℚ} (h : t.bufSpace B b = .ok x) :
    ∃ sp, t.space B = .ok sp ∧ x ≤ sp ∧ 0 ≤ x ∧
      (∀ c, (B b).cap = some c → x ≤ max 0 (c - (B b).qty)) ∧
      (x = sp ∨ ∃ c, (B b).cap = some c ∧ x = max 0 (c - (B b).qty)) := by
  simp only [Tracker.bufSpace] at h
  split at h
  · cases h
  · rename_i sp hs
    cases h
    have h0 := (C53_space hs).1
    refine ⟨sp, hs, ?_⟩
    cases hc : (B b).cap with
    | none => simp [Buf.space, hc, minInf, h0]
    | some c =>
      simp only [Buf.space, hc, Option.map_some, minInf]
      refine ⟨min_le_right _ _, le_min (le_max_left _ _) h0, ?_, ?_⟩
      · rintro c' ⟨⟩
        exact min_le_left _ _
      · rcases min_choice (max 0 (c - (B b).qty)) sp with h | h
        · exact .inr ⟨c, rfl, h⟩
        · exact .inl h

/-- What is tracked after an inflow into one buffer. -/
theorem total_update {B : ℕ → Buf} {b : ℕ} {x : ℚ} {l : List ℕ} (hn : l.Nodup) :
    total (Function.update B b { B b with qty := (B b).qty + x }) l =
      total B l + (if b ∈ l then x else 0) := by
  induction l with
  | nil => simp [total]
  | cons a l ih =>
    simp only [List.nodup_cons] at hn
    simp only [total, ih hn.2, List.mem_cons]
    by_cases hab : a = b
    · subst hab
      simp [Function.update_self, hn.1]; ring
    · have : b ≠ a := fun e => hab e.symm
      rw [Function.update_of_ne hab]
      simp [this]; ring

/-- **C53, filling**: an inflow of no more than the space reported for a buffer keeps the tracked
quantity within the total capacity and the buffer within its own. -/
theorem C53_fill {t : Tracker} {B : ℕ → Buf} {b : ℕ} {x y : ℚ} (h : t.bufSpace B b = .ok x)
    (hn : t.bufs.Nodup) (hb : b ∈ t.bufs) (hy : y ≤ x)
    (hle : total B t.bufs ≤ t.maxInv) (hcap : ∀ c, (B b).cap = some c → (B b).qty ≤ c) :
    let B' := Function.update B b { B b with qty := (B b).qty + y }
    total B' t.bufs ≤ t.maxInv ∧ ∀ c, (B' b).cap = some c → (B' b).qty ≤ c := by
  obtain ⟨sp, hs, h1, h2, h3, -⟩ := C53_buffer h
  obtain ⟨-, h4, -⟩ := C53_space hs
  rw [max_eq_right (by linarith)] at h4
  refine ⟨by rw [total_update hn, if_pos hb]; linarith, ?_⟩
  simp only [Function.update_self]
  intro c hc
  have := h3 c hc
  rw [max_eq_right (by linarith [hcap c hc])] at this
  linarith

/-- **C53, changing the capacity**: refused exactly if the tracked quantity exceeds the new
capacity by more than `eps`, and then without effect. -/
theorem C53_capacity {eps : ℚ} {t : Tracker} {B : ℕ → Buf} {cap : ℚ} (ht : t.bufs ≠ []) :
    if cap + eps < total B t.bufs then t.setCapacity eps B cap = (t, .error .value)
    else t.setCapacity eps B cap = (⟨cap, t.bufs⟩, .ok ()) := by
  obtain ⟨hq, -⟩ := tracker_vals B ht
  simp only [Tracker.setCapacity, hq]
  split
  · rw [if_pos (by linarith)]
  · rw [if_neg (by linarith)]

/-- **C53, initialisation**: a tracker is initialised exactly with a non-empty list of buffers and
a positive capacity; without buffers every query throws `ValueError`. -/
theorem C53_init (t : Tracker) (bufs : List ℕ) (m : ℚ) :
    (bufs ≠ [] ∧ 0 < m → t.init bufs m = (⟨m, bufs⟩, .ok ())) ∧
    (¬ (bufs ≠ [] ∧ 0 < m) → (t.init bufs m).2 = .error .value) ∧
    (t.bufs = [] → ∀ B b eps cap, t.quantity B = .error .value ∧ t.space B = .error .value ∧
      t.bufSpace B b = .error .value ∧ t.setCapacity eps B cap = (t, .error .value)) := by
  refine ⟨?_, ?_, ?_⟩
  · rintro ⟨h1, h2⟩
    simp [Tracker.init, h1, not_le.2 h2]
  · intro h
    simp only [Tracker.init]
    split
    · rfl
    · rename_i h1
      rw [if_pos]
      by_contra hm
      exact h ⟨by simpa using h1, not_le.1 hm⟩
  · intro h B b eps cap
    simp [Tracker.quantity, Tracker.space, Tracker.capacity, Tracker.bufsCap, Tracker.bufSpace,
      Tracker.setCapacity, h]

/-- A failing `Init` is not atomic: it has already replaced the buffers. -/
theorem C53_fails_init : ∃ (t : Tracker) (bufs : List ℕ) (m : ℚ),
    (t.init bufs m).2 = .error .value ∧ (t.init bufs m).1 ≠ t :=
  ⟨⟨10, [0]⟩, [1], 0, by decide +kernel, by decide +kernel⟩

/-- Two buffers, one of them limited: the hypotheses of the theorems on the tracker hold. -/
example : (⟨10, [0, 1]⟩ : Tracker).bufSpace
    (fun b => if b = 0 then ⟨3, some 5⟩ else ⟨4, none⟩) 0 = .ok 2 := by decide +kernel

/-! ## C47 -/

namespace Spec

/-- The limits on the amount that a policy asks for: throughput, fill level, space of the buffer,
space of the tracker, each times the sampled size, and what is left of the cumulative cap (or the
largest number). -/
def limits (dmax : ℚ) (p : Buy) (B : ℕ → Buf) (b : ℕ) (sp size : ℚ) : List ℚ :=
  [size * p.throughput, size * (p.fillTo - (B b).qty), size * sp] ++
  (match (B b).cap with
   | none => []
   | some c => [size * max 0 (c - (B b).qty)]) ++
  [if 0 < p.cumCap then p.cumCap - p.cycle else dmax]

/-- The least element of a list. -/
def Least (x : ℚ) (l : List ℚ) : Prop := x ∈ l ∧ ∀ y ∈ l, x ≤ y

/-- The policy is dormant: between the end of the active and the end of the dormant period. -/
def Resting (p : Buy) (time : ℤ) : Prop := p.actEnd ≤ time ∧ time < p.dormEnd

end Spec

theorem least_amount {dmax : ℚ} {p : Buy} {B : ℕ → Buf} {b : ℕ} {sp size : ℚ} (hs : 0 ≤ size) :
    Least (min (p.available (B b) sp * size)
      (if p.cumulative then p.cumCap - p.cycle else dmax)) (limits dmax p B b sp size) := by
  have hmul : ∀ x y : ℚ, min x y * size = min (size * x) (size * y) := by
    intro x y
    rw [mul_comm, mul_min_of_nonneg _ _ hs]
  have hm : ∀ x y : ℚ, size * min x y = min (size * x) (size * y) := fun x y => by
    rw [mul_min_of_nonneg _ _ hs]
  have hcum : (if p.cumulative then p.cumCap - p.cycle else dmax) =
      (if 0 < p.cumCap then p.cumCap - p.cycle else dmax) := by
    simp [Buy.cumulative]
  rw [hcum]
  have hmem : ∀ x y : ℚ, ∀ l : List ℚ, x ∈ l → y ∈ l → min x y ∈ l := by
    intro x y l hx hy
    rcases min_choice x y with h | h <;> rw [h] <;> assumption
  unfold limits Buy.available Buf.space
  cases (B b).cap with
  | none =>
    simp only [Option.map_none, minInf, hmul, hm, List.append_nil]
    refine ⟨hmem _ _ _ (hmem _ _ _ (hmem _ _ _ (by simp) (by simp)) (by simp)) (by simp), ?_⟩
    intro y hy
    simp only [List.mem_append, List.mem_cons, List.not_mem_nil, or_false] at hy
    simp only [min_le_iff]
    rcases hy with (rfl | rfl | rfl) | rfl <;> simp
  | some c =>
    simp only [Option.map_some, minInf, hmul, hm]
    refine ⟨hmem _ _ _ (hmem _ _ _ (hmem _ _ _ (by simp) (by simp))
      (hmem _ _ _ (by simp) (by simp))) (by simp), ?_⟩
    intro y hy
    simp only [List.mem_append, List.mem_cons, List.not_mem_nil, or_false] at hy
    simp only [min_le_iff]
    rcases hy with ((rfl | rfl | rfl) | rfl) | rfl <;> simp

/-- **C47, amount**: if the tracked inventory is at most the level `reqAt` and the policy is not
dormant, the total asked for is the least of the limits (rounded down to a multiple of the quantum,
if there is one), or nothing if that is below `eps`; otherwise nothing is asked for.  With a
quantum, every request is exclusive and for one quantum. -/
theorem C47_amount {dmax eps : ℚ} {p p' : Buy} {B : ℕ → Buf} {b : ℕ} {time a d : ℤ} {size : ℚ}
    {o : Order} (hs : 0 ≤ size) (heps : 0 < eps)
    (h : p.getRequests dmax eps B b time size a d = some (p', .ok o)) :
    ∃ t sp, p.tracker = some t ∧ t.space B = .ok sp ∧
      ((p.reqAt < total B t.bufs ∨ Resting p time) → o.n = 0) ∧
      (total B t.bufs ≤ p.reqAt → ¬ Resting p time →
        ∃ amt, Least amt (limits dmax p B b sp size) ∧
          (amt < eps → o.n = 0) ∧
          (eps ≤ amt → p.quantize ≤ 0 → o = ⟨1, amt, false⟩) ∧
          (eps ≤ amt → 0 < p.quantize → o.qty = p.quantize ∧ o.excl = true ∧
            o.n * p.quantize ≤ amt ∧ amt < (o.n + 1) * p.quantize)) := by
  simp only [Buy.getRequests] at h
  split at h
  · cases h
  · rename_i t ht
    split at h
    · cases h
    · cases h
    · rename_i q sp hq hsp
      have hbufs : t.bufs ≠ [] := by
        intro he
        simp [Tracker.quantity, he] at hq
      rw [(tracker_vals B hbufs).1] at hq
      cases hq
      refine ⟨t, sp, ht, hsp, ?_, ?_⟩
      · intro hno
        have hc : (decide (total B t.bufs ≤ p.reqAt) && !p.dormant time) = false := by
          rcases hno with hno | hno
          · simp [not_le.2 hno]
          · have hd : p.dormant time = true := by simpa [Buy.dormant, Resting] using hno
            simp [hd]
        rw [hc] at h
        simp only [Bool.false_eq_true, if_false, if_pos heps] at h
        cases h
        rfl
      · intro h1 h2
        have hc : (decide (total B t.bufs ≤ p.reqAt) && !p.dormant time) = true := by
          have hd : p.dormant time = false := by
            cases hd : p.dormant time with
            | false => rfl
            | true => exact absurd (by simpa [Buy.dormant, Resting] using hd) h2
          simp [h1, hd]
        rw [hc] at h
        simp only [if_true] at h
        refine ⟨_, least_amount hs, ?_, ?_, ?_⟩
        · intro hlt
          rw [if_pos hlt] at h
          cases h
          rfl
        · intro hge hqz
          rw [if_neg (not_lt.2 hge), if_neg (not_lt.2 hqz)] at h
          cases h
          rfl
        · intro hge hqz
          generalize hamt : min (p.available (B b) sp * size)
              (if p.cumulative = true then p.cumCap - p.cycle else dmax) = amt at *
          rw [if_neg (not_lt.2 hge), if_pos hqz] at h
          split at h
          · cases h
          · rename_i hn
            cases h
            refine ⟨rfl, rfl, ?_⟩
            have hne : p.quantize ≠ 0 := ne_of_gt hqz
            have hdiv : 0 ≤ amt / p.quantize := by
              apply div_nonneg <;> linarith
            have hfl : Package.divTrunc amt p.quantize = ⌊amt / p.quantize⌋ := by
              simp only [Package.divTrunc, if_neg hne, if_pos hdiv, Package.toInt] at hn ⊢
              split
              · rfl
              · rename_i hx
                rw [if_neg hx] at hn
                exact absurd (by unfold Package.intMin; norm_num) hn
            rw [hfl]
            have h0 : 0 ≤ ⌊amt / p.quantize⌋ := Int.floor_nonneg.2 hdiv
            have hcast : ((⌊amt / p.quantize⌋.toNat : ℕ) : ℚ) = (⌊amt / p.quantize⌋ : ℚ) := by
              have : ((⌊amt / p.quantize⌋.toNat : ℕ) : ℤ) = ⌊amt / p.quantize⌋ :=
                Int.toNat_of_nonneg h0
              exact_mod_cast this
            simp only [hcast]
            constructor
            · have := Int.floor_le (amt / p.quantize)
              rwa [le_div_iff₀ hqz] at this
            · have := Int.lt_floor_add_one (amt / p.quantize)
              rwa [div_lt_iff₀ hqz] at this

/-- **C47, bound**: with sizes between 0 and 1, what a policy asks for in a step is within its
throughput, its fill level, the space of its buffer, the space of the tracker and the rest of the
cumulative cap. -/
theorem C47_bound {dmax eps : ℚ} {p p' : Buy} {B : ℕ → Buf} {b : ℕ} {time a d : ℤ} {size : ℚ}
    {o : Order} (hs : 0 ≤ size) (hs1 : size ≤ 1) (heps : 0 < eps)
    (h : p.getRequests dmax eps B b time size a d = some (p', .ok o)) (hn : o.n ≠ 0) :
    ∃ t x, p.tracker = some t ∧ t.bufSpace B b = .ok x ∧
      o.n * o.qty ≤ p.throughput ∧ o.n * o.qty ≤ p.fillTo - (B b).qty ∧ o.n * o.qty ≤ x ∧
      (0 < p.cumCap → o.n * o.qty ≤ p.cumCap - p.cycle) := by
  obtain ⟨t, sp, ht, hsp, h1, h2⟩ := C47_amount hs heps h
  have hle : total B t.bufs ≤ p.reqAt := by
    by_contra hc
    exact hn (h1 (.inl (not_le.1 hc)))
  have hrest : ¬ Resting p time := fun hr => hn (h1 (.inr hr))
  obtain ⟨amt, hl, h3, h4, h5⟩ := h2 hle hrest
  have hge : eps ≤ amt := by
    by_contra hc
    exact hn (h3 (not_le.1 hc))
  have htot : o.n * o.qty ≤ amt := by
    by_cases hq : 0 < p.quantize
    · obtain ⟨e1, -, e2, -⟩ := h5 hge hq
      rw [e1]; exact e2
    · have := h4 hge (not_lt.1 hq)
      rw [this]; simp
  have hscale : ∀ y : ℚ, amt ≤ size * y → amt ≤ y := by
    intro y hy
    have hpos : 0 ≤ y := by
      by_contra hneg
      have : size * y ≤ 0 := mul_nonpos_of_nonneg_of_nonpos hs (le_of_lt (not_le.1 hneg))
      linarith
    nlinarith
  refine ⟨t, minInf (B b).space sp, ht, by simp [Tracker.bufSpace, hsp],
    le_trans htot (hscale _ (hl.2 _ (by simp [limits]))),
    le_trans htot (hscale _ (hl.2 _ (by simp [limits]))), ?_, ?_⟩
  · have hsp' : amt ≤ sp := hscale _ (hl.2 _ (by simp [limits]))
    cases hc : (B b).cap with
    | none => simp only [Buf.space, hc, Option.map_none, minInf]; linarith
    | some c =>
      have : amt ≤ max 0 (c - (B b).qty) := hscale _ (hl.2 _ (by simp [limits, hc]))
      simp only [Buf.space, hc, Option.map_some, minInf]
      exact le_min (by linarith) (by linarith)
  · intro hc
    exact le_trans htot (hl.2 _ (by simp [limits, hc]))

/-- **C47, one portfolio**: the requests of a portfolio for the commodities are alternatives, so
that its quantity is that of one request. -/
theorem C47_portfolio {self n : ℕ} {q : ℚ} (hn : n ≠ 0) (hq : q ≠ 0) :
    ∃ P, portfolio self q n = some P ∧ P.qty = q ∧ P.reqs = List.range n ∧
      (∀ i < n, P.coeffs i = some 1) := by
  have hfold : ∀ m : ℕ, ((List.range m).foldl (fun p i => (p.addRequest i q self).1)
      Dre.RP.empty).qty = m * q ∧
      ((List.range m).foldl (fun p i => (p.addRequest i q self).1) Dre.RP.empty).reqs =
        List.range m ∧
      (((List.range m).foldl (fun p i => (p.addRequest i q self).1) Dre.RP.empty).requester = none ∨
       ((List.range m).foldl (fun p i => (p.addRequest i q self).1) Dre.RP.empty).requester =
        some self) := by
    intro m
    induction m with
    | zero => simp [Dre.RP.empty]
    | succ m ih =>
      rw [List.range_succ, List.foldl_append]
      obtain ⟨h1, h2, h3⟩ := ih
      generalize (List.range m).foldl (fun p i => (p.addRequest i q self).1) Dre.RP.empty = P at *
      simp only [List.foldl_cons, List.foldl_nil]
      rcases h3 with h3 | h3
      · simp only [Dre.RP.addRequest, Dre.RP.verify, h3, h1, h2]
        refine ⟨by push_cast; ring, trivial, .inr trivial⟩
      · simp only [Dre.RP.addRequest, Dre.RP.verify, h3, h1, h2, ne_eq, not_true_eq_false,
          if_false]
        refine ⟨by push_cast; ring, trivial, .inr trivial⟩
  have hmut : ∀ (l : List ℕ) (P : Dre.RP), q / q = 1 →
      (Dre.RP.mutualLoop (fun _ => q) q P l).qty = P.qty - l.length * q ∧
      (Dre.RP.mutualLoop (fun _ => q) q P l).reqs = P.reqs ∧
      (∀ i, (i ∈ l ∨ P.coeffs i = some 1) →
        (Dre.RP.mutualLoop (fun _ => q) q P l).coeffs i = some 1) := by
    intro l
    induction l with
    | nil => intro P _; simp [Dre.RP.mutualLoop]
    | cons a l ih =>
      intro P h1
      obtain ⟨e1, e2, e3⟩ := ih
        { P with coeffs := fun k => if k = a then some (q / q) else P.coeffs k
                 qty := P.qty - q } h1
      simp only [Dre.RP.mutualLoop]
      refine ⟨by rw [e1]; simp only [List.length_cons]; push_cast; ring, e2, ?_⟩
      intro i hi
      apply e3
      rcases hi with hi | hi
      · rcases List.mem_cons.1 hi with rfl | hi
        · right; simp [h1]
        · left; exact hi
      · right
        simp only [h1]
        split
        · rfl
        · exact hi
  have hn' : (n : ℚ) ≠ 0 := by exact_mod_cast hn
  have havg : ((List.range n).map (fun _ => q)).sum / ((List.range n).length : ℚ) = q := by
    simp only [List.map_const', List.length_range, List.sum_replicate, nsmul_eq_mul]
    field_simp
  obtain ⟨f1, f2, -⟩ := hfold n
  unfold portfolio Dre.RP.addMutual
  simp only [havg]
  rw [if_neg (by simp [hn, hq])]
  generalize (List.range n).foldl (fun p i => (p.addRequest i q self).1) Dre.RP.empty = P at *
  obtain ⟨m1, m2, m3⟩ := hmut (List.range n) P (div_self hq)
  refine ⟨_, rfl, ?_, by simp [m2, f2], ?_⟩
  · simp only [m1, f1, List.length_range]; ring
  · intro i hi
    exact m3 i (.inl (List.mem_range.2 hi))

/-! ### Accepting what was asked for -/

theorem acceptLoop_spec {eps : ℚ} (heps : 0 ≤ eps) : ∀ (rs : List ℕ) (p : Buy) (s : St), Inv s →
    rs.Nodup → (∀ r ∈ rs, r < s.next ∧ r ∉ s.rs ∧ (s.heap r).isT = true ∧ 0 ≤ (s.heap r).qty) →
    (∀ sp, ResBuf.space s = some sp → totQty s.heap rs ≤ sp) →
    ∃ p' s', Buy.acceptLoop eps p s rs = ((p', s'), .ok ()) ∧ Inv s' ∧
      s'.qty = s.qty + totQty s.heap rs ∧ s'.cap = s.cap := by
  intro rs
  induction rs with
  | nil => intro p s hi _ _ _; exact ⟨p, s, rfl, hi, by simp, rfl⟩
  | cons r rs ih =>
    intro p s hi hnd hr hsp
    obtain ⟨hlt, hnin, hT, h0⟩ := hr r (by simp)
    simp only [List.nodup_cons] at hnd
    have htl : 0 ≤ totQty s.heap rs := by
      unfold totQty
      refine List.sum_nonneg ?_
      intro q hq
      obtain ⟨x, hx, rfl⟩ := List.mem_map.1 hq
      exact (hr x (List.mem_cons_of_mem _ hx)).2.2.2
    have hne : ∀ e, ResBuf.push .material eps s r ≠ (s, .error e) := by
      intro e he
      replace he := congrArg Prod.snd he
      have hpres : r ∉ s.present := fun h => hnin ((hi.pres r).1 h)
      have hex : ResBuf.exceeds eps (s.heap r).qty (ResBuf.space s) = false := by
        cases hs : ResBuf.space s with
        | none => rfl
        | some sp =>
          have := hsp sp hs
          simp only [ResBuf.totQty_cons] at this
          simp only [ResBuf.exceeds, decide_eq_false_iff_not, not_lt, gt_iff_lt]
          linarith
      simp only [ResBuf.push, hT, hex, hpres, Bool.not_true, Bool.false_eq_true, if_false] at he
      split at he
      · simp only [ResBuf.absorb, ResBuf.absorbOk, if_true] at he
        cases he
      · cases he
    rcases ResBuf.push_spec (k := .material) (eps := eps) hi hlt with ⟨e, he⟩ | ⟨s', h1, hi', hq,
        hc, hb, hnx, -, -, h2, h3⟩
    · exact absurd he (hne e)
    · have hheap : ∀ x ∈ rs, s'.heap x = s.heap x ∧ x ∉ s'.rs := by
        intro x hx
        have hxr : x ≠ r := fun e => hnd.1 (e ▸ hx)
        have hxs := (hr x (List.mem_cons_of_mem _ hx)).2.1
        by_cases hcase : s.bulk = false ∨ s.rs = []
        · obtain ⟨e1, e2⟩ := h2 hcase
          rw [e1, e2]
          exact ⟨rfl, by simp [hxs, hxr]⟩
        · have hbk : s.bulk = true := by
            cases hbb : s.bulk with
            | false => exact absurd (.inl hbb) hcase
            | true => rfl
          have hlen := hi.bulk1 hbk
          obtain ⟨f, hf⟩ : ∃ f, s.rs = [f] := by
            cases hrs : s.rs with
            | nil => exact absurd (.inr hrs) hcase
            | cons f tl =>
              rw [hrs] at hlen
              simp at hlen
              exact ⟨f, by rw [hlen]⟩
          obtain ⟨e1, -⟩ := h3 f hbk hf
          have hxf : x ≠ f := by
            rintro rfl
            exact hxs (by simp [hf])
          refine ⟨?_, by rw [e1]; simpa using hxf⟩
          have hh : s'.heap = (ResBuf.push .material eps s r).1.heap := by rw [h1]
          rw [hh]
          have hpres : r ∉ s.present := fun h => hnin ((hi.pres r).1 h)
          have hex : ResBuf.exceeds eps (s.heap r).qty (ResBuf.space s) = false := by
            cases hs : ResBuf.space s with
            | none => rfl
            | some sp =>
              have := hsp sp hs
              simp only [ResBuf.totQty_cons] at this
              simp only [ResBuf.exceeds, decide_eq_false_iff_not, not_lt, gt_iff_lt]
              linarith
          simp only [ResBuf.push, hT, hex, hpres, Bool.not_true, Bool.false_eq_true, if_false, hbk,
            hf, ResBuf.absorb, ResBuf.absorbOk, if_true, ResBuf.updateQty]
          rw [ResBuf.setQty_ne _ _ hxr, ResBuf.setQty_ne _ _ hxf]
      have htot : totQty s'.heap rs = totQty s.heap rs :=
        ResBuf.totQty_congr (fun x hx => by rw [(hheap x hx).1])
      have hstep := ih (if p.cumulative then { p with cycle := p.cycle + (s'.heap r).qty } else p)
        s' hi' hnd.2 (by
          intro x hx
          obtain ⟨a1, a2, a3, a4⟩ := hr x (List.mem_cons_of_mem _ hx)
          rw [(hheap x hx).1, hnx]
          exact ⟨a1, (hheap x hx).2, a3, a4⟩) (by
          intro sp hs'
          rw [htot]
          unfold ResBuf.space at hs'
          rw [hc, Option.map_eq_some_iff] at hs'
          obtain ⟨c, hc1, rfl⟩ := hs'
          have := hsp (max 0 (c - s.qty)) (by simp [ResBuf.space, hc1])
          simp only [ResBuf.totQty_cons] at this
          rw [hq]
          rcases le_total 0 (c - s.qty) with hle | hle
          · rw [max_eq_right hle] at this
            exact le_trans (by linarith) (le_max_right _ _)
          · rw [max_eq_left hle] at this
            exact le_trans (by linarith) (le_max_left _ _))
      obtain ⟨p'', s'', e1, e2, e3, e4⟩ := hstep
      refine ⟨p'', s'', ?_, e2, ?_, by rw [e4, hc]⟩
      · simp only [Buy.acceptLoop, h1]
        exact e1
      · rw [e3, htot, hq]
        simp only [ResBuf.totQty_cons]
        ring

/-- **C47, end to end**: if the delivered materials are new to the buffer and sum up to no more
than was asked for, accepting them succeeds, stores exactly them, and leaves the buffer within its
capacity and the tracked total within the capacity of the tracker. -/
theorem C47_fits {dmax eps : ℚ} {p p' : Buy} {B : ℕ → Buf} {b : ℕ} {time time' a d d' : ℤ}
    {size : ℚ} {o : Order} {s : St} {rs : List ℕ} {t : Tracker}
    (hs : 0 ≤ size) (hs1 : size ≤ 1) (heps : 0 < eps)
    (h : p.getRequests dmax eps B b time size a d = some (p', .ok o))
    (ht : p.tracker = some t) (hbt : b ∈ t.bufs) (hnd : t.bufs.Nodup)
    (hR : Reachable .material eps s) (hB : B b = Buf.of s)
    (hrs : rs.Nodup)
    (hr : ∀ r ∈ rs, r < s.next ∧ r ∉ s.rs ∧ (s.heap r).isT = true ∧ 0 ≤ (s.heap r).qty)
    (htot : sumQty s rs ≤ o.n * o.qty) :
    ∃ p'' s', p'.accept eps s time' d' rs = ((p'', s'), .ok ()) ∧
      s'.qty = s.qty + sumQty s rs ∧ s'.cap = s.cap ∧
      (∀ c, s.cap = some c → s.qty ≤ c → s'.qty ≤ c) ∧
      (total B t.bufs ≤ t.maxInv →
        total (Function.update B b (Buf.of s')) t.bufs ≤ t.maxInv) := by
  have hi := hR.inv
  have hsum0 : 0 ≤ sumQty s rs := by
    rw [ResBuf.sumQty_eq]
    unfold totQty
    refine List.sum_nonneg ?_
    intro q hq
    obtain ⟨x, hx, rfl⟩ := List.mem_map.1 hq
    exact (hr x hx).2.2.2
  have hle : ∃ x, t.bufSpace B b = .ok x ∧ sumQty s rs ≤ x := by
    by_cases hn : o.n = 0
    · rw [hn] at htot
      simp only [Nat.cast_zero, zero_mul] at htot
      obtain ⟨t', sp, ht', hsp, -⟩ := C47_amount hs heps h
      rw [ht] at ht'
      cases ht'
      have hbs : t.bufSpace B b = .ok (minInf (B b).space sp) := by simp [Tracker.bufSpace, hsp]
      obtain ⟨-, -, -, h0, -⟩ := C53_buffer hbs
      exact ⟨_, hbs, by linarith⟩
    · obtain ⟨t', x, ht', hx, -, -, h3, -⟩ := C47_bound hs hs1 heps h hn
      rw [ht] at ht'
      cases ht'
      exact ⟨x, hx, by linarith⟩
  obtain ⟨x, hx, hxle⟩ := hle
  have hspace : ∀ sp, ResBuf.space s = some sp → totQty s.heap rs ≤ sp := by
    intro sp hsp
    obtain ⟨-, -, -, -, h3, -⟩ := C53_buffer hx
    simp only [ResBuf.space, Option.map_eq_some_iff] at hsp
    obtain ⟨c, hc, rfl⟩ := hsp
    have := h3 c (by rw [hB]; exact hc)
    rw [← ResBuf.sumQty_eq]
    rw [hB] at this
    simp only [Buf.of] at this
    linarith
  obtain ⟨p1, s', e1, e2, e3, e4⟩ := acceptLoop_spec (le_of_lt heps) rs p' s hi hrs hr hspace
  rw [← ResBuf.sumQty_eq] at e3
  have hacc : ∃ p'', p'.accept eps s time' d' rs = ((p'', s'), .ok ()) := by
    simp only [Buy.accept, e1]
    split
    · exact ⟨_, rfl⟩
    · exact ⟨_, rfl⟩
  obtain ⟨p'', hp''⟩ := hacc
  refine ⟨p'', s', hp'', e3, e4, ?_, ?_⟩
  · intro c hc hqc
    obtain ⟨-, -, -, -, h3, -⟩ := C53_buffer hx
    have := h3 c (by rw [hB]; exact hc)
    rw [hB] at this
    simp only [Buf.of] at this
    rw [max_eq_right (by linarith)] at this
    rw [e3]
    linarith
  · intro htl
    have hupd : Function.update B b (Buf.of s') =
        Function.update B b { B b with qty := (B b).qty + sumQty s rs } := by
      congr 1
      rw [hB]
      simp [Buf.of, e3, e4]
    rw [hupd, total_update hnd, if_pos hbt]
    obtain ⟨sp, hsp, h1, -⟩ := C53_buffer hx
    obtain ⟨-, h4, -⟩ := C53_space hsp
    rw [max_eq_right (by linarith)] at h4
    linarith

/-- A buffer for 10 units with 4 units in it. -/
def exBufs : ℕ → Buf := fun b => if b = 0 then ⟨4, some 10⟩ else ⟨1, none⟩

/-- A policy with a quantum of 2 on that buffer, tracked together with another one. -/
def exBuy : Buy := { Buy.new 1000 with quantize := 2, actEnd := 1, dormEnd := -1,
                                       tracker := some ⟨10, [0, 1]⟩ }

/-- The policy asks for two quanta: the hypotheses of the theorems on amounts hold. -/
example : exBuy.getRequests 1000 (1 / 100) exBufs 0 3 1 1 (-1) = some (exBuy, .ok ⟨2, 2, true⟩) := by
  decide +kernel

/-- A buffer of 10 units and two units that are not in it meet the hypotheses of `C47_fits`. -/
example : ∃ (p : Buy) (o : Order) (s : St) (rs : List ℕ) (t : Tracker),
    p.getRequests 1000 (1 / 100) (fun _ => Buf.of s) 0 3 1 1 (-1) = some (p, .ok o) ∧
    p.tracker = some t ∧ 0 ∈ t.bufs ∧ t.bufs.Nodup ∧ Reachable .material (1 / 100) s ∧
    rs.Nodup ∧ rs ≠ [] ∧
    (∀ r ∈ rs, r < s.next ∧ r ∉ s.rs ∧ (s.heap r).isT = true ∧ 0 ≤ (s.heap r).qty) ∧
    sumQty s rs ≤ o.n * o.qty := by
  refine ⟨{ Buy.new 1000 with dormEnd := -1, tracker := some ⟨10, [0]⟩ }, ⟨1, 10, false⟩,
    ResBuf.run .material (1 / 100) (ResBuf.init false)
      [.setCap (some 10), .create ⟨2, 0, true⟩], [0], ⟨10, [0]⟩, by decide +kernel, rfl, by simp,
    by simp, ⟨false, _, by decide +kernel, ?_, ?_, rfl⟩, by simp, by simp, ?_, ?_⟩
  · simp [ResBuf.FairProgram, ResBuf.Fair]
  · simp
  · intro r hr
    have : r = 0 := by simpa using hr
    subst this
    decide +kernel
  · decide +kernel

/-! ### Where the property fails -/

/-- Two policies on the same buffer each ask for all of its space: together they ask for more than
fits, and accepting both deliveries throws `ValueError`. -/
theorem C47_fails_shared : ∃ (p : Buy) (o : Order) (s : St),
    p.getRequests 1000 (1 / 100) (fun _ => Buf.of s) 0 3 1 1 (-1) = some (p, .ok o) ∧
    Reachable .material (1 / 100) s ∧ ∃ r1 r2 : ℕ, r1 ≠ r2 ∧
      (s.heap r1).qty ≤ o.n * o.qty ∧ (s.heap r2).qty ≤ o.n * o.qty ∧
      (p.accept (1 / 100) s 3 (-1) [r1]).2 = .ok () ∧
      (p.accept (1 / 100) (p.accept (1 / 100) s 3 (-1) [r1]).1.2 3 (-1) [r2]).2 =
        .error .value := by
  refine ⟨{ Buy.new 1000 with dormEnd := -1, tracker := some ⟨10, [0]⟩ }, ⟨1, 10, false⟩,
    ResBuf.run .material (1 / 100) (ResBuf.init false)
      [.setCap (some 10), .create ⟨10, 0, true⟩, .create ⟨10, 0, true⟩], by decide +kernel,
    ⟨false, _, by decide +kernel, ?_, ?_, rfl⟩, 0, 1, by simp, by decide +kernel,
    by decide +kernel, by decide +kernel, by decide +kernel⟩
  · simp [ResBuf.FairProgram, ResBuf.Fair]
  · simp

/-- A size distribution may have negative samples; a policy whose buffer holds more than its fill
level then asks for material, although it has no space. -/
theorem C47_fails_size : ∃ (p : Buy) (B : ℕ → Buf) (o : Order),
    p.getRequests 1000 (1 / 100) B 0 3 (-1) 1 (-1) = some (p, .ok o) ∧
    0 < o.n * o.qty ∧ p.fillTo - (B 0).qty < 0 := by
  refine ⟨{ Buy.new 1000 with fillTo := 5, dormEnd := -1, tracker := some ⟨10, [0]⟩ },
    fun _ => ⟨8, some 10⟩, ⟨1, 3, false⟩, by decide +kernel, by norm_num, by norm_num⟩

/-- With a quantum and space for more than `INT_MAX` quanta the number of requests is undefined. -/
theorem C47_fails_overflow : ∃ (p : Buy) (B : ℕ → Buf),
    p.getRequests (10 ^ 300) (1 / 100) B 0 3 1 1 (-1) = none ∧ p.tracker = some ⟨10 ^ 300, [0]⟩ :=
  ⟨{ Buy.new (10 ^ 300) with quantize := 1, dormEnd := -1, tracker := some ⟨10 ^ 300, [0]⟩ },
    fun _ => ⟨0, none⟩, by decide +kernel, rfl⟩

/-- A policy that is initialised without a tracker, as the code provides for, uses an uninitialised
pointer. -/
theorem C47_fails_null (dmax : ℚ) (B : ℕ → Buf) (b : ℕ) :
    (Buy.new dmax).setTracker dmax B b none = none := rfl

end Cyclus.Policy
