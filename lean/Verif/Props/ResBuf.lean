import Verif.Lemmas.ResBuf

/-!
# Properties C01-C05: the resource buffer

The specification speaks only about the objects held (`St.rs`, in order), their quantities, the
capacity and what the calls report.
-/

namespace Cyclus.ResBuf

/-- Specification: total quantity of a list of objects. -/
def sumQty (s : St) : List Nat → ℚ
  | [] => 0
  | r :: rs => (s.heap r).qty + sumQty s rs

theorem sumQty_eq (s : St) (rs : List Nat) : sumQty s rs = totQty s.heap rs := by
  induction rs with
  | nil => rfl
  | cons r rs ih => simp [sumQty, ih]

/-- A client program in which every pointer passed denotes an existing object. -/
def Program (k : Kind) (eps : ℚ) : St → List Op → Prop
  | _, [] => True
  | s, op :: ops => ValidArgs s op ∧ Program k eps (step k eps s op).1 ops

instance (s : St) (op : Op) : Decidable (ValidArgs s op) := by
  cases op <;> unfold ValidArgs <;> infer_instance

instance decProgram (k : Kind) (eps : ℚ) : ∀ s ops, Decidable (Program k eps s ops)
  | _, [] => by unfold Program; infer_instance
  | s, op :: ops => by
    unfold Program
    have := decProgram k eps (step k eps s op).1 ops
    infer_instance

/-- A client program whose vector pushes list distinct objects (of one quality, if the buffer is
a bulk Product buffer). -/
def FairProgram (k : Kind) (eps : ℚ) : St → List Op → Prop
  | _, [] => True
  | s, op :: ops => Fair k s op ∧ FairProgram k eps (step k eps s op).1 ops

theorem inv_run {k : Kind} {eps : ℚ} : ∀ (ops : List Op) (s : St), Inv s → Program k eps s ops →
    FairProgram k eps s ops → Inv (run k eps s ops) := by
  intro ops
  induction ops with
  | nil => intro s hi _ _; exact hi
  | cons op ops ih =>
    intro s hi hp hf
    exact ih _ (inv_step hi hp.1 hf.1) hp.2 hf.2

/-! ## C01 -/

/-- What C01 says about one state: reported quantity and space match the contents, and the listed
objects are distinct, so the list length `count()` is the number of objects held. -/
def Accurate (s : St) : Prop :=
  s.qty = sumQty s s.rs ∧ s.rs.Nodup ∧
    space s = s.cap.map fun c => max 0 (c - sumQty s s.rs)

/-- C01 in full: after every client program. -/
def C01 : Prop := ∀ k eps bulk ops, Program k eps (init bulk) ops →
  Accurate (run k eps (init bulk) ops)

/-- **C01 (partial).**  The reported quantity, count and space are accurate after every client
program, failing calls included, whose vector pushes contain no object twice and, for bulk Product
buffers, no mixed qualities.  Missing from the full claim: exactly those vector pushes, for which
it is false (`C01_fails_duplicate`, `C01_fails_mixed`). -/
theorem C01_quantity_is_sum_partial (k : Kind) (eps : ℚ) (bulk : Bool) (ops : List Op)
    (hp : Program k eps (init bulk) ops) (hf : FairProgram k eps (init bulk) ops) :
    Accurate (run k eps (init bulk) ops) := by
  have hi := inv_run ops (init bulk) (inv_init bulk) hp hf
  refine ⟨by rw [sumQty_eq]; exact hi.sum, hi.nodup, ?_⟩
  rw [sumQty_eq, ← hi.sum]; rfl

/-- A program exercising creation, both pushes, splitting, squashing and failing calls. -/
def demoOps : List Op :=
  [.create ⟨5, 0, true⟩, .create ⟨3, 0, true⟩, .create ⟨2, 0, true⟩, .setCap (some 10), .push 0,
   .pushVec [1, 2], .push 1, .popVec 6, .setCap (some 1), .popQty (1/2), .popEps 4 1, .pop]

example : Program .product (1/1000000) (init false) demoOps ∧
    FairProgram .product (1/1000000) (init false) demoOps := by
  constructor
  · decide +kernel
  · simp only [FairProgram, demoOps, Fair]
    refine ⟨trivial, trivial, trivial, trivial, trivial, ⟨by decide, ?_⟩, trivial, trivial, trivial,
      trivial, trivial, trivial, trivial⟩
    intro h
    exact absurd h (by decide +kernel)

/-- C01 is violated when one vector passed to `Push` contains an object twice: the object is
absorbed into itself by a bulk buffer and its quantity is lost. -/
theorem C01_fails_duplicate : ¬ C01 := by
  intro h
  have := (h .material (1/1000000) true [.create ⟨5, 0, true⟩, .pushVec [0, 0]]
    (by decide +kernel)).1
  revert this
  decide +kernel

/-- C01 is also violated without duplicates: a bulk Product buffer given a vector of two
qualities throws after storing the first object, without counting it. -/
theorem C01_fails_mixed : ¬ ∀ eps ops, Program .product eps (init true) ops →
    (∀ rs, Op.pushVec rs ∈ ops → rs.Nodup) →
    (run .product eps (init true) ops).qty
      = sumQty (run .product eps (init true) ops) (run .product eps (init true) ops).rs := by
  intro h
  have := h (1/1000000) [.create ⟨5, 0, true⟩, .create ⟨3, 1, true⟩, .pushVec [0, 1]]
    (by decide +kernel) (by simp)
  revert this
  decide +kernel

/-! ## C02 -/

/-- C02 in full: the held quantity never exceeds the capacity by more than `eps`. -/
def C02 : Prop := ∀ k eps bulk ops, 0 ≤ eps → Program k eps (init bulk) ops →
  FairProgram k eps (init bulk) ops →
  ∀ c, (run k eps (init bulk) ops).cap = some c → (run k eps (init bulk) ops).qty ≤ c + eps

/-- The program creates no object with negative quantity and pushes nothing of size in
`(0, eps]`. -/
def CoarseOp (eps : ℚ) (s : St) : Op → Prop
  | .create o => 0 ≤ o.qty
  | .push r => eps < (s.heap r).qty ∨ (s.heap r).qty = 0
  | .pushVec rs => eps < sumQty s rs ∨ sumQty s rs = 0
  | _ => True

def CoarseProgram (k : Kind) (eps : ℚ) : St → List Op → Prop
  | _, [] => True
  | s, op :: ops => CoarseOp eps s op ∧ CoarseProgram k eps (step k eps s op).1 ops

/-- **C02 (partial).**  The held quantity is at most `capacity + eps` after every fair program that
never pushes an amount in `(0, eps]`.  Missing: tiny pushes, for which the bound is false
(`C02_fails`, `C02_overflow_unbounded`). -/
theorem C02_capacity_respected_partial (k : Kind) (eps : ℚ) (bulk : Bool) (ops : List Op)
    (hp : Program k eps (init bulk) ops) (hf : FairProgram k eps (init bulk) ops)
    (hc : CoarseProgram k eps (init bulk) ops) :
    ∀ c, (run k eps (init bulk) ops).cap = some c →
      sumQty (run k eps (init bulk) ops) (run k eps (init bulk) ops).rs ≤ c + eps := by
  have key : ∀ (ops : List Op) (s : St), Inv s → NN s → (∀ c, s.cap = some c → s.qty ≤ c + eps) →
      Program k eps s ops → FairProgram k eps s ops → CoarseProgram k eps s ops →
      ∀ c, (run k eps s ops).cap = some c → (run k eps s ops).qty ≤ c + eps := by
    intro ops
    induction ops with
    | nil => intro s _ _ h _ _ _; exact h
    | cons op ops ih =>
      intro s hi hn h hp hf hc
      have hi' := inv_step (eps := eps) hi hp.1 hf.1
      have hn' : NN (step k eps s op).1 := nn_step hn (by rintro o rfl; exact hc.1)
      refine ih _ hi' hn' ?_ hp.2 hf.2 hc.2
      intro c hcap
      have grow : ∀ q, (eps < q ∨ q = 0) → exceeds eps q (space s) = false →
          s.cap = some c → s.qty + q ≤ c + eps := by
        intro q hq hex hcap'
        have h1 := exceeds_false hcap' hex
        have h2 := h c hcap'
        rcases hq with hq | hq
        · rcases le_total (c - s.qty) 0 with h3 | h3
          · rw [max_eq_left h3] at h1; linarith
          · rw [max_eq_right h3] at h1; linarith
        · rw [hq]; linarith
      rcases qty_step (eps := eps) hi hp.1 hf.1 hn with ⟨h1, h2⟩ | ⟨r, rfl, h1, h2, h3⟩ |
        ⟨rs, rfl, h1, h2, h3⟩ | ⟨c', rfl, h1, h2, h3⟩
      · have := h c (h2 ▸ hcap); linarith
      · rw [h2]; exact grow _ hc.1 h3 (h1 ▸ hcap)
      · have h4 := hc.1
        simp only [CoarseOp, sumQty_eq] at h4
        rw [h2]; exact grow _ h4 h3 (h1 ▸ hcap)
      · rw [h2]; exact h3 c (by rw [← h1]; exact hcap)
  intro c hcap
  have hi := inv_run ops (init bulk) (inv_init bulk) hp hf
  rw [sumQty_eq, ← hi.sum]
  refine key ops (init bulk) (inv_init bulk) ?_ ?_ hp hf hc c hcap
  · intro i; simp [init]
  · simp [init]

example : CoarseProgram .product (1/1000000) (init false) demoOps := by
  simp only [CoarseProgram, demoOps, CoarseOp]
  decide +kernel

/-- The general bound that does hold: each accepted push can add at most one `eps` to the excess,
so after `n` calls the excess is at most `n * eps`. -/
theorem C02_excess_bounded (k : Kind) (eps : ℚ) (bulk : Bool) (ops : List Op)
    (he : 0 ≤ eps) (hp : Program k eps (init bulk) ops) (hf : FairProgram k eps (init bulk) ops)
    (hc : ∀ o, Op.create o ∈ ops → 0 ≤ o.qty) :
    ∀ c, (run k eps (init bulk) ops).cap = some c →
      sumQty (run k eps (init bulk) ops) (run k eps (init bulk) ops).rs ≤ c + ops.length * eps := by
  have key : ∀ (ops : List Op) (s : St) (m : ℚ), Inv s → NN s → 0 ≤ m →
      (∀ c, s.cap = some c → s.qty ≤ c + m * eps) →
      Program k eps s ops → FairProgram k eps s ops → (∀ o, Op.create o ∈ ops → 0 ≤ o.qty) →
      ∀ c, (run k eps s ops).cap = some c → (run k eps s ops).qty ≤ c + (m + ops.length) * eps := by
    intro ops
    induction ops with
    | nil => intro s m _ _ _ h _ _ _ c hc; simpa [run] using h c hc
    | cons op ops ih =>
      intro s m hi hn hm h hp hf hc
      have hi' := inv_step (eps := eps) hi hp.1 hf.1
      have hn' : NN (step k eps s op).1 := nn_step hn (by rintro o rfl; exact hc o (by simp))
      have := ih (step k eps s op).1 (m + 1) hi' hn' (by linarith) ?_ hp.2 hf.2
        (fun o ho => hc o (by simp [ho]))
      · intro c hcap
        have h1 := this c hcap
        simp only [List.length_cons, Nat.cast_add, Nat.cast_one]
        simp only [run, List.foldl_cons] at h1 ⊢
        linarith
      intro c hcap
      have hme : 0 ≤ m * eps := mul_nonneg hm he
      have grow : ∀ q, exceeds eps q (space s) = false →
          s.cap = some c → s.qty + q ≤ c + (m + 1) * eps := by
        intro q hex hcap'
        have h1 := exceeds_false hcap' hex
        have h2 := h c hcap'
        rcases le_total (c - s.qty) 0 with h3 | h3
        · rw [max_eq_left h3] at h1; linarith
        · rw [max_eq_right h3] at h1; linarith
      rcases qty_step (eps := eps) hi hp.1 hf.1 hn with ⟨h1, h2⟩ | ⟨r, rfl, h1, h2, h3⟩ |
        ⟨rs, rfl, h1, h2, h3⟩ | ⟨c', rfl, h1, h2, h3⟩
      · have := h c (h2 ▸ hcap); linarith
      · rw [h2]; exact grow _ h3 (h1 ▸ hcap)
      · rw [h2]; exact grow _ h3 (h1 ▸ hcap)
      · rw [h2]; have := h3 c (by rw [← h1]; exact hcap); linarith
  intro c hcap
  have hi := inv_run ops (init bulk) (inv_init bulk) hp hf
  rw [sumQty_eq, ← hi.sum]
  have := key ops (init bulk) 0 (inv_init bulk) (by intro i; simp [init]) (le_refl _)
    (by simp [init]) hp hf hc c hcap
  simpa using this

example : ∀ o, Op.create o ∈ demoOps → 0 ≤ o.qty := by
  intro o ho
  simp [demoOps] at ho
  rcases ho with rfl | rfl | rfl <;> norm_num

/-- C02 is violated: an object of size `eps` is accepted by a full buffer, again and again. -/
theorem C02_fails : ¬ C02 := by
  intro h
  have := h .material (1/1000000) false
    [.create ⟨1/1000000, 0, true⟩, .create ⟨1/1000000, 0, true⟩, .setCap (some 0), .push 0, .push 1]
    (by norm_num) (by decide +kernel)
    (by simp only [FairProgram, Fair, and_self])
    0 (by decide +kernel)
  revert this
  decide +kernel

theorem program_append {k : Kind} {eps : ℚ} : ∀ (a b : List Op) (s : St), Program k eps s a →
    Program k eps (run k eps s a) b → Program k eps s (a ++ b) := by
  intro a
  induction a with
  | nil => intro b s _ h; exact h
  | cons op a ih => intro b s h1 h2; exact ⟨h1.1, ih b _ h1.2 h2⟩

theorem fairProgram_append {k : Kind} {eps : ℚ} : ∀ (a b : List Op) (s : St),
    FairProgram k eps s a → FairProgram k eps (run k eps s a) b → FairProgram k eps s (a ++ b) := by
  intro a
  induction a with
  | nil => intro b s _ h; exact h
  | cons op a ih => intro b s h1 h2; exact ⟨h1.1, ih b _ h1.2 h2⟩

theorem run_append {k : Kind} {eps : ℚ} (a b : List Op) (s : St) :
    run k eps s (a ++ b) = run k eps (run k eps s a) b := by
  simp [run, List.foldl_append]

/-- The excess over the capacity is not bounded at all: for every `n` there is a fair program after
which a buffer of capacity 0 holds `n * eps`. -/
theorem C02_overflow_unbounded (k : Kind) (eps : ℚ) (he : 0 < eps) (n : Nat) :
    ∃ ops, Program k eps (init false) ops ∧ FairProgram k eps (init false) ops ∧
      (run k eps (init false) ops).cap = some 0 ∧ (run k eps (init false) ops).bulk = false ∧
      (run k eps (init false) ops).qty = n * eps := by
  induction n with
  | zero =>
    refine ⟨[.setCap (some 0)], ⟨trivial, trivial⟩, ⟨trivial, trivial⟩, ?_⟩
    simp [run, step, toList_fst, setCap, init, not_lt.2 he.le]
  | succ n ih =>
    obtain ⟨ops, h1, h2, h3, h4, h5⟩ := ih
    have hi := inv_run ops (init false) (inv_init false) h1 h2
    generalize hs : run k eps (init false) ops = s at *
    refine ⟨ops ++ [.create ⟨eps, 0, true⟩, .push s.next], ?_, ?_, ?_⟩
    · apply program_append _ _ _ h1
      rw [hs]
      exact ⟨trivial, by simp [ValidArgs, step], trivial⟩
    · apply fairProgram_append _ _ _ h2
      rw [hs]
      exact ⟨trivial, trivial, trivial⟩
    · rw [run_append, hs]
      have hi1 : Inv (step k eps s (.create ⟨eps, 0, true⟩)).1 := inv_step hi trivial trivial
      generalize hs1 : (step k eps s (.create ⟨eps, 0, true⟩)).1 = s1 at hi1
      have e : run k eps s [.create ⟨eps, 0, true⟩, .push s.next] = (push k eps s1 s.next).1 := by
        rw [← hs1]
        simp only [run, List.foldl_cons, List.foldl_nil]
        simp [step, toList_fst]
      have a1 : s1.heap s.next = ⟨eps, 0, true⟩ := by rw [← hs1]; simp [step]
      have a2 : s1.cap = some 0 := by rw [← hs1]; simpa [step] using h3
      have a3 : s1.bulk = false := by rw [← hs1]; simpa [step] using h4
      have a4 : s1.qty = n * eps := by rw [← hs1]; simpa [step] using h5
      have a5 : s1.rs = s.rs := by rw [← hs1]; simp [step]
      have a6 : s1.next = s.next + 1 := by rw [← hs1]; simp [step]
      have hnot : s.next ∉ s1.present := by
        rw [hi1.pres, a5]
        intro h
        exact absurd (hi.lt _ h) (lt_irrefl _)
      have hsp : exceeds eps (s1.heap s.next).qty (space s1) = false := by
        simp only [exceeds, space, a1, a2, Option.map_some, decide_eq_false_iff_not, not_lt,
          gt_iff_lt]
        have := le_max_left 0 (0 - s1.qty)
        linarith
      rw [e]
      rcases push_spec (k := k) (eps := eps) (r := s.next) hi1 (by omega) with
        ⟨er, h⟩ | ⟨s2, h, -, q1, q2, q3, -⟩
      · exfalso
        simp [push, a1, hnot, a3] at h
        simp [a1] at hsp
        rw [hsp] at h
        simp at h
      · rw [h]
        refine ⟨by simp only [q2, a2], by simp only [q3, a3], ?_⟩
        simp only [q1, a4, a1]
        push_cast
        ring

example : (0 : ℚ) < 1/1000000 := by norm_num

/-- **C02, the check itself**: pushing more than the free space plus `eps`, or lowering the capacity
below the held quantity minus `eps` (or below 0), throws `ValueError` and changes nothing. -/
theorem C02_overflow_rejected (k : Kind) (eps : ℚ) (s : St) (c : ℚ) (hc : s.cap = some c) :
    (∀ r, (s.heap r).isT = true → max 0 (c - s.qty) + eps < (s.heap r).qty →
      push k eps s r = (s, .error .value)) ∧
    (∀ rs, (∀ r ∈ rs, (s.heap r).isT = true) → max 0 (c - s.qty) + eps < sumQty s rs →
      pushVec k eps s rs = (s, .error .value)) ∧
    (∀ x, x < 0 ∨ x + eps < s.qty → setCap eps s (some x) = (s, .error .value)) := by
  refine ⟨?_, ?_, ?_⟩
  · intro r ht hq
    have : exceeds eps (s.heap r).qty (space s) = true := by
      simp only [exceeds, space, hc, Option.map_some, decide_eq_true_eq]
      linarith
    simp [push, ht, this]
  · intro rs ht hq
    rw [sumQty_eq] at hq
    have : exceeds eps (totQty s.heap rs) (space s) = true := by
      simp only [exceeds, space, hc, Option.map_some, decide_eq_true_eq]
      linarith
    have h2 : rs.any (fun r => !(s.heap r).isT) = false := by
      simpa using ht
    simp [pushVec, h2, this]
  · intro x hx
    unfold setCap
    by_cases h0 : x < 0
    · simp [h0]
    · have : s.qty - x > eps := by
        rcases hx with hx | hx
        · exact absurd hx h0
        · linarith
      simp [h0, this]

/-! ## C03 -/

/-- States reached by fair client programs that only create non-negative objects. -/
def Reachable (k : Kind) (eps : ℚ) (s : St) : Prop :=
  ∃ bulk ops, Program k eps (init bulk) ops ∧ FairProgram k eps (init bulk) ops ∧
    (∀ o, Op.create o ∈ ops → 0 ≤ o.qty) ∧ s = run k eps (init bulk) ops

theorem Reachable.inv {k : Kind} {eps : ℚ} {s : St} (h : Reachable k eps s) : Inv s := by
  obtain ⟨b, ops, h1, h2, -, rfl⟩ := h
  exact inv_run ops _ (inv_init b) h1 h2

theorem Reachable.nn {k : Kind} {eps : ℚ} {s : St} (h : Reachable k eps s) : NN s := by
  obtain ⟨b, ops, -, -, h3, rfl⟩ := h
  have key : ∀ (ops : List Op) (s : St), NN s → (∀ o, Op.create o ∈ ops → 0 ≤ o.qty) →
      NN (run k eps s ops) := by
    intro ops
    induction ops with
    | nil => intro s hn _; exact hn
    | cons op ops ih =>
      intro s hn hc
      exact ih _ (nn_step hn (by rintro o rfl; exact hc o (by simp))) (fun o ho => hc o (by simp [ho]))
  exact key ops _ (by intro i; simp [init]) h3

/-- **C03, `Pop()`**: the oldest object leaves, the others stay in order, and what is held shrinks
by exactly that object; an empty buffer throws `ValueError`. -/
theorem C03_pop_oldest (k : Kind) (eps : ℚ) (s : St) (hr : Reachable k eps s) :
    (s.rs = [] → pop s = (s, .error .value)) ∧
    ∀ r rest, s.rs = r :: rest → ∃ s', pop s = (s', .ok r) ∧ s'.rs = rest ∧ s'.heap = s.heap ∧
      s'.qty = s.qty - (s.heap r).qty := by
  constructor
  · intro h; simp [pop, h]
  · intro r rest h
    have := inv_pop hr.inv h
    simp only [pop, h]
    rw [updateQty_id this.sum]
    exact ⟨_, rfl, rfl, rfl, rfl⟩

/-- **C03, `PopBack()`**: the newest object leaves. -/
theorem C03_popBack_newest (k : Kind) (eps : ℚ) (s : St) (hr : Reachable k eps s) :
    (s.rs = [] → popBack s = (s, .error .value)) ∧
    ∀ r front, s.rs = front ++ [r] → ∃ s', popBack s = (s', .ok r) ∧ s'.rs = front ∧
      s'.heap = s.heap ∧ s'.qty = s.qty - (s.heap r).qty := by
  constructor
  · intro h; simp [popBack, h]
  · intro r front h
    have := inv_popBack hr.inv h
    simp only [popBack, h, List.getLast?_concat, List.dropLast_concat]
    rw [updateQty_id this.sum]
    exact ⟨_, rfl, rfl, rfl, rfl⟩

/-- **C03, `PopN(n)`**: the `n` oldest objects leave in order, unsplit; a count larger than held or
negative throws `ValueError`. -/
theorem C03_popN_oldest (k : Kind) (eps : ℚ) (s : St) (hr : Reachable k eps s) (n : Int) :
    (n < 0 ∨ (s.rs.length : Int) < n → popN s n = (s, .error .value)) ∧
    (0 ≤ n → n ≤ s.rs.length → ∃ s', popN s n = (s', .ok (s.rs.take n.toNat)) ∧
      s'.rs = s.rs.drop n.toNat ∧ s'.heap = s.heap ∧
      s'.qty = s.qty - sumQty s (s.rs.take n.toNat)) := by
  constructor
  · intro h; simp only [popN, if_pos (Or.symm h)]
  · intro h0 h1
    obtain ⟨s', p1, p2, p3, p4, -⟩ := popN_spec hr.inv (n := n) (by omega)
    refine ⟨s', p1, p3, p4, ?_⟩
    rw [p2.sum, hr.inv.sum, p3, p4, sumQty_eq]
    have e := congrArg (totQty s.heap) (List.take_append_drop n.toNat s.rs)
    rw [totQty_append] at e
    linarith

/-- **C03, `PopVector(qty)`**: for `0 ≤ qty ≤ quantity()` the objects handed out are the `n` oldest
held objects followed by at most one new object split off the next one; their quantities add up to
exactly `qty`; what stays is the rest in order, and held quantity falls by exactly `qty`.  More than
is held throws `ValueError`. -/
theorem C03_popVector_exact (k : Kind) (eps : ℚ) (s : St) (hr : Reachable k eps s) (q : ℚ) :
    (s.qty < q → popVec s q = (s, .error .value)) ∧
    (0 ≤ q → q ≤ s.qty → ∃ s' n ext, popVec s q = (s', .ok (s.rs.take n ++ ext)) ∧
      s'.rs = s.rs.drop n ∧ n ≤ s.rs.length ∧ (ext = [] ∨ ext = [s.next]) ∧
      (∀ r ∈ s.rs.take n, s'.heap r = s.heap r) ∧
      sumQty s' (s.rs.take n ++ ext) = q ∧
      sumQty s' s'.rs = sumQty s s.rs - q ∧ s'.qty = s.qty - q ∧
      (∀ r ∈ s'.rs, 0 ≤ (s'.heap r).qty)) := by
  constructor
  · intro h; simp only [popVec, if_pos h]
  · intro h0 h1
    obtain ⟨s', n, ext, p1, p2, p3, p4, p5, p6, p7, p8, p9, p10, p11, p12, p13, p14, p15, p16⟩ :=
      popVec_spec hr.inv (q := q) (not_lt.2 h1)
    have hx := p13 (fun r _ => hr.nn r) h0
    refine ⟨s', n, ext, p1, p3, p4, p7, p9, by rw [sumQty_eq]; exact hx, ?_, ?_, ?_⟩
    · rw [sumQty_eq, sumQty_eq, p3]; linarith
    · rw [p2.sum, hr.inv.sum, p3]; linarith
    · rw [p3]; exact p15 (fun r _ => hr.nn r)

/-- **C03, `Pop(qty)`**: a successful call returns one object of exactly the requested quantity, and
the held quantity falls by exactly that amount. -/
theorem C03_popQty_exact (k : Kind) (eps : ℚ) (s : St) (hr : Reachable k eps s) (q : ℚ) (h0 : 0 ≤ q)
    (s' : St) (a : Nat) (h : popQty k s q = (s', .ok a)) :
    (s'.heap a).qty = q ∧ sumQty s' s'.rs = sumQty s s.rs - q ∧ s'.qty = s.qty - q ∧ a ∉ s'.rs := by
  by_cases hq : q > s.qty
  · simp [popQty, popVec, hq, squashOut] at h
  · obtain ⟨s1, n, ext, p1, p2, p3, p4, p5, p6, p7, p8, p9, p10, p11, p12, p13, -⟩ :=
      popVec_spec hr.inv (q := q) hq
    have hx := p13 (fun r _ => hr.nn r) h0
    obtain ⟨hnd, hdis⟩ := popVec_disjoint hr.inv p3 p7
    rw [popQty, p1] at h
    simp only [squashOut] at h
    generalize hout : s.rs.take n ++ ext = out at *
    cases he : squash k s1.heap out with
    | mk hp e =>
      rw [he] at h
      cases e with
      | error e => simp at h
      | ok b =>
        simp only [Prod.mk.injEq, Except.ok.injEq] at h
        obtain ⟨rfl, rfl⟩ := h
        cases out with
        | nil => simp [squash] at he
        | cons a rest =>
          have hfr := squash_frame he
          obtain ⟨rfl, hqa, -⟩ := squash_ok hnd he
          have hkeep : totQty hp s1.rs = totQty s1.heap s1.rs :=
            totQty_congr fun r hr' => by rw [hfr r (hdis r hr')]
          simp only [sumQty_eq]
          refine ⟨by rw [hqa, hx], ?_, ?_, ?_⟩
          · rw [hkeep, p3]; linarith
          · rw [p2.sum, hr.inv.sum, p3]; linarith
          · intro hmem; exact hdis _ hmem (by simp)

example : Reachable .product (1/1000000) (run .product (1/1000000) (init false) (demoOps.take 6)) :=
  ⟨false, demoOps.take 6, by decide +kernel, by
    simp only [FairProgram, demoOps, Fair, List.take]
    refine ⟨trivial, trivial, trivial, trivial, trivial, ⟨by decide, ?_⟩, trivial⟩
    intro h
    exact absurd h (by decide +kernel), by
    intro o ho
    simp [demoOps] at ho
    rcases ho with rfl | rfl | rfl <;> norm_num, rfl⟩

/-! ## C04 -/

/-- C04 in full: every failing call leaves the buffer and all objects as they were. -/
def C04 : Prop := ∀ k eps s, Reachable k eps s → ∀ op, ValidArgs s op →
  ∀ s' e, step k eps s op = (s', .error e) → s' = s

/-- Calls whose failure is atomic: all except those that may fail inside `Absorb` after having
started to change the buffer. -/
def NoLateAbsorb (k : Kind) (s : St) : Op → Prop
  | .pushVec _ | .popQty _ | .popEps _ _ =>
      k = .material ∨ ∀ r ∈ s.rs, ∀ r' ∈ s.rs, (s.heap r).qual = (s.heap r').qual
  | _ => True

theorem squashLoop_never_fails {k : Kind} {a : Nat} : ∀ (rest : List Nat) (h : Nat → Obj),
    (k = .material ∨ ∀ b ∈ rest, (h b).qual = (h a).qual) →
    ∃ h', squashLoop k a h rest = (h', .ok a) := by
  intro rest
  induction rest with
  | nil => intro h _; exact ⟨h, rfl⟩
  | cons b rest ih =>
    intro h hq
    unfold squashLoop
    have hok : absorbOk k (h a) (h b) = true := by
      unfold absorbOk
      cases k with
      | material => rfl
      | product =>
        rcases hq with hq | hq
        · cases hq
        · simpa using hq b (by simp)
    cases he : absorb k h a b with
    | error e => simp [absorb, hok] at he
    | ok h' =>
      have hqual := (absorb_ok he).2.2.2.1
      simp only
      apply ih
      rcases hq with hq | hq
      · exact Or.inl hq
      · right
        intro c hc
        rw [hqual, hqual]
        exact hq c (by simp [hc])

/-- **C04 (partial).**  A failing call leaves everything unchanged, for all calls except those that
can fail inside `Product::Absorb` half way: `Push(vector)` into a bulk buffer, `Pop(qty)` and
`Pop(qty, eps)` on buffers holding Products of different quality.  For those the claim is false
(`C04_fails_push`, `C04_fails_pop`). -/
theorem C04_failed_call_atomic_partial (k : Kind) (eps : ℚ) (s : St) (hr : Reachable k eps s) (op : Op)
    (hv : ValidArgs s op) (hf : Fair k s op) (hl : NoLateAbsorb k s op)
    (s' : St) (e : Err) (h : step k eps s op = (s', .error e)) :
    s' = s := by
  have hi := hr.inv
  have hq : ∀ q, (k = .material ∨ ∀ r ∈ s.rs, ∀ r' ∈ s.rs, (s.heap r).qual = (s.heap r').qual)
      → popQty k s q = (s', .error e) → s' = s := by
    intro q hqual h
    by_cases hgt : q > s.qty
    · simp only [popQty, popVec, if_pos hgt, squashOut, Prod.mk.injEq] at h
      exact h.1.symm
    · by_cases h0 : q ≤ 0
      · -- nothing to pop: `Squash` refuses the empty vector, nothing has been changed
        have hl0 : popLoop s.rs s q [] = (s, []) := by
          cases hrs : s.rs with
          | nil => rfl
          | cons r rest => simp [popLoop, h0]
        simp only [popQty, popVec, if_neg hgt, hl0, updateQty_id hi.sum, squashOut, squash,
          Prod.mk.injEq] at h
        exact h.1.symm
      replace h0 := not_le.1 h0
      exfalso
      obtain ⟨s1, n, ext, p1, p2, p3, p4, p5, p6, p7, p8, p9, p10, p11, p12, p13, p14, p15, p16⟩ :=
        popVec_spec hi (q := q) hgt
      have hx := p13 (fun r _ => hr.nn r) h0.le
      rw [popQty, p1] at h
      simp only [squashOut] at h
      have hqm : k = .material ∨ ∀ b ∈ s.rs.take n ++ ext, ∀ c ∈ s.rs.take n ++ ext,
          (s1.heap b).qual = (s1.heap c).qual := by
        rcases hqual with hk | hqual
        · exact Or.inl hk
        · right
          have rep : ∀ b ∈ s.rs.take n ++ ext, ∃ f ∈ s.rs, (s1.heap b).qual = (s.heap f).qual := by
            intro b hb
            rw [List.mem_append] at hb
            rcases hb with hb | hb
            · exact ⟨b, List.mem_of_mem_take hb, by rw [p9 b hb]⟩
            · obtain ⟨f, hf, hfq⟩ := p16 b hb
              exact ⟨f, List.mem_of_mem_drop hf, hfq⟩
          intro b hb c hc
          obtain ⟨f, hf, e1⟩ := rep b hb
          obtain ⟨g, hg, e2⟩ := rep c hc
          rw [e1, e2]
          exact hqual f hf g hg
      generalize s.rs.take n ++ ext = out at *
      cases out with
      | nil => simp at hx; exact absurd hx.symm h0.ne'
      | cons a rest =>
        obtain ⟨h', hs⟩ := squashLoop_never_fails (k := k) (a := a) rest s1.heap (by
          rcases hqm with hk | hqm
          · exact Or.inl hk
          · exact Or.inr fun b hb => hqm b (by simp [hb]) a (by simp))
        simp [squash, hs] at h
  cases op with
  | create o => simp [step] at h
  | setCap c =>
    simp only [step] at h
    unfold setCap at h
    split at h
    · simp [toList] at h
    · split at h
      · simp only [toList, Prod.mk.injEq] at h; exact h.1.symm
      split at h
      · simp only [toList, Prod.mk.injEq] at h; exact h.1.symm
      · simp [toList] at h
  | push r =>
    simp only [step] at h
    rcases push_spec (k := k) (eps := eps) hi hv with ⟨e', h'⟩ | ⟨s1, h', -⟩
    · rw [h'] at h; simp only [toList, Prod.mk.injEq] at h; exact h.1.symm
    · rw [h'] at h; simp [toList] at h
  | pushVec rs =>
    simp only [step] at h
    rcases pushVec_ok_spec (eps := eps) hi hv hf with ⟨e', h'⟩ | ⟨s1, h', -⟩
    · rw [h'] at h; simp only [toList, Prod.mk.injEq] at h; exact h.1.symm
    · rw [h'] at h; simp [toList] at h
  | pop =>
    simp only [step] at h
    unfold pop at h
    split at h
    · simp only [toList, Prod.mk.injEq] at h; exact h.1.symm
    · simp [toList] at h
  | popBack =>
    simp only [step] at h
    unfold popBack at h
    split at h
    · simp only [toList, Prod.mk.injEq] at h; exact h.1.symm
    · simp [toList] at h
  | popN n =>
    simp only [step] at h
    unfold popN at h
    split at h
    · simp only [Prod.mk.injEq] at h; exact h.1.symm
    · simp at h
  | popVec q =>
    simp only [step] at h
    unfold popVec at h
    split at h
    · simp only [Prod.mk.injEq] at h; exact h.1.symm
    · simp at h
  | popQty q =>
    simp only [step] at h
    cases ho : popQty k s q with
    | mk s1 e1 =>
      rw [ho] at h
      cases e1 with
      | ok a => simp [toList] at h
      | error e1 =>
        simp only [toList, Prod.mk.injEq, Except.error.injEq] at h
        obtain ⟨rfl, rfl⟩ := h
        exact hq q hl ho
  | popEps q ee =>
    simp only [step] at h
    cases ho : popEps k s q ee with
    | mk s1 e1 =>
      rw [ho] at h
      cases e1 with
      | ok a => simp [toList] at h
      | error e1 =>
        simp only [toList, Prod.mk.injEq, Except.error.injEq] at h
        obtain ⟨rfl, rfl⟩ := h
        unfold popEps at ho
        split at ho
        · simp only [Prod.mk.injEq] at ho; exact ho.1.symm
        split at ho
        · cases hrs : s.rs with
          | nil =>
            simp only [popN, hrs, List.length_nil, Nat.cast_zero, lt_self_iff_false, or_self,
              if_false, Int.toNat_zero, popNLoop, updateQty_id hi.sum, squashOut, squash,
              Prod.mk.injEq] at ho
            rw [← ho.1]
            obtain ⟨_, _, _, _, _, _, _⟩ := s
            simp_all
          | cons a rest =>
            exfalso
            obtain ⟨s2, p1, p2, p3, p4, -⟩ := popN_spec (n := s.rs.length) hi (by omega)
            rw [p1] at ho
            simp only [squashOut, Int.toNat_natCast, List.take_length, p4] at ho
            obtain ⟨h', hs⟩ := squashLoop_never_fails (k := k) (a := a) rest s.heap (by
              rcases hl with hk | hqm
              · exact Or.inl hk
              · exact Or.inr fun b hb => hqm b (by simp [hrs, hb]) a (by simp [hrs]))
            simp [hrs, squash, hs] at ho
        · exact hq q hl ho

/-- The hypotheses are met by a real failing call: popping more than is held. -/
example : ∃ s', step .product (1/1000000)
    (run .product (1/1000000) (init false) (demoOps.take 6)) (.popQty 11) = (s', .error .value) := by
  have : (run .product (1/1000000) (init false) (demoOps.take 6)).qty = 10 := by decide +kernel
  refine ⟨run .product (1/1000000) (init false) (demoOps.take 6), ?_⟩
  simp only [step, popQty, popVec, this]
  norm_num [squashOut, toList]

/-- The buffer holds two Products of different quality. -/
def mixedOps : List Op :=
  [.create ⟨5, 0, true⟩, .create ⟨3, 1, true⟩, .push 0, .push 1]

theorem mixed_reachable : Reachable .product (1/1000000)
    (run .product (1/1000000) (init false) mixedOps) :=
  ⟨false, mixedOps, by decide +kernel, by
    simp only [FairProgram, mixedOps, Fair]; trivial, by
    intro o ho
    simp [mixedOps] at ho
    rcases ho with rfl | rfl <;> norm_num, rfl⟩

/-- C04 is violated by `Pop(qty)` on a buffer of Products of two qualities: the call throws from
`Squash` after the objects were taken out of the buffer. -/
theorem C04_fails_pop : ¬ C04 := by
  intro h
  have hne : (step .product (1/1000000) (run .product (1/1000000) (init false) mixedOps)
      (.popQty 6)).1.rs ≠ (run .product (1/1000000) (init false) mixedOps).rs := by decide +kernel
  have herr : ∃ s', step .product (1/1000000) (run .product (1/1000000) (init false) mixedOps)
      (.popQty 6) = (s', .error .value) := by
    have h2 : (match (step .product (1/1000000) (run .product (1/1000000) (init false) mixedOps)
      (.popQty 6)).2 with | .error .value => true | _ => false) = true := by decide +kernel
    generalize step .product (1/1000000) (run .product (1/1000000) (init false) mixedOps)
      (.popQty 6) = o at *
    obtain ⟨s1, e1⟩ := o
    refine ⟨s1, ?_⟩
    split at h2
    · simp_all
    · cases h2
  obtain ⟨s', hs⟩ := herr
  have := h _ _ _ mixed_reachable (.popQty 6) trivial s' _ hs
  rw [hs] at hne
  exact hne (by rw [this])

/-- C04 is violated by `Push(vector)` of Products of two qualities into a bulk buffer: the call
throws from `Absorb` after the first object was stored. -/
theorem C04_fails_push : ∃ (s : St) (rs : List Nat) (s' : St), Reachable .product (1/1000000) s ∧
    ValidArgs s (.pushVec rs) ∧ step .product (1/1000000) s (.pushVec rs) = (s', .error .value) ∧
    s.rs = [] ∧ s'.rs ≠ [] ∧ s'.qty = 0 := by
  refine ⟨run .product (1/1000000) (init true) (mixedOps.take 2), [0, 1], _, ⟨true, mixedOps.take 2,
    by decide +kernel, by simp only [FairProgram, mixedOps, List.take, Fair]; trivial, ?_, rfl⟩,
    by decide +kernel, rfl, rfl, by decide +kernel, by decide +kernel⟩
  intro o ho
  simp [mixedOps] at ho
  rcases ho with rfl | rfl <;> norm_num

/-! ## C05 -/

/-- C05 in full: no object is ever held twice. -/
def C05 : Prop := ∀ k eps bulk ops, Program k eps (init bulk) ops →
  (run k eps (init bulk) ops).rs.Nodup

/-- **C05 (partial).**  After every fair program no object is held twice, and pushing a held object
(of the right type, that fits) throws `KeyError` and changes nothing.  Missing: vectors that contain
an object twice, which are accepted (`C05_fails`). -/
theorem C05_no_duplicates_partial (k : Kind) (eps : ℚ) (bulk : Bool) (ops : List Op)
    (hp : Program k eps (init bulk) ops) (hf : FairProgram k eps (init bulk) ops) :
    (run k eps (init bulk) ops).rs.Nodup ∧
    ∀ r ∈ (run k eps (init bulk) ops).rs,
      (((run k eps (init bulk) ops).heap r).isT = true →
       exceeds eps ((run k eps (init bulk) ops).heap r).qty (space (run k eps (init bulk) ops)) = false →
       push k eps (run k eps (init bulk) ops) r = (run k eps (init bulk) ops, .error .key)) ∧
      ∀ rs, r ∈ rs → ∃ e, pushVec k eps (run k eps (init bulk) ops) rs
        = (run k eps (init bulk) ops, .error e) := by
  have hi := inv_run ops (init bulk) (inv_init bulk) hp hf
  generalize run k eps (init bulk) ops = s at *
  refine ⟨hi.nodup, ?_⟩
  intro r hr
  have hpr := (hi.pres r).2 hr
  constructor
  · intro h1 h2
    simp [push, h1, h2, hpr]
  · intro rs hrs
    unfold pushVec
    split
    · exact ⟨_, rfl⟩
    split
    · exact ⟨_, rfl⟩
    rw [if_pos]
    · exact ⟨_, rfl⟩
    · simp only [List.any_eq_true, decide_eq_true_eq]
      exact ⟨r, hrs, hpr⟩

/-- C05 is violated: a vector naming an object twice puts it into the buffer twice. -/
theorem C05_fails : ¬ C05 := by
  intro h
  have := h .material (1/1000000) false [.create ⟨5, 0, true⟩, .pushVec [0, 0]]
    (by decide +kernel)
  revert this
  decide +kernel

end Cyclus.ResBuf
