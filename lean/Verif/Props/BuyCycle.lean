import Verif.Props.BuyPolicy

/-!
# C68 and C69: cumulative cap and dormant periods of the buy policy
-/

namespace Cyclus.Policy

open ResBuf (St Reachable sumQty Inv totQty)
open Spec

/-! ## C68 -/

namespace Spec

/-- Steps of a policy with a cumulative cap on a buffer.  `got` is what the policy received in the
current cycle, `past` are the totals of the finished cycles; a cycle is finished as soon as less
than `eps` is missing to the cap.  Between the steps the buffer may be changed by its owner. -/
inductive Cycle (dmax e1 eps cap : ℚ) : Buy → St → ℚ → List ℚ → Prop
  | start {p : Buy} {s : St} : p.cumCap = cap → p.cycle = 0 → Reachable .material eps s →
      Cycle dmax e1 eps cap p s 0 []
  | owner {p : Buy} {s s' : St} {got : ℚ} {past : List ℚ} : Cycle dmax e1 eps cap p s got past →
      Reachable .material eps s' → s'.bulk = s.bulk → Cycle dmax e1 eps cap p s' got past
  | step {p p' : Buy} {s : St} {got : ℚ} {past : List ℚ} {B : ℕ → Buf} {b : ℕ} {time a d d' : ℤ}
      {size : ℚ} {o : Order} {rs : List ℕ} : Cycle dmax e1 eps cap p s got past →
      0 ≤ size → size ≤ 1 → B b = Buf.of s →
      p.getRequests dmax e1 B b time size a d = some (p', .ok o) →
      rs.Nodup → (∀ r ∈ rs, r < s.next ∧ 0 ≤ (s.heap r).qty) →
      sumQty s rs ≤ o.n * o.qty →
      (p'.accept eps s time d' rs).2 = .ok () →
      Cycle dmax e1 eps cap (p'.accept eps s time d' rs).1.1 (p'.accept eps s time d' rs).1.2
        (if cap - (got + sumQty s rs) < eps then 0 else got + sumQty s rs)
        (if cap - (got + sumQty s rs) < eps then past ++ [got + sumQty s rs] else past)

end Spec

theorem acceptLoop_inv {eps : ℚ} : ∀ (rs : List ℕ) (p : Buy) (s : St), Inv s →
    (∀ r ∈ rs, r < s.next) → Inv (Buy.acceptLoop eps p s rs).1.2 ∧
    (Buy.acceptLoop eps p s rs).1.2.bulk = s.bulk := by
  intro rs
  induction rs with
  | nil => intro p s hi _; exact ⟨hi, rfl⟩
  | cons r rs ih =>
    intro p s hi hlt
    rcases ResBuf.push_spec (k := .material) (eps := eps) hi (hlt r (by simp)) with ⟨e, he⟩ |
        ⟨s', h1, hi', -, -, hb', hnx, -⟩
    · simp only [Buy.acceptLoop, he]
      exact ⟨hi, trivial⟩
    · simp only [Buy.acceptLoop, h1]
      obtain ⟨e1, e2⟩ := ih (if p.cumulative then { p with cycle := p.cycle + (s'.heap r).qty }
        else p) s' hi' (fun x hx => by rw [hnx]; exact hlt x (List.mem_cons_of_mem _ hx))
      exact ⟨e1, by rw [e2, hb']⟩

theorem acceptLoop_cycle {eps : ℚ} : ∀ (rs : List ℕ) (p : Buy) (s : St), Inv s → s.bulk = false →
    (∀ r ∈ rs, r < s.next) → (Buy.acceptLoop eps p s rs).2 = .ok () →
    (Buy.acceptLoop eps p s rs).1.1 =
      (if p.cumulative then { p with cycle := p.cycle + totQty s.heap rs } else p) := by
  intro rs
  induction rs with
  | nil =>
    intro p s _ hb _ _
    simp only [Buy.acceptLoop, ResBuf.totQty_nil, add_zero, ite_self]
  | cons r rs ih =>
    intro p s hi hb hlt h
    rcases ResBuf.push_spec (k := .material) (eps := eps) hi (hlt r (by simp)) with ⟨e, he⟩ |
        ⟨s', h1, hi', -, -, hb', hnx, -, -, h2, -⟩
    · simp only [Buy.acceptLoop, he] at h
      cases h
    · obtain ⟨-, hh⟩ := h2 (.inl hb)
      simp only [Buy.acceptLoop, h1] at h ⊢
      have e1 := ih _ s' hi' (by rw [hb', hb])
        (fun x hx => by rw [hnx]; exact hlt x (List.mem_cons_of_mem _ hx)) h
      rw [e1, hh]
      cases hc : p.cumulative with
      | true =>
        simp only [if_true]
        have : Buy.cumulative { p with cycle := p.cycle + (s.heap r).qty } = true := hc
        simp only [this, if_true, ResBuf.totQty_cons]
        rw [add_assoc]
      | false =>
        simp only [Bool.false_eq_true, if_false, hc]

theorem check_fields (p : Buy) (time a d : ℤ) :
    (p.check time a d).cumCap = p.cumCap ∧ (p.check time a d).cycle = p.cycle ∧
    (p.check time a d).cumulative = p.cumulative := by
  unfold Buy.check Buy.setDormant Buy.setActive
  refine ⟨?_, ?_, ?_⟩
  all_goals (split <;> (try split) <;> (try split) <;> (try split) <;> rfl)

theorem getRequests_check {dmax eps : ℚ} {p p' : Buy} {B : ℕ → Buf} {b : ℕ} {time a d : ℤ}
    {size : ℚ} {o : Order}
    (h : p.getRequests dmax eps B b time size a d = some (p', .ok o)) : p' = p.check time a d := by
  simp only [Buy.getRequests] at h
  split at h
  · cases h
  · split at h
    · cases h
    · cases h
    · generalize (if decide (_ ≤ p.reqAt) && !p.dormant time then
          min (p.available (B b) _ * size)
            (if p.cumulative = true then p.cumCap - p.cycle else dmax) else 0) = amt at h
      split at h
      · cases h; rfl
      · split at h
        · split at h
          · cases h
          · cases h; rfl
        · cases h; rfl

theorem setDormant_fields (p : Buy) (time d : ℤ) :
    (p.setDormant time d).cumCap = p.cumCap := by
  unfold Buy.setDormant
  split
  · rfl
  · split <;> rfl

/-- **C68, cap**: a policy with a cumulative cap on a buffer that does not merge its materials
never receives more than the cap in a cycle, and a cycle that is finished received the cap up to
`eps`; the member `cycle_total_inv_` is what was received in the current cycle. -/
theorem C68_cap {dmax e1 eps cap : ℚ} {p : Buy} {s : St} {got : ℚ} {past : List ℚ}
    (hcap : 0 < cap) (he : 0 < e1) (hb : s.bulk = false)
    (h : Cycle dmax e1 eps cap p s got past) :
    0 ≤ got ∧ got ≤ cap ∧ p.cycle = got ∧ ∀ x ∈ past, x ≤ cap ∧ cap - eps < x := by
  suffices H : Inv s ∧ (s.bulk = false → p.cumCap = cap ∧ 0 ≤ got ∧ got ≤ cap ∧ p.cycle = got ∧
      ∀ x ∈ past, x ≤ cap ∧ cap - eps < x) from (H.2 hb).2
  clear hb
  induction h with
  | start h1 h2 h3 => exact ⟨h3.inv, fun _ => ⟨h1, le_refl _, le_of_lt hcap, h2, by simp⟩⟩
  | owner _ h2 h3 ih => exact ⟨h2.inv, fun hb => ih.2 (by rw [← h3, hb])⟩
  | @step p p' s got past B b time a d d' size o rs _ hs hs1 hB hreq hnd hr hle hacc ih =>
    obtain ⟨hi, ih⟩ := ih
    obtain ⟨j1, j2⟩ := acceptLoop_inv (eps := eps) rs p' s hi (fun r h => (hr r h).1)
    have hfin : (p'.accept eps s time d' rs).1.2 = (Buy.acceptLoop eps p' s rs).1.2 := by
      unfold Buy.accept
      split
      · rename_i he; rw [he]
      · rename_i he
        rw [he]
        split <;> rfl
    rw [hfin]
    refine ⟨j1, fun hb => ?_⟩
    rw [j2] at hb
    obtain ⟨i1, i2, i3, i4, i5⟩ := ih hb
    have hsum : 0 ≤ sumQty s rs := by
      rw [ResBuf.sumQty_eq]
      unfold totQty
      refine List.sum_nonneg ?_
      intro q hq
      obtain ⟨x, hx, rfl⟩ := List.mem_map.1 hq
      exact (hr x hx).2
    have hbound : got + sumQty s rs ≤ cap := by
      by_cases hn : o.n = 0
      · rw [hn] at hle
        simp only [Nat.cast_zero, zero_mul] at hle
        linarith
      · obtain ⟨-, -, -, -, -, -, -, h4⟩ := C47_bound hs hs1 he hreq hn
        have := h4 (by rw [i1]; exact hcap)
        rw [i1, i4] at this
        linarith
    have hp' := getRequests_check hreq
    obtain ⟨c1, c2, c3⟩ := check_fields p time a d
    have hcum : p'.cumulative = true := by
      rw [hp', c3]
      simp [Buy.cumulative, i1, hcap]
    have hok : (Buy.acceptLoop eps p' s rs).2 = .ok () := by
      unfold Buy.accept at hacc
      split at hacc
      · cases hacc
      · rename_i he; rw [he]
    have hloop := acceptLoop_cycle rs p' s hi hb (fun r h => (hr r h).1) hok
    rw [hcum, if_pos rfl] at hloop
    have hcy : p'.cycle + totQty s.heap rs = got + sumQty s rs := by
      rw [hp', c2, i4, ResBuf.sumQty_eq]
    have hcc : p'.cumCap = cap := by rw [hp', c1, i1]
    have hval : (p'.accept eps s time d' rs).1.1 =
        (if cap - (got + sumQty s rs) < eps then
          { Buy.setDormant { p' with cycle := got + sumQty s rs } time d' with cycle := 0 }
         else { p' with cycle := got + sumQty s rs }) := by
      rw [hcy] at hloop
      unfold Buy.accept
      split
      · rename_i he2
        rw [he2] at hok
        cases hok
      · rename_i p2 s2 he2
        rw [he2] at hloop
        simp only at hloop
        subst hloop
        have : Buy.cumulative { p' with cycle := got + sumQty s rs } = true := hcum
        simp only [this, Bool.true_and, decide_eq_true_eq]
        rw [hcc]
        by_cases hx : cap - (got + sumQty s rs) < eps
        · rw [if_pos hx, if_pos hx]
        · rw [if_neg hx, if_neg hx]
    rw [hval]
    split
    · rename_i hlt
      refine ⟨by rw [← hcc]; exact setDormant_fields _ _ _, le_refl _, le_of_lt hcap, rfl, ?_⟩
      intro x hx
      rcases List.mem_append.1 hx with hx | hx
      · exact i5 x hx
      · have : x = got + sumQty s rs := by simpa using hx
        subst this
        exact ⟨hbound, by linarith⟩
    · exact ⟨hcc, by linarith, hbound, rfl, i5⟩

/-- **C68, rest**: when the cap is reached in step `time`, the policy is dormant in exactly the
following `d` steps (once its first active period is over), `d` being the sampled length, and the
cycle starts anew. -/
theorem C68_rest {eps : ℚ} {p : Buy} {s : St} {time d : ℤ} {rs : List ℕ}
    (hcum : 0 < p.cumCap) (hi : Reachable .material eps s) (hb : s.bulk = false)
    (hr : ∀ r ∈ rs, r < s.next) (hacc : (p.accept eps s time d rs).2 = .ok ())
    (hfull : p.cumCap - (p.cycle + sumQty s rs) < eps) (hact : p.actEnd ≤ time + 1) :
    (p.accept eps s time d rs).1.1.cycle = 0 ∧
    ∀ t, time < t → (Resting (p.accept eps s time d rs).1.1 t ↔ t ≤ time + d) := by
  have hc : p.cumulative = true := by simpa [Buy.cumulative] using hcum
  have hok : (Buy.acceptLoop eps p s rs).2 = .ok () := by
    unfold Buy.accept at hacc
    split at hacc
    · cases hacc
    · rename_i he; rw [he]
  have hloop := acceptLoop_cycle rs p s hi.inv hb hr hok
  rw [hc, if_pos rfl, ← ResBuf.sumQty_eq] at hloop
  have hval : (p.accept eps s time d rs).1.1 =
      { p with cycle := 0, dormEnd := d + (time + 1) } := by
    unfold Buy.accept
    split
    · rename_i he2
      rw [he2] at hok
      cases hok
    · rename_i p2 s2 he2
      rw [he2] at hloop
      simp only at hloop
      subst hloop
      have : Buy.cumulative { p with cycle := p.cycle + sumQty s rs } = true := hc
      simp only [this, Bool.true_and, hfull, decide_true, if_true, Buy.setDormant]
  rw [hval]
  refine ⟨rfl, fun t ht => ?_⟩
  simp only [Resting]
  omega

/-- A buffer with unlimited capacity and three materials of 6, 4 and 4 outside of it. -/
def exCycleBuf (bulk : Bool) : St :=
  ResBuf.run .material (1 / 100) (ResBuf.init bulk)
    [.create ⟨6, 0, true⟩, .create ⟨4, 0, true⟩, .create ⟨4, 0, true⟩]

theorem exCycleBuf_reachable (bulk : Bool) : Reachable .material (1 / 100) (exCycleBuf bulk) := by
  refine ⟨bulk, _, ?_, ?_, ?_, rfl⟩
  · cases bulk <;> decide +kernel
  · simp [ResBuf.FairProgram, ResBuf.Fair]
  · simp

/-- A policy with a cumulative cap of 10 and a throughput of 6. -/
def exCycle : Buy := { Buy.new 1000 with throughput := 6, cumCap := 10, dormEnd := -1,
                                         tracker := some ⟨1000, [0]⟩ }

/-- The policy and the buffer after receiving one after the other, the last one first. -/
def exRecv (bulk : Bool) : List ℕ → Buy × St
  | [] => (exCycle, exCycleBuf bulk)
  | r :: rs => (Buy.accept (1 / 100) (exRecv bulk rs).1 (exRecv bulk rs).2 rs.length 2 [r]).1

theorem exCycle_run (bulk : Bool) : Cycle 1000 (1 / 100) (1 / 100) 10 (exRecv bulk [0]).1
    (exRecv bulk [0]).2 6 [] := by
  have h0 : Cycle 1000 (1 / 100) (1 / 100) 10 (exRecv bulk []).1 (exRecv bulk []).2 0 [] :=
    .start rfl rfl (exCycleBuf_reachable bulk)
  have h1 := Cycle.step (B := fun _ => Buf.of (exRecv bulk []).2) (b := 0) (time := 0) (a := 1)
    (d := 2) (d' := 2) (size := 1) (rs := [0]) (o := ⟨1, 6, false⟩) (p' := (exRecv bulk []).1)
    h0 (by norm_num) (by norm_num) rfl (by cases bulk <;> decide +kernel) (by simp)
    (by cases bulk <;> decide +kernel) (by cases bulk <;> decide +kernel)
    (by cases bulk <;> decide +kernel)
  have e : sumQty (exRecv bulk []).2 [0] = 6 := by cases bulk <;> decide +kernel
  rw [e] at h1
  norm_num at h1
  exact h1

/-- A plain buffer that received 6 of 10: the hypotheses of `C68_cap` hold. -/
example : ∃ p s, Cycle 1000 (1 / 100) (1 / 100) 10 p s 6 [] ∧ s.bulk = false :=
  ⟨_, _, exCycle_run false, by decide +kernel⟩

/-- Receiving 4 more meets the hypotheses of `C68_rest`. -/
example : 0 < (exRecv false [0]).1.cumCap ∧
    (Buy.accept (1 / 100) (exRecv false [0]).1 (exRecv false [0]).2 1 2 [1]).2 = .ok () ∧
    (exRecv false [0]).1.cumCap - ((exRecv false [0]).1.cycle + sumQty (exRecv false [0]).2 [1]) <
      1 / 100 ∧ (exRecv false [0]).1.actEnd ≤ 1 + 1 := by
  refine ⟨?_, ?_, ?_, ?_⟩ <;> decide +kernel

/-- A buffer that merges its materials sets the quantity of a pushed material to zero before the
policy adds it up: the policy receives 14 in three successive steps without becoming dormant, with
a cap of 10 and a dormant length of 2. -/
theorem C68_fails_bulk : ∃ p s, Cycle 1000 (1 / 100) (1 / 100) 10 p s 4 [10] ∧ p.cycle = 6 ∧
    s.qty = 14 ∧ ∀ t, ¬ Resting p t := by
  have h2 := Cycle.step (B := fun _ => Buf.of (exRecv true [0]).2) (b := 0) (time := 1) (a := 1)
    (d := 2) (d' := 2) (size := 1) (rs := [1]) (o := ⟨1, 4, false⟩) (p' := (exRecv true [0]).1)
    (exCycle_run true) (by norm_num) (by norm_num) rfl (by decide +kernel) (by simp)
    (by decide +kernel) (by decide +kernel) (by decide +kernel)
  have e2 : sumQty (exRecv true [0]).2 [1] = 4 := by decide +kernel
  rw [e2] at h2
  norm_num at h2
  change Cycle 1000 (1 / 100) (1 / 100) 10 (exRecv true [1, 0]).1 (exRecv true [1, 0]).2 0 [10] at h2
  have h3 := Cycle.step (B := fun _ => Buf.of (exRecv true [1, 0]).2) (b := 0) (time := 2) (a := 1)
    (d := 2) (d' := 2) (size := 1) (rs := [2]) (o := ⟨1, 4, false⟩) (p' := (exRecv true [1, 0]).1)
    h2 (by norm_num) (by norm_num) rfl (by decide +kernel) (by simp)
    (by decide +kernel) (by decide +kernel) (by decide +kernel)
  have e3 : sumQty (exRecv true [1, 0]).2 [2] = 4 := by decide +kernel
  rw [e3] at h3
  norm_num at h3
  refine ⟨_, _, h3, by decide +kernel, by decide +kernel, ?_⟩
  intro t ht
  have h1 : (Buy.accept (1 / 100) (exRecv true [1, 0]).1 (exRecv true [1, 0]).2 2 2 [2]).1.1.actEnd
      = 0 := by decide +kernel
  have h2 : (Buy.accept (1 / 100) (exRecv true [1, 0]).1 (exRecv true [1, 0]).2 2 2 [2]).1.1.dormEnd
      = -1 := by decide +kernel
  unfold Resting at ht
  rw [h1, h2] at ht
  omega

/-! ## C69 -/

namespace Spec

/-- The start of the active period `k`: periods follow each other, each with the sampled active
length `act k` and dormant length `dor k`. -/
def start (act dor : ℕ → ℤ) (t0 : ℤ) : ℕ → ℤ
  | 0 => t0
  | k + 1 => start act dor t0 k + act k + dor k

/-- A policy without a cumulative cap that is initialised at `t0` and then called in every step,
`k` samples having been drawn: `GetMatlRequests`, then `AcceptMatlTrades` with anything. -/
inductive Calls (dmax e1 eps : ℚ) (act dor : ℕ → ℤ) (t0 : ℤ) : Buy → ℕ → ℤ → Prop
  | init {p p' : Buy} {m : ℚ} {d0 : ℤ} : ¬ 0 < p.cumCap → 0 ≤ p.dormEnd → 0 ≤ d0 →
      p.initTimes t0 m (act 0) d0 (dor 0) = (p', .ok ()) → Calls dmax e1 eps act dor t0 p' 1 t0
  | step {p p' : Buy} {k : ℕ} {t : ℤ} {B : ℕ → Buf} {b : ℕ} {size : ℚ} {o : Order} {s : St}
      {d : ℤ} {rs : List ℕ} : Calls dmax e1 eps act dor t0 p k t →
      p.getRequests dmax e1 B b t size (act k) (dor k) = some (p', .ok o) →
      (p'.accept eps s t d rs).2 = .ok () →
      Calls dmax e1 eps act dor t0 (p'.accept eps s t d rs).1.1
        (if t = p.dormEnd then k + 1 else k) (t + 1)

end Spec

theorem acceptLoop_same {eps : ℚ} : ∀ (rs : List ℕ) (p : Buy) (s : St), p.cumulative = false →
    (Buy.acceptLoop eps p s rs).1.1 = p := by
  intro rs
  induction rs with
  | nil => intro p s _; rfl
  | cons r rs ih =>
    intro p s h
    simp only [Buy.acceptLoop]
    split
    · rfl
    · rw [ih _ _ (by simp [h]), h]; rfl

theorem accept_same {eps : ℚ} {p : Buy} {s : St} {t d : ℤ} {rs : List ℕ}
    (h : p.cumulative = false) : (p.accept eps s t d rs).1.1 = p := by
  have hl := acceptLoop_same (eps := eps) rs p s h
  unfold Buy.accept
  split
  · rename_i he; rw [he] at hl; exact hl
  · rename_i he
    rw [he] at hl
    simp only at hl
    subst hl
    simp [h]

theorem start_lt {act dor : ℕ → ℤ} {t0 : ℤ} (ha : ∀ k, 1 ≤ act k) (hd : ∀ k, 0 ≤ dor k) (k : ℕ) :
    start act dor t0 k + 1 ≤ start act dor t0 (k + 1) := by
  have := ha k
  have := hd k
  simp only [start]
  omega

theorem start_mono {act dor : ℕ → ℤ} {t0 : ℤ} (ha : ∀ k, 1 ≤ act k) (hd : ∀ k, 0 ≤ dor k)
    {j k : ℕ} (h : j ≤ k) : start act dor t0 j ≤ start act dor t0 k := by
  induction k with
  | zero => have : j = 0 := by omega
            subst this; exact le_refl _
  | succ k ih =>
    rcases Nat.lt_or_ge j (k + 1) with hlt | hge
    · have := ih (by omega)
      have := start_lt (t0 := t0) ha hd k
      omega
    · have : j = k + 1 := by omega
      subst this; exact le_refl _

theorem calls_inv {dmax e1 eps : ℚ} {act dor : ℕ → ℤ} {t0 : ℤ} {p : Buy} {k : ℕ} {t : ℤ}
    (ha : ∀ k, 1 ≤ act k) (hd : ∀ k, 0 ≤ dor k) (h0 : 0 ≤ t0)
    (h : Calls dmax e1 eps act dor t0 p k t) :
    p.cumulative = false ∧ ∃ j, k = j + 1 ∧ p.actEnd = start act dor t0 j + act j ∧
      p.dormEnd = start act dor t0 (j + 1) ∧
      (start act dor t0 j < t ∨ (j = 0 ∧ t = t0)) ∧ t ≤ start act dor t0 (j + 1) := by
  have hnn : ∀ j, 0 ≤ start act dor t0 j := fun j =>
    le_trans h0 (start_mono (j := 0) ha hd (Nat.zero_le j))
  induction h with
  | @init p p' m d0 hc hde hd0 hinit =>
    have hcum : p.cumulative = false := by simpa [Buy.cumulative] using hc
    have hcum' : (p.setActive t0 (act 0)).cumulative = false := hcum
    have hde' : 0 ≤ (p.setActive t0 (act 0)).dormEnd := hde
    unfold Buy.initTimes at hinit
    split at hinit
    · cases hinit
    · simp only [hcum', not_lt.2 hd0, if_false, Bool.false_eq_true, Buy.setDormant, hde',
        if_true] at hinit
      cases hinit
      have := ha 0
      have := hd 0
      refine ⟨hcum, 0, rfl, ?_, ?_, .inr ⟨rfl, rfl⟩, ?_⟩
      · simp only [Buy.setActive, start]; omega
      · simp only [Buy.setActive, start]; omega
      · simp only [start]; omega
  | @step p p' k t B b size o s d rs _ hreq hacc ih =>
    obtain ⟨hcum, j, rfl, hA, hD, hlo, hhi⟩ := ih
    have hp' := getRequests_check hreq
    obtain ⟨-, -, c3⟩ := check_fields p t (act (j + 1)) (dor (j + 1))
    have hcum' : p'.cumulative = false := by rw [hp', c3, hcum]
    rw [accept_same hcum', hp']
    refine ⟨by rw [c3, hcum], ?_⟩
    by_cases ht : t = p.dormEnd
    · have hcum2 : (p.setActive t (act (j + 1))).cumulative = false := hcum
      have hde2 : 0 ≤ (p.setActive t (act (j + 1))).dormEnd := by
        show 0 ≤ p.dormEnd
        rw [hD]; exact hnn _
      have hst := start_lt (t0 := t0) ha hd (j + 1)
      have hts : t = start act dor t0 (j + 1) := by rw [ht, hD]
      have := ha (j + 1)
      have := hnn (j + 1)
      refine ⟨j + 1, by simp [ht], ?_, ?_, .inl (by omega), by omega⟩
      · simp only [Buy.check, ht, if_true, hcum, Bool.false_eq_true, if_false]
        rw [← ht]
        simp only [Buy.setDormant, hcum2, Bool.false_eq_true, if_false, hde2, if_true]
        simp only [Buy.setActive]
        omega
      · simp only [Buy.check, ht, if_true, hcum, Bool.false_eq_true, if_false]
        rw [← ht]
        simp only [Buy.setDormant, hcum2, Bool.false_eq_true, if_false, hde2, if_true]
        simp only [Buy.setActive, start]
        simp only [start] at hts
        omega
    · refine ⟨j, by simp [ht], ?_, ?_, .inl ?_, ?_⟩
      · rw [Buy.check, if_neg ht, hA]
      · rw [Buy.check, if_neg ht, hD]
      · rcases hlo with hlo | ⟨rfl, rfl⟩
        · omega
        · simp only [start]; omega
      · rw [hD] at ht
        omega

/-- **C69, periods**: with active lengths of at least 1 and dormant lengths of at least 0, a policy
that is called in every step is dormant at exactly the times of the dormant periods. -/
theorem C69_periods {dmax e1 eps : ℚ} {act dor : ℕ → ℤ} {t0 : ℤ} {p : Buy} {k : ℕ} {t : ℤ}
    (ha : ∀ k, 1 ≤ act k) (hd : ∀ k, 0 ≤ dor k) (h0 : 0 ≤ t0)
    (h : Calls dmax e1 eps act dor t0 p k t) :
    Resting p t ↔ ∃ j, start act dor t0 j + act j ≤ t ∧ t < start act dor t0 (j + 1) := by
  obtain ⟨-, j, -, hA, hD, hlo, hhi⟩ := calls_inv ha hd h0 h
  unfold Resting
  rw [hA, hD]
  constructor
  · rintro ⟨h1, h2⟩
    exact ⟨j, h1, h2⟩
  · rintro ⟨i, h1, h2⟩
    have hj : start act dor t0 j ≤ t := by
      rcases hlo with hlo | ⟨rfl, rfl⟩
      · omega
      · simp [start]
    rcases Nat.lt_trichotomy i j with hij | rfl | hij
    · have := start_mono (t0 := t0) ha hd (show i + 1 ≤ j from hij)
      omega
    · exact ⟨h1, h2⟩
    · have := start_mono (t0 := t0) ha hd (show j + 1 ≤ i from hij)
      have := ha i
      omega

/-- **C69, silence**: in a dormant period nothing is asked for. -/
theorem C69_silent {dmax e1 eps : ℚ} {act dor : ℕ → ℤ} {t0 : ℤ} {p p' : Buy} {k : ℕ} {t a d : ℤ}
    {B : ℕ → Buf} {b : ℕ} {size : ℚ} {o : Order}
    (ha : ∀ k, 1 ≤ act k) (hd : ∀ k, 0 ≤ dor k) (h0 : 0 ≤ t0) (he : 0 < e1) (hs : 0 ≤ size)
    (h : Calls dmax e1 eps act dor t0 p k t)
    (hj : ∃ j, start act dor t0 j + act j ≤ t ∧ t < start act dor t0 (j + 1))
    (hreq : p.getRequests dmax e1 B b t size a d = some (p', .ok o)) : o.n = 0 := by
  obtain ⟨_, _, _, _, h1, _⟩ := C47_amount hs he hreq
  exact h1 (.inr ((C69_periods ha hd h0 h).2 hj))

/-- A policy that is active for two steps and dormant for three. -/
def exDormant : Buy :=
  (({ Buy.new 1000 with tracker := some ⟨10, [0]⟩ }).initTimes 0 1 2 3 3).1

/-- A run into the first dormant period meets the hypotheses of the theorems on periods. -/
example : Calls 1000 (1 / 100) (1 / 100) (fun _ => 2) (fun _ => 3) 0
    (exDormant.accept (1 / 100) (ResBuf.init false) 0 0 []).1.1 1 1 ∧
    exDormant.dormant 2 = true := by
  refine ⟨?_, by decide +kernel⟩
  have h0 : Calls 1000 (1 / 100) (1 / 100) (fun _ => 2) (fun _ => 3) 0 exDormant 1 0 :=
    .init (p := { Buy.new 1000 with tracker := some ⟨10, [0]⟩ }) (m := 1) (d0 := 3)
      (by decide +kernel) (by decide +kernel) (by decide) rfl
  have h1 := Calls.step (B := fun _ => ⟨0, some 10⟩) (b := 0) (size := 1) (o := ⟨1, 10, false⟩)
    (p' := exDormant) (s := ResBuf.init false) (d := 0) (rs := []) h0 (by decide +kernel)
    (by decide +kernel)
  have e : ¬ ((0 : ℤ) = exDormant.dormEnd) := by decide +kernel
  rw [if_neg e] at h1
  exact h1

/-- A policy that was initialised without dormant periods and is then reset and initialised with
dormant periods is never dormant: `ResetBehavior` keeps the mark for "always active". -/
theorem C69_fails_reset : ∃ p p1 p2 : Buy, p = Buy.new 1000 ∧
    p.initTimes 0 1 1 (-1) (-1) = (p1, .ok ()) ∧
    (p1.reset 1000).initTimes 0 1 2 3 3 = (p2, .ok ()) ∧ ∀ t, p2.dormant t = false := by
  refine ⟨_, (Buy.initTimes (Buy.new 1000) 0 1 1 (-1) (-1)).1,
    (Buy.initTimes ((Buy.initTimes (Buy.new 1000) 0 1 1 (-1) (-1)).1.reset 1000) 0 1 2 3 3).1, rfl,
    by decide +kernel, by decide +kernel, ?_⟩
  intro t
  have h1 : (Buy.initTimes ((Buy.initTimes (Buy.new 1000) 0 1 1 (-1) (-1)).1.reset 1000) 0 1 2 3
      3).1.actEnd = 2 := by decide +kernel
  have h2 : (Buy.initTimes ((Buy.initTimes (Buy.new 1000) 0 1 1 (-1) (-1)).1.reset 1000) 0 1 2 3
      3).1.dormEnd = -1 := by decide +kernel
  unfold Buy.dormant
  rw [h1, h2]
  simp only [Bool.and_eq_false_iff, decide_eq_false_iff_not]
  omega

/-- One negative sample of the dormant length in the middle of a simulation that lies before the
current time ends all dormant periods: the end of the period is never met again. -/
theorem C69_fails_negative : ∃ p p1 : Buy, (Buy.new 1000).initTimes 0 1 1 0 0 = (p, .ok ()) ∧
    p.check 1 1 (-2) = p1 ∧ ∀ t, 1 < t → ∀ a d, p1.check t a d = p1 ∧ p1.dormant t = false := by
  refine ⟨(Buy.initTimes (Buy.new 1000) 0 1 1 0 0).1, _, by decide +kernel, rfl, ?_⟩
  intro t ht a d
  have h2 : ((Buy.initTimes (Buy.new 1000) 0 1 1 0 0).1.check 1 1 (-2)).dormEnd = 0 := by
    decide +kernel
  refine ⟨?_, ?_⟩
  · rw [Buy.check, if_neg (by rw [h2]; omega)]
  · unfold Buy.dormant
    rw [h2]
    simp only [Bool.and_eq_false_iff, decide_eq_false_iff_not]
    omega

end Cyclus.Policy
