import Verif.Model.Portfolio
import Mathlib.Tactic.Linarith
import Mathlib.Tactic.FieldSimp
import Mathlib.Tactic.Ring
import Mathlib.Tactic.NormNum

/-!
# C19-C21: request and bid portfolios
-/

namespace Cyclus.Dre

namespace Spec

/-- The sum of the targets of some requests. -/
def demand (target : ℕ → ℚ) (rs : List ℕ) : ℚ := (rs.map target).sum

/-- The average target of some requests. -/
def average (target : ℕ → ℚ) (rs : List ℕ) : ℚ := demand target rs / rs.length

/-- The sets of requests declared mutual by a program. -/
def mutuals (ops : List ROp) : List (List ℕ) :=
  ops.filterMap fun op => match op with
    | .addMutual rs => some rs
    | _ => none

/-- No request is in two of the sets or twice in one of them, and all are requests of the
portfolio. -/
structure Separate (ms : List (List ℕ)) (reqs : List ℕ) : Prop where
  nodup : ms.flatten.Nodup
  sub : ∀ r ∈ ms.flatten, r ∈ reqs

/-- Every call of a program that declares requests mutual is given requests that have been added to
the portfolio (as documented, `request_portfolio.h:147-149`). -/
def Registered (s : RSt) : List ROp → Prop
  | [] => True
  | op :: ops =>
    (∀ rs, op = .addMutual rs → ∀ r ∈ rs, r ∈ s.rp.reqs) ∧
    ∀ s' o, s.step op = some (s', o) → Registered s' ops

end Spec

open Spec

/-! ## Lemmas -/

theorem nodup_snoc {α : Type} {l : List α} {a : α} (h : l.Nodup) (ha : a ∉ l) : (l ++ [a]).Nodup := by
  rw [List.nodup_append]
  refine ⟨h, by simp, fun x hx y hy => ?_⟩
  rw [List.mem_singleton] at hy; subst hy
  rintro rfl; exact ha hx

theorem mutualLoop_spec (target : ℕ → ℚ) (avg : ℚ) (rs : List ℕ) (p : RP) :
    (RP.mutualLoop target avg p rs).reqs = p.reqs ∧
    (RP.mutualLoop target avg p rs).requester = p.requester ∧
    (RP.mutualLoop target avg p rs).cons = p.cons ∧
    (RP.mutualLoop target avg p rs).qty = p.qty - demand target rs ∧
    (∀ r ∈ rs, (RP.mutualLoop target avg p rs).coeffs r = some (target r / avg)) ∧
    (∀ r, r ∉ rs → (RP.mutualLoop target avg p rs).coeffs r = p.coeffs r) := by
  induction rs generalizing p with
  | nil => simp [RP.mutualLoop, demand]
  | cons r rs ih =>
    unfold RP.mutualLoop
    obtain ⟨h1, h2, h3, h4, h5, h6⟩ := ih
      { p with
        coeffs := fun k => if k = r then some (target r / avg) else p.coeffs k
        qty := p.qty - target r }
    refine ⟨h1, h2, h3, ?_, ?_, ?_⟩
    · rw [h4]; simp only [demand, List.map_cons, List.sum_cons]; ring
    · intro k hk
      by_cases hkr : k ∈ rs
      · exact h5 k hkr
      · rw [h6 k hkr]
        rcases List.mem_cons.1 hk with rfl | hk
        · simp
        · exact absurd hk hkr
    · intro k hk
      simp only [List.mem_cons, not_or] at hk
      rw [h6 k hk.2]; simp [hk.1]

theorem addMutual_spec {target : ℕ → ℚ} {p p' : RP} {rs : List ℕ}
    (h : p.addMutual target rs = some p') :
    rs ≠ [] ∧ average target rs ≠ 0 ∧ p'.reqs = p.reqs ∧ p'.requester = p.requester ∧
    p'.qty = p.qty - demand target rs + average target rs ∧
    (∀ r ∈ rs, p'.coeffs r = some (target r / average target rs)) ∧
    (∀ r, r ∉ rs → p'.coeffs r = p.coeffs r) := by
  unfold RP.addMutual at h
  simp only at h
  split_ifs at h with h1
  push Not at h1
  cases h
  obtain ⟨a1, a2, _, a4, a5, a6⟩ := mutualLoop_spec target ((rs.map target).sum / rs.length) rs p
  refine ⟨?_, h1.2, a1, a2, ?_, a5, a6⟩
  · rintro rfl; exact h1.1 rfl
  · show _ + _ = _
    rw [a4]; rfl

/-- What holds of a portfolio in every reachable state; `ms` are the sets declared mutual. -/
structure RInv (s : RSt) (ms : List (List ℕ)) : Prop where
  fresh : ∀ r ∈ s.rp.reqs, r < s.n
  nodup : s.rp.reqs.Nodup
  same : ∀ r ∈ s.rp.reqs, some (s.obj r).requester = s.rp.requester
  known : ∀ m ∈ ms, ∀ r ∈ m, r < s.n
  qty : s.rp.qty = demand (fun r => (s.obj r).target) s.rp.reqs -
    (ms.map fun m => demand (fun r => (s.obj r).target) m -
      average (fun r => (s.obj r).target) m).sum

theorem demand_congr {f g : ℕ → ℚ} {rs : List ℕ} (h : ∀ r ∈ rs, f r = g r) :
    demand f rs = demand g rs := by
  unfold demand; rw [List.map_congr_left h]

theorem average_congr {f g : ℕ → ℚ} {rs : List ℕ} (h : ∀ r ∈ rs, f r = g r) :
    average f rs = average g rs := by
  unfold average; rw [demand_congr h]

theorem RInv.alloc {s : RSt} {ms : List (List ℕ)} (h : RInv s ms) (q : Request) :
    RInv ⟨fun k => if k = s.n then q else s.obj k, s.n + 1, s.rp⟩ ms := by
  have key : ∀ r, r < s.n → (if r = s.n then q else s.obj r) = s.obj r := by
    intro r hr; rw [if_neg (by omega)]
  refine ⟨fun r hr => Nat.lt_succ_of_lt (h.fresh r hr), h.nodup, ?_, ?_, ?_⟩
  · intro r hr
    show some (if r = s.n then q else s.obj r).requester = _
    rw [key r (h.fresh r hr)]; exact h.same r hr
  · exact fun m hm r hr => Nat.lt_succ_of_lt (h.known m hm r hr)
  · show s.rp.qty = _
    rw [h.qty]
    congr 1
    · exact demand_congr fun r hr => congrArg Request.target (key r (h.fresh r hr)).symm
    · congr 1
      refine List.map_congr_left fun m hm => ?_
      have hk : ∀ r ∈ m, (s.obj r).target = (if r = s.n then q else s.obj r).target :=
        fun r hr => congrArg Request.target (key r (h.known m hm r hr)).symm
      rw [demand_congr hk, average_congr hk]

theorem RInv.step {s s' : RSt} {ms : List (List ℕ)} {op : ROp} {o : Except Err Unit}
    (h : RInv s ms) (hreg : ∀ rs, op = .addMutual rs → ∀ r ∈ rs, r ∈ s.rp.reqs)
    (hs : s.step op = some (s', o)) : RInv s' (ms ++ mutuals [op]) := by
  cases op with
  | addRequest q t c pr e =>
    have hm : mutuals [ROp.addRequest q t c pr e] = [] := rfl
    rw [hm, List.append_nil]
    simp only [RSt.step, Option.some.injEq, Prod.mk.injEq] at hs
    obtain ⟨rfl, _⟩ := hs
    have ha := h.alloc ⟨q, t, c, pr, e, 0⟩
    have main : ∀ p : RP, p.reqs = s.rp.reqs → p.qty = s.rp.qty → p.requester = some t →
        (∀ r ∈ s.rp.reqs, some (s.obj r).requester = some t) →
        RInv ⟨fun k => if k = s.n then ⟨q, t, c, pr, e, 0⟩ else s.obj k, s.n + 1,
          { p with
            reqs := p.reqs ++ [s.n]
            coeffs := fun k => if k = s.n then some 1 else p.coeffs k
            qty := p.qty + q }⟩ ms := by
      intro p h1 h2 h3 h4
      refine ⟨?_, ?_, ?_, ha.known, ?_⟩
      · intro r hr
        simp only [h1, List.mem_append, List.mem_singleton] at hr
        rcases hr with hr | rfl
        · exact Nat.lt_succ_of_lt (h.fresh r hr)
        · exact Nat.lt_succ_self _
      · simp only [h1]
        exact nodup_snoc h.nodup fun hr => absurd (h.fresh _ hr) (by omega)
      · intro r hr
        simp only [h1, List.mem_append, List.mem_singleton] at hr
        simp only [h3]
        rcases hr with hr | rfl
        · rw [if_neg (by have := h.fresh r hr; omega)]; exact h4 r hr
        · simp
      · have hq := ha.qty
        simp only at hq
        simp only [h1, h2]
        rw [hq]
        unfold demand
        simp only [List.map_append, List.sum_append, List.map_cons, List.map_nil, List.sum_cons,
          List.sum_nil, if_true]
        ring
    unfold RP.addRequest RP.verify
    cases hr : s.rp.requester with
    | none =>
      simp only
      refine main { s.rp with requester := some t } rfl rfl rfl ?_
      intro r hr'
      have := h.same r hr'
      rw [hr] at this; cases this
    | some t' =>
      by_cases htt : t' = t
      · subst htt
        simp only [ne_eq, not_true_eq_false, if_false]
        exact main _ rfl rfl hr (fun r hr' => by rw [h.same r hr', hr])
      · simp only [ne_eq, htt, not_false_eq_true, if_true]
        exact ha
  | addMutual rs =>
    have hm : mutuals [ROp.addMutual rs] = [rs] := rfl
    rw [hm]
    simp only [RSt.step] at hs
    cases hp : s.rp.addMutual (fun r => (s.obj r).target) rs with
    | none => rw [hp] at hs; cases hs
    | some p =>
      rw [hp] at hs
      simp only [Option.some.injEq, Prod.mk.injEq] at hs
      obtain ⟨rfl, _⟩ := hs
      obtain ⟨_, _, a1, a2, a3, _, _⟩ := addMutual_spec hp
      refine ⟨?_, ?_, ?_, ?_, ?_⟩
      · simp only [a1]; exact h.fresh
      · simp only [a1]; exact h.nodup
      · simp only [a1, a2]; exact h.same
      · intro m hm r hr
        rcases List.mem_append.1 hm with hm | hm
        · exact h.known m hm r hr
        · rw [List.mem_singleton] at hm; subst hm
          exact h.fresh r (hreg m rfl r hr)
      · simp only [a1, a3]
        rw [h.qty]
        simp only [List.map_append, List.map_cons, List.map_nil, List.sum_append, List.sum_cons,
          List.sum_nil]
        ring
  | addCon cap conv =>
    have hm : mutuals [ROp.addCon cap conv] = [] := rfl
    rw [hm, List.append_nil]
    simp only [RSt.step] at hs
    unfold mkCon at hs
    split_ifs at hs
    · cases hs; exact h
    · cases hs; exact ⟨h.fresh, h.nodup, h.same, h.known, h.qty⟩

theorem RInv.run {ops : List ROp} : ∀ {s s' : RSt} {ms : List (List ℕ)}, RInv s ms →
    Registered s ops → s.run ops = some s' → RInv s' (ms ++ mutuals ops) := by
  induction ops with
  | nil => intro s s' ms h _ hs; cases hs; simpa [mutuals] using h
  | cons op ops ih =>
    intro s s' ms h hreg hs
    unfold RSt.run at hs
    cases h1 : s.step op with
    | none => rw [h1] at hs; cases hs
    | some x =>
      obtain ⟨s1, o⟩ := x
      rw [h1] at hs
      have := ih (h.step hreg.1 h1) (hreg.2 s1 o h1) hs
      rw [List.append_assoc] at this
      have hc : mutuals (op :: ops) = mutuals [op] ++ mutuals ops := by
        simp only [mutuals, ← List.filterMap_append, List.singleton_append]
      rw [hc]; exact this

theorem RInv.init : RInv RSt.init [] :=
  ⟨by simp [RSt.init, RP.empty], by simp [RSt.init, RP.empty], by simp [RSt.init, RP.empty],
    by simp, by simp [RSt.init, RP.empty, demand]⟩

/-! ## C19 -/

/-- **C19 (one requester).** All requests of a portfolio have the portfolio's requester. -/
theorem C19_requester {ops : List ROp} {s : RSt} (hreg : Registered RSt.init ops)
    (h : RSt.init.run ops = some s) :
    ∀ r ∈ s.rp.reqs, some (s.obj r).requester = s.rp.requester :=
  (RInv.init.run hreg h).same

/-- **C19 (rejection).** A request of another requester is rejected with `KeyError` and the portfolio
stays as it was; a request of the same requester (or the first request) is accepted and appended. -/
theorem C19_add (p : RP) (id : ℕ) (q : ℚ) (t : ℕ) :
    (∀ t', p.requester = some t' → t' ≠ t → p.addRequest id q t = (p, .error .key)) ∧
    ((p.requester = none ∨ p.requester = some t) →
      (p.addRequest id q t).2 = .ok () ∧ (p.addRequest id q t).1.reqs = p.reqs ++ [id] ∧
      (p.addRequest id q t).1.requester = some t ∧
      (p.addRequest id q t).1.qty = p.qty + q) := by
  constructor
  · intro t' h hne
    simp [RP.addRequest, RP.verify, h, hne]
  · rintro (h | h) <;> simp [RP.addRequest, RP.verify, h]

theorem sum_split (target : ℕ → ℚ) (reqs ms : List ℕ) (hr : reqs.Nodup) (hn : ms.Nodup)
    (hs : ∀ r ∈ ms, r ∈ reqs) :
    demand target reqs = demand target (reqs.filter (· ∉ ms)) + demand target ms := by
  have hperm : (reqs.filter (· ∈ ms)).Perm ms := by
    refine (List.perm_ext_iff_of_nodup (hr.filter _) hn).2 fun r => ?_
    simp only [List.mem_filter, decide_eq_true_eq]
    exact ⟨fun h => h.2, fun h => ⟨hs r h, h⟩⟩
  have h1 : demand target ms = demand target (reqs.filter (· ∈ ms)) :=
    ((hperm.map target).sum_eq).symm
  rw [h1]
  clear h1 hperm hr hn hs
  induction reqs with
  | nil => simp [demand]
  | cons r rs ih =>
    unfold demand at *
    by_cases h : r ∈ ms
    · simp only [h, not_true_eq_false, decide_false, List.filter_cons, Bool.false_eq_true, if_false,
        decide_true, if_true, List.map_cons, List.sum_cons]
      rw [ih]; ring
    · simp only [h, not_false_eq_true, decide_true, List.filter_cons, if_true, decide_false,
        Bool.false_eq_true, if_false, List.map_cons, List.sum_cons]
      rw [ih]; ring

theorem demand_flatten (target : ℕ → ℚ) (ms : List (List ℕ)) :
    demand target ms.flatten = (ms.map (demand target)).sum := by
  induction ms with
  | nil => rfl
  | cons m ms ih =>
    simp only [List.flatten_cons, List.map_cons, List.sum_cons, ← ih]
    simp [demand]

/-- **C19 (quantity).** If no request is declared mutual twice, the quantity of the portfolio is the
sum of the targets of the other requests plus the average of every mutual set. -/
theorem C19_qty {ops : List ROp} {s : RSt} (hreg : Registered RSt.init ops)
    (h : RSt.init.run ops = some s) (hsep : Separate (mutuals ops) s.rp.reqs) :
    s.rp.qty =
      demand (fun r => (s.obj r).target)
        (s.rp.reqs.filter (· ∉ (mutuals ops).flatten)) +
      ((mutuals ops).map (average fun r => (s.obj r).target)).sum := by
  have hi := RInv.init.run hreg h
  rw [List.nil_append] at hi
  rw [hi.qty, sum_split _ _ _ hi.nodup hsep.nodup hsep.sub, demand_flatten]
  have : ∀ (l : List (List ℕ)) (f g : List ℕ → ℚ),
      (l.map fun m => f m - g m).sum = (l.map f).sum - (l.map g).sum := by
    intro l f g
    induction l with
    | nil => simp
    | cons x l ih => simp only [List.map_cons, List.sum_cons, ih]; ring
  rw [this]; ring

/-- **C19 (quantity, no mutual sets).** Without mutual requests the quantity is the sum of the
targets. -/
theorem C19_qty_plain {ops : List ROp} {s : RSt} (hm : mutuals ops = [])
    (hreg : Registered RSt.init ops) (h : RSt.init.run ops = some s) :
    s.rp.qty = (s.rp.reqs.map fun r => (s.obj r).target).sum := by
  have hi := RInv.init.run hreg h
  rw [hi.qty, hm]; simp [demand]

/-! ## C20 -/

/-- **C20** as documented (`request_portfolio.h:78-85`): a full order of any one of the mutual
requests counts as the average, i.e. as the demand of the set. -/
def C20_statement : Prop :=
  ∀ (s s' : RSt) (rs : List ℕ) (o : Except Err Unit), s.step (.addMutual rs) = some (s', o) →
    ∀ r ∈ rs, ∃ c, s'.rp.coeffs r = some c ∧
      c * (s'.obj r).target = average (fun k => (s'.obj k).target) rs

/-- What the code does instead: the coefficient times the average is the target. -/
theorem C20_coefficient {s s' : RSt} {rs : List ℕ} {o : Except Err Unit}
    (h : s.step (.addMutual rs) = some (s', o)) :
    ∀ r ∈ rs, ∃ c, s'.rp.coeffs r = some c ∧
      c * average (fun k => (s'.obj k).target) rs = (s'.obj r).target := by
  simp only [RSt.step] at h
  cases hp : s.rp.addMutual (fun r => (s.obj r).target) rs with
  | none => rw [hp] at h; cases h
  | some p =>
    rw [hp] at h
    simp only [Option.some.injEq, Prod.mk.injEq] at h
    obtain ⟨rfl, _⟩ := h
    obtain ⟨_, ha, _, _, _, hc, _⟩ := addMutual_spec hp
    intro r hr
    exact ⟨_, hc r hr, by field_simp⟩

/-- **C20 (partial).** The statement holds for mutual requests of equal quantity.  Missing: sets with
different quantities, for which it is false (`C20_fails`). -/
theorem C20_equal_partial {s s' : RSt} {rs : List ℕ} {o : Except Err Unit} {q : ℚ}
    (heq : ∀ r ∈ rs, (s.obj r).target = q) (h : s.step (.addMutual rs) = some (s', o)) :
    ∀ r ∈ rs, ∃ c, s'.rp.coeffs r = some c ∧
      c * (s'.obj r).target = average (fun k => (s'.obj k).target) rs := by
  intro r hr
  obtain ⟨c, h1, h2⟩ := C20_coefficient h r hr
  have hobj : s'.obj = s.obj := by
    simp only [RSt.step] at h
    cases hp : s.rp.addMutual (fun r => (s.obj r).target) rs with
    | none => rw [hp] at h; cases h
    | some p => rw [hp] at h; cases h; rfl
  have hav : average (fun k => (s'.obj k).target) rs = q := by
    unfold average
    rw [demand_congr (g := fun _ => q) (fun k hk => by rw [hobj]; exact heq k hk)]
    unfold demand
    have : (rs.length : ℚ) ≠ 0 := by
      rw [Nat.cast_ne_zero]
      intro h0; rw [List.length_eq_zero_iff] at h0; subst h0; cases hr
    simp only [List.map_const', List.sum_replicate, nsmul_eq_mul]
    field_simp
  refine ⟨c, h1, ?_⟩
  rw [hav] at h2 ⊢
  rw [hobj] at h2 ⊢
  rw [heq r hr] at h2 ⊢
  exact h2

/-- The documented example: 10 kg of one fuel, or 9 kg of another. -/
def c20Ops : List ROp :=
  [.addRequest 10 1 "mox" 1 false, .addRequest 9 1 "uox" 1 false, .addMutual [0, 1]]

theorem c20_coeff : (RSt.init.run c20Ops).map (fun s => (s.rp.qty, s.rp.coeffs 0, s.rp.coeffs 1)) =
    some (19 / 2, some (20 / 19), some (18 / 19)) := by
  decide +kernel

/-- **C20 is violated.** In the documented example the full order of 10 kg has coefficient 10 / 9.5
in place of 9.5 / 10. -/
theorem C20_fails : ¬ C20_statement := by
  intro h
  let s : RSt := ⟨fun k => if k = 0 then ⟨10, 1, "mox", 1, false, 0⟩ else ⟨9, 1, "uox", 1, false, 0⟩, 2,
    ⟨[0, 1], fun _ => some 1, [], 19, some 1⟩⟩
  have key : (s.step (.addMutual [0, 1])).map (fun x => (x.1.rp.coeffs 0, x.2,
      average (fun k => (x.1.obj k).target) [0, 1], (x.1.obj 0).target)) =
      some (some (20 / 19), .ok (), 19 / 2, 10) := by decide +kernel
  cases hs : s.step (.addMutual [0, 1]) with
  | none => rw [hs] at key; cases key
  | some x =>
    obtain ⟨s', o⟩ := x
    rw [hs] at key
    simp only [Option.map_some, Option.some.injEq, Prod.mk.injEq] at key
    obtain ⟨c, h1, h2⟩ := h s s' [0, 1] o hs 0 (by simp)
    rw [key.1] at h1
    cases h1
    rw [key.2.2.1, key.2.2.2] at h2
    norm_num at h2

/-! ## C21 -/

/-- What holds of a bid portfolio in every reachable state. -/
structure BInv (s : BSt) : Prop where
  fresh : ∀ b ∈ s.bp.bids, b < s.n
  nodup : s.bp.bids.Nodup
  same : ∀ b ∈ s.bp.bids, some (s.obj b).bidder = s.bp.bidder
  pos : ∀ b ∈ s.bp.bids, 0 < (s.obj b).qty

theorem BInv.init : BInv BSt.init :=
  ⟨by simp [BSt.init, BP.empty], by simp [BSt.init, BP.empty], by simp [BSt.init, BP.empty],
    by simp [BSt.init, BP.empty]⟩

theorem BInv.step {s : BSt} (h : BInv s) (op : BOp) : BInv (s.step op).1 := by
  cases op with
  | addCon cap conv =>
    simp only [BSt.step, mkCon]
    split_ifs
    · exact h
    · exact ⟨h.fresh, h.nodup, h.same, h.pos⟩
  | addBid r o q t e pr =>
    have key : ∀ b ∈ s.bp.bids, ∀ x : Bid, (if b = s.n then x else s.obj b) = s.obj b := by
      intro b hb x; rw [if_neg (by have := h.fresh b hb; omega)]
    have rej : ∀ bd : Option ℕ, (∀ b ∈ s.bp.bids, some (s.obj b).bidder = bd) →
        BInv ⟨fun k => if k = s.n then ⟨r, o, q, t, pr, e, 0⟩ else s.obj k, s.n + 1,
          { s.bp with bidder := bd }⟩ := by
      intro bd hbd
      refine ⟨fun b hb => Nat.lt_succ_of_lt (h.fresh b hb), h.nodup, ?_, ?_⟩
      · intro b hb
        show some (if b = s.n then _ else s.obj b).bidder = bd
        rw [key b hb]; exact hbd b hb
      · intro b hb
        show 0 < (if b = s.n then _ else s.obj b).qty
        rw [key b hb]; exact h.pos b hb
    have acc : (∀ b ∈ s.bp.bids, some (s.obj b).bidder = some t) → 0 < q →
        BInv ⟨fun k => if k = s.n then ⟨r, o, q, t, pr, e, 0⟩ else s.obj k, s.n + 1,
          { s.bp with bidder := some t, bids := s.bp.bids ++ [s.n] }⟩ := by
      intro hbd hq
      have hr := rej (some t) hbd
      refine ⟨?_, ?_, ?_, ?_⟩
      · intro b hb
        rcases List.mem_append.1 hb with hb | hb
        · exact hr.fresh b hb
        · rw [List.mem_singleton] at hb; subst hb; exact Nat.lt_succ_self _
      · exact nodup_snoc h.nodup fun hr => absurd (h.fresh _ hr) (by omega)
      · intro b hb
        rcases List.mem_append.1 hb with hb | hb
        · exact hr.same b hb
        · rw [List.mem_singleton] at hb; subst hb; simp
      · intro b hb
        rcases List.mem_append.1 hb with hb | hb
        · exact hr.pos b hb
        · rw [List.mem_singleton] at hb; subst hb; simpa using hq
    unfold BSt.step BP.addBid BP.verify
    cases hb : s.bp.bidder with
    | none =>
      have hn : ∀ b ∈ s.bp.bids, some (s.obj b).bidder = some t := by
        intro b hb'; have := h.same b hb'; rw [hb] at this; cases this
      simp only
      split_ifs with hq
      · exact acc hn hq
      · exact rej _ hn
    | some t' =>
      by_cases htt : t' = t
      · subst htt
        have hn : ∀ b ∈ s.bp.bids, some (s.obj b).bidder = some t' := by
          intro b hb'; rw [← hb]; exact h.same b hb'
        simp only [ne_eq, not_true_eq_false, if_false]
        split_ifs with hq
        · have := acc hn hq; rw [← hb] at this; exact this
        · have := rej _ hn; rw [← hb] at this; exact this
      · simp only [ne_eq, htt, not_false_eq_true, if_true]
        have := rej s.bp.bidder (h.same); exact this

theorem BInv.run {s : BSt} (h : BInv s) (ops : List BOp) : BInv (s.run ops) := by
  induction ops generalizing s with
  | nil => exact h
  | cons op ops ih => exact ih (h.step op)

/-- **C21 (one bidder, positive offers).** All bids of a portfolio have the portfolio's bidder and
offer a positive quantity. -/
theorem C21_bids (ops : List BOp) :
    ∀ b ∈ (BSt.init.run ops).bp.bids,
      some ((BSt.init.run ops).obj b).bidder = (BSt.init.run ops).bp.bidder ∧
      0 < ((BSt.init.run ops).obj b).qty :=
  fun b hb => ⟨(BInv.init.run ops).same b hb, (BInv.init.run ops).pos b hb⟩

/-- **C21 (rejection).** A bid of another bidder is rejected with `KeyError` and the portfolio stays as
it was.  A bid of the same bidder is accepted exactly if its quantity is positive; a rejected one
leaves the portfolio as it was.  The bids stay the same whenever the call throws. -/
theorem C21_add (p : BP) (id : ℕ) (q : ℚ) (t : ℕ) :
    (∀ t', p.bidder = some t' → t' ≠ t → p.addBid id q t = (p, .error .key)) ∧
    (p.bidder = some t → 0 < q →
      p.addBid id q t = ({ p with bids := p.bids ++ [id] }, .ok ())) ∧
    (p.bidder = some t → q ≤ 0 → p.addBid id q t = (p, .error .value)) ∧
    (∀ e, (p.addBid id q t).2 = .error e → (p.addBid id q t).1.bids = p.bids) := by
  refine ⟨?_, ?_, ?_, ?_⟩
  · intro t' h hne; simp [BP.addBid, BP.verify, h, hne]
  · intro h hq; simp [BP.addBid, BP.verify, h, hq]
  · intro h hq; simp [BP.addBid, BP.verify, h, not_lt.2 hq]
  · intro e
    unfold BP.addBid BP.verify
    cases p.bidder <;> simp only <;> split_ifs <;> simp

/-- **C21 is violated** in one point: `bidder()` is documented to be NULL as long as no bid has been
added (`bid_portfolio.h:91-92`), but a rejected first bid (quantity not positive) leaves its bidder
behind, and bids of other bidders are rejected from then on. -/
theorem C21_fails_bidder :
    ∃ ops, (BSt.init.run ops).bp.bids = [] ∧ (BSt.init.run ops).bp.bidder ≠ none ∧
      ((BSt.init.run ops).step (.addBid 0 0 5 2 false none)).2 = .error .key :=
  ⟨[.addBid 0 0 0 1 false none], by decide +kernel, by decide +kernel, by decide +kernel⟩

/-- The bidder of an accepted bid is set and stays. -/
theorem C21_bidder_partial (ops : List BOp) (h : (BSt.init.run ops).bp.bids ≠ []) :
    (BSt.init.run ops).bp.bidder ≠ none := by
  obtain ⟨b, hb⟩ := List.exists_mem_of_ne_nil _ h
  rw [← (BInv.init.run ops).same b hb]; simp

/-! ## Concrete cases -/

/-- Three requests, two of them mutual, and one of another requester. -/
def exROps : List ROp :=
  [.addRequest 10 1 "mox" 1 false, .addRequest 5 2 "x" 1 false, .addRequest 9 1 "uox" 1 false,
   .addRequest 4 1 "y" 1 true, .addMutual [0, 2]]

example : Registered RSt.init exROps ∧ mutuals exROps = [[0, 2]] ∧
    ∃ s, RSt.init.run exROps = some s ∧ s.rp.reqs = [0, 2, 3] ∧ s.rp.qty = 27 / 2 ∧
      Separate (mutuals exROps) s.rp.reqs := by
  refine ⟨?_, rfl, ?_⟩
  · refine ⟨by simp, fun s o h => ?_⟩
    cases h
    refine ⟨by simp, fun s o h => ?_⟩
    cases h
    refine ⟨by simp, fun s o h => ?_⟩
    cases h
    refine ⟨by simp, fun s o h => ?_⟩
    cases h
    refine ⟨?_, fun s o _ => trivial⟩
    rintro rs h r hr
    cases h
    revert r
    decide +kernel
  · have key : (RSt.init.run exROps).map (fun s => (s.rp.reqs, s.rp.qty)) =
        some ([0, 2, 3], 27 / 2) := by decide +kernel
    cases hs : RSt.init.run exROps with
    | none => rw [hs] at key; cases key
    | some s =>
      rw [hs] at key
      simp only [Option.map_some, Option.some.injEq, Prod.mk.injEq] at key
      refine ⟨s, rfl, key.1, key.2, ?_⟩
      rw [key.1]
      exact ⟨by decide, by decide⟩

/-- Two equal mutual requests (`C20_equal_partial`). -/
example : ∃ s s' o, RSt.step s (.addMutual [0, 1]) = some (s', o) ∧
    (∀ r ∈ [0, 1], (s.obj r).target = 3) ∧ s.rp.reqs = [0, 1] := by
  let s : RSt := ⟨fun _ => ⟨3, 1, "c", 1, false, 0⟩, 2, ⟨[0, 1], fun _ => some 1, [], 6, some 1⟩⟩
  have : (s.step (.addMutual [0, 1])).isSome = true := by decide +kernel
  obtain ⟨⟨s', o⟩, h⟩ := Option.isSome_iff_exists.1 this
  exact ⟨s, s', o, h, by decide +kernel, by decide +kernel⟩

/-- A portfolio with two bids, after two rejected ones (`C21_bids`, `C21_bidder_partial`). -/
example : (BSt.init.run [.addBid 0 0 3 1 false none, .addBid 1 1 4 2 false none,
    .addBid 1 1 0 1 false none, .addBid 1 2 5 1 true (some 2)]).bp.bids = [0, 3] := by
  decide +kernel

end Cyclus.Dre
