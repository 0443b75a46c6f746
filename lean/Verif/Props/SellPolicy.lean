import Verif.Model.SellPolicy
import Verif.Props.ResBuf
import Verif.Props.Package
import Mathlib.Tactic.Linarith
import Mathlib.Algebra.Order.Floor.Ring

/-!
# C48, C70 and C71: the sell policy
-/

namespace Cyclus.Sell

open ResBuf (Reachable Inv totQty push popEps)

/-! ## Lemmas on the buffer -/

theorem push_frame {eps : ℚ} {s s' : ResBuf.St} {r : ℕ}
    (h : push .material eps s r = (s', .ok ())) :
    (∀ i, i ∉ s.rs → i ≠ r → s'.heap i = s.heap i) ∧ (∀ i ∈ s'.rs, i ∈ s.rs ∨ i = r) := by
  have hu : ∀ t : ResBuf.St, (ResBuf.updateQty t).heap = t.heap ∧ (ResBuf.updateQty t).rs = t.rs := by
    intro t
    unfold ResBuf.updateQty
    split <;> exact ⟨rfl, rfl⟩
  unfold push at h
  split at h
  · cases h
  split at h
  · cases h
  split at h
  · cases h
  split at h
  · rename_i f tl hb hrs
    split at h
    · cases h
    · rename_i h1 he
      cases h
      rw [(hu _).1, (hu _).2]
      refine ⟨fun i hi hr => ?_, fun i hi => .inl hi⟩
      exact (ResBuf.absorb_ok he).1 i (by rintro rfl; exact hi (by simp [hrs])) hr
  · cases h
    rw [(hu _).1, (hu _).2]
    refine ⟨fun i _ _ => rfl, fun i hi => ?_⟩
    simpa using hi

/-- What `Pop(qty, eps)` does to the buffer. -/
theorem popEps_spec {eps q : ℚ} {s s' : ResBuf.St} {a : ℕ} (heps : 0 ≤ eps) (hi : Inv s)
    (hn : ∀ r ∈ s.rs, 0 ≤ (s.heap r).qty) (h0 : 0 ≤ q)
    (h : popEps .material s q eps = (s', .ok a)) :
    Inv s' ∧ (∀ r ∈ s'.rs, r ∈ s.rs) ∧ (∀ r ∈ s'.rs, 0 ≤ (s'.heap r).qty) ∧ a ∉ s'.rs ∧
    a < s'.next ∧ s.next ≤ s'.next ∧ (a ∈ s.rs ∨ s.next ≤ a) ∧
    (s'.heap a).qty = min q s.qty ∧ s'.qty = s.qty - min q s.qty ∧ q - eps ≤ min q s.qty ∧
    (∀ i, i < s.next → i ∉ s.rs → s'.heap i = s.heap i) := by
  have hinv : Inv s' := by
    have := ResBuf.inv_popEps (k := .material) (q := q) (e := eps) hi
    rw [h] at this
    exact this
  unfold popEps at h
  split at h
  · cases h
  rename_i hle
  have hle' : q - eps ≤ s.qty := by linarith
  have hfin : ∀ (s1 : ResBuf.St) (out : List ℕ), Inv s1 → out.Nodup → (∀ r ∈ s1.rs, r ∉ out) →
      ResBuf.squashOut .material (s1, .ok out) = (s', .ok a) →
      s'.rs = s1.rs ∧ s'.next = s1.next ∧ s'.qty = s1.qty ∧ a ∈ out ∧
      (s'.heap a).qty = totQty s1.heap out ∧ (∀ i, i ∉ out → s'.heap i = s1.heap i) := by
    intro s1 out h1 hnd hdis hsq
    simp only [ResBuf.squashOut] at hsq
    cases he : ResBuf.squash .material s1.heap out with
    | mk hp e =>
      rw [he] at hsq
      cases e with
      | error e => simp at hsq
      | ok b =>
        simp only [Prod.mk.injEq, Except.ok.injEq] at hsq
        obtain ⟨rfl, rfl⟩ := hsq
        cases out with
        | nil => simp [ResBuf.squash] at he
        | cons c rest =>
          have hfr := ResBuf.squash_frame he
          obtain ⟨rfl, hqa, -⟩ := ResBuf.squash_ok hnd he
          exact ⟨rfl, rfl, rfl, by simp, hqa, hfr⟩
  split at h
  · rename_i hge
    obtain ⟨s1, p1, p2, p3, p4, -, -, p5⟩ := ResBuf.popN_spec (n := s.rs.length) hi (by omega)
    rw [p1] at h
    simp only [Int.toNat_natCast, List.take_length, List.drop_length] at h p3
    obtain ⟨f1, f2, f3, f4, f5, f6⟩ := hfin s1 s.rs p2 hi.nodup (by rw [p3]; simp) h
    have hz : s1.qty = 0 := by rw [p2.sum, p3]; simp
    refine ⟨hinv, by rw [f1, p3]; simp, by rw [f1, p3]; simp, by rw [f1, p3]; simp, ?_,
      by rw [f2, p5], .inl f4, ?_, ?_, ?_, ?_⟩
    · rw [f2, p5]; exact hi.lt a f4
    · rw [f5, p4, ← hi.sum, min_eq_right hge]
    · rw [f3, hz, min_eq_right hge]; ring
    · rw [min_eq_right hge]; linarith
    · intro i _ hir
      rw [f6 i hir, p4]
  · rename_i hlt
    have hlt' : ¬ q > s.qty := by intro hc; exact hlt (le_of_lt hc)
    obtain ⟨s1, n, ext, p1, p2, p3, p4, p5, p6, p7, p8, p9, p10, p11, p12, p13, p14, p15, -⟩ :=
      ResBuf.popVec_spec hi (q := q) hlt'
    obtain ⟨hnd, hdis⟩ := ResBuf.popVec_disjoint hi p3 p7
    rw [ResBuf.popQty, p1] at h
    obtain ⟨f1, f2, f3, f4, f5, f6⟩ := hfin s1 _ p2 hnd hdis h
    have hext : ∀ r ∈ ext, r = s.next := by
      rcases p7 with rfl | rfl <;> simp
    have hmin : min q s.qty = q := min_eq_left (not_lt.1 hlt')
    have hx := p13 hn h0
    have hmem : ∀ r ∈ s'.rs, r ∈ s.rs := by
      intro r hr
      rw [f1, p3] at hr
      exact List.mem_of_mem_drop hr
    refine ⟨hinv, hmem, ?_, ?_, ?_, by rw [f2, p8]; omega, ?_, ?_, ?_, ?_, ?_⟩
    · intro r hr
      rw [f1] at hr
      rw [f6 r (hdis r hr)]
      rw [p3] at hr
      exact p15 hn r hr
    · rw [f1]
      intro hc
      exact hdis a hc f4
    · rw [f2, p8]
      rcases List.mem_append.1 f4 with h4 | h4
      · have := hi.lt a (List.mem_of_mem_take h4)
        omega
      · have := hext a h4
        have : ext.length ≠ 0 := by
          intro hc
          rw [List.length_eq_zero_iff] at hc
          rw [hc] at h4
          simp at h4
        omega
    · rcases List.mem_append.1 f4 with h4 | h4
      · exact .inl (List.mem_of_mem_take h4)
      · exact .inr (le_of_eq (hext a h4).symm)
    · rw [f5, hx, hmin]
    · rw [f3, hmin, p2.sum, hi.sum, p3]; linarith
    · rw [hmin]; linarith
    · intro i hil hir
      rw [f6 i ?_, p10 i hil hir]
      intro hc
      rcases List.mem_append.1 hc with hc | hc
      · exact hir (List.mem_of_mem_take hc)
      · have := hext i hc
        omega

/-- What packaging does. -/
theorem packLoop_spec {eps : ℚ} {name a : ℕ} : ∀ (fs : List ℚ) (s s' : St) (ids : List ℕ),
    a < s.buf.next → packLoop eps name a s fs = (s', .ok ids) →
    s'.buf.rs = s.buf.rs ∧ s'.buf.qty = s.buf.qty ∧ s'.buf.present = s.buf.present ∧
    s'.buf.cap = s.buf.cap ∧ s'.buf.bulk = s.buf.bulk ∧
    s.buf.next ≤ s'.buf.next ∧ (s'.buf.heap a).qty = (s.buf.heap a).qty - fs.sum ∧
    (∀ i, i < s.buf.next → i ≠ a → s'.buf.heap i = s.buf.heap i) ∧
    (∀ i, i < s.buf.next → s'.pkg i = s.pkg i) ∧
    ids.length = fs.length ∧
    (∀ i tl, ids = i :: tl → ∃ f ft, fs = f :: ft ∧ (s'.buf.heap i).qty = f ∧ s'.pkg i = name ∧
      s.buf.next ≤ i ∧ i < s'.buf.next) := by
  intro fs
  induction fs with
  | nil =>
    intro s s' ids _ h
    simp only [packLoop] at h
    cases h
    simp
  | cons f fs ih =>
    intro s s' ids ha h
    simp only [packLoop] at h
    split at h
    · cases h
    split at h
    · cases h
    · rename_i s2 ids2 he
      cases h
      obtain ⟨i1, i2, i3, i4, i5, i6, i7, i8, i9, i10, -⟩ := ih _ _ _ (by simp; omega) he
      simp only at i1 i2 i3 i4 i5 i6 i7 i8 i9
      have hna : a ≠ s.buf.next := by omega
      refine ⟨i1, i2, i3, i4, i5, by omega, ?_, ?_, ?_, by simp [i10], ?_⟩
      · rw [i7, if_neg hna, ResBuf.setQty_same, List.sum_cons]; ring
      · intro i hil hne
        rw [i8 i (by omega) hne, if_neg (by omega), ResBuf.setQty_ne _ _ hne]
      · intro i hil
        rw [i9 i (by omega), if_neg (by omega)]
      · rintro i tl ⟨⟩
        refine ⟨f, fs, rfl, ?_, ?_, le_refl _, by omega⟩
        · rw [i8 _ (by omega) (by omega)]
          simp
        · rw [i9 _ (by omega)]
          simp

/-- The cases of one trade. -/
theorem trade_spec {eps q : ℚ} {fuel : ℕ} {raw : ℕ → ℚ} {p : Pol} {s s' : St} {a : ℕ} {dec : Bool}
    (heps : 0 < eps) (hi : Inv s.buf) (hn : ∀ r ∈ s.buf.rs, 0 ≤ (s.buf.heap r).qty) (h0 : 0 ≤ q)
    (h : trade eps fuel raw p s q = some (s', .ok (a, dec))) :
    Inv s'.buf ∧ (∀ r ∈ s'.buf.rs, 0 ≤ (s'.buf.heap r).qty) ∧
    a ∉ s'.buf.rs ∧ a < s'.buf.next ∧ s.buf.next ≤ s'.buf.next ∧ (a ∈ s.buf.rs ∨ s.buf.next ≤ a) ∧
    (∀ i ∈ s'.buf.rs, i ∈ s.buf.rs ∨ s.buf.next ≤ i) ∧
    (∀ i, i < s.buf.next → i ∉ s.buf.rs → s'.buf.heap i = s.buf.heap i) ∧
    (∀ i, i < s.buf.next → s'.pkg i = s.pkg i) ∧ q - eps ≤ min q s.buf.qty ∧
    (∀ i ∈ s'.buf.rs, s.buf.next ≤ i → s'.pkg i = 0) ∧
    ((dec = false ∧ (s'.buf.heap a).qty = min q s.buf.qty ∧
        s'.buf.qty = s.buf.qty - min q s.buf.qty ∧ s'.pkg a = p.pkgName ∧
        ((a < s.buf.next ∧ s.pkg a = p.pkgName) ∨ (s.buf.next ≤ a ∧ p.pkgName = 0)))
     ∨ (∃ fills, Package.getFillMass p.pkg eps raw fuel (min q s.buf.qty) = some (.ok fills) ∧
        ((∃ x, x ≠ p.pkgName ∧ ((∃ i < s.buf.next, s.pkg i = x) ∨ x = 0))) ∧
        s'.buf.qty = s.buf.qty - min q s.buf.qty +
          (if eps < min q s.buf.qty - fills.sum then min q s.buf.qty - fills.sum else 0) ∧
        ((dec = true ∧ s'.pkg a = p.pkgName ∧ ∃ f fs, fills = f :: fs ∧ (s'.buf.heap a).qty = f) ∨
         (dec = false ∧ s'.pkg a = 0 ∧ fills = [] ∧ (s'.buf.heap a).qty = 0)))) := by
  unfold trade at h
  split at h
  · cases h
  rename_i b a0 hpop
  obtain ⟨q1, q2, q3, q4, q5, q6, q7, q8, q9, q10, q11⟩ := popEps_spec (le_of_lt heps) hi hn h0 hpop
  have hq10 : q - eps ≤ min q s.buf.qty := q10
  simp only at h
  by_cases hname : p.pkgName = (if s.buf.next ≤ a0 then 0 else s.pkg a0)
  · rw [if_pos hname] at h
    cases h
    have hold : ∀ i ∈ b.rs, s.buf.next ≤ i → (if s.buf.next ≤ i then 0 else s.pkg i) = 0 :=
      fun i _ h2 => if_pos h2
    refine ⟨q1, q3, q4, q5, q6, q7, fun i hi' => .inl (q2 i hi'), q11, ?_, hq10, hold, .inl ?_⟩
    · intro i hil
      simp only
      rw [if_neg (by omega)]
    · refine ⟨rfl, q8, q9, hname.symm, ?_⟩
      by_cases hc : s.buf.next ≤ a
      · rw [if_pos hc] at hname
        exact .inr ⟨hc, hname⟩
      · rw [if_neg hc] at hname
        exact .inl ⟨by omega, hname.symm⟩
  · rw [if_neg hname] at h
    have hx : ∃ x, x ≠ p.pkgName ∧ ((∃ i < s.buf.next, s.pkg i = x) ∨ x = 0) := by
      refine ⟨_, fun e => hname e.symm, ?_⟩
      by_cases hc : s.buf.next ≤ a0
      · rw [if_pos hc]; exact .inr rfl
      · rw [if_neg hc]; exact .inl ⟨a0, by omega, rfl⟩
    split at h
    · cases h
    · cases h
    · rename_i fills hfill
      rw [q8] at hfill
      split at h
      · cases h
      · rename_i s2 ids hpack
        obtain ⟨k1, k2, k3, k4, k5, k6, k7, k8, k9, k10, k11⟩ :=
          packLoop_spec fills ⟨b, _⟩ s2 ids q5 hpack
        simp only at k1 k2 k3 k4 k5 k6 k7 k8 k9
        rw [q8] at k7
        have hsame : ∀ r ∈ b.rs, s2.buf.heap r = b.heap r := by
          intro r hr
          exact k8 r (q1.lt r hr) (by rintro rfl; exact q4 hr)
        have hinv2 : Inv s2.buf := by
          have hc : Inv { b with heap := s2.buf.heap } := ResBuf.inv_congr_heap q1 hsame
          refine ⟨?_, ?_, ?_, ?_, ?_, ?_⟩
          · rw [k1]; exact q1.nodup
          · rw [k3]; exact q1.pnodup
          · intro r; rw [k3, k1]; exact q1.pres r
          · intro r hr
            rw [k1] at hr
            have := q1.lt r hr
            omega
          · rw [k1, k2]; exact hc.sum
          · rw [k1, k5]; exact q1.bulk1
        have hn2 : ∀ r ∈ s2.buf.rs, 0 ≤ (s2.buf.heap r).qty := by
          intro r hr
          rw [k1] at hr
          rw [hsame r hr]
          exact q3 r hr
        -- the material that is pushed back
        have hback : ∀ b3, (if (s2.buf.heap a0).qty > eps then push .material eps s2.buf a0
            else (s2.buf, Except.ok ())) = (b3, Except.ok ()) →
            Inv b3 ∧ (∀ r ∈ b3.rs, 0 ≤ (b3.heap r).qty) ∧ b3.next = s2.buf.next ∧
            (∀ i ∈ b3.rs, i ∈ b.rs ∨ i = a0) ∧
            (∀ i, i ∉ b.rs → i ≠ a0 → b3.heap i = s2.buf.heap i) ∧
            b3.qty = s.buf.qty - min q s.buf.qty +
              (if eps < min q s.buf.qty - fills.sum then min q s.buf.qty - fills.sum else 0) := by
          intro b3 hb3
          rw [k7] at hb3
          by_cases hgt : min q s.buf.qty - fills.sum > eps
          · rw [if_pos hgt] at hb3
            obtain ⟨w1, w2⟩ := push_frame hb3
            rcases ResBuf.push_spec (k := .material) (eps := eps) hinv2
              (show a0 < s2.buf.next by omega) with ⟨e, he⟩ | ⟨s3, e1, e2, e3, -, e5, e6, -, -, e8, -⟩
            · rw [he] at hb3; cases hb3
            · rw [e1] at hb3
              cases hb3
              have hq3 : b3.qty = s.buf.qty - min q s.buf.qty +
                  (min q s.buf.qty - fills.sum) := by rw [e3, k2, q9, k7]
              refine ⟨e2, ?_, e6, ?_, ?_, by rw [hq3, if_pos hgt]⟩
              · intro r hr
                by_cases hcase : s2.buf.bulk = false ∨ s2.buf.rs = []
                · obtain ⟨e81, e82⟩ := e8 hcase
                  rw [e82]
                  rw [e81] at hr
                  rcases List.mem_append.1 hr with hr | hr
                  · exact hn2 r hr
                  · have : r = a0 := by simpa using hr
                    rw [this, k7]; linarith
                · have hbk : b3.bulk = true := by
                    rw [e5]
                    cases hbb : s2.buf.bulk with
                    | false => exact absurd (.inl hbb) hcase
                    | true => rfl
                  have hlen := e2.bulk1 hbk
                  have hrs : b3.rs = [r] := by
                    cases hl : b3.rs with
                    | nil => rw [hl] at hr; simp at hr
                    | cons x tl =>
                      rw [hl] at hlen hr
                      have : tl = [] := by simpa using hlen
                      subst this
                      have : r = x := by simpa using hr
                      rw [this]
                  have := e2.sum
                  rw [hrs] at this
                  simp only [ResBuf.totQty_cons, ResBuf.totQty_nil, add_zero] at this
                  rw [← this, hq3]
                  have : min q s.buf.qty ≤ s.buf.qty := min_le_right _ _
                  linarith
              · intro i hi'
                rw [← k1]
                exact w2 i hi'
              · intro i h1 h2
                exact w1 i (by rw [k1]; exact h1) h2
          · rw [if_neg hgt] at hb3
            cases hb3
            refine ⟨hinv2, hn2, rfl, ?_, fun _ _ _ => rfl, ?_⟩
            · intro i hi'
              rw [k1] at hi'
              exact .inl hi'
            · rw [k2, q9, if_neg hgt, add_zero]
        split at h
        · cases h
        · rename_i b3 hb3
          obtain ⟨t1, t2, t3, t4, t5, t6⟩ := hback b3 hb3
          have hrs3 : ∀ i ∈ b3.rs, i ∈ s.buf.rs ∨ s.buf.next ≤ i := by
            intro i hi'
            rcases t4 i hi' with h4 | h4
            · exact .inl (q2 i h4)
            · rw [h4]; exact q7
          have hfr3 : ∀ i, i < s.buf.next → i ∉ s.buf.rs → b3.heap i = s.buf.heap i := by
            intro i hil hir
            have hia : i ≠ a0 := by
              rintro rfl
              rcases q7 with h7 | h7
              · exact hir h7
              · omega
            rw [t5 i (fun hc => hir (q2 i hc)) hia, k8 i (by omega) hia, q11 i hil hir]
          have hpk : ∀ i, i < s.buf.next → s2.pkg i = s.pkg i := by
            intro i hil
            rw [k9 i (by omega), if_neg (by omega)]
          have hold : ∀ i ∈ b3.rs, s.buf.next ≤ i → s2.pkg i = 0 := by
            intro i h1 h2
            rw [k9 i ?_, if_pos h2]
            rcases t4 i h1 with h4 | h4
            · exact q1.lt i h4
            · rw [h4]; exact q5
          split at h
          · rename_i i0 tl
            cases h
            obtain ⟨f, ft, g1, g2, g3, g4, g5⟩ := k11 a tl rfl
            simp only at g4
            have hnb : a ∉ b3.rs := by
              intro hc
              rcases t4 a hc with h4 | h4
              · have := q1.lt a h4; omega
              · omega
            have hab : a ∉ b.rs := fun hc => by have := q1.lt a hc; omega
            refine ⟨t1, t2, hnb, by rw [t3]; exact g5, by rw [t3]; omega, .inr (by omega), hrs3, hfr3,
              hpk, hq10, hold, .inr ⟨fills, hfill, hx, t6, .inl ⟨rfl, g3, f, ft, g1, ?_⟩⟩⟩
            rw [t5 a hab (by omega)]
            exact g2
          · cases h
            have hlt3 : ∀ i ∈ b3.rs, i < b3.next := t1.lt
            refine ⟨?_, ?_, ?_, by simp, by simp only; omega, .inr (by omega), hrs3, ?_, ?_, hq10, ?_,
              .inr ⟨fills, hfill, hx, t6, .inr ⟨rfl, by simp, ?_, by simp⟩⟩⟩
            · refine ⟨t1.nodup, t1.pnodup, t1.pres, ?_, ?_, t1.bulk1⟩
              · intro r hr
                have := hlt3 r hr
                simp only
                omega
              · simp only
                rw [t1.sum]
                apply ResBuf.totQty_congr
                intro r hr
                have := hlt3 r hr
                rw [if_neg (by omega)]
            · intro r hr
              have := hlt3 r hr
              simp only
              rw [if_neg (by omega)]
              exact t2 r hr
            · intro hc
              have := hlt3 _ hc
              omega
            · intro i hil hir
              simp only
              rw [if_neg (by omega)]
              exact hfr3 i hil hir
            · intro i hil
              simp only
              rw [if_neg (by omega)]
              exact hpk i hil
            · intro i h1 h2
              simp only
              split
              · rfl
              · exact hold i h1 h2
            · have : fills.length = 0 := by rw [← k10]; rfl
              exact List.length_eq_zero_iff.1 this

/-! ## C48 -/

namespace Spec

/-- The quantity of the objects that are sent. -/
def sent (s : St) : List (ℕ × ℕ) → ℚ
  | [] => 0
  | r :: rs => (s.buf.heap r.2).qty + sent s rs

/-- The amount of a trade fits into one package: it is not near zero and at most the upper limit
(below it, if packages are filled at random). -/
def OnePackage (eps : ℚ) (p : Package.Pkg) (q : ℚ) : Prop :=
  2 * eps < q ∧ q ≤ p.fillMax ∧ ((p.strategy = .uniform ∨ p.strategy = .normal) → q < p.fillMax)

/-- Nothing has to be packaged: the policy sells unpackaged material and there is no other. -/
def Plain (p : Pol) (s : St) : Prop := p.pkgName = 0 ∧ ∀ i < s.buf.next, s.pkg i = 0

end Spec

open Spec

theorem toInt_small {z : ℤ} (h0 : -100 ≤ z) (h1 : z ≤ 100) : Package.toInt z = z := by
  unfold Package.toInt Package.intMin Package.intMax
  rw [if_pos (by omega)]

/-- An amount that fits into one package is put into one package, or not packaged. -/
theorem fill_one {eps : ℚ} {p : Package.Pkg} {raw : ℕ → ℚ} {fuel : ℕ} {x : ℚ} {l : List ℚ}
    (heps : 0 < eps) (h1 : eps < x) (h2 : x ≤ p.fillMax)
    (h3 : (p.strategy = .uniform ∨ p.strategy = .normal) → x < p.fillMax)
    (h : Package.getFillMass p eps raw fuel x = some (.ok l)) : l = [x] ∨ l = [] := by
  have hx : 0 < x := by linarith
  have hmax : 0 < p.fillMax := by linarith
  unfold Package.getFillMass at h
  split at h
  · cases h; right; rfl
  split at h
  · cases h
  have hfin : ∀ (y : ℚ) (acc l : List ℚ), Package.finish p eps y acc = .ok l →
      (l = acc ++ [y] ∧ max eps p.fillMin ≤ y) ∨ (l = acc) := by
    intro y acc l hf
    unfold Package.finish at hf
    simp only at hf
    by_cases hy : y ≥ max eps p.fillMin
    · rw [if_pos hy] at hf
      split at hf
      · cases hf
      · injection hf with hf
        left; exact ⟨hf.symm, hy⟩
    · rw [if_neg hy] at hf
      split at hf
      · cases hf
      · injection hf with hf
        right; exact hf.symm
  have hdet : min x (Package.fillMass p x) = x →
      (if Package.exceedsSplitLimits (Package.divFloor x (min x (Package.fillMass p x))) then
        some (Except.error Err.value)
       else some (Package.finish p eps
        (x - (Package.divFloor x (min x (Package.fillMass p x))) * (min x (Package.fillMass p x)))
        (List.replicate (Package.divFloor x (min x (Package.fillMass p x))).toNat
          (min x (Package.fillMass p x))))) = some (Except.ok l) → l = [x] ∨ l = [] := by
    intro hm hl
    have hfl : Package.divFloor x x = 1 := by
      unfold Package.divFloor
      rw [if_neg (ne_of_gt hx), div_self (ne_of_gt hx)]
      simp [toInt_small]
    rw [hm, hfl] at hl
    split at hl
    · cases hl
    · injection hl with hl
      rcases hfin _ _ _ hl with ⟨-, hc⟩ | hl
      · have := le_trans (le_max_left eps p.fillMin) hc
        norm_num at this
        linarith
      · left; rw [hl]; rfl
  have hrand : x < p.fillMax → (match Package.drawLoop p eps raw fuel 0 x [] with
      | none => none
      | some (rest, acc) => some (Package.finish p eps rest acc)) = some (Except.ok l) →
      l = [x] ∨ l = [] := by
    intro hlt hl
    cases fuel with
    | zero => simp [Package.drawLoop] at hl
    | succ fuel =>
      have : ¬ (x ≥ max eps p.fillMax) := not_le.2 (lt_of_lt_of_le hlt (le_max_right _ _))
      unfold Package.drawLoop at hl
      rw [if_neg this] at hl
      simp only at hl
      injection hl with hl
      rcases hfin _ _ _ hl with ⟨hl, -⟩ | hl
      · left; rw [hl]; rfl
      · right; exact hl
  cases hst : p.strategy with
  | first =>
    simp only [hst] at h
    apply hdet ?_ h
    simp only [Package.fillMass, hst]
    exact min_eq_left h2
  | equal =>
    simp only [hst] at h
    apply hdet ?_ h
    simp only [Package.fillMass, hst]
    have hc : Package.divCeil x p.fillMax = 1 := by
      unfold Package.divCeil
      have h5 : ⌈x / p.fillMax⌉ = 1 := by
        rw [Int.ceil_eq_iff]
        constructor
        · simp only [Int.cast_one, sub_self]
          exact div_pos hx hmax
        · simp only [Int.cast_one]
          rw [div_le_one hmax]
          exact h2
      rw [if_neg (ne_of_gt hmax), h5, toInt_small (by norm_num) (by norm_num)]
    rw [hc]
    split
    · norm_num
    · exact min_eq_left h2
  | uniform =>
    simp only [hst] at h
    exact hrand (h3 (.inl hst)) h
  | normal =>
    simp only [hst] at h
    exact hrand (h3 (.inr hst)) h

theorem sent_congr {s s' : St} {rs : List (ℕ × ℕ)}
    (h : ∀ r ∈ rs, s'.buf.heap r.2 = s.buf.heap r.2) : sent s' rs = sent s rs := by
  induction rs with
  | nil => rfl
  | cons r rs ih =>
    simp only [sent, h r (by simp), ih (fun x hx => h x (List.mem_cons_of_mem _ hx))]

/-- The loop over the trades, for trades that each conserve the quantity. -/
theorem tradeLoop_balance {eps : ℚ} {fuel : ℕ} {raw : ℕ → ℕ → ℚ} {p : Pol} (heps : 0 < eps)
    (P : St → Prop)
    (Q : ℚ → Prop)
    (hP : ∀ (s s' : St) (raw : ℕ → ℚ) (q : ℚ) (a : ℕ) (dec : Bool), Inv s.buf →
      (∀ r ∈ s.buf.rs, 0 ≤ (s.buf.heap r).qty) → P s → Q q → 0 ≤ q →
      trade eps fuel raw p s q = some (s', .ok (a, dec)) →
      P s' ∧ s.buf.qty = s'.buf.qty + (s'.buf.heap a).qty) :
    ∀ (qs : List ℚ) (i : ℕ) (ship : ℤ) (s s' : St) (rs : List (ℕ × ℕ)), Inv s.buf →
      (∀ r ∈ s.buf.rs, 0 ≤ (s.buf.heap r).qty) → P s → (∀ q ∈ qs, 0 ≤ q ∧ Q q) →
      tradeLoop eps fuel raw p i ship s qs = some (s', .ok rs) →
      s.buf.qty = s'.buf.qty + sent s' rs ∧
      (∀ j, j < s.buf.next → j ∉ s.buf.rs → s'.buf.heap j = s.buf.heap j) := by
  intro qs
  induction qs with
  | nil =>
    intro i ship s s' rs hi hn hp hq h
    simp only [tradeLoop] at h
    cases h
    simp [sent]
  | cons q qs ih =>
    intro i ship s s' rs hi hn hp hq h
    simp only [tradeLoop] at h
    split at h
    · split at h
      · cases h
      · cases h
      · rename_i s1 a dec htr
        obtain ⟨h0, hQ⟩ := hq q (by simp)
        obtain ⟨hp1, hbal⟩ := hP s s1 _ q a dec hi hn hp hQ h0 htr
        obtain ⟨e1, e2, e3, e4, e5, e6, e7, e8, -⟩ := trade_spec heps hi hn h0 htr
        split at h
        · cases h
        · cases h
        · rename_i s2 rs2 hl
          cases h
          obtain ⟨j1, j2⟩ := ih _ _ s1 s' rs2 e1 e2 hp1
            (fun x hx => hq x (List.mem_cons_of_mem _ hx)) hl
          refine ⟨?_, ?_⟩
          · simp only [sent]
            rw [j2 a e4 e3, hbal, j1]
            ring
          · intro j hj hjr
            rw [j2 j (by omega) ?_, e8 j hj hjr]
            intro hc
            rcases e7 j hc with h7 | h7
            · exact hjr h7
            · omega
    · exact ih _ _ s s' rs hi hn hp (fun x hx => hq x (List.mem_cons_of_mem _ hx)) h

/-- **C48 (partial), packages**: what leaves the buffer equals what is in the responses, if each
trade fits into one package.  Missing: trades that are divided into several packages, of which only
the first is sent (`C48_fails_packages`), and amounts within `2 * eps`, of which a remainder up to
`eps` is dropped (`C48_fails_small`). -/
theorem C48_packages_partial {eps : ℚ} {fuel : ℕ} {raw : ℕ → ℕ → ℚ} {p : Pol} {s s' : St}
    {qs : List ℚ} {rs : List (ℕ × ℕ)} (heps : 0 < eps) (hR : Reachable .material eps s.buf)
    (hq : ∀ q ∈ qs, OnePackage eps p.pkg q)
    (h : getTrades eps fuel raw p s qs = some (s', .ok rs)) :
    s.buf.qty = s'.buf.qty + sent s' rs := by
  unfold getTrades at h
  split at h
  · cases h
  · refine (tradeLoop_balance heps (fun _ => True) (OnePackage eps p.pkg) ?_ qs 0 _ s s' rs hR.inv
      (fun r _ => hR.nn r) trivial (fun q hq' => ⟨?_, hq q hq'⟩) h).1
    · intro s s' raw q a dec hi hn _ hQ h0 htr
      refine ⟨trivial, ?_⟩
      obtain ⟨-, -, -, -, -, -, -, -, -, hle, -, hcase⟩ := trade_spec heps hi hn h0 htr
      obtain ⟨g1, g2, g3⟩ := hQ
      rcases hcase with ⟨-, e1, e2, -⟩ | ⟨fills, hf, -, e1, e2⟩
      · rw [e1, e2]; ring
      · have hxle : min q s.buf.qty ≤ q := min_le_left _ _
        have hlt : eps < min q s.buf.qty := by linarith
        have hone := fill_one heps hlt (by linarith) (fun hs => lt_of_le_of_lt hxle (g3 hs)) hf
        rcases hone with rfl | rfl
        · rcases e2 with ⟨-, -, f, fs, ef, e2⟩ | ⟨-, -, ef, -⟩
          · cases ef
            rw [e1, e2]
            simp only [List.sum_cons, List.sum_nil, add_zero, sub_self]
            rw [if_neg (by linarith)]
            ring
          · cases ef
        · rcases e2 with ⟨-, -, f, fs, ef, -⟩ | ⟨-, -, -, e2⟩
          · cases ef
          · rw [e1, e2]
            simp only [List.sum_nil, sub_zero]
            rw [if_pos hlt]
            ring
    · have := (hq q hq').1
      linarith

/-- **C48 (partial), plain**: what leaves the buffer equals what is in the responses, if nothing has
to be packaged. -/
theorem C48_plain_partial {eps : ℚ} {fuel : ℕ} {raw : ℕ → ℕ → ℚ} {p : Pol} {s s' : St}
    {qs : List ℚ} {rs : List (ℕ × ℕ)} (heps : 0 < eps) (hR : Reachable .material eps s.buf)
    (hplain : Plain p s) (hq : ∀ q ∈ qs, 0 ≤ q)
    (h : getTrades eps fuel raw p s qs = some (s', .ok rs)) :
    s.buf.qty = s'.buf.qty + sent s' rs := by
  unfold getTrades at h
  split at h
  · cases h
  · refine (tradeLoop_balance heps (Plain p) (fun _ => True) ?_ qs 0 _ s s' rs hR.inv
      (fun r _ => hR.nn r) hplain (fun q hq' => ⟨hq q hq', trivial⟩) h).1
    intro s s' raw q a dec hi hn hp _ h0 htr
    have hnew : ∀ i, s'.pkg i = 0 ∨ i < s.buf.next := by
      intro i
      unfold trade at htr
      split at htr
      · cases htr
      · rename_i b a0 _
        simp only at htr
        by_cases hc : p.pkgName = (if s.buf.next ≤ a0 then 0 else s.pkg a0)
        · rw [if_pos hc] at htr
          cases htr
          simp only
          by_cases hi' : s.buf.next ≤ i
          · left; rw [if_pos hi']
          · right; omega
        · exfalso
          apply hc
          rw [hp.1]
          split
          · rfl
          · rw [hp.2 a0 (by omega)]
    obtain ⟨-, -, -, -, e5, -, -, -, e9, -, -, hcase⟩ := trade_spec heps hi hn h0 htr
    rcases hcase with ⟨-, e1, e2, -⟩ | ⟨fills, hf, ⟨x, hx1, hx2⟩, -⟩
    · refine ⟨⟨hp.1, fun i hi' => ?_⟩, by rw [e1, e2]; ring⟩
      rcases hnew i with h' | h'
      · exact h'
      · rw [e9 i h', hp.2 i h']
    · exfalso
      rw [hp.1] at hx1
      rcases hx2 with ⟨i, hi', rfl⟩ | rfl
      · exact hx1 (hp.2 i hi')
      · exact hx1 rfl

/-- A buffer with one unpackaged material of 10. -/
def exSt : St := ⟨ResBuf.run .material (1 / 100) (ResBuf.init false)
  [.create ⟨10, 0, true⟩, .push 0], fun _ => 0⟩

theorem exSt_reachable : Reachable .material (1 / 100) exSt.buf := by
  refine ⟨false, _, by decide +kernel, ?_, ?_, rfl⟩
  · simp [ResBuf.FairProgram, ResBuf.Fair]
  · simp

/-- A policy that sells in packages of 1 to 4. -/
def exPol : Pol := ⟨0, 1000, ⟨1, 4, .first⟩, 7, ⟨0, 1000, .first, true⟩⟩

/-- The part of a run that is data. -/
def view (o : Option (Outcome St (List (ℕ × ℕ)))) : Option (ℚ × Option (List (ℕ × ℚ))) :=
  o.map fun o => (o.1.buf.qty,
    match o.2 with
    | .ok rs => some (rs.map fun r => (r.1, (o.1.buf.heap r.2).qty))
    | .error _ => none)

/-- Two trades of one package each, and one below the lower limit, which is answered by nothing:
the hypotheses of the partial theorems hold. -/
example : view (getTrades (1 / 100) 5 (fun _ _ => 0) exPol exSt [3, 4, 1 / 2]) =
      some (3, some [(0, 3), (1, 4), (2, 0)]) ∧
    (∀ q ∈ [(3 : ℚ), 4, 1 / 2], OnePackage (1 / 100) exPol.pkg q) ∧
    Plain { exPol with pkgName := 0 } exSt := by
  refine ⟨by decide +kernel, ?_, rfl, fun _ _ => rfl⟩
  intro q hq
  simp only [List.mem_cons, List.not_mem_nil, or_false] at hq
  have hf : exPol.pkg.fillMax = 4 := rfl
  have hstr : ¬ (exPol.pkg.strategy = .uniform ∨ exPol.pkg.strategy = .normal) := by decide
  rcases hq with rfl | rfl | rfl <;>
    exact ⟨by norm_num, by norm_num [hf], fun hc => absurd hc hstr⟩

/-- A trade that is divided into several packages: only the first one is sent, the others are
lost. -/
theorem C48_fails_packages : ∃ (p : Pol) (s : St) (q : ℚ), Reachable .material (1 / 100) s.buf ∧
    view (getTrades (1 / 100) 5 (fun _ _ => 0) p s [q]) = some (0, some [(0, 4)]) ∧
    s.buf.qty = 10 :=
  ⟨exPol, exSt, 10, exSt_reachable, by decide +kernel, by decide +kernel⟩

/-- A remainder of at most `eps` is neither sent nor put back. -/
theorem C48_fails_small : ∃ (p : Pol) (s : St) (q : ℚ), Reachable .material (1 / 100) s.buf ∧
    view (getTrades (1 / 100) 5 (fun _ _ => 0) p s [q]) = some (10 - 1 / 200, some [(0, 0)]) ∧
    s.buf.qty = 10 :=
  ⟨exPol, exSt, 1 / 200, exSt_reachable, by decide +kernel, by decide +kernel⟩

/-! ## C70 -/

theorem limit_le {p : Pol} {q : ℚ} (hq : 0 ≤ q) : p.limit q ≤ p.throughput ∧ p.limit q ≤ q := by
  refine ⟨min_le_left _ _, le_trans (min_le_right _ _) ?_⟩
  cases he : p.excl with
  | false => simp
  | true =>
    have hz : 0 < p.quantize := by simpa [Pol.excl] using he
    simp only [if_true]
    unfold Package.divFloor Package.toInt
    rw [if_neg (ne_of_gt hz)]
    split
    · have := Int.floor_le (q / p.quantize)
      rw [le_div_iff₀ hz] at this
      linarith
    · have : p.quantize * ((Package.intMin : ℤ) : ℚ) ≤ 0 := by
        apply mul_nonpos_of_nonneg_of_nonpos (le_of_lt hz)
        norm_num [Package.intMin]
      linarith

/-- Packages are not negative, and positive if they are filled to the same mass. -/
theorem fill_nonneg {eps : ℚ} {p : Package.Pkg} {raw : ℕ → ℚ} {fuel : ℕ} {x : ℚ} {l : List ℚ}
    (heps : 0 < eps) (hmin : 0 ≤ p.fillMin) (hx : 0 ≤ x)
    (hraw : p.strategy = .uniform → ∀ i, p.fillMin ≤ raw i ∧ raw i ≤ p.fillMax)
    (h : Package.getFillMass p eps raw fuel x = some (.ok l)) :
    (∀ m ∈ l, 0 ≤ m) ∧ ((p.strategy = .first ∨ p.strategy = .equal) → ∀ m ∈ l, 0 < m) := by
  unfold Package.getFillMass at h
  split at h
  · cases h; simp
  split at h
  · cases h
  have hfin : ∀ (y : ℚ) (acc l : List ℚ), Package.finish p eps y acc = .ok l →
      (∀ m ∈ l, m ∈ acc ∨ 0 < m) := by
    intro y acc l hf
    unfold Package.finish at hf
    simp only at hf
    by_cases hy : y ≥ max eps p.fillMin
    · rw [if_pos hy] at hf
      split at hf
      · cases hf
      · injection hf with hf
        subst hf
        intro m hm
        rcases List.mem_append.1 hm with hm | hm
        · exact .inl hm
        · have : m = y := by simpa using hm
          rw [this]
          exact .inr (lt_of_lt_of_le (lt_of_lt_of_le heps (le_max_left _ _)) hy)
    · rw [if_neg hy] at hf
      split at hf
      · cases hf
      · injection hf with hf
        subst hf
        exact fun m hm => .inl hm
  have hdet : ∀ f : ℚ,
      (if Package.exceedsSplitLimits (Package.divFloor x f) then some (Except.error Err.value)
       else some (Package.finish p eps (x - (Package.divFloor x f) * f)
        (List.replicate (Package.divFloor x f).toNat f))) = some (Except.ok l) → ∀ m ∈ l, 0 < m := by
    intro f hl m hm
    split at hl
    · cases hl
    · injection hl with hl
      rcases hfin _ _ _ hl m hm with hm | hm
      · obtain ⟨hne, rfl⟩ := List.mem_replicate.1 hm
        have hpos : 0 < Package.divFloor x m := by omega
        unfold Package.divFloor Package.toInt at hpos
        split at hpos
        · norm_num [Package.intMin] at hpos
        · rename_i hm0
          split at hpos
          · by_contra hneg
            have : x / m ≤ 0 := div_nonpos_of_nonneg_of_nonpos hx (not_lt.1 hneg)
            have h2 : (0 : ℚ) < (⌊x / m⌋ : ℚ) := by exact_mod_cast hpos
            have h3 := Int.floor_le (x / m)
            linarith
          · norm_num [Package.intMin] at hpos
      · exact hm
  have hrand : (p.strategy ≠ .normal → ∀ i, p.fillMin ≤ raw i ∧ raw i ≤ p.fillMax) →
      (match Package.drawLoop p eps raw fuel 0 x [] with
      | none => none
      | some (rest, acc) => some (Package.finish p eps rest acc)) = some (Except.ok l) →
      ∀ m ∈ l, 0 ≤ m := by
    intro hraw hl m hm
    have hdraw : ∀ (fuel pos : ℕ) (q : ℚ) (acc : List ℚ) (rest : ℚ) (out : List ℚ),
        (∀ m ∈ acc, 0 ≤ m) → Package.drawLoop p eps raw fuel pos q acc = some (rest, out) →
        ∀ m ∈ out, 0 ≤ m := by
      intro fuel
      induction fuel with
      | zero => intro pos q acc rest out _ h; simp [Package.drawLoop] at h
      | succ f ih =>
        intro pos q acc rest out hacc h
        unfold Package.drawLoop at h
        split at h
        · split at h
          · cases h
          · rename_i y pos' hs
            obtain ⟨hy, -⟩ := Package.sample_spec hraw hs
            refine ih _ _ _ _ _ ?_ h
            intro m hm
            rcases List.mem_append.1 hm with hm | hm
            · exact hacc m hm
            · have : m = y := by simpa using hm
              rw [this]; linarith
        · cases h; exact hacc
    split at hl
    · cases hl
    · rename_i rest acc hd
      injection hl with hl
      rcases hfin _ _ _ hl m hm with hm | hm
      · exact hdraw _ _ _ _ _ _ (by simp) hd m hm
      · exact le_of_lt hm
  cases hst : p.strategy with
  | first =>
    simp only [hst] at h
    exact ⟨fun m hm => le_of_lt (hdet _ h m hm), fun _ => hdet _ h⟩
  | equal =>
    simp only [hst] at h
    exact ⟨fun m hm => le_of_lt (hdet _ h m hm), fun _ => hdet _ h⟩
  | uniform =>
    simp only [hst] at h
    exact ⟨hrand (fun _ => hraw hst) h, by simp⟩
  | normal =>
    simp only [hst] at h
    exact ⟨hrand (fun hc => absurd hst hc) h, by simp⟩

theorem sum_take_le {l : List ℚ} (h : ∀ m ∈ l, 0 ≤ m) (n : ℕ) : (l.take n).sum ≤ l.sum := by
  have := List.sum_take_add_sum_drop l n
  have h0 : 0 ≤ (l.drop n).sum := List.sum_nonneg fun m hm => h m (List.mem_of_mem_drop hm)
  linarith

theorem create_ok {a c : ℚ} {st : Package.Strategy} {p : Package.Pkg}
    (h : Package.create a c st = .ok p) :
    p = ⟨a, c, st⟩ ∧ 0 ≤ a ∧ a ≤ c := by
  unfold Package.create at h
  split at h
  · cases h
  split at h
  · cases h
  split at h
  · cases h
  · cases h
    rename_i h1 h2 _
    push Not at h1 h2
    exact ⟨rfl, h1.1, h2⟩

/-- What is bid on one request. -/
theorem bidsFor_spec {eps a c : ℚ} {st : Package.Strategy} {fuel : ℕ} {raw : ℕ → ℚ} {p : Pol}
    {limit req : ℚ} {b : List ℚ} (hp : Package.create a c st = .ok p.pkg) (heps : 0 < eps)
    (hraw : st = .uniform → ∀ i, a ≤ raw i ∧ raw i ≤ c) (hreq : 0 ≤ req) (hlim : 0 ≤ limit)
    (h : p.bidsFor eps fuel raw limit req = some (.ok b)) :
    b.sum ≤ min req limit ∧
    (0 < p.quantize → ∀ x ∈ b, x = p.quantize) ∧
    (¬ 0 < p.quantize → ∀ x ∈ b, x ≤ c) ∧
    (∃ m : ℕ, ∃ n : ℤ, TransportUnit.maxShippable p.tu fuel (Package.toInt m) = some n ∧
      b.length ≤ m ∧ (b.length = m ∨ (b.length : ℤ) = max 0 n)) := by
  unfold Pol.bidsFor at h
  simp only at h
  have hmin : 0 ≤ min req limit := le_min hreq hlim
  generalize hbb : (if p.excl = true then
      some (if Package.divFloor (min req limit) p.quantize < 0 then Except.error Err.generic
        else Except.ok (List.replicate (Package.divFloor (min req limit) p.quantize).toNat p.quantize))
      else Package.getFillMass p.pkg eps raw fuel (min req limit)) = bb at h
  cases bb with
  | none => cases h
  | some bb =>
    cases bb with
    | error e => cases h
    | ok bids =>
      simp only at h
      have hall : bids.sum ≤ min req limit ∧ (0 < p.quantize → ∀ x ∈ bids, x = p.quantize) ∧
          (¬ 0 < p.quantize → ∀ x ∈ bids, x ≤ c) ∧ ∀ n, (bids.take n).sum ≤ min req limit := by
        cases he : p.excl with
        | true =>
          have hz : 0 < p.quantize := by simpa [Pol.excl] using he
          rw [he, if_pos rfl] at hbb
          split at hbb
          · cases hbb
          · rename_i hneg
            injection hbb with hbb
            injection hbb with hbb
            have hdf : ((Package.divFloor (min req limit) p.quantize).toNat : ℚ) * p.quantize ≤
                min req limit := by
              unfold Package.divFloor Package.toInt at hneg ⊢
              rw [if_neg (ne_of_gt hz)] at hneg ⊢
              split
              · rename_i hin
                rw [if_pos hin] at hneg
                have hfl := Int.floor_le (min req limit / p.quantize)
                rw [le_div_iff₀ hz] at hfl
                have hc : ((⌊min req limit / p.quantize⌋.toNat : ℕ) : ℚ) =
                    (⌊min req limit / p.quantize⌋ : ℚ) := by
                  have : ((⌊min req limit / p.quantize⌋.toNat : ℕ) : ℤ) =
                      ⌊min req limit / p.quantize⌋ := Int.toNat_of_nonneg (not_lt.1 hneg)
                  exact_mod_cast this
                rw [hc]; exact hfl
              · rename_i hin
                rw [if_neg hin] at hneg
                exact absurd (by norm_num [Package.intMin]) hneg
            subst hbb
            refine ⟨?_, fun _ x hx => List.eq_of_mem_replicate hx, fun hn => absurd hz hn, ?_⟩
            · rw [List.sum_replicate, nsmul_eq_mul]; exact hdf
            · intro n
              rw [List.take_replicate, List.sum_replicate, nsmul_eq_mul]
              refine le_trans (mul_le_mul_of_nonneg_right ?_ (le_of_lt hz)) hdf
              exact_mod_cast min_le_right _ _
        | false =>
          have hz : ¬ 0 < p.quantize := by simpa [Pol.excl] using he
          rw [he, if_neg (by simp)] at hbb
          obtain ⟨f1, f2, -⟩ := Package.C06_fill_masses a c st p.pkg eps raw fuel _ bids hp heps hraw
            hbb
          rw [max_eq_left hmin] at f2
          obtain ⟨he1, he2, -⟩ := create_ok hp
          have hnn := (fill_nonneg (p := p.pkg) heps (by rw [he1]; exact he2) hmin
            (by rw [he1]; exact hraw) hbb).1
          exact ⟨f2, fun h => absurd h hz, fun _ x hx => (f1 x hx).2,
            fun n => le_trans (sum_take_le hnn n) f2⟩
      obtain ⟨g1, g2, g3, g4⟩ := hall
      split at h
      · cases h
      · rename_i n hship
        injection h with h
        injection h with h
        subst h
        split
        · rename_i hlt
          have hlen : (bids.take n.toNat).length = n.toNat := by
            rw [List.length_take]; omega
          refine ⟨g4 _, fun hz x hx => g2 hz x (List.mem_of_mem_take hx),
            fun hz x hx => g3 hz x (List.mem_of_mem_take hx), bids.length, n, hship, ?_, ?_⟩
          · rw [hlen]; omega
          · right; rw [hlen]; omega
        · exact ⟨g1, g2, g3, bids.length, n, hship, le_refl _, .inl rfl⟩

/-- **C70, bids**: a portfolio of bids has a capacity of at most what is in the buffer and the
throughput; the bids on a request do not add up to more than the request or the capacity; with a
quantum each bid is for one quantum, otherwise it is at most the upper limit of the package; and the
number of bids on a request is the number of packages that there would be, or what the transport
unit admits of them. -/
theorem C70_bids {eps a c : ℚ} {st : Package.Strategy} {fuel : ℕ} {raw : ℕ → ℕ → ℚ} {p : Pol}
    {empty : Bool} {q cap : ℚ} {reqs : List ℚ} {bs : List (List ℚ)}
    (hp : Package.create a c st = .ok p.pkg) (heps : 0 < eps)
    (hraw : st = .uniform → ∀ j i, a ≤ raw j i ∧ raw j i ≤ c) (hreq : ∀ r ∈ reqs, 0 ≤ r)
    (h : p.getBids eps fuel raw empty q reqs = some (.ok (some (cap, bs)))) :
    empty = false ∧ eps ≤ cap ∧ cap ≤ q ∧ cap ≤ p.throughput ∧ bs.length = reqs.length ∧
    ∀ (i : ℕ) (b : List ℚ), bs[i]? = some b → ∃ r, reqs[i]? = some r ∧
      b.sum ≤ r ∧ b.sum ≤ cap ∧
      (0 < p.quantize → ∀ x ∈ b, x = p.quantize) ∧
      (¬ 0 < p.quantize → ∀ x ∈ b, x ≤ c) ∧
      (∃ m : ℕ, ∃ n : ℤ, TransportUnit.maxShippable p.tu fuel (Package.toInt m) = some n ∧
        b.length ≤ m ∧ (b.length = m ∨ (b.length : ℤ) = max 0 n)) := by
  unfold Pol.getBids at h
  simp only at h
  split at h
  · cases h
  · rename_i hc
    simp only [Bool.or_eq_true, decide_eq_true_eq, not_or, not_lt, Bool.not_eq_true] at hc
    obtain ⟨⟨h1, h2⟩, h3⟩ := hc
    split at h
    · cases h
    · cases h
    · rename_i bs' hl
      cases h
      have hlim := limit_le (p := p) (q := q) (by linarith)
      refine ⟨h1, h3, hlim.2, hlim.1, ?_⟩
      have key : ∀ (reqs : List ℚ) (i : ℕ) (bs : List (List ℚ)), (∀ r ∈ reqs, 0 ≤ r) →
          p.bidsLoop eps fuel raw (p.limit q) i reqs = some (.ok bs) →
          bs.length = reqs.length ∧ ∀ (j : ℕ) (b : List ℚ), bs[j]? = some b →
            ∃ r, reqs[j]? = some r ∧ b.sum ≤ r ∧ b.sum ≤ p.limit q ∧
            (0 < p.quantize → ∀ x ∈ b, x = p.quantize) ∧
            (¬ 0 < p.quantize → ∀ x ∈ b, x ≤ c) ∧
            (∃ m : ℕ, ∃ n : ℤ,
              TransportUnit.maxShippable p.tu fuel (Package.toInt m) = some n ∧
              b.length ≤ m ∧ (b.length = m ∨ (b.length : ℤ) = max 0 n)) := by
        intro reqs
        induction reqs with
        | nil =>
          intro i bs _ hb
          simp only [Pol.bidsLoop] at hb
          cases hb
          simp
        | cons r reqs ih =>
          intro i bs hr hb
          simp only [Pol.bidsLoop] at hb
          split at hb
          · cases hb
          · cases hb
          · rename_i b0 hb0
            split at hb
            · cases hb
            · cases hb
            · rename_i bs0 hbs0
              cases hb
              obtain ⟨i1, i2⟩ := ih (i + 1) bs0 (fun x hx => hr x (List.mem_cons_of_mem _ hx)) hbs0
              refine ⟨by simp [i1], ?_⟩
              intro j b hj
              cases j with
              | zero =>
                have : b0 = b := by simpa using hj
                subst this
                obtain ⟨g1, g2, g3, g4⟩ := bidsFor_spec hp heps (fun hs => hraw hs i)
                  (hr r (by simp)) (by linarith) hb0
                exact ⟨r, rfl, le_trans g1 (min_le_left _ _), le_trans g1 (min_le_right _ _), g2, g3,
                  g4⟩
              | succ j =>
                obtain ⟨r', k1, k2⟩ := i2 j b (by simpa using hj)
                exact ⟨r', by simpa using k1, k2⟩
      exact key reqs 0 bs hreq hl

/-- **C70, packages for quanta**: a policy with a quantum accepts a package only if a quantum fills
exactly one package. -/
theorem C70_quantum {eps a c : ℚ} {st : Package.Strategy} {fuel : ℕ} {raw : ℕ → ℚ} {p p' : Pol}
    {pkg : Package.Pkg} {name : ℕ} (hp : Package.create a c st = .ok pkg) (heps : 0 < eps)
    (hq : 0 < p.quantize) (hname : name ≠ 0)
    (h : p.setPackage eps fuel raw pkg name = some (p', .ok ())) :
    p'.pkg = pkg ∧ p'.pkgName = name ∧
      Package.getFillMass pkg eps raw fuel p.quantize = some (.ok [p.quantize]) := by
  unfold Pol.setPackage at h
  rw [if_pos ⟨hq, hname⟩] at h
  split at h
  · rename_i hst
    split at h
    · cases h
    · cases h
    · cases h
    · rename_i f fs hf
      split at h
      · cases h
      · rename_i hc
        cases h
        push Not at hc
        obtain ⟨rfl, hc⟩ := hc
        obtain ⟨he1, he2, -⟩ := create_ok hp
        have hnu : st ≠ .uniform := by
          rw [he1] at hst
          rcases hst with hst | hst <;> (simp only at hst; rw [hst]; simp)
        have hpos := (fill_nonneg (p := pkg) heps (by rw [he1]; exact he2) (le_of_lt hq)
          (by rw [he1]; intro hu; exact absurd hu hnu) hf).2 hst f (by simp)
        obtain ⟨-, f2, -⟩ := Package.C06_fill_masses a c st pkg eps raw fuel _ [f] hp heps
          (fun hu => absurd hu hnu) hf
        rw [max_eq_left (le_of_lt hq)] at f2
        simp only [List.sum_cons, List.sum_nil, add_zero] at f2
        refine ⟨rfl, rfl, ?_⟩
        have hfq : f = p.quantize := by
          by_contra hne
          have hlt : f < p.quantize := lt_of_le_of_ne f2 hne
          have hz : ⌊f / p.quantize⌋ = 0 := by
            rw [Int.floor_eq_iff]
            constructor
            · simp only [Int.cast_zero]
              exact le_of_lt (div_pos hpos hq)
            · simp only [Int.cast_zero, zero_add]
              rw [div_lt_one hq]
              exact hlt
          rw [hz] at hc
          simp at hc
          linarith
        rw [hf, hfq]
  · cases h

/-- A policy with packages of 1 to 4 and a transport unit for two packages bids 4 and 4 on a request
of 9: the hypotheses of `C70_bids` hold. -/
example : Package.create 1 4 .first = .ok exPol.pkg ∧
    ({ exPol with tu := ⟨2, 2, .first, false⟩ }).getBids (1 / 100) 5 (fun _ _ => 0) false 10 [9, 3] =
      some (.ok (some (10, [[4, 4], []]))) := by
  constructor <;> decide +kernel

/-- A quantum of 3 fits the packages: the hypotheses of `C70_quantum` hold. -/
example : ({ exPol with quantize := 3 }).setPackage (1 / 100) 5 (fun _ => 0) ⟨1, 4, .first⟩ 7 =
    some ({ exPol with quantize := 3 }, .ok ()) := by decide +kernel

/-- A quantum below the lower limit of the package is not rejected with an exception: the code reads
the first element of an empty vector. -/
theorem C70_fails_empty : ∃ (p : Pol) (pkg : Package.Pkg), Package.create 2 4 .first = .ok pkg ∧
    p.quantize = 1 ∧ p.setPackage (1 / 100) 5 (fun _ => 0) pkg 7 = none :=
  ⟨{ exPol with quantize := 1 }, ⟨2, 4, .first⟩, by decide +kernel, rfl, by decide +kernel⟩

/-! ## C71 -/

namespace Spec

/-- The number of objects that are sent in packages of the given name. -/
def packaged (s : St) (name : ℕ) : List (ℕ × ℕ) → ℕ
  | [] => 0
  | r :: rs => (if s.pkg r.2 = name then 1 else 0) + packaged s name rs

end Spec

theorem tradeLoop_count {eps : ℚ} {fuel : ℕ} {raw : ℕ → ℕ → ℚ} {p : Pol} (heps : 0 < eps)
    (hname : p.pkgName ≠ 0) :
    ∀ (qs : List ℚ) (i : ℕ) (ship : ℤ) (s s' : St) (rs : List (ℕ × ℕ)), Inv s.buf →
      (∀ r ∈ s.buf.rs, 0 ≤ (s.buf.heap r).qty) → (∀ r ∈ s.buf.rs, s.pkg r ≠ p.pkgName) →
      (∀ q ∈ qs, 0 ≤ q) → tradeLoop eps fuel raw p i ship s qs = some (s', .ok rs) →
      (packaged s' p.pkgName rs : ℤ) ≤ max 0 ship ∧
      (∀ j, j < s.buf.next → s'.pkg j = s.pkg j) ∧ (ship ≤ 0 → rs = []) := by
  intro qs
  induction qs with
  | nil =>
    intro i ship s s' rs hi hn hp hq h
    simp only [tradeLoop] at h
    cases h
    simp [packaged]
  | cons q qs ih =>
    intro i ship s s' rs hi hn hp hq h
    simp only [tradeLoop] at h
    split at h
    · rename_i hship
      split at h
      · cases h
      · cases h
      · rename_i s1 a dec htr
        obtain ⟨e1, e2, e3, e4, e5, e6, e7, e8, e9, -, e10, hcase⟩ :=
          trade_spec heps hi hn (hq q (by simp)) htr
        have hp1 : ∀ r ∈ s1.buf.rs, s1.pkg r ≠ p.pkgName := by
          intro r hr
          by_cases hlt : s.buf.next ≤ r
          · rw [e10 r hr hlt]; exact fun hc => hname hc.symm
          · rcases e7 r hr with h7 | h7
            · rw [e9 r (by omega)]; exact hp r h7
            · omega
        have hdec : s1.pkg a = p.pkgName → dec = true := by
          intro hpk
          rcases hcase with ⟨-, -, -, -, hc⟩ | ⟨_, _, _, _, hc⟩
          · exfalso
            rcases hc with ⟨hc1, hc2⟩ | ⟨-, hc⟩
            · rcases e6 with h6 | h6
              · exact hp a h6 hc2
              · omega
            · exact hname hc
          · rcases hc with ⟨hc, -⟩ | ⟨-, hc, -⟩
            · exact hc
            · rw [hc] at hpk; exact absurd hpk.symm hname
        split at h
        · cases h
        · cases h
        · rename_i s2 rs2 hl
          cases h
          obtain ⟨j1, j2, -⟩ := ih _ _ s1 s' rs2 e1 e2 hp1
            (fun x hx => hq x (List.mem_cons_of_mem _ hx)) hl
          refine ⟨?_, ?_, fun hc => by omega⟩
          · simp only [packaged]
            rw [j2 a e4]
            by_cases hpk : s1.pkg a = p.pkgName
            · rw [hdec hpk] at j1
              rw [if_pos hpk]
              simp only [if_true] at j1
              push_cast
              omega
            · rw [if_neg hpk]
              push_cast
              cases dec with
              | true => simp only [if_true] at j1; omega
              | false => simp only [Bool.false_eq_true, if_false] at j1; omega
          · intro j hj
            rw [j2 j (by omega), e9 j hj]
    · rename_i hship
      obtain ⟨j1, j2, j3⟩ := ih _ _ s s' rs hi hn hp (fun x hx => hq x (List.mem_cons_of_mem _ hx)) h
      exact ⟨j1, j2, j3⟩

/-- **C71 (partial)**: a policy that packages what it sells sends no more packages in a step than
its transport unit admits of the number of trades.  Missing: material that needs no packaging
(`C71_fails_plain`). -/
theorem C71_transport_partial {eps : ℚ} {fuel : ℕ} {raw : ℕ → ℕ → ℚ} {p : Pol} {s s' : St}
    {qs : List ℚ} {rs : List (ℕ × ℕ)} (heps : 0 < eps) (hR : Reachable .material eps s.buf)
    (hname : p.pkgName ≠ 0) (hnot : ∀ r ∈ s.buf.rs, s.pkg r ≠ p.pkgName) (hq : ∀ q ∈ qs, 0 ≤ q)
    (h : getTrades eps fuel raw p s qs = some (s', .ok rs)) :
    ∃ n, TransportUnit.maxShippable p.tu fuel (Package.toInt qs.length) = some n ∧
      (packaged s' p.pkgName rs : ℤ) ≤ max 0 n ∧ (n ≤ 0 → rs = []) := by
  unfold getTrades at h
  split at h
  · cases h
  · rename_i n hn
    obtain ⟨h1, -, h3⟩ := tradeLoop_count heps hname qs 0 n s s' rs hR.inv (fun r _ => hR.nn r) hnot
      hq h
    exact ⟨n, hn, h1, h3⟩

/-- Five trades, a transport unit for three packages: three packages are sent. -/
example : view (getTrades (1 / 100) 5 (fun _ _ => 0) { exPol with tu := ⟨2, 3, .first, false⟩ } exSt
    [1, 1, 1, 1, 1]) = some (7, some [(0, 1), (1, 1), (2, 1)]) ∧
    (∀ r ∈ exSt.buf.rs, exSt.pkg r ≠ exPol.pkgName) := by
  refine ⟨by decide +kernel, fun r _ => ?_⟩
  simp [exSt, exPol]

/-- Material that needs no packaging is not counted: all five trades are answered, although the
transport unit admits three. -/
theorem C71_fails_plain : ∃ (p : Pol) (s : St), Reachable .material (1 / 100) s.buf ∧
    TransportUnit.maxShippable p.tu 5 5 = some 3 ∧
    view (getTrades (1 / 100) 5 (fun _ _ => 0) p s [1, 1, 1, 1, 1]) =
      some (5, some [(0, 1), (1, 1), (2, 1), (3, 1), (4, 1)]) :=
  ⟨{ exPol with pkgName := 0, tu := ⟨2, 3, .first, false⟩ }, exSt, exSt_reachable,
    by decide +kernel, by decide +kernel⟩

end Cyclus.Sell
