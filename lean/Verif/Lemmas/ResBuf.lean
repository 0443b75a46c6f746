import Verif.Model.ResBuf
import Mathlib.Tactic.Linarith
import Mathlib.Tactic.Ring
import Mathlib.Data.List.Nodup

/-! Helper lemmas about the `ResBuf` model. -/

namespace Cyclus.ResBuf

/-- The internal invariant of the buffer. -/
structure Inv (s : St) : Prop where
  nodup : s.rs.Nodup
  pnodup : s.present.Nodup
  pres : ∀ r, r ∈ s.present ↔ r ∈ s.rs
  lt : ∀ r ∈ s.rs, r < s.next
  sum : s.qty = totQty s.heap s.rs
  bulk1 : s.bulk = true → s.rs.length ≤ 1

@[simp] theorem totQty_nil (h : Nat → Obj) : totQty h [] = 0 := rfl

@[simp] theorem totQty_cons (h : Nat → Obj) (r : Nat) (rs : List Nat) :
    totQty h (r :: rs) = (h r).qty + totQty h rs := by simp [totQty]

@[simp] theorem totQty_append (h : Nat → Obj) (rs rs' : List Nat) :
    totQty h (rs ++ rs') = totQty h rs + totQty h rs' := by simp [totQty]

theorem totQty_congr {h h' : Nat → Obj} {rs : List Nat}
    (e : ∀ r ∈ rs, (h' r).qty = (h r).qty) : totQty h' rs = totQty h rs := by
  unfold totQty
  congr 1
  exact List.map_congr_left e

theorem setQty_same (h : Nat → Obj) (r : Nat) (q : ℚ) : (setQty h r q r).qty = q := by
  simp [setQty]

theorem setQty_ne (h : Nat → Obj) {r i : Nat} (q : ℚ) (hne : i ≠ r) : setQty h r q i = h i := by
  simp [setQty, hne]

@[simp] theorem setQty_qual (h : Nat → Obj) (r i : Nat) (q : ℚ) :
    (setQty h r q i).qual = (h i).qual := by
  unfold setQty
  split
  · rename_i e
    rw [e]
  · rfl

@[simp] theorem setQty_isT (h : Nat → Obj) (r i : Nat) (q : ℚ) :
    (setQty h r q i).isT = (h i).isT := by
  unfold setQty
  split
  · rename_i e
    rw [e]
  · rfl

theorem updateQty_id {s : St} (hs : s.qty = totQty s.heap s.rs) : updateQty s = s := by
  obtain ⟨h, n, rs, p, q, c, b⟩ := s
  match rs with
  | [] => simpa [updateQty] using hs.symm
  | [r] => simpa [updateQty] using hs.symm
  | _ :: _ :: _ => rfl

theorem absorb_ok {k : Kind} {h h' : Nat → Obj} {a b : Nat} (he : absorb k h a b = .ok h') :
    (∀ i, i ≠ a → i ≠ b → h' i = h i) ∧
    (a ≠ b → (h' a).qty = (h a).qty + (h b).qty) ∧ (h' b).qty = 0 ∧
    (∀ i, (h' i).qual = (h i).qual) ∧ (∀ i, (h' i).isT = (h i).isT) := by
  unfold absorb at he
  split at he
  · injection he with he
    subst he
    refine ⟨?_, ?_, ?_, ?_, ?_⟩
    · intro i ha hb
      rw [setQty_ne _ _ hb, setQty_ne _ _ ha]
    · intro hab
      rw [setQty_ne _ _ hab, setQty_same]
    · rw [setQty_same]
    · intro i
      simp
    · intro i
      simp
  · cases he

theorem insertPresent_new {p : List Nat} {r : Nat} (h : r ∉ p) : insertPresent p r = r :: p := by
  simp [insertPresent, h]

theorem inv_append {s : St} {r : Nat} (hi : Inv s) (hr : r ∉ s.rs) (hlt : r < s.next)
    (hb : s.bulk = true → s.rs = []) :
    Inv { s with rs := s.rs ++ [r], present := insertPresent s.present r,
                 qty := s.qty + (s.heap r).qty } := by
  have hp : r ∉ s.present := fun h => hr ((hi.pres r).1 h)
  refine ⟨?_, ?_, ?_, ?_, ?_, ?_⟩
  · rw [List.nodup_append]
    refine ⟨hi.nodup, by simp, ?_⟩
    intro a ha b hb'
    simp at hb'
    subst hb'
    rintro rfl
    exact hr ha
  · simp only [insertPresent_new hp]
    exact List.nodup_cons.2 ⟨hp, hi.pnodup⟩
  · intro x
    simp only [insertPresent_new hp, List.mem_cons, List.mem_append, List.not_mem_nil, or_false,
      hi.pres x]
    tauto
  · intro x hx
    simp at hx
    rcases hx with hx | rfl
    · exact hi.lt x hx
    · exact hlt
  · simp [hi.sum]
  · intro hbk
    have := hb hbk
    simp [this]

theorem inv_absorb {k : Kind} {s : St} {f r : Nat} {h : Nat → Obj} (hi : Inv s) (hrs : s.rs = [f])
    (hr : r ≠ f) (he : absorb k s.heap f r = .ok h) :
    Inv { s with heap := h, qty := s.qty + (s.heap r).qty } := by
  obtain ⟨-, h2, -⟩ := absorb_ok he
  have h2 := h2 (Ne.symm hr)
  exact ⟨hi.nodup, hi.pnodup, hi.pres, hi.lt, by simp [hrs, h2, hi.sum], hi.bulk1⟩

/-- Removing the object at the front. -/
theorem inv_pop {s : St} {r : Nat} {rest : List Nat} (hi : Inv s) (hrs : s.rs = r :: rest) :
    Inv { s with rs := rest, present := s.present.erase r, qty := s.qty - (s.heap r).qty } := by
  have hn := hi.nodup
  rw [hrs] at hn
  obtain ⟨hn1, hn2⟩ := List.nodup_cons.1 hn
  refine ⟨hn2, hi.pnodup.erase _, ?_, ?_, ?_, ?_⟩
  · intro x
    simp only [List.Nodup.mem_erase_iff hi.pnodup, hi.pres x, hrs, List.mem_cons]
    constructor
    · rintro ⟨h1, rfl | h2⟩
      · exact absurd rfl h1
      · exact h2
    · intro hx
      exact ⟨fun e => hn1 (e ▸ hx), Or.inr hx⟩
  · intro x hx
    exact hi.lt x (by rw [hrs]; exact List.mem_cons_of_mem _ hx)
  · simp [hi.sum, hrs]
  · intro hb
    have := hi.bulk1 hb
    rw [hrs] at this
    simp at this
    simp [this]

/-- Removing the object at the back. -/
theorem inv_popBack {s : St} {r : Nat} {front : List Nat} (hi : Inv s) (hrs : s.rs = front ++ [r]) :
    Inv { s with rs := front, present := s.present.erase r, qty := s.qty - (s.heap r).qty } := by
  have hn := hi.nodup
  rw [hrs, List.nodup_append] at hn
  obtain ⟨hn1, -, hn2⟩ := hn
  have hn3 : r ∉ front := fun h => hn2 r h r (by simp) rfl
  refine ⟨hn1, hi.pnodup.erase _, ?_, ?_, ?_, ?_⟩
  · intro x
    simp only [List.Nodup.mem_erase_iff hi.pnodup, hi.pres x, hrs, List.mem_append,
      List.mem_singleton]
    constructor
    · rintro ⟨h1, h2 | h2⟩
      · exact h2
      · exact absurd h2 h1
    · intro hx
      exact ⟨fun e => hn3 (e ▸ hx), Or.inl hx⟩
  · intro x hx
    exact hi.lt x (by rw [hrs]; simp [hx])
  · simp [hi.sum, hrs]
  · intro hb
    have := hi.bulk1 hb
    rw [hrs] at this
    simp at this
    simp [this]

theorem push_spec {k : Kind} {eps : ℚ} {s : St} {r : Nat} (hi : Inv s) (hlt : r < s.next) :
    (∃ e, push k eps s r = (s, .error e)) ∨
    ∃ s', push k eps s r = (s', .ok ()) ∧ Inv s' ∧ s'.qty = s.qty + (s.heap r).qty ∧
      s'.cap = s.cap ∧ s'.bulk = s.bulk ∧ s'.next = s.next ∧
      exceeds eps (s.heap r).qty (space s) = false ∧ r ∉ s.rs ∧
      ((s.bulk = false ∨ s.rs = []) → s'.rs = s.rs ++ [r] ∧ s'.heap = s.heap) ∧
      (∀ f, s.bulk = true → s.rs = [f] → s'.rs = [f] ∧ (s'.heap r).qty = 0) := by
  unfold push
  split
  · exact Or.inl ⟨_, rfl⟩
  split
  · exact Or.inl ⟨_, rfl⟩
  split
  · exact Or.inl ⟨_, rfl⟩
  rename_i hcast hex hp
  have hr : r ∉ s.rs := fun h => hp ((hi.pres r).2 h)
  split
  · rename_i f tl hb hrs
    have htl : tl = [] := by
      have := hi.bulk1 hb
      rw [hrs] at this
      simpa using this
    subst htl
    split
    · exact Or.inl ⟨_, rfl⟩
    · rename_i h he
      right
      have hne : r ≠ f := by
        rintro rfl
        exact hr (by simp [hrs])
      obtain ⟨-, h2, h3, -⟩ := absorb_ok he
      have h2 := h2 (Ne.symm hne)
      have hi' := inv_absorb hi hrs hne he
      -- `qty_ += 0`, then `UpdateQty` reads the only object
      have : updateQty { s with heap := h, qty := s.qty + (h r).qty }
          = { s with heap := h, qty := s.qty + (s.heap r).qty } := by
        simp only [updateQty, hrs]
        rw [h2, hi.sum, hrs]
        simp
      rw [this]
      refine ⟨_, rfl, hi', rfl, rfl, rfl, rfl, by simpa using hex, hr, ?_, ?_⟩
      · simp [hb, hrs]
      · intro f' _ hf'
        exact ⟨hf', h3⟩
  · rename_i hb
    right
    have hi' := inv_append hi hr hlt (by
      intro hbk
      cases hrs : s.rs with
      | nil => rfl
      | cons f tl => exact absurd hrs (hb f tl hbk))
    rw [updateQty_id hi'.sum]
    refine ⟨_, rfl, hi', rfl, rfl, rfl, rfl, by simpa using hex, hr, fun _ => ⟨rfl, rfl⟩, ?_⟩
    intro f hbk hrs
    exact absurd hrs (hb f [] hbk)

theorem inv_push {k : Kind} {eps : ℚ} {s : St} {r : Nat} (hi : Inv s) (hlt : r < s.next) :
    Inv (push k eps s r).1 := by
  rcases push_spec (k := k) (eps := eps) hi hlt with ⟨e, h⟩ | ⟨s', h, h', -⟩
  · rw [h]; exact hi
  · rw [h]; exact h'

/-- What the storing loop of the vector push does to the invariant, when the pushed objects are
distinct and new and everything may be absorbed. -/
theorem inv_pushLoop {k : Kind} : ∀ (rs : List Nat) (s : St), Inv s → rs.Nodup →
    (∀ r ∈ rs, r ∉ s.rs) → (∀ r ∈ rs, r < s.next) →
    (s.bulk = true → ∀ r ∈ s.rs ++ rs, ∀ r' ∈ s.rs ++ rs,
      absorbOk k (s.heap r) (s.heap r') = true) →
    ∃ s', pushLoop k s rs = (s', .ok ()) ∧
      Inv { s' with qty := s'.qty + totQty s.heap rs } ∧ s'.qty = s.qty ∧ s'.cap = s.cap ∧
      s'.bulk = s.bulk ∧ s'.next = s.next := by
  intro rs
  induction rs with
  | nil =>
    intro s hi _ _ _ _
    refine ⟨s, rfl, ?_, rfl, rfl, rfl, rfl⟩
    simpa using hi
  | cons r rest ih =>
    intro s hi hn hnew hlt hok
    obtain ⟨hn1, hn2⟩ := List.nodup_cons.1 hn
    have hr : r ∉ s.rs := hnew r (by simp)
    unfold pushLoop
    split
    · rename_i f tl hb hrs
      have htl : tl = [] := by
        have := hi.bulk1 hb
        rw [hrs] at this
        simpa using this
      subst htl
      have hne : r ≠ f := by
        rintro rfl
        exact hr (by simp [hrs])
      have habs := hok hb f (by simp [hrs]) r (by simp)
      obtain ⟨h, he⟩ : ∃ h, absorb k s.heap f r = .ok h := by
        unfold absorb
        rw [if_pos habs]
        exact ⟨_, rfl⟩
      rw [he]
      simp only
      obtain ⟨e1, e2, e3, e4, e5⟩ := absorb_ok he
      have hi1 := inv_absorb hi hrs hne he
      obtain ⟨s', p1, p2, p3, p4, p5, p6⟩ := ih
        { s with heap := h, qty := s.qty + (s.heap r).qty } hi1 hn2
        (fun x hx => hnew x (by simp [hx])) (fun x hx => hlt x (by simp [hx]))
        (by
          intro hb' x hx y hy
          have := hok hb' x (by simp at hx ⊢; tauto) y (by simp at hy ⊢; tauto)
          unfold absorbOk at this ⊢
          cases k
          · rfl
          · simpa [e4] using this)
      -- the loop itself does not touch `qty_`, so run it with the old value
      refine ⟨{ s' with qty := s.qty }, ?_, ?_, rfl, p4, p5, p6⟩
      · have h3 := pushLoop_qty k rest { s with heap := h } (s.qty + (s.heap r).qty) s.qty
          (by simpa using p1)
        simpa using h3
      · have hrest : totQty h rest = totQty s.heap rest := by
          apply totQty_congr
          intro x hx
          have hxf : x ≠ f := by
            rintro rfl
            exact hnew x (by simp [hx]) (by simp [hrs])
          have hxr : x ≠ r := by
            rintro rfl
            exact hn1 hx
          rw [e1 x hxf hxr]
        simp only [totQty_cons]
        simp only [p3, hrest] at p2
        rw [← add_assoc]
        exact p2
    · rename_i hb
      have hi1 := inv_append hi hr (hlt r (by simp)) (by
        intro hbk
        cases hrs : s.rs with
        | nil => rfl
        | cons f tl => exact absurd hrs (hb f tl hbk))
      obtain ⟨s', p1, p2, p3, p4, p5, p6⟩ := ih _ hi1 hn2
        (fun x hx => by
          simp only [List.mem_append, List.mem_singleton, not_or]
          exact ⟨hnew x (by simp [hx]), fun e => hn1 (e ▸ hx)⟩)
        (fun x hx => hlt x (by simp [hx]))
        (by
          intro hb' x hx y hy
          exact hok hb' x (by simp at hx ⊢; tauto) y (by simp at hy ⊢; tauto))
      refine ⟨{ s' with qty := s.qty }, ?_, ?_, rfl, p4, p5, p6⟩
      · have := pushLoop_qty k rest
          { s with rs := s.rs ++ [r], present := insertPresent s.present r }
          (s.qty + (s.heap r).qty) s.qty (by simpa using p1)
        simpa using this
      · simp only [totQty_cons]
        simp only [p3] at p2
        rw [← add_assoc]
        exact p2
where
  /-- The storing loop neither reads nor writes the cached quantity. -/
  pushLoop_qty (k : Kind) : ∀ (rs : List Nat) (s : St) (q q' : ℚ) {s' : St},
      pushLoop k { s with qty := q } rs = (s', .ok ()) →
      pushLoop k { s with qty := q' } rs = ({ s' with qty := q' }, .ok ()) := by
    intro rs
    induction rs with
    | nil =>
      intro s q q' s' h
      simp only [pushLoop, Prod.mk.injEq, and_true] at h ⊢
      subst h
      rfl
    | cons r rest ih =>
      intro s q q' s' h
      unfold pushLoop at h ⊢
      simp only at h ⊢
      split at h
      · rename_i f tl hb hrs
        simp only [hb, hrs]
        split at h
        · cases h
        · rename_i h' he
          have := ih { s with heap := h' } q q' h
          simpa [hb, hrs] using this
      · rename_i hb
        exact ih { s with rs := s.rs ++ [r], present := insertPresent s.present r } q q' h

theorem pushLoop_frame {k : Kind} {rs : List Nat} {s s' : St} {e : Except Err Unit}
    (h : pushLoop k s rs = (s', e)) :
    s'.qty = s.qty ∧ s'.cap = s.cap ∧ s'.bulk = s.bulk ∧ s'.next = s.next := by
  induction rs generalizing s with
  | nil =>
    simp only [pushLoop, Prod.mk.injEq] at h
    obtain ⟨rfl, -⟩ := h
    exact ⟨rfl, rfl, rfl, rfl⟩
  | cons r rest ih =>
    unfold pushLoop at h
    split at h
    · split at h
      · simp only [Prod.mk.injEq] at h
        obtain ⟨rfl, -⟩ := h
        exact ⟨rfl, rfl, rfl, rfl⟩
      · have := ih h
        simpa using this
    · have := ih h
      simpa using this

theorem popNLoop_spec : ∀ (n : Nat) (s : St) (acc : List Nat), Inv s → n ≤ s.rs.length →
    Inv (popNLoop n s acc).1 ∧ (popNLoop n s acc).2 = acc ++ s.rs.take n ∧
    (popNLoop n s acc).1.rs = s.rs.drop n ∧ (popNLoop n s acc).1.heap = s.heap ∧
    (popNLoop n s acc).1.cap = s.cap ∧ (popNLoop n s acc).1.bulk = s.bulk ∧
    (popNLoop n s acc).1.next = s.next := by
  intro n
  induction n with
  | zero =>
    intro s acc hi _
    simp [popNLoop, hi]
  | succ n ih =>
    intro s acc hi hn
    unfold popNLoop
    split
    · rename_i hrs
      simp [hrs] at hn
    · rename_i r rest hrs
      rw [hrs] at hn
      have := ih { s with rs := rest, present := s.present.erase r, qty := s.qty - (s.heap r).qty }
        (acc ++ [r]) (inv_pop hi hrs) (by simpa using hn)
      obtain ⟨a, b, c, d, e, f, g⟩ := this
      refine ⟨a, ?_, ?_, d, e, f, g⟩
      · rw [b, hrs]
        simp
      · rw [c, hrs]
        simp

/-- What the loop of `PopVector` does: it removes the `n` oldest objects and, if it split, hands
out one fresh object as well. -/
theorem popLoop_spec : ∀ (rs : List Nat) (s : St) (left : ℚ) (acc : List Nat), s.rs = rs → Inv s →
    ∃ n ext, (popLoop rs s left acc).2 = acc ++ (rs.take n ++ ext) ∧
      (popLoop rs s left acc).1.rs = rs.drop n ∧ n ≤ rs.length ∧
      Inv (popLoop rs s left acc).1 ∧
      (popLoop rs s left acc).1.cap = s.cap ∧ (popLoop rs s left acc).1.bulk = s.bulk ∧
      (ext = [] ∨ ext = [s.next]) ∧
      (popLoop rs s left acc).1.next = s.next + ext.length ∧
      (∀ r ∈ rs.take n, (popLoop rs s left acc).1.heap r = s.heap r) ∧
      (∀ i, i < s.next → i ∉ rs → (popLoop rs s left acc).1.heap i = s.heap i) ∧
      (∀ i, i < s.next → ((popLoop rs s left acc).1.heap i).qual = (s.heap i).qual) ∧
      totQty (popLoop rs s left acc).1.heap (rs.take n ++ ext)
        + totQty (popLoop rs s left acc).1.heap (rs.drop n) = totQty s.heap rs ∧
      ((∀ r ∈ rs, 0 ≤ (s.heap r).qty) → 0 ≤ left → left ≤ totQty s.heap rs →
        totQty (popLoop rs s left acc).1.heap (rs.take n ++ ext) = left) ∧
      (∀ r ∈ ext, 0 < ((popLoop rs s left acc).1.heap r).qty) ∧
      ((∀ r ∈ rs, 0 ≤ (s.heap r).qty) →
        ∀ r ∈ rs.drop n, 0 ≤ ((popLoop rs s left acc).1.heap r).qty) ∧
      (∀ r ∈ ext, ∃ f ∈ rs.drop n, ((popLoop rs s left acc).1.heap r).qual = (s.heap f).qual) := by
  intro rs
  induction rs with
  | nil =>
    intro s left acc hrs hi
    refine ⟨0, [], ?_⟩
    simp only [popLoop, List.take_nil, List.drop_nil, List.append_nil, totQty_nil, hrs]
    refine ⟨by simp, by simp, by simp, hi, by simp, by simp, by simp, by simp, ?_⟩
    refine ⟨by simp, by simp, by simp, by simp, ?_, by simp, by simp, by simp⟩
    intro _ h1 h2
    exact le_antisymm h1 h2
  | cons r rest ih =>
    intro s left acc hrs hi
    have hn := hi.nodup
    rw [hrs] at hn
    obtain ⟨hn1, hn2⟩ := List.nodup_cons.1 hn
    by_cases hleft : left ≤ 0
    · refine ⟨0, [], ?_⟩
      have e : popLoop (r :: rest) s left acc = (s, acc) := by simp [popLoop, hleft]
      rw [e]
      simp only [List.take_zero, List.drop_zero, List.append_nil, totQty_nil]
      refine ⟨trivial, hrs, Nat.zero_le _, hi, by simp, by simp, by simp, by simp, ?_⟩
      refine ⟨by simp, by simp, by simp, by simp, ?_, by simp, fun h => h, by simp⟩
      intro _ h1 _
      exact le_antisymm h1 hleft
    · have hpos : 0 < left := not_le.1 hleft
      by_cases hq : (s.heap r).qty > left
      · refine ⟨0, [s.next], ?_⟩
        have hrn : r < s.next := hi.lt r (by simp [hrs])
        have hne : ∀ x ∈ s.rs, x ≠ s.next := fun x hx => (hi.lt x hx).ne
        set h2 : Nat → Obj := fun i => if i = s.next then { s.heap r with qty := left }
          else setQty s.heap r ((s.heap r).qty - left) i with hh2
        have e : popLoop (r :: rest) s left acc
            = ({ s with heap := h2, next := s.next + 1, qty := s.qty - left }, acc ++ [s.next]) := by
          simp only [popLoop, if_neg hleft, if_pos hq, hh2]
        have q1 : (h2 s.next).qty = left := by simp [hh2]
        have q2 : (h2 r).qty = (s.heap r).qty - left := by
          simp [hh2, hrn.ne, setQty]
        have q3 : totQty h2 rest = totQty s.heap rest := by
          apply totQty_congr
          intro x hx
          have hx1 : x ≠ s.next := hne x (by simp [hrs, hx])
          have hx2 : x ≠ r := by
            rintro rfl
            exact hn1 hx
          simp [hh2, hx1, setQty_ne _ _ hx2]
        rw [e]
        simp only [List.take_zero, List.drop_zero, List.nil_append, totQty_cons, totQty_nil]
        refine ⟨trivial, hrs, Nat.zero_le _, ?_, trivial, trivial, by simp, by simp, ?_⟩
        · refine ⟨hi.nodup, hi.pnodup, hi.pres, ?_, ?_, hi.bulk1⟩
          · intro x hx
            exact Nat.lt_succ_of_lt (hi.lt x hx)
          · simp only [hrs, totQty_cons, q2, q3, hi.sum]
            ring
        · refine ⟨by simp, ?_, ?_, ?_, ?_, ?_, ?_, ?_⟩
          · intro i hi1 hi2
            have h1 : i ≠ s.next := hi1.ne
            have h3 : i ≠ r := by
              rintro rfl
              exact hi2 (by simp)
            simp [hh2, h1, setQty_ne _ _ h3]
          · intro i hi1
            have h1 : i ≠ s.next := hi1.ne
            simp only [hh2, h1, if_false, setQty]
            split <;> simp_all
          · rw [q1, q2, q3]
            ring
          · intro _ _ _
            rw [q1]
            ring
          · intro x hx
            simp at hx
            subst hx
            rw [q1]
            exact hpos
          · intro h0 x hx
            simp at hx
            rcases hx with rfl | hx
            · rw [q2]
              linarith
            · have hx1 : x ≠ s.next := hne x (by simp [hrs, hx])
              have hx2 : x ≠ r := by
                rintro rfl
                exact hn1 hx
              simpa [hh2, hx1, setQty_ne _ _ hx2] using h0 x (by simp [hx])
          · intro x hx
            simp at hx
            subst hx
            exact ⟨r, by simp, by simp [hh2]⟩
      · have hq' : (s.heap r).qty ≤ left := not_lt.1 hq
        set s1 : St := { s with rs := rest, present := s.present.erase r,
                                qty := s.qty - (s.heap r).qty } with hs1
        have e : popLoop (r :: rest) s left acc
            = popLoop rest s1 (left - (s.heap r).qty) (acc ++ [r]) := by
          rw [popLoop, if_neg hleft]
          simp only [if_neg hq, hs1]
        obtain ⟨n, ext, p1, p2, p3, p4, p5, p6, p7, p8, p9, p10, p11, p12, p13, p14, p15, p16⟩ :=
          ih s1 (left - (s.heap r).qty) (acc ++ [r]) rfl (inv_pop hi hrs)
        rw [e]
        refine ⟨n + 1, ext, ?_, ?_, ?_, p4, p5, p6, p7, p8, ?_, ?_, p11, ?_, ?_, p14, ?_, ?_⟩
        · rw [p1]
          simp
        · rw [p2]
          simp
        · simpa using p3
        · intro x hx
          simp at hx
          rcases hx with rfl | hx
          · exact p10 x (hi.lt x (by simp [hrs])) hn1
          · exact p9 x hx
        · intro i h1 h2
          simp at h2
          exact p10 i h1 h2.2
        · have hr := p10 r (hi.lt r (by simp [hrs])) hn1
          simp only [List.take_succ_cons, List.drop_succ_cons, List.cons_append, totQty_cons, hr]
          rw [add_assoc, p12]
        · intro h0 h1 h2
          have hr := p10 r (hi.lt r (by simp [hrs])) hn1
          have := p13 (fun x hx => h0 x (by simp [hx])) (by linarith)
            (by simp at h2; simp only [hs1]; linarith)
          simp only [List.take_succ_cons, List.cons_append, totQty_cons, this, hr]
          simp [hs1]
        · intro h0
          simpa using p15 (fun x hx => h0 x (by simp [hx]))
        · intro x hx
          obtain ⟨f, hf, hfq⟩ := p16 x hx
          exact ⟨f, by simpa using hf, hfq⟩

/-- Squashing touches only the squashed objects. -/
theorem squash_frame {k : Kind} {h h' : Nat → Obj} {out : List Nat} {e : Except Err Nat}
    (he : squash k h out = (h', e)) : ∀ i, i ∉ out → h' i = h i := by
  cases out with
  | nil =>
    simp [squash] at he
    intro i _
    rw [he.1]
  | cons a rest =>
    simp only [squash] at he
    induction rest generalizing h with
    | nil =>
      simp [squashLoop] at he
      intro i _
      rw [he.1]
    | cons b rest ih =>
      unfold squashLoop at he
      split at he
      · simp at he
        intro i _
        rw [he.1]
      · rename_i h1 h1e
        intro i hi
        simp at hi
        have := ih he i (by simp; tauto)
        rw [this]
        exact (absorb_ok h1e).1 i hi.1 hi.2.1

/-- A completed squash moves everything into the first object. -/
theorem squash_ok {k : Kind} {h h' : Nat → Obj} {a b : Nat} {rest : List Nat}
    (hn : (a :: rest).Nodup) (he : squash k h (a :: rest) = (h', .ok b)) :
    b = a ∧ (h' a).qty = totQty h (a :: rest) ∧ ∀ i ∈ rest, (h' i).qty = 0 := by
  simp only [squash] at he
  induction rest generalizing h with
  | nil =>
    simp [squashLoop] at he
    obtain ⟨rfl, rfl⟩ := he
    simp
  | cons c rest ih =>
    unfold squashLoop at he
    split at he
    · simp at he
    · rename_i h1 h1e
      have hac : a ≠ c := by
        rintro rfl
        simp at hn
      have hn' : (a :: rest).Nodup := by
        rw [List.nodup_cons] at hn ⊢
        rw [List.nodup_cons] at hn
        exact ⟨fun h => hn.1 (by simp [h]), hn.2.2⟩
      obtain ⟨hb, hq, hz⟩ := ih hn' he
      obtain ⟨e1, e2, e3, -, -⟩ := absorb_ok h1e
      have hrest : totQty h1 rest = totQty h rest := by
        apply totQty_congr
        intro x hx
        have hxa : x ≠ a := by
          rintro rfl
          rw [List.nodup_cons] at hn'
          exact hn'.1 hx
        have hxc : x ≠ c := by
          rintro rfl
          rw [List.nodup_cons, List.nodup_cons] at hn
          exact hn.2.1 hx
        rw [e1 x hxa hxc]
      refine ⟨hb, ?_, ?_⟩
      · rw [hq]
        simp only [totQty_cons, hrest, e2 hac]
        ring
      · intro i hi
        simp at hi
        rcases hi with rfl | hi
        · by_cases hic : i ∈ rest
          · exact hz i hic
          · have hfr := squash_frame (k := k) (h := h1) (h' := h') (out := a :: rest)
              (by simpa [squash] using he) i (by simp [hic, Ne.symm hac])
            rw [hfr]
            exact e3
        · exact hz i hi

end Cyclus.ResBuf

namespace Cyclus.ResBuf

/-- Validity of the pointers passed to a call: they denote existing objects. -/
def ValidArgs (s : St) : Op → Prop
  | .push r => r < s.next
  | .pushVec rs => ∀ r ∈ rs, r < s.next
  | _ => True

/-- The restriction under which the vector push behaves: the vector lists distinct objects and,
for a bulk buffer of Products, all of one quality. -/
def Fair (k : Kind) (s : St) : Op → Prop
  | .pushVec rs => rs.Nodup ∧ (s.bulk = true → k = .product →
      ∀ r ∈ s.rs ++ rs, ∀ r' ∈ s.rs ++ rs, (s.heap r).qual = (s.heap r').qual)
  | _ => True

/-- No object has a negative quantity. -/
def NN (s : St) : Prop := ∀ i, 0 ≤ (s.heap i).qty

theorem inv_congr_heap {s : St} {h : Nat → Obj} (hi : Inv s) (he : ∀ r ∈ s.rs, h r = s.heap r) :
    Inv { s with heap := h } :=
  ⟨hi.nodup, hi.pnodup, hi.pres, hi.lt, by
    rw [hi.sum]
    exact (totQty_congr fun r hr => by simp only [he r hr]).symm, hi.bulk1⟩

theorem pushVec_ok_spec {k : Kind} {eps : ℚ} {s : St} {rs : List Nat} (hi : Inv s)
    (hv : ∀ r ∈ rs, r < s.next) (hf : Fair k s (.pushVec rs)) :
    (∃ e, pushVec k eps s rs = (s, .error e)) ∨
    ∃ s', pushVec k eps s rs = (s', .ok ()) ∧ Inv s' ∧ s'.qty = s.qty + totQty s.heap rs ∧
      s'.cap = s.cap ∧ s'.bulk = s.bulk ∧ s'.next = s.next ∧
      exceeds eps (totQty s.heap rs) (space s) = false := by
  unfold pushVec
  split
  · exact Or.inl ⟨_, rfl⟩
  split
  · exact Or.inl ⟨_, rfl⟩
  split
  · exact Or.inl ⟨_, rfl⟩
  rename_i h1 h2 h3
  right
  simp only [List.any_eq_true, decide_eq_true_eq, not_exists, not_and] at h3
  obtain ⟨s', p1, p2, p3, p4, p5, p6⟩ := inv_pushLoop (k := k) rs s hi hf.1
    (fun r hr h => h3 r hr ((hi.pres r).2 h)) hv (by
      intro hb r hr r' hr'
      unfold absorbOk
      cases k with
      | material => rfl
      | product => simpa using (hf.2 hb rfl r' hr' r hr))
  rw [p1]
  exact ⟨_, rfl, p2, by simp [p3], p4, p5, p6, by simpa using h2⟩

theorem popN_spec {s : St} {n : Int} (hi : Inv s) (h : ¬ ((s.rs.length : Int) < n ∨ n < 0)) :
    ∃ s', popN s n = (s', .ok (s.rs.take n.toNat)) ∧ Inv s' ∧ s'.rs = s.rs.drop n.toNat ∧
      s'.heap = s.heap ∧ s'.cap = s.cap ∧ s'.bulk = s.bulk ∧ s'.next = s.next := by
  unfold popN
  rw [if_neg h]
  obtain ⟨a, b, c, d, e, f, g⟩ := popNLoop_spec n.toNat s [] hi (by omega)
  refine ⟨(popNLoop n.toNat s []).1, ?_, a, c, d, e, f, g⟩
  simp only [updateQty_id a.sum, b, List.nil_append]

theorem popVec_spec {s : St} {q : ℚ} (hi : Inv s) (h : ¬ q > s.qty) :
    ∃ s' n ext, popVec s q = (s', .ok (s.rs.take n ++ ext)) ∧ Inv s' ∧ s'.rs = s.rs.drop n ∧
      n ≤ s.rs.length ∧ s'.cap = s.cap ∧ s'.bulk = s.bulk ∧ (ext = [] ∨ ext = [s.next]) ∧
      s'.next = s.next + ext.length ∧
      (∀ r ∈ s.rs.take n, s'.heap r = s.heap r) ∧
      (∀ i, i < s.next → i ∉ s.rs → s'.heap i = s.heap i) ∧
      (∀ i, i < s.next → (s'.heap i).qual = (s.heap i).qual) ∧
      totQty s'.heap (s.rs.take n ++ ext) + totQty s'.heap (s.rs.drop n) = totQty s.heap s.rs ∧
      ((∀ r ∈ s.rs, 0 ≤ (s.heap r).qty) → 0 ≤ q →
        totQty s'.heap (s.rs.take n ++ ext) = q) ∧
      (∀ r ∈ ext, 0 < (s'.heap r).qty) ∧
      ((∀ r ∈ s.rs, 0 ≤ (s.heap r).qty) → ∀ r ∈ s.rs.drop n, 0 ≤ (s'.heap r).qty) ∧
      (∀ r ∈ ext, ∃ f ∈ s.rs.drop n, (s'.heap r).qual = (s.heap f).qual) := by
  obtain ⟨n, ext, p1, p2, p3, p4, p5, p6, p7, p8, p9, p10, p11, p12, p13, p14, p15, p16⟩ :=
    popLoop_spec s.rs s q [] rfl hi
  refine ⟨(popLoop s.rs s q []).1, n, ext, ?_, p4, p2, p3, p5, p6, p7, p8, p9, p10, p11, p12,
    fun h0 h1 => p13 h0 h1 (by rw [← hi.sum]; exact not_lt.1 h), p14, p15, p16⟩
  unfold popVec
  rw [if_neg h]
  simp only [updateQty_id p4.sum, p1, List.nil_append]

/-- The objects handed out by `PopVector` are distinct and no longer held. -/
theorem popVec_disjoint {s s' : St} {n : Nat} {ext : List Nat} (hi : Inv s)
    (hrs : s'.rs = s.rs.drop n) (hext : ext = [] ∨ ext = [s.next]) :
    (s.rs.take n ++ ext).Nodup ∧ ∀ r ∈ s'.rs, r ∉ s.rs.take n ++ ext := by
  have hn := hi.nodup
  rw [← List.take_append_drop n s.rs, List.nodup_append] at hn
  obtain ⟨hn1, hn2, hn3⟩ := hn
  have hmem : ∀ r ∈ ext, r = s.next := by
    rcases hext with rfl | rfl <;> simp
  constructor
  · rw [List.nodup_append]
    refine ⟨hn1, by rcases hext with rfl | rfl <;> simp, ?_⟩
    intro a ha b hb hab
    rw [hmem b hb] at hab
    exact (hi.lt a (List.mem_of_mem_take ha)).ne hab
  · intro r hr hmem'
    rw [hrs] at hr
    rw [List.mem_append] at hmem'
    rcases hmem' with h | h
    · exact hn3 r h r hr rfl
    · exact (hi.lt r (List.mem_of_mem_drop hr)).ne (hmem r h)

theorem inv_squashOut {k : Kind} {s' : St} {out : List Nat} (hi : Inv s')
    (hd : ∀ r ∈ s'.rs, r ∉ out) : Inv (squashOut k (s', .ok out)).1 := by
  simp only [squashOut]
  cases he : squash k s'.heap out with
  | mk h e =>
    have hf := squash_frame he
    cases e with
    | error e => exact inv_congr_heap hi fun r hr => hf r (hd r hr)
    | ok a => exact inv_congr_heap hi fun r hr => hf r (hd r hr)

theorem squashOut_frame {k : Kind} {s' : St} {out : List Nat} :
    (squashOut k (s', .ok out)).1.rs = s'.rs ∧ (squashOut k (s', .ok out)).1.cap = s'.cap ∧
    (squashOut k (s', .ok out)).1.bulk = s'.bulk ∧ (squashOut k (s', .ok out)).1.qty = s'.qty ∧
    (squashOut k (s', .ok out)).1.next = s'.next := by
  simp only [squashOut]
  cases he : squash k s'.heap out with
  | mk h e => cases e <;> simp

theorem inv_popQty {k : Kind} {s : St} {q : ℚ} (hi : Inv s) : Inv (popQty k s q).1 := by
  unfold popQty
  by_cases h : q > s.qty
  · simp [popVec, h, squashOut, hi]
  · obtain ⟨s', n, ext, p1, p2, p3, p4, p5, p6, p7, -⟩ := popVec_spec hi h
    rw [p1]
    exact inv_squashOut p2 (popVec_disjoint hi p3 p7).2

theorem inv_popEps {k : Kind} {s : St} {q e : ℚ} (hi : Inv s) : Inv (popEps k s q e).1 := by
  unfold popEps
  split
  · exact hi
  split
  · obtain ⟨s', p1, p2, p3, -⟩ := popN_spec (n := s.rs.length) hi (by omega)
    rw [p1]
    apply inv_squashOut p2
    rw [p3]
    simp
  · exact inv_popQty hi

theorem toList_fst {α : Type} (f : α → List Nat) (o : Outcome St α) : (toList f o).1 = o.1 := by
  obtain ⟨s, e⟩ := o
  cases e <;> rfl

theorem inv_step {k : Kind} {eps : ℚ} {s : St} {op : Op} (hi : Inv s) (hv : ValidArgs s op)
    (hf : Fair k s op) : Inv (step k eps s op).1 := by
  cases op with
  | create o =>
    refine ⟨hi.nodup, hi.pnodup, hi.pres, fun r hr => Nat.lt_succ_of_lt (hi.lt r hr), ?_, hi.bulk1⟩
    simp only [step]
    rw [hi.sum]
    refine (totQty_congr fun r hr => ?_).symm
    rw [if_neg (hi.lt r hr).ne]
  | setCap c =>
    simp only [step, toList_fst]
    unfold setCap
    split
    · exact ⟨hi.nodup, hi.pnodup, hi.pres, hi.lt, hi.sum, hi.bulk1⟩
    · split
      · exact hi
      split
      · exact hi
      · exact ⟨hi.nodup, hi.pnodup, hi.pres, hi.lt, hi.sum, hi.bulk1⟩
  | push r =>
    simp only [step, toList_fst]
    exact inv_push hi hv
  | pushVec rs =>
    simp only [step, toList_fst]
    rcases pushVec_ok_spec (eps := eps) hi hv hf with ⟨e, h⟩ | ⟨s', h, h', -⟩
    · rw [h]; exact hi
    · rw [h]; exact h'
  | pop =>
    simp only [step, toList_fst]
    unfold pop
    split
    · exact hi
    · rename_i r rest hrs
      have := inv_pop hi hrs
      simp only [updateQty_id this.sum]
      exact this
  | popBack =>
    simp only [step, toList_fst]
    unfold popBack
    split
    · exact hi
    · rename_i r hrs
      obtain ⟨front, hfr⟩ := List.getLast?_eq_some_iff.1 hrs
      have := inv_popBack hi hfr
      simp only [hfr, List.dropLast_concat]
      simp only [updateQty_id this.sum]
      exact this
  | popN n =>
    simp only [step]
    by_cases h : ((s.rs.length : Int) < n ∨ n < 0)
    · simp only [popN, if_pos h]; exact hi
    · obtain ⟨s', p1, p2, -⟩ := popN_spec hi h
      rw [p1]; exact p2
  | popVec q =>
    simp only [step]
    by_cases h : q > s.qty
    · simp only [popVec, if_pos h]; exact hi
    · obtain ⟨s', n, ext, p1, p2, -⟩ := popVec_spec hi h
      rw [p1]; exact p2
  | popQty q =>
    simp only [step, toList_fst]
    exact inv_popQty hi
  | popEps q e =>
    simp only [step, toList_fst]
    exact inv_popEps hi

theorem inv_init (b : Bool) : Inv (init b) :=
  ⟨by simp [init], by simp [init], by simp [init], by simp [init], by simp [init], by simp [init]⟩

end Cyclus.ResBuf

namespace Cyclus.ResBuf

theorem nn_absorb {k : Kind} {h h' : Nat → Obj} {a b : Nat} (hn : ∀ i, 0 ≤ (h i).qty)
    (he : absorb k h a b = .ok h') : ∀ i, 0 ≤ (h' i).qty := by
  unfold absorb at he
  split at he
  · injection he with he
    subst he
    intro i
    simp only [setQty]
    split
    · simp
    · split
      · have := hn a; have := hn b; simp only; linarith
      · exact hn i
  · cases he

theorem nn_pushLoop {k : Kind} : ∀ (rs : List Nat) (s : St), NN s → NN (pushLoop k s rs).1 := by
  intro rs
  induction rs with
  | nil => intro s h; exact h
  | cons r rest ih =>
    intro s h
    unfold pushLoop
    split
    · split
      · exact h
      · rename_i h' he
        exact ih _ (nn_absorb h he)
    · exact ih _ h

theorem nn_updateQty {s : St} (h : NN s) : NN (updateQty s) := by
  unfold updateQty
  split <;> exact h

theorem nn_popNLoop : ∀ (n : Nat) (s : St) (acc : List Nat), NN s → NN (popNLoop n s acc).1 := by
  intro n
  induction n with
  | zero => intro s acc h; exact h
  | succ n ih =>
    intro s acc h
    unfold popNLoop
    split
    · exact h
    · exact ih _ _ h

theorem nn_popLoop : ∀ (rs : List Nat) (s : St) (left : ℚ) (acc : List Nat), NN s →
    NN (popLoop rs s left acc).1 := by
  intro rs
  induction rs with
  | nil => intro s left acc h; exact h
  | cons r rest ih =>
    intro s left acc h
    unfold popLoop
    split
    · exact h
    · simp only
      split
      · rename_i h1 h2
        intro i
        simp only
        split
        · simp only; linarith
        · simp only [setQty]
          split
          · simp only; linarith
          · exact h i
      · exact ih _ _ _ h

theorem nn_squashLoop {k : Kind} {a : Nat} : ∀ (rs : List Nat) (h : Nat → Obj),
    (∀ i, 0 ≤ (h i).qty) → ∀ i, 0 ≤ ((squashLoop k a h rs).1 i).qty := by
  intro rs
  induction rs with
  | nil => intro h hn; exact hn
  | cons b rest ih =>
    intro h hn
    unfold squashLoop
    split
    · exact hn
    · rename_i h' he
      exact ih _ (nn_absorb hn he)

theorem nn_squashOut {k : Kind} {o : Outcome St (List Nat)} (h : NN o.1) :
    NN (squashOut k o).1 := by
  obtain ⟨s, e⟩ := o
  cases e with
  | error e => exact h
  | ok out =>
    simp only [squashOut]
    have hs : ∀ i, 0 ≤ ((squash k s.heap out).1 i).qty := by
      cases out with
      | nil => exact h
      | cons a rest => exact nn_squashLoop rest s.heap h
    cases he : squash k s.heap out with
    | mk h' e =>
      rw [he] at hs
      cases e <;> exact hs

theorem nn_step {k : Kind} {eps : ℚ} {s : St} {op : Op} (h : NN s)
    (hc : ∀ o, op = .create o → 0 ≤ o.qty) : NN (step k eps s op).1 := by
  cases op with
  | create o =>
    intro i
    simp only [step]
    split
    · exact hc o rfl
    · exact h i
  | setCap c =>
    simp only [step, toList_fst]
    unfold setCap
    split
    · exact h
    · split
      · exact h
      split <;> exact h
  | push r =>
    simp only [step, toList_fst]
    unfold push
    split
    · exact h
    split
    · exact h
    split
    · exact h
    split
    · split
      · exact h
      · rename_i h' he
        exact nn_updateQty (nn_absorb h he)
    · exact nn_updateQty h
  | pushVec rs =>
    simp only [step, toList_fst]
    unfold pushVec
    split
    · exact h
    split
    · exact h
    split
    · exact h
    have := nn_pushLoop (k := k) rs s h
    split
    · rename_i he; rw [he] at this; exact this
    · rename_i he; rw [he] at this; exact this
  | pop =>
    simp only [step, toList_fst]
    unfold pop
    split
    · exact h
    · exact nn_updateQty h
  | popBack =>
    simp only [step, toList_fst]
    unfold popBack
    split
    · exact h
    · exact nn_updateQty h
  | popN n =>
    simp only [step]
    unfold popN
    split
    · exact h
    · exact nn_updateQty (nn_popNLoop _ _ _ h)
  | popVec q =>
    simp only [step]
    unfold popVec
    split
    · exact h
    · exact nn_updateQty (nn_popLoop _ _ _ _ h)
  | popQty q =>
    simp only [step, toList_fst]
    unfold popQty
    apply nn_squashOut
    unfold popVec
    split
    · exact h
    · exact nn_updateQty (nn_popLoop _ _ _ _ h)
  | popEps q e =>
    simp only [step, toList_fst]
    unfold popEps
    split
    · exact h
    split
    · apply nn_squashOut
      unfold popN
      split
      · exact h
      · exact nn_updateQty (nn_popNLoop _ _ _ h)
    · unfold popQty
      apply nn_squashOut
      unfold popVec
      split
      · exact h
      · exact nn_updateQty (nn_popLoop _ _ _ _ h)

theorem totQty_nonneg {s : St} (h : NN s) (rs : List Nat) : 0 ≤ totQty s.heap rs := by
  induction rs with
  | nil => simp
  | cons r rest ih =>
    have := h r
    simp only [totQty_cons]
    linarith

theorem exceeds_false {eps q : ℚ} {s : St} {c : ℚ} (hc : s.cap = some c)
    (h : exceeds eps q (space s) = false) : q ≤ max 0 (c - s.qty) + eps := by
  simp only [space, hc, Option.map_some, exceeds, decide_eq_false_iff_not, not_lt, gt_iff_lt] at h
  linarith

/-- The effect of every call on the cached quantity: unchanged or smaller, except for a push that
passed the capacity check, or a capacity change that was accepted. -/
theorem qty_step {k : Kind} {eps : ℚ} {s : St} {op : Op} (hi : Inv s) (hv : ValidArgs s op)
    (hf : Fair k s op) (hn : NN s) :
    ((step k eps s op).1.qty ≤ s.qty ∧ (step k eps s op).1.cap = s.cap) ∨
    (∃ r, op = .push r ∧ (step k eps s op).1.cap = s.cap ∧
      (step k eps s op).1.qty = s.qty + (s.heap r).qty ∧
      exceeds eps (s.heap r).qty (space s) = false) ∨
    (∃ rs, op = .pushVec rs ∧ (step k eps s op).1.cap = s.cap ∧
      (step k eps s op).1.qty = s.qty + totQty s.heap rs ∧
      exceeds eps (totQty s.heap rs) (space s) = false) ∨
    (∃ c, op = .setCap c ∧ (step k eps s op).1.cap = c ∧ (step k eps s op).1.qty = s.qty ∧
      ∀ x, c = some x → s.qty ≤ x + eps) := by
  have hi' := inv_step (eps := eps) hi hv hf
  have hle : ∀ {s' : St} {n : Nat}, Inv s' → s'.rs = s.rs.drop n → s'.heap = s.heap →
      s'.qty ≤ s.qty := by
    intro s' n h1 h2 h3
    rw [h1.sum, hi.sum, h2, h3]
    have e := congrArg (totQty s.heap) (List.take_append_drop n s.rs)
    rw [totQty_append] at e
    have := totQty_nonneg hn (s.rs.take n)
    linarith
  have hvec : ∀ q, (popVec s q).1.qty ≤ s.qty ∧ (popVec s q).1.cap = s.cap := by
    intro q
    by_cases h : q > s.qty
    · simp [popVec, h]
    · obtain ⟨s', n, ext, p1, p2, p3, -, p4, -, -, -, -, -, -, p5, -⟩ := popVec_spec hi h
      have hnn : NN s' := by
        have := nn_step (k := k) (eps := eps) (op := .popVec q) hn (by simp)
        simp only [step, p1] at this
        exact this
      rw [p1]
      refine ⟨?_, p4⟩
      simp only
      rw [p2.sum, p3, hi.sum, ← p5]
      have := totQty_nonneg hnn (s.rs.take n ++ ext)
      linarith
  have hsq : ∀ (o : Outcome St (List Nat)), (squashOut k o).1.qty = o.1.qty ∧
      (squashOut k o).1.cap = o.1.cap := by
    rintro ⟨s', e⟩
    cases e with
    | error e => exact ⟨rfl, rfl⟩
    | ok out =>
      obtain ⟨-, h2, -, h3, -⟩ := squashOut_frame (k := k) (s' := s') (out := out)
      exact ⟨h3, h2⟩
  have hpn : ∀ n, (popN s n).1.qty ≤ s.qty ∧ (popN s n).1.cap = s.cap := by
    intro n
    by_cases h : ((s.rs.length : Int) < n ∨ n < 0)
    · simp only [popN, if_pos h]; simp
    · obtain ⟨s', p1, p2, p3, p4, p5, -⟩ := popN_spec hi h
      rw [p1]
      exact ⟨hle p2 p3 p4, p5⟩
  cases op with
  | create o => left; simp [step]
  | setCap c =>
    simp only [step, toList_fst]
    unfold setCap
    split
    · right; right; right; exact ⟨none, rfl, rfl, rfl, by simp⟩
    · rename_i x
      split
      · left; simp
      split
      · left; simp
      · rename_i h1 h2
        right; right; right
        refine ⟨some x, rfl, rfl, rfl, ?_⟩
        intro y hy
        injection hy with hy
        subst hy
        linarith [not_lt.1 h2]
  | push r =>
    simp only [step, toList_fst]
    rcases push_spec (k := k) (eps := eps) hi hv with ⟨e, h⟩ | ⟨s', h, h1, h2, h3, h4, h5, h6, -⟩
    · left; rw [h]; simp
    · right; left
      rw [h]
      exact ⟨r, rfl, h3, h2, h6⟩
  | pushVec rs =>
    simp only [step, toList_fst]
    rcases pushVec_ok_spec (eps := eps) hi hv hf with ⟨e, h⟩ | ⟨s', h, h1, h2, h3, h4, h5, h6⟩
    · left; rw [h]; simp
    · right; right; left
      rw [h]
      exact ⟨rs, rfl, h3, h2, h6⟩
  | pop =>
    left
    simp only [step, toList_fst] at hi' ⊢
    unfold pop at hi' ⊢
    split
    · simp
    · rename_i r rest hrs
      have := inv_pop hi hrs
      rw [updateQty_id this.sum]
      exact ⟨by have := hn r; simp only; linarith, rfl⟩
  | popBack =>
    left
    simp only [step, toList_fst]
    unfold popBack
    split
    · simp
    · rename_i r hrs
      obtain ⟨front, hfr⟩ := List.getLast?_eq_some_iff.1 hrs
      have := inv_popBack hi hfr
      simp only [hfr, List.dropLast_concat]
      rw [updateQty_id this.sum]
      exact ⟨by have := hn r; simp only; linarith, rfl⟩
  | popN n => left; exact hpn n
  | popVec q => left; exact hvec q
  | popQty q =>
    left
    simp only [step, toList_fst, popQty]
    rw [(hsq _).1, (hsq _).2]
    exact hvec q
  | popEps q e =>
    left
    simp only [step, toList_fst, popEps, popQty]
    split
    · exact ⟨le_refl _, rfl⟩
    split
    · rw [(hsq _).1, (hsq _).2]
      exact hpn _
    · rw [(hsq _).1, (hsq _).2]
      exact hvec q

end Cyclus.ResBuf
