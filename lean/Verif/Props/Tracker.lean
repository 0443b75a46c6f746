import Verif.Lemmas.Tracker
import Mathlib.Tactic.NormNum

/-!
# Properties C10, C54, C56: resource identities, genealogy and the Resources table
-/

namespace Cyclus.Tracker

/-- A program all of whose calls have valid arguments. -/
def Program (k : Kind) (eps : ℚ) : St → List Op → Prop
  | _, [] => True
  | s, op :: ops => ValidArgs s op ∧ ∀ s', step k eps s op = some s' → Program k eps s' ops

/-- Calls on tracked resources only: nothing is cloned or created untracked. -/
def TrackedOp : Op → Prop
  | .clone _ | .createUntracked _ => False
  | _ => True

instance (s : St) (op : Op) : Decidable (ValidArgs s op) := by
  cases op <;> unfold ValidArgs <;> infer_instance

instance decProgram (k : Kind) (eps : ℚ) : ∀ s ops, Decidable (Program k eps s ops)
  | _, [] => by unfold Program; infer_instance
  | s, op :: ops =>
    match h : step k eps s op with
    | none => if hv : ValidArgs s op then isTrue ⟨hv, fun s' h' => by rw [h] at h'; cases h'⟩
      else isFalse fun hh => hv hh.1
    | some s' =>
      have := decProgram k eps s' ops
      if hv : ValidArgs s op ∧ Program k eps s' ops then
        isTrue ⟨hv.1, fun s'' h'' => by rw [h] at h''; cases h''; exact hv.2⟩
      else isFalse fun hh => hv ⟨hh.1, hh.2 s' h⟩

/-- Specification: every parent of a row is 0 or the id of an earlier row. -/
def ParentsEarlier (rows : List Row) : Prop :=
  ∀ l1 r l2, rows = l1 ++ r :: l2 →
    (r.p1 = 0 ∨ ∃ r' ∈ l1, r'.id = r.p1) ∧ (r.p2 = 0 ∨ ∃ r' ∈ l1, r'.id = r.p2)

theorem parentsEarlier_snoc {rows : List Row} (h : ParentsEarlier rows) {r : Row}
    (h1 : r.p1 = 0 ∨ ∃ r' ∈ rows, r'.id = r.p1) (h2 : r.p2 = 0 ∨ ∃ r' ∈ rows, r'.id = r.p2) :
    ParentsEarlier (rows ++ [r]) := by
  intro l1 x l2 he
  rcases List.eq_nil_or_concat l2 with rfl | ⟨l2', y, rfl⟩
  · have := List.append_inj' he rfl
    obtain ⟨rfl, hx⟩ := this
    cases hx
    exact ⟨h1, h2⟩
  · rw [List.concat_eq_append, show l1 ++ x :: (l2' ++ [y]) = (l1 ++ x :: l2') ++ [y] by simp] at he
    obtain ⟨hr, -⟩ := List.append_inj' he rfl
    exact h l1 x l2' hr

/-! ## General programs -/

theorem inv_run {k : Kind} {eps : ℚ} : ∀ (ops : List Op) (s s' : St), Inv s → Program k eps s ops →
    run k eps s ops = some s' → Inv s' := by
  intro ops
  induction ops with
  | nil => intro s s' hi _ h; simp only [run, Option.some.injEq] at h; exact h ▸ hi
  | cons op ops ih =>
    intro s s' hi hp h
    simp only [run] at h
    cases hs : step k eps s op with
    | none => rw [hs] at h; cases h
    | some t =>
      rw [hs] at h
      exact ih t s' (inv_step hi hp.1 hs) (hp.2 t hs) h

/-- **C10 (every program).**  In every history, also with clones and untracked resources: the ids in
the Resources table strictly increase (so each occurs once), parents have smaller ids than their
children, and two different tracked resources never share an object id. -/
theorem C10_ids_unique (k : Kind) (eps : ℚ) (ops : List Op) (s : St) (hp : Program k eps init ops)
    (h : run k eps init ops = some s) :
    s.rows.Pairwise (fun a b => a.id < b.id) ∧
    (∀ r ∈ s.rows, r.p1 < r.id ∧ r.p2 < r.id) ∧
    (∀ i j, i < s.n → j < s.n → (s.obj i).tracked = true → (s.obj j).tracked = true →
      (s.obj i).oid = (s.obj j).oid → i = j) :=
  have hi := inv_run ops init s inv_init hp h
  ⟨hi.inc, hi.par, hi.dist⟩

/-- A program with clones and all kinds of calls. -/
def demo : List Op :=
  [.create 5, .extract 0 2, .create 3, .absorb 0 2, .packageExtract 0 1, .modify 1, .clone 0,
   .extract 4 1, .modify 5, .repackage 3, .extract 1 2, .createUntracked 4, .extract 7 1]

example : Program .material (1/1000000) init demo := by decide +kernel
example : ((run .material (1/1000000) init demo).map fun s => s.rows.length) = some 11 := by
  decide +kernel

/-- A link of the genealogy: `p` is a recorded parent of `c`. -/
def ParentOf (rows : List Row) (p c : ℕ) : Prop :=
  p ≠ 0 ∧ ∃ r ∈ rows, r.id = c ∧ (r.p1 = p ∨ r.p2 = p)

/-- **C10 (genealogy).**  Following parent links always terminates. -/
theorem C10_genealogy_wellFounded (k : Kind) (eps : ℚ) (ops : List Op) (s : St)
    (hp : Program k eps init ops) (h : run k eps init ops = some s) :
    WellFounded (ParentOf s.rows) := by
  have hpar := (C10_ids_unique k eps ops s hp h).2.1
  refine Subrelation.wf (r := (· < ·)) ?_ Nat.lt_wfRel.wf
  rintro p c ⟨-, r, hr, rfl, h1 | h1⟩
  · rw [← h1]; exact (hpar r hr).1
  · rw [← h1]; exact (hpar r hr).2

/-! ## Programs on tracked resources -/

/-- The current state of resource `i` has a row. -/
def Recorded (s : St) (i : ℕ) : Prop :=
  ∃ r ∈ s.rows, r.id = (s.obj i).sid ∧ r.obj = (s.obj i).oid

/-- The current state of resource `i` has a row that shows its quantity, unless at most `eps` is
left. -/
def Shown (eps : ℚ) (s : St) (i : ℕ) : Prop :=
  ∃ r ∈ s.rows, r.id = (s.obj i).sid ∧ r.obj = (s.obj i).oid ∧
    (r.qty = (s.obj i).qty ∨ (s.obj i).qty ≤ eps)

theorem Shown.rec {eps : ℚ} {s : St} {i : ℕ} (h : Shown eps s i) : Recorded s i := by
  obtain ⟨r, h1, h2, h3, -⟩ := h
  exact ⟨r, h1, h2, h3⟩

/-- Invariant of tracked programs inside a call: resources in `U` have no row yet, the rows of those
in `B` show an old quantity. -/
structure T (eps : ℚ) (s : St) (U B : ℕ → Prop) : Prop where
  tracked : ∀ k, k < s.n → (s.obj k).tracked = true
  ctx : ∀ k, k < s.n → (s.obj k).ctx = true
  ptr : ∀ k, k < s.n → (s.obj k).ptr = k
  ok : ∀ k, k < s.n → U k ∨ (B k ∧ Recorded s k) ∨ Shown eps s k
  par : ParentsEarlier s.rows

theorem T.recorded {eps : ℚ} {s : St} {U B : ℕ → Prop} (h : T eps s U B) {k : ℕ} (hk : k < s.n)
    (hu : ¬ U k) : Recorded s k := by
  rcases h.ok k hk with h | h | h
  · exact absurd h hu
  · exact h.2
  · exact h.rec

/-- A parent that may be written into a row. -/
def ParentOk (s : St) (p : ℕ) : Prop := p = 0 ∨ ∃ r ∈ s.rows, r.id = p

theorem T.bumped {eps : ℚ} {s : St} {U B : ℕ → Prop} (h : T eps s U B) {i p1 p2 : ℕ}
    (h1 : ParentOk s p1) (h2 : ParentOk s p2) :
    T eps (bumped s i p1 p2) (fun k => U k ∧ k ≠ i) (fun k => B k ∧ k ≠ i) := by
  have hobj : ∀ k, k ≠ i → (Tracker.bumped s i p1 p2).obj k = s.obj k := by
    intro k hk; simp [Tracker.bumped, hk]
  have hi : (Tracker.bumped s i p1 p2).obj i = { s.obj i with sid := s.nextS } := by
    simp [Tracker.bumped]
  constructor
  · intro k hk
    by_cases hki : k = i
    · subst hki; rw [hi]; exact h.tracked k hk
    · rw [hobj k hki]; exact h.tracked k hk
  · intro k hk
    by_cases hki : k = i
    · subst hki; rw [hi]; exact h.ctx k hk
    · rw [hobj k hki]; exact h.ctx k hk
  · intro k hk
    by_cases hki : k = i
    · subst hki; rw [hi]; exact h.ptr k hk
    · rw [hobj k hki]; exact h.ptr k hk
  · intro k hk
    by_cases hki : k = i
    · subst hki
      right; right
      refine ⟨⟨s.nextS, (s.obj k).oid, (s.obj k).qty, p1, p2⟩, ?_, ?_, ?_, ?_⟩
      · simp [Tracker.bumped]
      · rw [hi]
      · rw [hi]
      · rw [hi]; exact Or.inl rfl
    · have hmem : ∀ r, r ∈ s.rows → r ∈ (Tracker.bumped s i p1 p2).rows := by
        intro r hr; simp [Tracker.bumped, hr]
      rcases h.ok k hk with h | ⟨hb, r, hr, h⟩ | ⟨r, hr, h⟩
      · exact Or.inl ⟨h, hki⟩
      · right; left
        refine ⟨⟨hb, hki⟩, r, hmem r hr, ?_⟩
        rw [hobj k hki]; exact h
      · right; right
        refine ⟨r, hmem r hr, ?_⟩
        rw [hobj k hki]; exact h
  · exact parentsEarlier_snoc h.par h1 h2

theorem T.noted {eps : ℚ} {s : St} {U B : ℕ → Prop} (h : T eps s U B) {i p1 p2 : ℕ}
    (h1 : ParentOk s p1) (h2 : ParentOk s p2) :
    T eps (noted s i p1 p2) (fun k => U k ∧ k ≠ i) (fun k => B k ∧ k ≠ i) := by
  constructor
  · exact h.tracked
  · exact h.ctx
  · exact h.ptr
  · intro k hk
    by_cases hki : k = i
    · subst hki
      right; right
      exact ⟨⟨(s.obj k).sid, (s.obj k).oid, (s.obj k).qty, p1, p2⟩, by simp [Tracker.noted],
        rfl, rfl, Or.inl rfl⟩
    · have hmem : ∀ r, r ∈ s.rows → r ∈ (Tracker.noted s i p1 p2).rows := by
        intro r hr; simp [Tracker.noted, hr]
      rcases h.ok k hk with h | ⟨hb, r, hr, h⟩ | ⟨r, hr, h⟩
      · exact Or.inl ⟨h, hki⟩
      · exact Or.inr (Or.inl ⟨⟨hb, hki⟩, r, hmem r hr, h⟩)
      · exact Or.inr (Or.inr ⟨r, hmem r hr, h⟩)
  · exact parentsEarlier_snoc h.par h1 h2

theorem T.setQty {eps : ℚ} {s : St} {U B : ℕ → Prop} (h : T eps s U B) (i : ℕ) (q : ℚ) :
    T eps (setObj s i { s.obj i with qty := q }) U (fun k => B k ∨ k = i) := by
  have hobj : ∀ k, k ≠ i → (setObj s i { s.obj i with qty := q }).obj k = s.obj k := by
    intro k hk; simp [setObj, hk]
  have hi : (setObj s i { s.obj i with qty := q }).obj i = { s.obj i with qty := q } := by
    simp [setObj]
  constructor
  · intro k hk
    by_cases hki : k = i
    · subst hki; rw [hi]; exact h.tracked k hk
    · rw [hobj k hki]; exact h.tracked k hk
  · intro k hk
    by_cases hki : k = i
    · subst hki; rw [hi]; exact h.ctx k hk
    · rw [hobj k hki]; exact h.ctx k hk
  · intro k hk
    by_cases hki : k = i
    · subst hki; rw [hi]; exact h.ptr k hk
    · rw [hobj k hki]; exact h.ptr k hk
  · intro k hk
    by_cases hki : k = i
    · subst hki
      by_cases hu : U k
      · exact Or.inl hu
      · obtain ⟨r, hr, h1, h2⟩ := h.recorded hk hu
        right; left
        refine ⟨Or.inr rfl, r, hr, ?_⟩
        rw [hi]; exact ⟨h1, h2⟩
    · rcases h.ok k hk with h | ⟨hb, r, hr, h⟩ | ⟨r, hr, h⟩
      · exact Or.inl h
      · right; left
        refine ⟨Or.inl hb, r, hr, ?_⟩
        rw [hobj k hki]; exact h
      · right; right
        refine ⟨r, hr, ?_⟩
        rw [hobj k hki]; exact h
  · exact h.par

theorem T.alloc {k : Kind} {eps : ℚ} {s : St} {U B : ℕ → Prop} (h : T eps s U B) {c : Bool}
    (hc : c = true) (q : ℚ) : T eps (alloc k s c q) (fun x => U x ∨ x = s.n) B := by
  subst hc
  have hold : ∀ x, x ≠ s.n → (Tracker.alloc k s true q).obj x = s.obj x := by
    intro x hx; simp [Tracker.alloc, hx]
  have hnew : (Tracker.alloc k s true q).obj s.n = ⟨s.nextS, s.nextO, true, trackedInit k true, s.n, q⟩ := by
    simp only [Tracker.alloc, if_true]
  have hcase : ∀ x, x < (Tracker.alloc k s true q).n → x ≠ s.n → x < s.n := by
    intro x hx hne; simp only [Tracker.alloc] at hx; omega
  constructor
  · intro x hx
    by_cases hxn : x = s.n
    · subst hxn; rw [hnew]; cases k <;> rfl
    · rw [hold x hxn]; exact h.tracked x (hcase x hx hxn)
  · intro x hx
    by_cases hxn : x = s.n
    · subst hxn; rw [hnew]
    · rw [hold x hxn]; exact h.ctx x (hcase x hx hxn)
  · intro x hx
    by_cases hxn : x = s.n
    · subst hxn; rw [hnew]
    · rw [hold x hxn]; exact h.ptr x (hcase x hx hxn)
  · intro x hx
    by_cases hxn : x = s.n
    · exact Or.inl (Or.inr hxn)
    · rcases h.ok x (hcase x hx hxn) with h | ⟨hb, r, hr, h⟩ | ⟨r, hr, h⟩
      · exact Or.inl (Or.inl h)
      · right; left
        refine ⟨hb, r, hr, ?_⟩
        rw [hold x hxn]; exact h
      · right; right
        refine ⟨r, hr, ?_⟩
        rw [hold x hxn]; exact h
  · exact h.par

/-- Between calls nothing is pending. -/
abbrev TOk (eps : ℚ) (s : St) : Prop := T eps s (fun _ => False) (fun _ => False)

theorem T.done {eps : ℚ} {s : St} {U B : ℕ → Prop} (h : T eps s U B) (hu : ∀ k, k < s.n → ¬ U k)
    (hb : ∀ k, k < s.n → B k → (s.obj k).qty ≤ eps) : TOk eps s := by
  refine ⟨h.tracked, h.ctx, h.ptr, fun k hk => ?_, h.par⟩
  right; right
  rcases h.ok k hk with h | ⟨h1, r, hr, h2⟩ | h
  · exact absurd h (hu k hk)
  · exact ⟨r, hr, h2.1, h2.2, Or.inr (hb k hk h1)⟩
  · exact h

theorem T.parentOk {eps : ℚ} {s : St} {U B : ℕ → Prop} (h : T eps s U B) {k : ℕ} (hk : k < s.n)
    (hu : ¬ U k) : ParentOk s (s.obj k).sid := by
  obtain ⟨r, hr, h1, -⟩ := h.recorded hk hu
  exact Or.inr ⟨r, hr, h1⟩

theorem tModify_tracked {s : St} {i : ℕ} (ht : (s.obj i).tracked = true) (hc : (s.obj i).ctx = true)
    (hp : (s.obj i).ptr = i) : tModify s i = some (bumped s i (s.obj i).sid 0) := by
  unfold tModify
  rw [ht, record_bump hp, if_pos hc, hp]
  rfl

/-- Every call of a tracked program succeeds in recording and keeps the invariant. -/
theorem tracked_step {k : Kind} {eps : ℚ} {s : St} (he : 0 ≤ eps) (h : TOk eps s) {op : Op}
    (hv : ValidArgs s op) (ht : TrackedOp op) : ∃ s', step k eps s op = some s' ∧ TOk eps s' := by
  cases op with
  | create q =>
    have h1 := h.alloc (k := k) rfl q
    have hlt : s.n < (alloc k s true q).n := by simp [alloc]
    refine ⟨noted (alloc k s true q) s.n 0 0, ?_, ?_⟩
    · simp only [step, tCreate]
      rw [h1.tracked _ hlt, record_same (h1.ptr _ hlt), if_pos (h1.ctx _ hlt)]
      rfl
    · refine (h1.noted (Or.inl rfl) (Or.inl rfl)).done (fun x _ hu => ?_) (fun x _ hb => hb.1.elim)
      rcases hu.1 with h | h
      · exact h
      · exact hu.2 h
  | createUntracked q => exact ht.elim
  | clone i => exact ht.elim
  | extract i q =>
    have hin : i < s.n := hv
    simp only [step]
    split
    · exact ⟨s, rfl, h⟩
    · have h1 := (h.setQty i ((s.obj i).qty - q)).alloc (k := k) (h.ctx i hin) q
      set t := alloc k (setObj s i { s.obj i with qty := (s.obj i).qty - q }) (s.obj i).ctx q with htt
      have htn : t.n = s.n + 1 := rfl
      have hne : i ≠ s.n := by omega
      have hti : t.obj i = { s.obj i with qty := (s.obj i).qty - q } := by
        simp [htt, alloc, setObj, hne]
      have hil : i < t.n := by omega
      have hnl : s.n < t.n := by omega
      have hpar : ParentOk t (t.obj i).sid := by
        refine h1.parentOk hil ?_
        rintro (h | h)
        · exact h
        · exact hne h
      have hsetid : setObj t s.n { t.obj s.n with tracked := (t.obj i).tracked } = t := by
        unfold setObj
        have : (fun k => if k = s.n then { t.obj s.n with tracked := (t.obj i).tracked } else t.obj k)
            = t.obj := by
          funext k
          split
          · subst_vars; rw [h1.tracked i hil, ← h1.tracked s.n hnl]
          · rfl
        rw [this]
      have hb := h1.bumped (i := s.n) hpar (p2 := 0) (Or.inl rfl)
      set t2 := bumped t s.n (t.obj i).sid 0 with ht2
      have ht2i : t2.obj i = t.obj i := by simp [ht2, bumped, hne]
      have hil2 : i < t2.n := hil
      have e1 : tExtract eps t i s.n
          = if (t2.obj i).qty > eps then record t2 i true (t.obj i).sid 0 else some t2 := by
        unfold tExtract
        rw [h1.tracked i hil]
        simp only [Bool.not_true, Bool.false_eq_true, if_false]
        have hsetid' := hsetid
        rw [h1.tracked i hil] at hsetid'
        rw [hsetid', record_bump (h1.ptr s.n hnl), if_pos (h1.ctx s.n hnl), h1.ptr i hil]
        simp only
        rw [← ht2, hb.ptr i hil2]
      rw [e1]
      split
      · refine ⟨bumped t2 i (t.obj i).sid 0, ?_, ?_⟩
        · rw [record_bump (hb.ptr i hil2), if_pos (hb.ctx i hil2)]
        · have hp2 : ParentOk t2 (t.obj i).sid := by
            rcases hpar with h | ⟨r, hr, h⟩
            · exact Or.inl h
            · exact Or.inr ⟨r, by simp [ht2, bumped, hr], h⟩
          refine (hb.bumped hp2 (Or.inl rfl)).done (fun x _ hu => ?_) (fun x _ hb => ?_)
          · rcases hu.1.1 with h | h
            · exact h
            · exact hu.1.2 h
          · rcases hb.1.1 with h | h
            · exact h.elim
            · exact absurd h hb.2
      · rename_i hq
        refine ⟨t2, rfl, hb.done (fun x _ hu => ?_) (fun x _ hb => ?_)⟩
        · rcases hu.1 with h | h
          · exact h
          · exact hu.2 h
        · rcases hb.1 with h | h
          · exact h.elim
          · rw [h]; exact not_lt.1 hq
  | absorb i j =>
    obtain ⟨hin, hjn⟩ := hv
    simp only [step]
    have h1 := h.setQty i ((s.obj i).qty + (s.obj j).qty)
    have h2 := h1.setQty j 0
    set t := setObj (setObj s i { s.obj i with qty := (s.obj i).qty + (s.obj j).qty }) j
      { (setObj s i { s.obj i with qty := (s.obj i).qty + (s.obj j).qty }).obj j with qty := 0 } with htt
    have hil : i < t.n := hin
    have hjl : j < t.n := hjn
    have hjq : (t.obj j).qty = 0 := by simp [htt, setObj]
    refine ⟨bumped t i (t.obj i).sid (t.obj j).sid, ?_, ?_⟩
    · unfold tAbsorb
      rw [h2.tracked i hil, record_bump (h2.ptr i hil), if_pos (h2.ctx i hil), h2.ptr i hil,
        h2.ptr j hjl]
      rfl
    · refine (h2.bumped (h2.parentOk hil id) (h2.parentOk hjl id)).done (fun x _ hu => hu.1)
        (fun x hx hb => ?_)
      rcases hb.1 with (h | h) | h
      · exact h.elim
      · exact absurd h hb.2
      · subst h
        have : (bumped t i (t.obj i).sid (t.obj x).sid).obj x = t.obj x := by
          simp [bumped, hb.2]
        rw [this, hjq]
        exact he
  | modify i =>
    have hin : i < s.n := hv
    refine ⟨_, tModify_tracked (h.tracked i hin) (h.ctx i hin) (h.ptr i hin), ?_⟩
    exact (h.bumped (h.parentOk hin id) (Or.inl rfl)).done (fun x _ hu => hu.1) (fun x _ hb => hb.1.elim)
  | packageExtract i q =>
    have hin : i < s.n := hv
    simp only [step]
    split
    · exact ⟨s, rfl, h⟩
    · have h1 := (h.setQty i ((s.obj i).qty - q)).alloc (k := k) (h.ctx i hin) q
      set t := alloc k (setObj s i { s.obj i with qty := (s.obj i).qty - q }) (s.obj i).ctx q with htt
      have htn : t.n = s.n + 1 := rfl
      have hne : i ≠ s.n := by omega
      have hil : i < t.n := by omega
      have hnl : s.n < t.n := by omega
      have hpar : ParentOk t (t.obj i).sid := by
        refine h1.parentOk hil ?_
        rintro (h | h)
        · exact h
        · exact hne h
      have hb := h1.noted (i := s.n) hpar (p2 := 0) (Or.inl rfl)
      set t2 := noted t s.n (t.obj i).sid 0 with ht2
      have hil2 : i < t2.n := hil
      have e1 : tPackage t s.n (some i) = some t2 := by
        unfold tPackage
        rw [h1.tracked s.n hnl]
        simp only [Bool.not_true, Bool.false_eq_true, if_false]
        rw [record_same (h1.ptr s.n hnl), if_pos (h1.ctx s.n hnl), h1.ptr i hil]
      rw [e1]
      simp only
      split
      · refine ⟨_, tModify_tracked (hb.tracked i hil2) (hb.ctx i hil2) (hb.ptr i hil2), ?_⟩
        refine (hb.bumped (hb.parentOk hil2 ?_) (Or.inl rfl)).done (fun x _ hu => ?_)
          (fun x _ hb => ?_)
        · rintro ⟨h | h, -⟩
          · exact h
          · exact hne h
        · rcases hu.1.1 with h | h
          · exact h
          · exact hu.1.2 h
        · rcases hb.1.1 with h | h
          · exact h.elim
          · exact absurd h hb.2
      · rename_i hq
        refine ⟨t2, rfl, hb.done (fun x _ hu => ?_) (fun x _ hb => ?_)⟩
        · rcases hu.1 with h | h
          · exact h
          · exact hu.2 h
        · rcases hb.1 with h | h
          · exact h.elim
          · rw [h]; exact not_lt.1 hq
  | repackage i =>
    have hin : i < s.n := hv
    refine ⟨bumped s i (s.obj i).sid 0, ?_, ?_⟩
    · simp only [step, tPackage]
      rw [if_pos (h.ctx i hin), h.tracked i hin, record_bump (h.ptr i hin), if_pos (h.ctx i hin),
        h.ptr i hin]
      rfl
    · exact (h.bumped (h.parentOk hin id) (Or.inl rfl)).done (fun x _ hu => hu.1)
        (fun x _ hb => hb.1.elim)

theorem tracked_run {k : Kind} {eps : ℚ} (he : 0 ≤ eps) : ∀ (ops : List Op) (s : St), TOk eps s →
    Program k eps s ops → (∀ op ∈ ops, TrackedOp op) → ∃ s', run k eps s ops = some s' ∧ TOk eps s' := by
  intro ops
  induction ops with
  | nil => intro s h _ _; exact ⟨s, rfl, h⟩
  | cons op ops ih =>
    intro s h hp ht
    obtain ⟨s1, e1, h1⟩ := tracked_step (k := k) he h hp.1 (ht op (by simp))
    obtain ⟨s2, e2, h2⟩ := ih s1 h1 (hp.2 s1 e1) (fun op hop => ht op (by simp [hop]))
    exact ⟨s2, by simp only [run, e1, e2], h2⟩

theorem tok_init (eps : ℚ) : TOk eps init := by
  constructor
  · intro k hk; exact absurd hk (Nat.not_lt_zero _)
  · intro k hk; exact absurd hk (Nat.not_lt_zero _)
  · intro k hk; exact absurd hk (Nat.not_lt_zero _)
  · intro k hk; exact absurd hk (Nat.not_lt_zero _)
  · intro l1 r l2 h
    have := congrArg List.length h
    simp [init] at this

/-- **C10 (tracked programs).**  On tracked resources no call crashes, and every parent named in the
Resources table is 0 or the id of an earlier row, so the genealogy has no dangling links. -/
theorem C10_parents_recorded (k : Kind) (eps : ℚ) (he : 0 ≤ eps) (ops : List Op)
    (hp : Program k eps init ops) (ht : ∀ op ∈ ops, TrackedOp op) :
    ∃ s, run k eps init ops = some s ∧ ParentsEarlier s.rows ∧ ∀ i, i < s.n → Recorded s i := by
  obtain ⟨s, h1, h2⟩ := tracked_run (k := k) he ops init (tok_init eps) hp ht
  exact ⟨s, h1, h2.par, fun i hi => h2.recorded hi id⟩

/-- **C56.**  On tracked resources the row of a resource's current state shows its current quantity,
unless at most `eps` of it is left. -/
theorem C56_rows_show_quantity (k : Kind) (eps : ℚ) (he : 0 ≤ eps) (ops : List Op)
    (hp : Program k eps init ops) (ht : ∀ op ∈ ops, TrackedOp op) :
    ∃ s, run k eps init ops = some s ∧ ∀ i, i < s.n → Shown eps s i := by
  obtain ⟨s, h1, h2⟩ := tracked_run (k := k) he ops init (tok_init eps) hp ht
  refine ⟨s, h1, fun i hi => ?_⟩
  rcases h2.ok i hi with h | h | h
  · exact h.elim
  · exact h.1.elim
  · exact h

/-- A tracked program with all kinds of calls. -/
def trackedDemo : List Op :=
  [.create 5, .extract 0 2, .create 3, .absorb 0 2, .packageExtract 0 1, .modify 1, .repackage 3,
   .extract 1 2, .absorb 0 0]

instance (op : Op) : Decidable (TrackedOp op) := by cases op <;> unfold TrackedOp <;> infer_instance

example : (0 : ℚ) ≤ 1/1000000 ∧ Program .product (1/1000000) init trackedDemo ∧
    ∀ op ∈ trackedDemo, TrackedOp op := by decide +kernel

/-! ## C54: untracked resources -/

/-- C54 in full, for one class: a call on a resource that is untracked, or was obtained from one, does
not crash and adds no row.  `dark` is the set of such resources. -/
def DarkProgram (k : Kind) (eps : ℚ) : St → (ℕ → Prop) → List Op → Prop
  | _, _, [] => True
  | s, dark, op :: ops =>
    (match op with
      | .create _ => True
      | .createUntracked _ => ∀ s', step k eps s op = some s' →
          DarkProgram k eps s' (fun x => dark x ∨ x = s.n) ops
      | .clone i => i < s.n → ∀ s', step k eps s op = some s' →
          DarkProgram k eps s' (fun x => dark x ∨ x = s.n) ops
      | .extract i _ | .packageExtract i _ => i < s.n → dark i → ∃ s', step k eps s op = some s' ∧
          s'.rows = s.rows ∧ DarkProgram k eps s' (fun x => dark x ∨ x = s.n) ops
      | .modify i | .repackage i => i < s.n → dark i → ∃ s', step k eps s op = some s' ∧
          s'.rows = s.rows ∧ DarkProgram k eps s' dark ops
      | .absorb i j => i < s.n → j < s.n → dark i → ∃ s', step k eps s op = some s' ∧
          s'.rows = s.rows ∧ DarkProgram k eps s' dark ops)

/-- C54 for programs that start with one tracked resource. -/
def C54 (k : Kind) : Prop := ∀ eps q ops s, 0 ≤ eps → step k eps init (.create q) = some s →
  DarkProgram k eps s (fun _ => False) ops

/-- **C54 (partial).**  Calls made directly on an untracked resource add no row, except packages taken
from a clone; and whatever is taken from a Material without context has no context either and is
untracked.  Missing: pieces of clones, which are tracked again (`C54_fails_clone`), and pieces of
untracked Products, which crash when used (`C54_fails_product`). -/
theorem C54_untracked_silent_partial (k : Kind) (eps : ℚ) (s : St) (i j : ℕ) (q : ℚ)
    (hi : i < s.n) (hu : (s.obj i).tracked = false) :
    (∃ s', step k eps s (.extract i q) = some s' ∧ s'.rows = s.rows) ∧
    (∃ s', step k eps s (.absorb i j) = some s' ∧ s'.rows = s.rows) ∧
    (∃ s', step k eps s (.modify i) = some s' ∧ s'.rows = s.rows) ∧
    (∃ s', step k eps s (.repackage i) = some s' ∧ s'.rows = s.rows) ∧
    (k = .material → (s.obj i).ctx = false → ∀ op, op = .extract i q ∨ op = .packageExtract i q →
      ∃ s', step k eps s op = some s' ∧ s'.rows = s.rows ∧ (s' = s ∨
        (s'.n = s.n + 1 ∧ (s'.obj s.n).tracked = false ∧ (s'.obj s.n).ctx = false))) := by
  have hne : i ≠ s.n := by omega
  refine ⟨?_, ?_, ?_, ?_, ?_⟩
  · simp only [step]
    split
    · exact ⟨s, rfl, rfl⟩
    · refine ⟨?_, ?_, ?_⟩
      · exact alloc k (setObj s i { s.obj i with qty := (s.obj i).qty - q }) (s.obj i).ctx q
      · unfold tExtract
        rw [if_pos]
        simp [alloc, setObj, hne, hu]
      · rfl
  · simp only [step, tAbsorb]
    refine ⟨?_, ?_, ?_⟩
    · exact setObj (setObj s i { s.obj i with qty := (s.obj i).qty + (s.obj j).qty }) j
        { (setObj s i { s.obj i with qty := (s.obj i).qty + (s.obj j).qty }).obj j with qty := 0 }
    · rw [if_pos]
      by_cases hij : i = j
      · subst hij; simp [setObj, hu]
      · simp [setObj, hij, hu]
    · rfl
  · exact ⟨s, by simp [step, tModify, hu], rfl⟩
  · refine ⟨s, ?_, rfl⟩
    simp only [step, tPackage, hu]
    split <;> rfl
  · rintro rfl hc op (rfl | rfl)
    · simp only [step]
      split
      · exact ⟨s, rfl, rfl, Or.inl rfl⟩
      · refine ⟨alloc .material (setObj s i { s.obj i with qty := (s.obj i).qty - q }) (s.obj i).ctx q,
          ?_, rfl, Or.inr ⟨rfl, ?_, ?_⟩⟩
        · unfold tExtract
          rw [if_pos]
          simp [alloc, setObj, hne, hu]
        · simp [alloc, setObj, trackedInit, hc]
        · simp [alloc, setObj, hc]
    · simp only [step]
      split
      · exact ⟨s, rfl, rfl, Or.inl rfl⟩
      · have e : tPackage (alloc .material (setObj s i { s.obj i with qty := (s.obj i).qty - q })
            (s.obj i).ctx q) s.n (some i) = some (alloc .material
            (setObj s i { s.obj i with qty := (s.obj i).qty - q }) (s.obj i).ctx q) := by
          unfold tPackage
          rw [if_pos]
          simp [alloc, setObj, trackedInit, hc]
        rw [e]
        simp only
        refine ⟨alloc .material (setObj s i { s.obj i with qty := (s.obj i).qty - q }) (s.obj i).ctx q,
          ?_, rfl, Or.inr ⟨rfl, ?_, ?_⟩⟩
        · split
          · unfold tModify
            rw [if_pos]
            simp [alloc, setObj, hne, hu]
          · rfl
        · simp [alloc, setObj, trackedInit, hc]
        · simp [alloc, setObj, hc]

example : ∃ s, run .material 0 init [.create 5, .clone 0] = some s ∧ 1 < s.n ∧
    (s.obj 1).tracked = false := ⟨_, rfl, by decide +kernel, by decide +kernel⟩

/-- C54 fails: a piece of a clone is tracked again and writes rows, here after `Modify`. -/
theorem C54_fails_clone (k : Kind) : ¬ C54 k := by
  intro h
  obtain ⟨s0, e0⟩ : ∃ s, step k 0 init (.create 5) = some s := by
    rw [← Option.isSome_iff_exists]; cases k <;> decide +kernel
  have n0 : s0.n = 1 := by
    have : (step k 0 init (.create 5)).map St.n = some 1 := by cases k <;> decide +kernel
    rw [e0] at this; simpa using this
  obtain ⟨s1, e1⟩ : ∃ s, step k 0 s0 (.clone 0) = some s := ⟨_, rfl⟩
  have r1 : run k 0 init [.create 5, .clone 0] = some s1 := by simp only [run, e0, e1]
  have n1 : s1.n = 2 := by
    have : (run k 0 init [.create 5, .clone 0]).map St.n = some 2 := by cases k <;> decide +kernel
    rw [r1] at this; simpa using this
  have h1 := h 0 5 [.clone 0, .extract 1 2, .modify 2] s0 le_rfl e0 (by omega) s1 e1
  obtain ⟨s2, e2, -, h3⟩ := h1 (by omega) (Or.inr n0.symm)
  have r2 : run k 0 init [.create 5, .clone 0, .extract 1 2] = some s2 := by
    simp only [run, e0, e1, e2]
  have n2 : s2.n = 3 ∧ s2.rows.length = 1 := by
    have : (run k 0 init [.create 5, .clone 0, .extract 1 2]).map (fun s => (s.n, s.rows.length))
      = some (3, 1) := by cases k <;> decide +kernel
    rw [r2] at this; simpa using this
  obtain ⟨s3, e3, h4, -⟩ := h3 (by omega) (Or.inr n1.symm)
  have r3 : run k 0 init [.create 5, .clone 0, .extract 1 2, .modify 2] = some s3 := by
    simp only [run, e0, e1, e2, e3]
  have n3 : s3.rows.length = 2 := by
    have : (run k 0 init [.create 5, .clone 0, .extract 1 2, .modify 2]).map
      (fun s => s.rows.length) = some 2 := by cases k <;> decide +kernel
    rw [r3] at this; simpa using this
  rw [h4] at n3
  omega

/-- C54 fails: extracting twice from an untracked Product dereferences the null context. -/
theorem C54_fails_product :
    run .product (1/1000000) init [.createUntracked 2, .extract 0 1, .extract 1 (1/2)] = none := by
  have : (run .product (1/1000000) init
    [.createUntracked 2, .extract 0 1, .extract 1 (1/2)]).isNone = true := by decide +kernel
  simpa using this

/-- C10's parents need not be recorded when clones are used: a modified piece of a clone names a
parent that is in no row. -/
theorem C10_fails_clone : ∃ s, run .material (1/1000000) init
    [.create 5, .clone 0, .extract 1 2, .modify 2] = some s ∧ ¬ ParentsEarlier s.rows := by
  refine ⟨_, rfl, fun h => ?_⟩
  have := (h [⟨1, 1, 5, 0, 0⟩] ⟨3, 2, 2, 2, 0⟩ [] (by decide +kernel)).1
  simp at this

end Cyclus.Tracker
