import Verif.Model.Tracker
import Mathlib.Data.List.Basic
import Mathlib.Tactic.Linarith

/-!
# Auxiliary lemmas about the tracker
-/

namespace Cyclus.Tracker

/-- The state after recording `i` with a new state id. -/
def bumped (s : St) (i p1 p2 : ℕ) : St :=
  { s with
    obj := fun k => if k = i then { s.obj i with sid := s.nextS } else s.obj k
    nextS := s.nextS + 1
    rows := s.rows ++ [⟨s.nextS, (s.obj i).oid, (s.obj i).qty, p1, p2⟩] }

/-- The state after recording `i` with its current state id. -/
def noted (s : St) (i p1 p2 : ℕ) : St :=
  { s with rows := s.rows ++ [⟨(s.obj i).sid, (s.obj i).oid, (s.obj i).qty, p1, p2⟩] }

theorem record_bump {s : St} {i : ℕ} (h : (s.obj i).ptr = i) (p1 p2 : ℕ) :
    record s i true p1 p2 = if (s.obj i).ctx then some (bumped s i p1 p2) else none := by
  unfold record bumped
  simp [h, setObj]

theorem record_same {s : St} {i : ℕ} (h : (s.obj i).ptr = i) (p1 p2 : ℕ) :
    record s i false p1 p2 = if (s.obj i).ctx then some (noted s i p1 p2) else none := by
  unfold record noted
  simp [h]

/-- General invariant, with or without clones. -/
structure Inv (s : St) : Prop where
  start : 1 ≤ s.nextS
  sid : ∀ k, k < s.n → (s.obj k).sid < s.nextS
  oid : ∀ k, k < s.n → (s.obj k).oid < s.nextO
  ptr : ∀ k, k < s.n → (s.obj k).ptr < s.n
  self : ∀ k, k < s.n → (s.obj k).tracked = true → (s.obj k).ptr = k
  dist : ∀ i j, i < s.n → j < s.n → (s.obj i).tracked = true → (s.obj j).tracked = true →
    (s.obj i).oid = (s.obj j).oid → i = j
  inc : s.rows.Pairwise (fun a b => a.id < b.id)
  bound : ∀ r ∈ s.rows, r.id < s.nextS
  par : ∀ r ∈ s.rows, r.p1 < r.id ∧ r.p2 < r.id

theorem inv_init : Inv init := by
  constructor <;> simp [init]

theorem inv_bumped {s : St} (hi : Inv s) {i p1 p2 : ℕ} (hin : i < s.n) (h1 : p1 < s.nextS)
    (h2 : p2 < s.nextS) : Inv (bumped s i p1 p2) := by
  have hobj : ∀ k, (bumped s i p1 p2).obj k
      = if k = i then { s.obj i with sid := s.nextS } else s.obj k := fun _ => rfl
  have hoid : ∀ k, ((bumped s i p1 p2).obj k).oid = (s.obj k).oid := by
    intro k; rw [hobj]; split
    · subst_vars; rfl
    · rfl
  have htr : ∀ k, ((bumped s i p1 p2).obj k).tracked = (s.obj k).tracked := by
    intro k; rw [hobj]; split
    · subst_vars; rfl
    · rfl
  have hptr : ∀ k, ((bumped s i p1 p2).obj k).ptr = (s.obj k).ptr := by
    intro k; rw [hobj]; split
    · subst_vars; rfl
    · rfl
  constructor
  · exact Nat.le_succ_of_le hi.start
  · intro k hk
    rw [hobj]; split
    · exact Nat.lt_succ_self _
    · exact Nat.lt_succ_of_lt (hi.sid k hk)
  · intro k hk; rw [hoid]; exact hi.oid k hk
  · intro k hk; rw [hptr]; exact hi.ptr k hk
  · intro k hk ht; rw [hptr]; rw [htr] at ht; exact hi.self k hk ht
  · intro a b ha hb; rw [htr, htr, hoid, hoid]; exact hi.dist a b ha hb
  · simp only [bumped]
    rw [List.pairwise_append]
    refine ⟨hi.inc, by simp, fun a ha b hb => ?_⟩
    simp only [List.mem_singleton] at hb
    subst hb
    exact hi.bound a ha
  · intro r hr
    simp only [bumped, List.mem_append, List.mem_singleton] at hr ⊢
    rcases hr with hr | rfl
    · exact Nat.lt_succ_of_lt (hi.bound r hr)
    · exact Nat.lt_succ_self _
  · intro r hr
    simp only [bumped, List.mem_append, List.mem_singleton] at hr
    rcases hr with hr | rfl
    · exact hi.par r hr
    · exact ⟨h1, h2⟩

theorem inv_noted {s : St} (hi : Inv s) {i p1 p2 : ℕ} (hin : i < s.n)
    (hf : ∀ r ∈ s.rows, r.id < (s.obj i).sid) (h1 : p1 < (s.obj i).sid)
    (h2 : p2 < (s.obj i).sid) : Inv (noted s i p1 p2) := by
  constructor
  · exact hi.start
  · exact hi.sid
  · exact hi.oid
  · exact hi.ptr
  · exact hi.self
  · exact hi.dist
  · simp only [noted]
    rw [List.pairwise_append]
    refine ⟨hi.inc, by simp, fun a ha b hb => ?_⟩
    simp only [List.mem_singleton] at hb
    subst hb
    exact hf a ha
  · intro r hr
    simp only [noted, List.mem_append, List.mem_singleton] at hr ⊢
    rcases hr with hr | rfl
    · exact hi.bound r hr
    · exact hi.sid i hin
  · intro r hr
    simp only [noted, List.mem_append, List.mem_singleton] at hr
    rcases hr with hr | rfl
    · exact hi.par r hr
    · exact ⟨h1, h2⟩

theorem inv_alloc {k : Kind} {s : St} (hi : Inv s) (c : Bool) (q : ℚ) : Inv (alloc k s c q) := by
  have hold : ∀ x, x < s.n → (alloc k s c q).obj x = s.obj x := by
    intro x hx; simp [alloc, show x ≠ s.n by omega]
  have hnew : (alloc k s c q).obj s.n = ⟨s.nextS, s.nextO, c, trackedInit k c, s.n, q⟩ := by
    simp only [alloc, if_true]
  have hcase : ∀ x, x < (alloc k s c q).n → x < s.n ∨ x = s.n := by
    intro x hx; simp only [alloc] at hx; omega
  have hn : (alloc k s c q).n = s.n + 1 := rfl
  have hs : (alloc k s c q).nextS = s.nextS + 1 := rfl
  have ho : (alloc k s c q).nextO = s.nextO + 1 := rfl
  constructor
  · rw [hs]; exact Nat.le_succ_of_le hi.start
  · intro x hx
    rcases hcase x hx with h | rfl
    · rw [hold x h, hs]; exact Nat.lt_succ_of_lt (hi.sid x h)
    · rw [hnew, hs]; exact Nat.lt_succ_self _
  · intro x hx
    rcases hcase x hx with h | rfl
    · rw [hold x h, ho]; exact Nat.lt_succ_of_lt (hi.oid x h)
    · rw [hnew, ho]; exact Nat.lt_succ_self _
  · intro x hx
    rcases hcase x hx with h | rfl
    · rw [hold x h, hn]; exact Nat.lt_succ_of_lt (hi.ptr x h)
    · rw [hnew, hn]; exact Nat.lt_succ_self _
  · intro x hx ht
    rcases hcase x hx with h | rfl
    · rw [hold x h] at ht ⊢; exact hi.self x h ht
    · rw [hnew]
  · intro a b ha hb ta tb hab
    rcases hcase a ha with h1 | rfl <;> rcases hcase b hb with h2 | rfl
    · rw [hold a h1, hold b h2] at hab
      rw [hold a h1] at ta
      rw [hold b h2] at tb
      exact hi.dist a b h1 h2 ta tb hab
    · rw [hold a h1, hnew] at hab
      have := hi.oid a h1
      simp only at hab; omega
    · rw [hold b h2, hnew] at hab
      have := hi.oid b h2
      simp only at hab; omega
    · rfl
  · exact hi.inc
  · intro r hr
    rw [hs]; exact Nat.lt_succ_of_lt (hi.bound r hr)
  · exact hi.par

/-- Changing quantity (and clearing `tracked`) keeps the invariant. -/
theorem inv_setObj {s : St} (hi : Inv s) {i : ℕ} {r : Res} (h1 : r.sid = (s.obj i).sid)
    (h2 : r.oid = (s.obj i).oid) (h3 : r.ptr = (s.obj i).ptr)
    (h4 : r.tracked = true → (s.obj i).tracked = true) : Inv (setObj s i r) := by
  have hobj : ∀ k, (setObj s i r).obj k = if k = i then r else s.obj k := fun _ => rfl
  have a1 : ∀ k, ((setObj s i r).obj k).sid = (s.obj k).sid := by
    intro k; rw [hobj]; split
    · subst_vars; exact h1
    · rfl
  have a2 : ∀ k, ((setObj s i r).obj k).oid = (s.obj k).oid := by
    intro k; rw [hobj]; split
    · subst_vars; exact h2
    · rfl
  have a3 : ∀ k, ((setObj s i r).obj k).ptr = (s.obj k).ptr := by
    intro k; rw [hobj]; split
    · subst_vars; exact h3
    · rfl
  have a4 : ∀ k, ((setObj s i r).obj k).tracked = true → (s.obj k).tracked = true := by
    intro k; rw [hobj]; split
    · subst_vars; exact h4
    · exact id
  constructor
  · exact hi.start
  · intro k hk; rw [a1]; exact hi.sid k hk
  · intro k hk; rw [a2]; exact hi.oid k hk
  · intro k hk; rw [a3]; exact hi.ptr k hk
  · intro k hk ht; rw [a3]; exact hi.self k hk (a4 k ht)
  · intro a b ha hb ta tb; rw [a2, a2]; exact hi.dist a b ha hb (a4 a ta) (a4 b tb)
  · exact hi.inc
  · exact hi.bound
  · exact hi.par

/-- Arguments denote existing objects. -/
def ValidArgs (s : St) : Op → Prop
  | .create _ | .createUntracked _ => True
  | .clone i | .extract i _ | .modify i | .packageExtract i _ | .repackage i => i < s.n
  | .absorb i j => i < s.n ∧ j < s.n

theorem inv_tModify {s s' : St} (hi : Inv s) {i : ℕ} (hin : i < s.n)
    (h : tModify s i = some s') : Inv s' := by
  unfold tModify at h
  split at h
  · cases h; exact hi
  · rename_i ht
    have hs := hi.self i hin (by simpa using ht)
    rw [record_bump hs] at h
    split at h
    · cases h
      rw [hs]
      exact inv_bumped hi hin (hi.sid i hin) (by have := hi.start; omega)
    · cases h

theorem inv_tAbsorb {s s' : St} (hi : Inv s) {i j : ℕ} (hin : i < s.n) (hjn : j < s.n)
    (h : tAbsorb s i j = some s') : Inv s' := by
  unfold tAbsorb at h
  split at h
  · cases h; exact hi
  · rename_i ht
    have hs := hi.self i hin (by simpa using ht)
    rw [record_bump hs] at h
    split at h
    · cases h
      rw [hs]
      exact inv_bumped hi hin (hi.sid i hin) (hi.sid _ (hi.ptr j hjn))
    · cases h

theorem inv_tExtract {eps : ℚ} {s s' : St} (hi : Inv s) {i j : ℕ} (hin : i < s.n) (hjn : j < s.n)
    (htj : (s.obj j).tracked = true ∨ (s.obj i).tracked = false) (hij : i ≠ j)
    (h : tExtract eps s i j = some s') : Inv s' := by
  unfold tExtract at h
  split at h
  · cases h; exact hi
  · rename_i ht
    have ht : (s.obj i).tracked = true := by simpa using ht
    have htj : (s.obj j).tracked = true := by
      rcases htj with h | h
      · exact h
      · rw [ht] at h; cases h
    have hsi := hi.self i hin ht
    have hsj := hi.self j hjn htj
    simp only at h
    have hset : setObj s j { s.obj j with tracked := (s.obj i).tracked } = s := by
      unfold setObj
      have : (fun k => if k = j then { s.obj j with tracked := (s.obj i).tracked } else s.obj k)
          = s.obj := by
        funext k
        split
        · subst_vars; rw [ht, ← htj]
        · rfl
      rw [this]
    rw [hset, record_bump hsj] at h
    split at h
    · cases h
    · rename_i s2 hs2
      split at hs2
      · cases hs2
        have hi2 : Inv (bumped s j (s.obj (s.obj i).ptr).sid 0) :=
          inv_bumped hi hjn (by rw [hsi]; exact hi.sid i hin) (by have := hi.start; omega)
        split at h
        · have hpi : ((bumped s j (s.obj (s.obj i).ptr).sid 0).obj i).ptr = i := by
            simp [bumped, hij, hsi]
          rw [record_bump hpi] at h
          split at h
          · cases h
            refine inv_bumped hi2 hin ?_ ?_
            · rw [hsi]; exact Nat.lt_succ_of_lt (hi.sid i hin)
            · have := hi.start; simp only [bumped]; omega
          · cases h
        · cases h; exact hi2
      · cases hs2

theorem inv_tPackage_new {s s' : St} (hi : Inv s) {i p : ℕ} (hin : i < s.n)
    (hf : ∀ r ∈ s.rows, r.id < (s.obj i).sid) (h1 : (s.obj (s.obj p).ptr).sid < (s.obj i).sid)
    (h : tPackage s i (some p) = some s') : Inv s' ∧ s'.obj = s.obj ∧ s'.n = s.n := by
  unfold tPackage at h
  split at h
  · cases h; exact ⟨hi, rfl, rfl⟩
  · rename_i ht
    have hs := hi.self i hin (by simpa using ht)
    simp only at h
    rw [record_same hs] at h
    split at h
    · cases h
      exact ⟨inv_noted hi hin hf h1 (by omega), rfl, rfl⟩
    · cases h

/-- Every call keeps the general invariant. -/
theorem inv_step {k : Kind} {eps : ℚ} {s s' : St} (hi : Inv s) {op : Op} (hv : ValidArgs s op)
    (h : step k eps s op = some s') : Inv s' := by
  have hstart := hi.start
  cases op with
  | create q =>
    simp only [step] at h
    have ha := inv_alloc (k := k) hi true q
    unfold tCreate at h
    split at h
    · cases h; exact ha
    · have hp : ((alloc k s true q).obj s.n).ptr = s.n := by simp [alloc]
      rw [record_same hp] at h
      split at h
      · cases h
        refine inv_noted ha (by simp [alloc]) ?_ ?_ ?_
        · intro r hr
          simp only [alloc, if_true]
          exact hi.bound r hr
        · simp only [alloc, if_true]; omega
        · simp only [alloc, if_true]; omega
      · cases h
  | createUntracked q =>
    simp only [step, Option.some.injEq] at h
    subst h
    exact inv_setObj (inv_alloc hi false q) rfl rfl rfl (by simp)
  | clone i =>
    simp only [step, Option.some.injEq] at h
    have hin : i < s.n := hv
    subst h
    have hcase : ∀ x, x < s.n + 1 → x < s.n ∨ x = s.n := fun x hx => by omega
    constructor
    · exact hi.start
    · intro x hx
      simp only at hx ⊢
      split
      · exact hi.sid i hin
      · exact hi.sid x (by omega)
    · intro x hx
      simp only at hx ⊢
      split
      · exact hi.oid i hin
      · exact hi.oid x (by omega)
    · intro x hx
      simp only at hx ⊢
      split
      · exact Nat.lt_succ_of_lt (hi.ptr i hin)
      · exact Nat.lt_succ_of_lt (hi.ptr x (by omega))
    · intro x hx ht
      simp only at hx ht ⊢
      split at ht
      · cases ht
      · rename_i hne
        rw [if_neg hne]
        exact hi.self x (by omega) ht
    · intro a b ha hb ta tb hab
      simp only at ha hb ta tb hab
      split at ta
      · cases ta
      · rename_i hna
        split at tb
        · cases tb
        · rename_i hnb
          rw [if_neg hna, if_neg hnb] at hab
          exact hi.dist a b (by omega) (by omega) ta tb hab
    · exact hi.inc
    · exact hi.bound
    · exact hi.par
  | extract i q =>
    have hin : i < s.n := hv
    simp only [step] at h
    split at h
    · cases h; exact hi
    · have h1 := inv_setObj hi (i := i) (r := { s.obj i with qty := (s.obj i).qty - q }) rfl rfl rfl id
      have h2 := inv_alloc (k := k) h1 (s.obj i).ctx q
      refine inv_tExtract h2 (i := i) (j := s.n) ?_ ?_ ?_ (by omega) h
      · simp only [alloc, setObj]; omega
      · simp only [alloc, setObj]; omega
      · cases k with
        | product => left; simp [alloc, setObj, trackedInit]
        | material =>
          by_cases hc : (s.obj i).ctx = true
          · left; simp [alloc, setObj, hc, trackedInit]
          · by_cases ht : (s.obj i).tracked = true
            · -- tracked without context: recording fails
              exfalso
              unfold tExtract at h
              have hne : i ≠ s.n := by omega
              have hself := hi.self i hin ht
              have : ((alloc .material (setObj s i { s.obj i with qty := (s.obj i).qty - q })
                  (s.obj i).ctx q).obj i).tracked = true := by
                simp [alloc, setObj, hne, ht]
              rw [this] at h
              simp only [Bool.not_true, Bool.false_eq_true, if_false] at h
              rw [record_bump (by simp [alloc, setObj])] at h
              simp [alloc, setObj, hc] at h
            · right
              simp [alloc, setObj, show i ≠ s.n by omega, ht]
  | absorb i j =>
    obtain ⟨hin, hjn⟩ := hv
    simp only [step] at h
    have h1 := inv_setObj hi (i := i)
      (r := { s.obj i with qty := (s.obj i).qty + (s.obj j).qty }) rfl rfl rfl id
    have h2 := inv_setObj h1 (i := j)
      (r := { (setObj s i { s.obj i with qty := (s.obj i).qty + (s.obj j).qty }).obj j with qty := 0 })
      rfl rfl rfl id
    exact inv_tAbsorb h2 (i := i) (j := j) hin hjn h
  | modify i => exact inv_tModify hi hv h
  | packageExtract i q =>
    have hin : i < s.n := hv
    simp only [step] at h
    split at h
    · cases h; exact hi
    · have h1 := inv_setObj hi (i := i) (r := { s.obj i with qty := (s.obj i).qty - q }) rfl rfl rfl id
      have h2 := inv_alloc (k := k) h1 (s.obj i).ctx q
      split at h
      · cases h
      · rename_i s2 hs2
        have hptr := hi.ptr i hin
        obtain ⟨a1, a2, a3⟩ := inv_tPackage_new h2 (i := s.n) (p := i) (by simp [alloc, setObj])
          (by
            intro r hr
            simp only [alloc, setObj, if_true]
            exact hi.bound r hr)
          (by
            have hh := hi.sid _ hptr
            simp only [alloc, setObj, if_true, if_neg (show i ≠ s.n by omega),
              if_neg (show (s.obj i).ptr ≠ s.n by omega)]
            split
            · exact hi.sid i hin
            · exact hh) hs2
        split at h
        · exact inv_tModify a1 (by rw [a3]; simp only [alloc, setObj]; omega) h
        · cases h; exact a1
  | repackage i =>
    have hin : i < s.n := hv
    simp only [step] at h
    split at h
    · unfold tPackage at h
      split at h
      · cases h; exact hi
      · rename_i ht
        have hs := hi.self i hin (by simpa using ht)
        simp only at h
        rename_i hc
        rw [record_bump hs, if_pos hc] at h
        cases h
        rw [hs]
        exact inv_bumped hi hin (hi.sid i hin) (by omega)
    · cases h; exact hi

end Cyclus.Tracker
