import Verif.Spec.PyInv

/-!
# Lemmas on inventories of agents written in Python
-/

namespace Cyclus.PyInv

open InfileGen (Str PyVal)
open ResBuf (Kind)

theorem popNLoop_all : ∀ (n : ℕ) (s : ResBuf.St) (acc : List ℕ), s.rs.length = n →
    (ResBuf.popNLoop n s acc).1.rs = [] ∧ (ResBuf.popNLoop n s acc).2 = acc ++ s.rs ∧
      (ResBuf.popNLoop n s acc).1.cap = s.cap
  | 0, s, acc, h => by
    have : s.rs = [] := List.length_eq_zero_iff.1 h
    simp [ResBuf.popNLoop, this]
  | n + 1, s, acc, h => by
    match hs : s.rs with
    | [] => rw [hs] at h; simp at h
    | r :: rest =>
      rw [show ResBuf.popNLoop (n + 1) s acc = ResBuf.popNLoop n { s with
        rs := rest, present := s.present.erase r, qty := s.qty - (s.heap r).qty } (acc ++ [r]) from by
          rw [ResBuf.popNLoop, hs]]
      have := popNLoop_all n { s with
        rs := rest, present := s.present.erase r, qty := s.qty - (s.heap r).qty } (acc ++ [r])
        (by rw [hs] at h; simpa using h)
      simpa using this

theorem popN_all (s : ResBuf.St) : ∃ s', ResBuf.popN s s.rs.length = (s', .ok s.rs) ∧ s'.rs = [] ∧
    s'.cap = s.cap := by
  have h := popNLoop_all s.rs.length s [] rfl
  unfold ResBuf.popN
  rw [if_neg (by omega)]
  simp only [Int.toNat_natCast]
  refine ⟨_, by rw [h.2.1]; rfl, ?_, ?_⟩
  · simp [ResBuf.updateQty, h.1]
  · simp [ResBuf.updateQty, h.1, h.2.2]

theorem popN_nil {s : ResBuf.St} (h : s.rs = []) : ResBuf.popN s s.rs.length = ({ s with qty := 0 }, .ok []) := by
  unfold ResBuf.popN
  rw [h]
  simp [ResBuf.popNLoop, ResBuf.updateQty, h]

theorem toCpp_nil (d : List (Str × List Wrap)) : toCpp d = [] := by
  unfold toCpp
  have : ∀ (d : List (Str × List Wrap)) (st : List (Str × List ℕ) × List ℕ),
      (d.foldl (fun st e => (st.1, e.2.map Wrap.ptr)) st).1 = st.1 := by
    intro d
    induction d with
    | nil => intros; rfl
    | cons e d ih => intro st; rw [List.foldl_cons, ih]
  rw [this]

theorem reverseMap_nil (o : ℤ) : ResMap.reverseMap [] o = 0 := rfl

theorem setKey_find {α : Type} : ∀ (l : List (ℕ × α)) (k : ℕ) (x : α), ResMap.find (ResMap.setKey l k x) k = some x
  | [], k, x => by simp [ResMap.setKey, ResMap.find]
  | (a, y) :: l, k, x => by
    unfold ResMap.setKey
    by_cases h : a = k
    · simp [h, ResMap.find]
    · rw [if_neg h, ResMap.find, if_neg h, setKey_find l k x]

theorem setKey_find_ne {α : Type} : ∀ (l : List (ℕ × α)) (k j : ℕ) (x : α), j ≠ k →
    ResMap.find (ResMap.setKey l k x) j = ResMap.find l j
  | [], k, j, x, h => by simp [ResMap.setKey, ResMap.find, Ne.symm h]
  | (a, y) :: l, k, j, x, h => by
    unfold ResMap.setKey
    by_cases ha : a = k
    · subst ha
      simp [ResMap.find, Ne.symm h]
    · rw [if_neg ha, ResMap.find, ResMap.find, setKey_find_ne l k j x h]

theorem setKey_twice {α : Type} : ∀ (l : List (ℕ × α)) (k : ℕ) (x y : α),
    ResMap.setKey (ResMap.setKey l k x) k y = ResMap.setKey l k y
  | [], k, x, y => by simp [ResMap.setKey]
  | (a, z) :: l, k, x, y => by
    by_cases h : a = k
    · simp [ResMap.setKey, h]
    · simp [ResMap.setKey, h, setKey_twice l k x y]

theorem setKey_new {α : Type} : ∀ (l : List (ℕ × α)) (k : ℕ) (x : α), ResMap.find l k = none →
    ResMap.setKey l k x = l ++ [(k, x)]
  | [], k, x, _ => rfl
  | (a, z) :: l, k, x, h => by
    by_cases ha : a = k
    · rw [ResMap.find, if_pos ha] at h; cases h
    · rw [ResMap.find, if_neg ha] at h
      rw [ResMap.setKey, if_neg ha, setKey_new l k x h]
      rfl

/-- Without ids all values go to the default key. -/
theorem setValues_res (oid : ℕ → ℤ) {s : ResMap.St} (hs : s.ids = []) {vals : List ℕ} {r : ℕ}
    (hv : vals.getLast? = some r) : (ResMap.setValues oid s vals).res = ResMap.setKey s.res 0 (some r) := by
  unfold ResMap.setValues
  simp only [hs, reverseMap_nil]
  obtain ⟨init, rfl⟩ : ∃ l, vals = l ++ [r] := by
    have hne : vals ≠ [] := by rintro rfl; simp at hv
    refine ⟨vals.dropLast, ?_⟩
    rw [List.getLast?_eq_some_getLast hne] at hv
    cases hv
    exact (List.dropLast_append_getLast hne).symm
  rw [List.foldl_append, List.foldl_cons, List.foldl_nil]
  have : ∀ (l : List ℕ) (m : List (ℕ × Option ℕ)),
      ResMap.setKey (l.foldl (fun m r => ResMap.setKey m 0 (some r)) m) 0 (some r) =
        ResMap.setKey m 0 (some r) := by
    intro l
    induction l with
    | nil => intros; rfl
    | cons a l ih => intro m; rw [List.foldl_cons, ih, setKey_twice]
  exact this init s.res

theorem setValues_nil (oid : ℕ → ℤ) (s : ResMap.St) : (ResMap.setValues oid s []).res = s.res := rfl

end Cyclus.PyInv
