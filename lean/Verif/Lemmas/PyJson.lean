import Verif.Spec.PyJson
import Verif.Lemmas.JsonRead
import Mathlib.Data.List.Induction

/-!
# Lemmas on JSON values in Python
-/

namespace Cyclus.PyJson

open Cyclus.JsonText
open Cyclus.PyJson.Spec

theorem fitsInt_iff (z : ℤ) : fitsInt z = true ↔ -2 ^ 31 ≤ z ∧ z < 2 ^ 31 := by
  unfold fitsInt
  rw [Bool.and_eq_true, decide_eq_true_iff, decide_eq_true_iff]
  norm_num
  intro _
  omega

/-! ## Positions -/

theorem posIndex_ok (i : ℤ) (n j : ℕ) : posIndex i n = .ok j ↔ Pos i n j := by
  unfold posIndex Pos
  simp only
  split_ifs with h h2 h2
  · exact iff_of_false (fun h => by cases h) (by omega)
  · rw [Except.ok.injEq]
    omega
  · exact iff_of_false (fun h => by cases h) (by omega)
  · rw [Except.ok.injEq]
    omega

theorem posIndex_error (i : ℤ) (n : ℕ) (h : ¬ ∃ j, Pos i n j) : posIndex i n = .error .index := by
  cases e : posIndex i n with
  | ok j => exact absurd ⟨j, (posIndex_ok i n j).1 e⟩ h
  | error x =>
    unfold posIndex at e
    simp only at e
    split_ifs at e with h1 h2 h2 <;> cases e <;> rfl

theorem pos_lt {i : ℤ} {n j : ℕ} (h : Pos i n j) : j < n := by
  unfold Pos at h
  omega

theorem pos_last (n : ℕ) : Pos (-1) (n + 1) n := by
  unfold Pos
  omega

theorem pos_nat {j n : ℕ} (h : j < n) : Pos (j : ℤ) n j := Or.inl ⟨by omega, rfl, h⟩

/-! ## Swaps -/

theorem item_at (a : List V) (x : V) (t : List V) : item (a ++ x :: t) a.length = x := by
  simp [item]

theorem item_eq {l : List V} {j : ℕ} (h : j < l.length) : l[j]? = some (item l j) := by
  unfold item
  rw [List.getD_eq_getElem?_getD]
  rw [List.getElem?_eq_getElem h]
  rfl

theorem swap_adj (a : List V) (x y : V) (t : List V) :
    swapAt (a ++ x :: y :: t) a.length (a.length + 1) = a ++ y :: x :: t := by
  have h : item (a ++ x :: y :: t) (a.length + 1) = y := by
    have := item_at (a ++ [x]) y t
    simpa using this
  unfold swapAt
  rw [h, item_at]
  simp

theorem swapAt_length (l : List V) (i j : ℕ) : (swapAt l i j).length = l.length := by
  simp [swapAt]

theorem swapAt_get {l : List V} {i j : ℕ} (hi : i < l.length) (hj : j < l.length) (m : ℕ) :
    (swapAt l i j)[m]? = if m = j then l[i]? else if m = i then l[j]? else l[m]? := by
  unfold swapAt
  rw [List.getElem?_set, List.getElem?_set, List.length_set]
  by_cases h1 : m = j
  · subst h1
    simp [hj, item_eq hi]
  · rw [if_neg (Ne.symm h1), if_neg h1]
    by_cases h2 : m = i
    · subst h2
      simp [hi, item_eq hj]
    · rw [if_neg (Ne.symm h2), if_neg h2]

theorem shift_down (a b t : List V) (x : V) :
    (List.range' (a.length + 1) b.length).foldl (fun l i => swapAt l (i - 1) i)
      (a ++ x :: (b ++ t)) = a ++ (b ++ x :: t) := by
  induction b generalizing a with
  | nil => rfl
  | cons y b ih =>
    rw [List.length_cons, List.range'_succ, List.foldl_cons]
    have e : swapAt (a ++ x :: (y :: b ++ t)) (a.length + 1 - 1) (a.length + 1) =
        (a ++ [y]) ++ x :: (b ++ t) := by
      rw [Nat.add_sub_cancel, List.cons_append, swap_adj]
      simp
    rw [e]
    have := ih (a ++ [y])
    simp only [List.length_append, List.length_cons, List.length_nil, Nat.zero_add] at this
    rw [this]
    simp

theorem shift_up (a b t : List V) (x : V) :
    (List.range' a.length b.length).reverse.foldl (fun l i => swapAt l i (i + 1))
      (a ++ (b ++ x :: t)) = a ++ x :: (b ++ t) := by
  induction b using List.reverseRec generalizing t with
  | nil => rfl
  | append_singleton b y ih =>
    rw [List.length_append, List.length_singleton, List.range'_concat, List.reverse_append]
    simp only [List.reverse_cons, List.reverse_nil, List.nil_append, List.singleton_append,
      List.foldl_cons, Nat.one_mul]
    have e : swapAt (a ++ (b ++ [y] ++ x :: t)) (a.length + b.length) (a.length + b.length + 1) =
        a ++ (b ++ x :: y :: t) := by
      have := swap_adj (a ++ b) y x t
      simpa using this
    rw [e, ih (y :: t)]
    simp

/-- Deleting an item by swaps. -/
theorem erase_loop {l : List V} {k : ℕ} (h : k < l.length) :
    ((List.range' (k + 1) (l.length - (k + 1))).foldl (fun l i => swapAt l (i - 1) i) l).take
      (l.length - 1) = l.eraseIdx k := by
  have e : l = l.take k ++ l[k] :: (l.drop (k + 1) ++ []) := by
    rw [List.append_nil, List.getElem_cons_drop, List.take_append_drop]
  have hk : (l.take k).length = k := by simp; omega
  have hd : (l.drop (k + 1)).length = l.length - (k + 1) := by simp
  have := shift_down (l.take k) (l.drop (k + 1)) [] l[k]
  rw [hk, hd, ← e] at this
  rw [this, List.eraseIdx_eq_take_drop_succ, ← List.append_assoc]
  rw [List.take_append_of_le_length (by simp; omega), List.take_of_length_le (by simp; omega)]

/-- Making room for an item by swaps. -/
theorem insert_loop {l : List V} {j : ℕ} (x : V) (h : j ≤ l.length) :
    (List.range' j (l.length - j)).reverse.foldl (fun l i => swapAt l i (i + 1)) (l ++ [x]) =
      l.insertIdx j x := by
  have hk : (l.take j).length = j := by simp; omega
  have hd : (l.drop j).length = l.length - j := by simp
  have := shift_up (l.take j) (l.drop j) [] x
  rw [hk, hd, ← List.append_assoc, List.take_append_drop] at this
  rw [this, List.append_nil]
  clear this hk hd
  induction l generalizing j with
  | nil => simp at h; subst h; rfl
  | cons y l ih =>
    cases j with
    | zero => rfl
    | succ j =>
      simp only [List.take_succ_cons, List.drop_succ_cons, List.cons_append, List.insertIdx_succ_cons]
      rw [ih (by simpa using h)]

theorem reverse_loop (l : List V) (m : ℕ) (hm : m ≤ l.length / 2) :
    let l' := (List.range m).foldl (fun q i => swapAt q i (l.length - i - 1)) l
    l'.length = l.length ∧ ∀ p, p < l.length →
      l'[p]? = if p < m ∨ l.length - m ≤ p then l[l.length - 1 - p]? else l[p]? := by
  induction m with
  | zero =>
    refine ⟨rfl, fun p hp => ?_⟩
    rw [if_neg (by omega)]
    rfl
  | succ m ih =>
    obtain ⟨h1, h2⟩ := ih (by omega)
    simp only at h1 h2 ⊢
    rw [List.range_succ, List.foldl_append, List.foldl_cons, List.foldl_nil]
    generalize hq : (List.range m).foldl (fun q i => swapAt q i (l.length - i - 1)) l = q at *
    refine ⟨by rw [swapAt_length, h1], fun p hp => ?_⟩
    rw [swapAt_get (by omega) (by omega), h2 m (by omega), h2 (l.length - m - 1) (by omega),
      h2 p hp]
    by_cases a : p = l.length - m - 1
    · rw [if_pos a, if_neg (by omega), if_pos (by omega)]
      congr 1; omega
    · rw [if_neg a]
      by_cases b : p = m
      · rw [if_pos b, if_neg (by omega), if_pos (by omega)]
        congr 1; omega
      · rw [if_neg b]
        by_cases c : p < m ∨ l.length - m ≤ p
        · rw [if_pos c, if_pos (by omega)]
        · rw [if_neg c, if_neg (by omega)]

theorem reverse_eq (l : List V) : PyJson.reverse l = l.reverse := by
  obtain ⟨h1, h2⟩ := reverse_loop l (l.length / 2) le_rfl
  unfold PyJson.reverse
  apply List.ext_getElem?
  intro p
  by_cases hp : p < l.length
  · rw [h2 p hp, List.getElem?_reverse hp]
    by_cases c : p < l.length / 2 ∨ l.length - l.length / 2 ≤ p
    · rw [if_pos c]
    · rw [if_neg c]
      congr 1; omega
  · rw [List.getElem?_eq_none (by omega), List.getElem?_eq_none (by simp; omega)]

/-! ## Slices -/

theorem takeLoop_spec (r : List ℕ) (t l : List V) (i : ℕ) (hr : r.Nodup)
    (hl : ∀ j ∈ r, j < l.length) (ht : i + r.length ≤ t.length) :
    let x := takeLoop (t, l) i r
    x.1.length = t.length ∧ x.2.length = l.length ∧
      ∀ m, x.1[m]? = if i ≤ m ∧ m < i + r.length then (r[m - i]?).map (item l) else t[m]? := by
  induction r generalizing t l i with
  | nil =>
    refine ⟨rfl, rfl, fun m => ?_⟩
    rw [if_neg (by simp)]
    rfl
  | cons j r ih =>
    simp only [List.length_cons] at ht
    obtain ⟨hj, hr'⟩ := List.nodup_cons.1 hr
    have := ih (t.set i (item l j)) (l.set j (item t i)) (i + 1) hr'
      (fun m hm => by rw [List.length_set]; exact hl m (List.mem_cons_of_mem _ hm))
      (by rw [List.length_set]; omega)
    obtain ⟨h1, h2, h3⟩ := this
    simp only [List.length_set] at h1 h2 h3
    rw [takeLoop]
    refine ⟨h1, h2, fun m => ?_⟩
    rw [h3 m, List.length_cons]
    by_cases hm : i + 1 ≤ m ∧ m < i + 1 + r.length
    · rw [if_pos hm, if_pos (by omega)]
      have e : m - i = (m - (i + 1)) + 1 := by omega
      rw [e, List.getElem?_cons_succ]
      have hlt : m - (i + 1) < r.length := by omega
      rw [List.getElem?_eq_getElem hlt, Option.map_some, Option.map_some]
      congr 1
      unfold item
      rw [List.getD_eq_getElem?_getD, List.getElem?_set,
        if_neg (fun he => hj (by rw [he]; exact List.getElem_mem hlt))]
      rfl
    · rw [if_neg hm, List.getElem?_set]
      by_cases he : i = m
      · subst he
        rw [if_pos rfl, if_pos (by omega), if_pos (by omega), Nat.sub_self]
        rfl
      · rw [if_neg he, if_neg (by omega)]

theorem putLoop_spec (n : ℕ) (t l : List V) (i : ℕ) (ht : i + n ≤ t.length) (hl : i + n ≤ l.length) :
    (putLoop t l i n).length = l.length ∧
      ∀ m, (putLoop t l i n)[m]? = if i ≤ m ∧ m < i + n then t[m]? else l[m]? := by
  induction n generalizing t l i with
  | zero =>
    refine ⟨rfl, fun m => ?_⟩
    rw [if_neg (by omega)]
    rfl
  | succ n ih =>
    have := ih (t.set i (item l i)) (l.set i (item t i)) (i + 1) (by rw [List.length_set]; omega)
      (by rw [List.length_set]; omega)
    obtain ⟨h1, h2⟩ := this
    rw [putLoop]
    refine ⟨by rw [h1, List.length_set], fun m => ?_⟩
    rw [h2 m]
    by_cases hm : i + 1 ≤ m ∧ m < i + 1 + n
    · rw [if_pos hm, if_pos (by omega), List.getElem?_set, if_neg (by omega)]
    · rw [if_neg hm, List.getElem?_set]
      by_cases he : i = m
      · subst he
        rw [if_pos rfl, if_pos (by omega), if_pos (by omega), item_eq (by omega)]
      · rw [if_neg he, if_neg (by omega)]

theorem without_eq (l : List V) (r : List ℕ) :
    without l r = ((List.range l.length).filter fun j => j ∉ r).map (item l) := by
  unfold without
  have e : l.zipIdx = (List.range l.length).map fun j => (item l j, j) := by
    apply List.ext_getElem?
    intro m
    by_cases hm : m < l.length
    · rw [List.getElem?_zipIdx, item_eq hm, List.getElem?_map, List.getElem?_range hm]
      simp
    · rw [List.getElem?_eq_none (by simp; omega), List.getElem?_eq_none (by simp; omega)]
  rw [e, List.filter_map, List.map_map]
  rfl

theorem delSlice_eq (l : List V) (r : List ℕ) :
    delSlice (.arr l) r = (.arr (without l r), .ok ()) := by
  have hs : ((List.range l.length).filter fun j => j ∉ r).Nodup := List.nodup_range.filter _
  have hb : ∀ j ∈ (List.range l.length).filter fun j => j ∉ r, j < l.length := fun j hj =>
    List.mem_range.1 (List.mem_filter.1 hj).1
  have hle : ((List.range l.length).filter fun j => j ∉ r).length ≤ l.length := by
    have := List.length_filter_le (fun j => decide (j ∉ r)) (List.range l.length)
    rwa [List.length_range] at this
  rw [without_eq]
  unfold delSlice
  simp only
  generalize (List.range l.length).filter (fun j => decide (j ∉ r)) = kept at *
  obtain ⟨h1, h2, h3⟩ := takeLoop_spec kept (List.replicate kept.length .null) l 0 hs hb (by simp)
  rw [List.length_replicate] at h1
  obtain ⟨g1, g2⟩ := putLoop_spec kept.length (takeLoop (List.replicate kept.length .null, l) 0 kept).1
    (takeLoop (List.replicate kept.length .null, l) 0 kept).2 0 (by omega) (by omega)
  congr 2
  apply List.ext_getElem?
  intro m
  rw [List.getElem?_take, List.getElem?_map]
  by_cases hm : m < kept.length
  · rw [if_pos hm, g2 m, if_pos (by omega), h3 m, if_pos (by omega), Nat.sub_zero]
  · rw [if_neg hm, List.getElem?_eq_none (by omega)]
    rfl

theorem setLoop_spec (r : List ℕ) (ps : List P) (xs : List V) (l : List V) (old : Bool)
    (hp : toItems old ps = .ok xs) (hr : r.Nodup) (he : r.length = xs.length) :
    ∃ l', setLoop old l r ps = (l', .ok ()) ∧ l'.length = l.length ∧
      (∀ m j : ℕ, r[m]? = some j → j < l.length → l'[j]? = xs[m]?) ∧
      ∀ j, j ∉ r → l'[j]? = l[j]? := by
  induction ps generalizing r xs l with
  | nil =>
    rw [toItems] at hp
    cases hp
    cases r with
    | nil => exact ⟨l, rfl, rfl, by simp, fun _ _ => rfl⟩
    | cons j r => simp at he
  | cons p ps ih =>
    rw [toItems] at hp
    cases hx : toCpp old p with
    | error e => rw [hx] at hp; cases hp
    | ok x =>
      rw [hx] at hp
      simp only at hp
      cases hy : toItems old ps with
      | error e => rw [hy] at hp; cases hp
      | ok ys =>
        rw [hy] at hp
        simp only [Except.ok.injEq] at hp
        subst hp
        cases r with
        | nil => simp at he
        | cons j r =>
          obtain ⟨hj, hr'⟩ := List.nodup_cons.1 hr
          obtain ⟨l', e1, e2, e3, e4⟩ := ih r ys (l.set j x) hy hr' (by simpa using he)
          refine ⟨l', ?_, by rw [e2, List.length_set], ?_, ?_⟩
          · rw [setLoop, hx]
            exact e1
          · intro m k hm hk
            cases m with
            | zero =>
              simp only [List.getElem?_cons_zero, Option.some.injEq] at hm ⊢
              subst hm
              rw [e4 j hj, List.getElem?_set, if_pos rfl, if_pos hk]
            | succ m =>
              rw [List.getElem?_cons_succ] at hm ⊢
              exact e3 m k hm (by rw [List.length_set]; exact hk)
          · intro k hk
            rw [e4 k (fun h => hk (List.mem_cons_of_mem _ h)), List.getElem?_set,
              if_neg (by rintro rfl; exact hk List.mem_cons_self)]

theorem toItems_length {old : Bool} {ps : List P} {xs : List V} (h : toItems old ps = .ok xs) :
    xs.length = ps.length := by
  induction ps generalizing xs with
  | nil => rw [toItems] at h; cases h; rfl
  | cons p ps ih =>
    rw [toItems] at h
    cases hx : toCpp old p with
    | error e => rw [hx] at h; cases h
    | ok x =>
      rw [hx] at h
      simp only at h
      cases hy : toItems old ps with
      | error e => rw [hy] at h; cases h
      | ok ys =>
        rw [hy] at h
        simp only [Except.ok.injEq] at h
        subst h
        simp [ih hy]

/-- Assignment to the end of an array. -/
theorem setLoop_end (a b : List V) (ps : List P) (xs : List V) (old : Bool)
    (hp : toItems old ps = .ok xs) (hb : b.length = ps.length) :
    setLoop old (a ++ b) (List.range' a.length ps.length) ps = (a ++ xs, .ok ()) := by
  obtain ⟨l', e1, e2, e3, e4⟩ := setLoop_spec (List.range' a.length ps.length) ps xs (a ++ b) old hp
    List.nodup_range' (by simp [toItems_length hp])
  rw [e1]
  congr 1
  apply List.ext_getElem?
  intro m
  have hxl := toItems_length hp
  rw [List.length_append] at e2
  by_cases h1 : m < a.length
  · rw [e4 m (by simp only [List.mem_range'_1]; omega), List.getElem?_append_left h1,
      List.getElem?_append_left h1]
  · by_cases h2 : m < a.length + ps.length
    · rw [List.getElem?_append_right (by omega)]
      apply e3 (m - a.length) m
      · rw [List.getElem?_range' (by omega)]
        congr 1; omega
      · rw [List.length_append]; omega
    · rw [List.getElem?_eq_none (by omega),
        List.getElem?_eq_none (by rw [List.length_append]; omega)]

/-! ## Members -/

theorem find_iff {ms : List (Text × V)} (h : Members ms) (k : Text) (x : V) :
    find ms k = some x ↔ Has ms k x := by
  unfold find Has
  induction ms with
  | nil => simp
  | cons q ms ih =>
    obtain ⟨h1, h2⟩ := List.pairwise_cons.1 h
    obtain ⟨n, y⟩ := q
    by_cases hn : n = k
    · subst hn
      rw [List.find?_cons_of_pos (by simp)]
      simp only [Option.map_some, Option.some.injEq, List.mem_cons, Prod.mk.injEq, true_and]
      constructor
      · exact fun e => Or.inl e.symm
      · rintro (e | e)
        · exact e.symm
        · exact absurd (h1 _ e) (lt_irrefl _)
    · rw [List.find?_cons_of_neg (by simpa using hn), ih h2, List.mem_cons]
      constructor
      · exact Or.inr
      · rintro (e | e)
        · exact absurd (congrArg Prod.fst e).symm hn
        · exact e

theorem find_none {ms : List (Text × V)} (k : Text) : find ms k = none ↔ k ∉ ms.map Prod.fst := by
  unfold find
  rw [Option.map_eq_none_iff, List.find?_eq_none, List.mem_map]
  constructor
  · rintro h ⟨q, hq, e⟩
    exact h q hq (by simpa using e)
  · intro h q hq e
    exact h ⟨q, hq, by simpa using e⟩

theorem members_set {ms : List (Text × V)} (h : Members ms) (k : Text) (x : V) :
    Members (setMember ms k x) := by
  rw [setMember_eq k x ms h]
  exact put_sorted h k x

theorem has_set {ms : List (Text × V)} (h : Members ms) (k : Text) (x : V) (k' : Text) (y : V) :
    Has (setMember ms k x) k' y ↔ (k' = k ∧ y = x) ∨ (k' ≠ k ∧ Has ms k' y) := by
  rw [setMember_eq k x ms h]
  unfold Has put
  simp only [List.mem_append, List.mem_filter, List.mem_cons, Prod.mk.injEq, decide_eq_true_eq]
  constructor
  · rintro (⟨a, b⟩ | ⟨rfl, rfl⟩ | ⟨a, b⟩)
    · exact Or.inr ⟨b.ne, a⟩
    · exact Or.inl ⟨rfl, rfl⟩
    · exact Or.inr ⟨b.ne', a⟩
  · rintro (⟨rfl, rfl⟩ | ⟨a, b⟩)
    · exact Or.inr (Or.inl ⟨rfl, rfl⟩)
    · rcases lt_or_gt_of_ne a with c | c
      · exact Or.inl ⟨b, c⟩
      · exact Or.inr (Or.inr ⟨b, c⟩)

theorem length_set {ms : List (Text × V)} (k : Text) (x : V)
    (hk : k ∉ ms.map Prod.fst) : (setMember ms k x).length = ms.length + 1 := by
  induction ms with
  | nil => rfl
  | cons q ms ih =>
    obtain ⟨n, y⟩ := q
    simp only [List.map_cons, List.mem_cons, not_or] at hk
    rw [setMember]
    split
    · rw [List.length_cons, ih hk.2, List.length_cons]
    · rw [if_neg (Ne.symm hk.1)]
      rfl

end Cyclus.PyJson
