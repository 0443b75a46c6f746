import Verif.Lemmas.PyJson
import Verif.Lemmas.JsonWrite

/-!
# C126: JSON values in Python
-/

namespace Cyclus.PyJson.Props

open Cyclus.JsonText
open Cyclus.PyJson
open Cyclus.PyJson.Spec

/-! ## Conversion -/

mutual

theorem converts (p : P) : Convertible p ↔ ∃ v, toCpp true p = .ok v := by
  cases p with
  | none => simp [Convertible, toCpp]
  | bool b => simp [Convertible, toCpp]
  | int z =>
    rw [Convertible, toCpp, ← fitsInt_iff]
    cases fitsInt z <;> simp
  | float x => simp [Convertible, toCpp]
  | str s => simp [Convertible, toCpp]
  | bytes s => simp [Convertible, toCpp]
  | value w => simp [Convertible, toCpp]
  | other => simp [Convertible, toCpp]
  | seq l =>
    rw [Convertible, convertsItems l, toCpp]
    simp only [if_true]
    cases toItems true l <;> simp
  | dict l =>
    rw [Convertible, convertsMembers l [], toCpp]

theorem convertsItems (l : List P) : ConvertibleItems l ↔ ∃ vs, toItems true l = .ok vs := by
  cases l with
  | nil => simp [ConvertibleItems, toItems]
  | cons p l =>
    rw [ConvertibleItems, converts p, convertsItems l, toItems]
    cases toCpp true p with
    | error e => simp
    | ok v => cases toItems true l <;> simp

theorem convertsMembers (l : List (Option Text × P)) (acc : List (Text × V)) :
    ConvertibleMembers l ↔ ∃ v, toMembers true acc l = .ok v := by
  cases l with
  | nil => simp [ConvertibleMembers, toMembers]
  | cons q l =>
    obtain ⟨k, p⟩ := q
    cases k with
    | none => simp [ConvertibleMembers, toMembers]
    | some k =>
      rw [ConvertibleMembers, converts p, toMembers]
      cases toCpp true p with
      | error e => simp
      | ok v =>
        rw [convertsMembers l (setMember acc (cstr k) v)]
        simp

end

/-- C126: before Python 3.10, a value can be converted to JSON exactly if it is made of `None`,
bools, integers of 32 bits, floats, strings, bytes, JSON values, lists, tuples, sets, and dicts with
strings as keys. -/
theorem C126_converts (p : P) : Convertible p ↔ ∃ v, toCpp true p = .ok v := converts p

mutual

theorem textual (p : P) : Textual p ↔ ∃ v, toCpp false p = .ok v := by
  cases p with
  | dict l => rw [Textual, textualMembers l [], toCpp]
  | none => simp [Textual, toCpp]
  | bool b => simp [Textual, toCpp]
  | int z => simp [Textual, toCpp]
  | float x => simp [Textual, toCpp]
  | str s => simp [Textual, toCpp]
  | bytes s => simp [Textual, toCpp]
  | value w => simp [Textual, toCpp]
  | other => simp [Textual, toCpp]
  | seq l => simp [Textual, toCpp]

theorem textualMembers (l : List (Option Text × P)) (acc : List (Text × V)) :
    TextualMembers l ↔ ∃ v, toMembers false acc l = .ok v := by
  cases l with
  | nil => simp [TextualMembers, toMembers]
  | cons q l =>
    obtain ⟨k, p⟩ := q
    cases k with
    | none => simp [TextualMembers, toMembers]
    | some k =>
      rw [TextualMembers, textual p, toMembers]
      cases toCpp false p with
      | error e => simp
      | ok v =>
        rw [textualMembers l (setMember acc (cstr k) v)]
        simp

end

/-- C126, negation: from Python 3.10 on, where `collections.Sequence` does not exist, a value can be
converted exactly if it is made of strings, bytes, JSON values and dicts of those.  No list, no
number, no bool and no `None` can. -/
theorem C126_fails_modern (p : P) :
    (Textual p ↔ ∃ v, toCpp false p = .ok v) ∧
      (∀ l, toCpp false (.seq l) = .error .attribute) ∧
      (∀ z, toCpp false (.int z) = .error .attribute) ∧
      (∀ x, toCpp false (.float x) = .error .attribute) ∧
      (∀ b, toCpp false (.bool b) = .error .attribute) ∧
      toCpp false .none = .error .attribute := by
  refine ⟨textual p, ?_, ?_, ?_, ?_, ?_⟩ <;> simp [toCpp]

/-- What the members of a dict become. -/
def Added (ms acc : List (Text × V)) (l : List (Option Text × P)) : Prop :=
  Members ms ∧ ms.length = acc.length + l.length ∧
    (∀ k x, some k ∉ l.map Prod.fst → (Has ms k x ↔ Has acc k x)) ∧ MeansMembers l ms

mutual

theorem means (p : P) (v : V) (hc : Clean p) (h : toCpp true p = .ok v) : Means p v := by
  cases p with
  | none => rw [toCpp, if_pos rfl] at h; cases h; rw [Means]
  | bool b => rw [toCpp, if_pos rfl] at h; cases h; rw [Means]
  | int z =>
    rw [toCpp, if_pos rfl] at h
    split at h
    · cases h; rw [Means]
    · cases h
  | float x => rw [toCpp, if_pos rfl] at h; cases h; rw [Means]
  | str s => rw [toCpp] at h; rw [Clean] at hc; cases h; rw [Means, cstr_eq hc]
  | bytes s => rw [toCpp] at h; rw [Clean] at hc; cases h; rw [Means, cstr_eq hc]
  | value w => rw [toCpp] at h; cases h; rw [Means]
  | other => rw [toCpp, if_pos rfl] at h; cases h
  | seq l =>
    rw [toCpp, if_pos rfl] at h
    rw [Clean] at hc
    cases e : toItems true l with
    | error x => rw [e] at h; cases h
    | ok vs =>
      rw [e] at h
      cases h
      rw [Means]
      exact ⟨vs, rfl, meansItems l vs hc e⟩
  | dict l =>
    rw [toCpp] at h
    rw [Clean] at hc
    obtain ⟨ms, rfl, h1, h2, -, h4⟩ := meansMembers l [] v hc.2 hc.1 (by simp [Members])
      (by simp) h
    rw [Means]
    exact ⟨ms, rfl, h1, by simpa using h2, h4⟩

theorem meansItems (l : List P) (vs : List V) (hc : CleanItems l) (h : toItems true l = .ok vs) :
    MeansItems l vs := by
  cases l with
  | nil => rw [toItems] at h; cases h; rw [MeansItems]
  | cons p l =>
    rw [toItems] at h
    rw [CleanItems] at hc
    cases e : toCpp true p with
    | error x => rw [e] at h; cases h
    | ok v =>
      rw [e] at h
      simp only at h
      cases e2 : toItems true l with
      | error x => rw [e2] at h; cases h
      | ok ws =>
        rw [e2] at h
        cases h
        rw [MeansItems]
        exact ⟨v, ws, rfl, means p v hc.1 e, meansItems l ws hc.2 e2⟩

theorem meansMembers (l : List (Option Text × P)) (acc : List (Text × V)) (v : V)
    (hc : CleanMembers l) (hn : (l.map Prod.fst).Nodup) (ha : Members acc)
    (hd : ∀ k ∈ acc.map Prod.fst, some k ∉ l.map Prod.fst) (h : toMembers true acc l = .ok v) :
    ∃ ms, v = .obj ms ∧ Added ms acc l := by
  cases l with
  | nil =>
    rw [toMembers] at h
    cases h
    refine ⟨acc, rfl, ha, by simp, fun _ _ _ => Iff.rfl, ?_⟩
    rw [MeansMembers]
    trivial
  | cons q l =>
    obtain ⟨k, p⟩ := q
    cases k with
    | none => rw [toMembers] at h; cases h
    | some k =>
      rw [CleanMembers] at hc
      rw [toMembers] at h
      cases e : toCpp true p with
      | error x => rw [e] at h; cases h
      | ok x =>
        rw [e] at h
        simp only at h
        rw [cstr_eq (hc.1 k rfl)] at h
        simp only [List.map_cons, List.nodup_cons] at hn
        have hk : k ∉ acc.map Prod.fst := fun hk => hd k hk (by simp)
        obtain ⟨ms, rfl, h1, h2, h3, h4⟩ := meansMembers l (setMember acc k x) v hc.2.2 hn.2
          (members_set ha k x) (by
            intro k' hk' hl
            obtain ⟨⟨a, y⟩, hm, rfl⟩ := List.mem_map.1 hk'
            rcases (has_set ha k x a y).1 hm with ⟨b, -⟩ | ⟨-, b⟩
            · simp only at hl
              rw [b] at hl
              exact hn.1 hl
            · exact hd a (List.mem_map.2 ⟨_, b, rfl⟩) (by simp [hl])) h
        refine ⟨ms, rfl, h1, ?_, ?_, ?_⟩
        · rw [h2, length_set k x hk, List.length_cons]
          omega
        · intro k' y hk'
          simp only [List.map_cons, List.mem_cons, not_or, Option.some.injEq] at hk'
          rw [h3 k' y hk'.2, has_set ha]
          simp [hk'.1]
        · rw [MeansMembers]
          refine ⟨⟨k, x, rfl, ?_, means p x hc.2.1 e⟩, h4⟩
          exact (h3 k x hn.1).2 ((has_set ha k x k x).2 (Or.inl ⟨rfl, rfl⟩))

end

/-- C126: the JSON value says what the Python value says: lists in their order, dicts with exactly
their keys, numbers, strings and `None` as they are. -/
theorem C126_means (p : P) (v : V) (hc : Clean p) (h : toCpp true p = .ok v) : Means p v :=
  means p v hc h

example : Clean (.dict [(some ['b'], .seq [.int 1, .none]), (some ['a'], .str ['x'])]) ∧
    toCpp true (.dict [(some ['b'], .seq [.int 1, .none]), (some ['a'], .str ['x'])]) =
      .ok (.obj [(['a'], .str ['x']), (['b'], .arr [.int 1, .null])]) := by
  refine ⟨?_, rfl⟩
  simp only [Clean, CleanMembers, CleanItems]
  decide

/-- C126, negation: a string is cut at its first byte 0, and two keys that are the same up to there
become one. -/
theorem C126_fails_nul (old : Bool) (a b : Text) :
    toCpp old (.str (a ++ nul :: b)) = toCpp old (.str a) ∧
      ∀ c x y, toCpp old (.dict [(some (a ++ nul :: b), .str x), (some (a ++ nul :: c), .str y)]) =
        .ok (.obj [(cstr a, .str (cstr y))]) := by
  have h : ∀ d, cstr (a ++ nul :: d) = cstr a := by
    intro d
    induction a with
    | nil => rfl
    | cons q a ih =>
      unfold cstr at ih ⊢
      rw [List.cons_append, List.takeWhile_cons, List.takeWhile_cons, ih]
  refine ⟨by rw [toCpp, toCpp, h], fun c x y => ?_⟩
  simp only [toCpp, toMembers, h, setMember]
  rw [if_neg (by rw [strLt_iff]; exact lt_irrefl _)]
  rfl

/-- C126, negation: an integer that does not fit in 32 bits cannot be stored; one that a JSON text put
there cannot be read. -/
theorem C126_fails_int (z : ℤ) (h : z < -2 ^ 31 ∨ 2 ^ 31 ≤ z) :
    toCpp true (.int z) = .error .overflow ∧ got (.int z) = .error .runtime := by
  have e : fitsInt z = false := by
    rw [← Bool.not_eq_true, fitsInt_iff]
    omega
  exact ⟨by simp [toCpp, e], by simp [got, e]⟩

example : (2147483648 : ℤ) < -2 ^ 31 ∨ (2 : ℤ) ^ 31 ≤ 2147483648 := Or.inr (by norm_num)

/-- C126: reading an item gives the value itself; arrays and objects are seen in place. -/
theorem C126_read (v : V) (h : Readable v) : ∃ g, got v = .ok g ∧ Read v g := by
  cases v with
  | int z =>
    rw [Readable, ← fitsInt_iff] at h
    exact ⟨.int z, by rw [got, if_pos h], rfl⟩
  | uint n =>
    rw [Readable] at h
    exact ⟨.int n, by rw [got, if_pos (by norm_num at h; omega)], rfl⟩
  | _ => exact ⟨_, rfl, rfl⟩

example : Readable (.int (-5)) ∧ got (.int (-5)) = .ok (.int (-5)) := ⟨by norm_num [Readable], rfl⟩

/-- C126, negation: every other value, an integer that is not one of C, cannot be read. -/
theorem C126_fails_unread (v : V) (h : ¬ Readable v) : got v = .error .runtime := by
  cases v with
  | int z =>
    rw [Readable, ← fitsInt_iff] at h
    rw [got, if_neg h]
  | uint n =>
    rw [Readable] at h
    rw [got, if_neg (by norm_num at h; omega)]
  | _ => exact absurd trivial h

example : ¬ Readable (.uint 3000000000) := by norm_num [Readable]

/-! ## Lists -/

/-- C126: `self[i]` of an array is the item that the index means, also from the end; anything else is
an `IndexError`.  The array stays as it is. -/
theorem C126_list_get (l : List V) (i : ℤ) :
    (∀ j, Pos i l.length j → ∃ x, l[j]? = some x ∧ getInt (.arr l) i = (.arr l, got x)) ∧
      ((¬ ∃ j, Pos i l.length j) → getInt (.arr l) i = (.arr l, .error .index)) := by
  refine ⟨fun j hj => ⟨item l j, item_eq (pos_lt hj), ?_⟩, fun h => ?_⟩
  · simp only [getInt, (posIndex_ok _ _ _).2 hj]
  · simp only [getInt, posIndex_error _ _ h]

/-- C126: `self[i] = p` changes the item that the index means. -/
theorem C126_list_set (old : Bool) (l : List V) (i : ℤ) (p : P) :
    (∀ j x, Pos i l.length j → toCpp old p = .ok x →
        setInt old (.arr l) i p = (.arr (l.set j x), .ok ())) ∧
      (∀ e, (∃ j, Pos i l.length j) → toCpp old p = .error e →
        setInt old (.arr l) i p = (.arr l, .error e)) ∧
      ((¬ ∃ j, Pos i l.length j) → setInt old (.arr l) i p = (.arr l, .error .index)) := by
  refine ⟨fun j x hj hx => ?_, fun e ⟨j, hj⟩ hx => ?_, fun h => ?_⟩
  · simp only [setInt, size, (posIndex_ok _ _ _).2 hj, hx]
  · simp only [setInt, size, (posIndex_ok _ _ _).2 hj, hx]
  · simp only [setInt, size, posIndex_error _ _ h]

/-- C126: `del self[i]` takes out the item that the index means and keeps the order of the others. -/
theorem C126_list_del (l : List V) (i : ℤ) :
    (∀ j, Pos i l.length j → delInt (.arr l) i = (.arr (l.eraseIdx j), .ok ())) ∧
      ((¬ ∃ j, Pos i l.length j) → delInt (.arr l) i = (.arr l, .error .index)) := by
  refine ⟨fun j hj => ?_, fun h => ?_⟩
  · simp only [delInt, (posIndex_ok _ _ _).2 hj]
    rw [erase_loop (pos_lt hj)]
  · simp only [delInt, posIndex_error _ _ h]

example : Pos (-2) 3 1 ∧ delInt (.arr [.int 1, .int 2, .int 3]) (-2) = (.arr [.int 1, .int 3], .ok ()) :=
  ⟨by simp [Pos], rfl⟩

/-- C126: a slice of an array is a new array of the items at its positions. -/
theorem C126_slice_get (l : List V) (r : List ℕ) (hr : ∀ j ∈ r, j < l.length) :
    ∃ xs, getSlice (.arr l) r = .ok (.arr xs) ∧ xs.length = r.length ∧
      ∀ m j : ℕ, r[m]? = some j → xs[m]? = l[j]? := by
  refine ⟨r.map (item l), rfl, by simp, fun m j h => ?_⟩
  rw [List.getElem?_map, h, Option.map_some, item_eq (hr j (List.mem_of_getElem? h))]

/-- C126: `del self[a:b:c]` takes out exactly the items at the positions of the slice and keeps the
order of the others. -/
theorem C126_slice_del (l : List V) (r : List ℕ) :
    delSlice (.arr l) r = (.arr (without l r), .ok ()) := delSlice_eq l r

example : delSlice (.arr [.int 0, .int 1, .int 2, .int 3]) [0, 2] = (.arr [.int 1, .int 3], .ok ()) := rfl

/-- C126, partial: assigning as many values as a slice has positions changes exactly the items there.
Missing, because the code does not do it: a slice of step 1 takes the length of what is assigned. -/
theorem C126_slice_set_partial (old : Bool) (l : List V) (r : List ℕ) (ps : List P) (xs : List V)
    (hp : toItems old ps = .ok xs) (hr : r.Nodup) (he : r.length = xs.length) :
    ∃ l', setSlice old l r ps = (.arr l', .ok ()) ∧ l'.length = l.length ∧
      (∀ m j : ℕ, r[m]? = some j → j < l.length → l'[j]? = xs[m]?) ∧
      ∀ j, j ∉ r → l'[j]? = l[j]? := by
  obtain ⟨l', h1, h2, h3, h4⟩ := setLoop_spec r ps xs l old hp hr he
  exact ⟨l', by simp only [setSlice, h1], h2, h3, h4⟩

example : setSlice true [.int 0, .int 1, .int 2] [2, 0] [.int 7, .int 8] =
    (.arr [.int 8, .int 1, .int 7], .ok ()) := rfl

/-- C126, negation: values beyond the positions of a slice are dropped, and positions beyond the
values keep their items; neither is an error, and the length never changes. -/
theorem C126_fails_slice (old : Bool) (l : List V) (r : List ℕ) (ps : List P) :
    setSlice old l r ps = setSlice old l (r.take ps.length) (ps.take r.length) ∧
      ∃ l' e, setSlice old l r ps = (.arr l', e) ∧ l'.length = l.length := by
  constructor
  · unfold setSlice
    have : setLoop old l r ps = setLoop old l (r.take ps.length) (ps.take r.length) := by
      induction r generalizing l ps with
      | nil => cases ps <;> rfl
      | cons j r ih =>
        cases ps with
        | nil => rfl
        | cons p ps =>
          rw [List.length_cons, List.length_cons, List.take_succ_cons, List.take_succ_cons,
            setLoop, setLoop]
          cases toCpp old p with
          | error e => rfl
          | ok x => exact ih _ _
    rw [this]
  · refine ⟨_, _, rfl, ?_⟩
    induction r generalizing l ps with
    | nil => cases ps <;> rfl
    | cons j r ih =>
      cases ps with
      | nil => rfl
      | cons p ps =>
        rw [setLoop]
        cases toCpp old p with
        | error e => rfl
        | ok x =>
          have := ih (l.set j x) ps
          rw [List.length_set] at this
          exact this

example : setSlice true [.int 0, .int 1] [0, 1] [] = (.arr [.int 0, .int 1], .ok ()) ∧
    setSlice true [.int 0, .int 1] [0] [.int 5, .int 6] = (.arr [.int 5, .int 1], .ok ()) := ⟨rfl, rfl⟩

/-- C126: `append` adds the value at the end of an array; null becomes an array. -/
theorem C126_append (old : Bool) (l : List V) (p : P) (x : V) (h : toCpp old p = .ok x) :
    append old (.arr l) p = (.arr (l ++ [x]), .ok ()) ∧
      append old .null p = (.arr [x], .ok ()) := by
  have key : ∀ l, setInt old (.arr (l ++ [.null])) (-1) p = (.arr (l ++ [x]), .ok ()) := by
    intro l
    have := (C126_list_set old (l ++ [.null]) (-1) p).1 l.length x
      (by rw [List.length_append]; exact pos_last _) h
    rw [this]
    simp
  exact ⟨key l, key []⟩

/-- C126, negation: if the value cannot be converted, `append` raises the exception but the array has a
null more. -/
theorem C126_fails_append (old : Bool) (l : List V) (p : P) (e : PErr) (h : toCpp old p = .error e) :
    append old (.arr l) p = (.arr (l ++ [.null]), .error e) :=
  (C126_list_set old (l ++ [V.null]) (-1) p).2.1 e
    ⟨l.length, by rw [List.length_append]; exact pos_last _⟩ h

example : toCpp true .other = .error .value := rfl

/-- C126: `extend` and `+=` add the values at the end, in order. -/
theorem C126_extend (old : Bool) (l : List V) (ps : List P) (xs : List V)
    (h : toItems old ps = .ok xs) :
    extend old (.arr l) ps = (.arr (l ++ xs), .ok ()) ∧ iadd old l ps = (.arr (l ++ xs), .ok ()) := by
  constructor
  · induction ps generalizing l xs with
    | nil => rw [toItems] at h; cases h; rw [List.append_nil]; rfl
    | cons p ps ih =>
      rw [toItems] at h
      cases hx : toCpp old p with
      | error e => rw [hx] at h; cases h
      | ok x =>
        rw [hx] at h
        simp only at h
        cases hy : toItems old ps with
        | error e => rw [hy] at h; cases h
        | ok ys =>
          rw [hy] at h
          cases h
          rw [extend, (C126_append old l p x hx).1]
          simp only
          rw [ih (l ++ [x]) ys hy]
          simp
  · unfold iadd setSlice
    simp only
    rw [setLoop_end l _ ps xs old h (by simp)]

/-- C126, partial: `insert` puts the value before the item that the index means.  Missing, because the
code does not do it: an index beyond the items means the end. -/
theorem C126_insert_partial (old : Bool) (l : List V) (i : ℤ) (p : P) (x : V) (j : ℕ)
    (hj : Pos i l.length j) (h : toCpp old p = .ok x) :
    insert old (.arr l) i p = (.arr (l.insertIdx j x), .ok ()) := by
  have hlt := pos_lt hj
  simp only [insert, (posIndex_ok _ _ _).2 hj]
  rw [insert_loop .null hlt.le]
  have hp : Pos (j : ℤ) (l.insertIdx j .null).length j :=
    pos_nat (by rw [List.length_insertIdx_of_le_length hlt.le]; omega)
  rw [(C126_list_set old (l.insertIdx j .null) j p).1 j x hp h]
  congr 2
  have hs : ∀ (l : List V) (j : ℕ), j ≤ l.length → (l.insertIdx j .null).set j x = l.insertIdx j x := by
    intro l
    induction l with
    | nil => intro j hj; simp at hj; subst hj; rfl
    | cons y l ih =>
      intro j hj
      cases j with
      | zero => rfl
      | succ j =>
        rw [List.insertIdx_succ_cons, List.set_cons_succ, ih j (by simpa using hj),
          List.insertIdx_succ_cons]
  exact hs l j hlt.le

example : Pos (-1) 2 1 ∧ insert true (.arr [.int 1, .int 2]) (-1) (.int 9) =
    (.arr [.int 1, .int 9, .int 2], .ok ()) := ⟨by simp [Pos], rfl⟩

/-- C126, negation: `insert` at the end of an array, at any index beyond it, or into an empty array is
an `IndexError`, and the array has a null more. -/
theorem C126_fails_insert (old : Bool) (l : List V) (i : ℤ) (p : P) (h : ¬ ∃ j, Pos i l.length j) :
    insert old (.arr l) i p = (.arr (l ++ [.null]), .error .index) := by
  simp only [insert, posIndex_error _ _ h]

example : ¬ ∃ j, Pos 2 2 j := by simp [Pos]; omega

/-- C126: `reverse` reverses an array. -/
theorem C126_reverse (l : List V) : PyJson.reverse l = l.reverse := reverse_eq l

theorem indexLoop_spec (eq : V → V → Bool) (l : List V) (x : V) (a n i : ℕ) :
    indexLoop eq l x (List.range' a n) = .ok i ↔
      a ≤ i ∧ i < a + n ∧ eq (item l i) x = true ∧ ∀ j, a ≤ j → j < i → eq (item l j) x = false := by
  induction n generalizing a with
  | zero => simp [indexLoop]; omega
  | succ n ih =>
    rw [List.range'_succ, indexLoop]
    by_cases h : eq (item l a) x = true
    · rw [if_pos h, Except.ok.injEq]
      constructor
      · rintro rfl
        exact ⟨le_rfl, by omega, h, fun j h1 h2 => by omega⟩
      · rintro ⟨h1, -, -, h4⟩
        by_contra hne
        have := h4 a le_rfl (by omega)
        rw [h] at this
        cases this
    · rw [if_neg h, ih]
      have hf : eq (item l a) x = false := by simpa using h
      constructor
      · rintro ⟨h1, h2, h3, h4⟩
        refine ⟨by omega, by omega, h3, fun j h5 h6 => ?_⟩
        by_cases hj : j = a
        · subst hj; exact hf
        · exact h4 j (by omega) h6
      · rintro ⟨h1, h2, h3, h4⟩
        have : i ≠ a := by rintro rfl; rw [hf] at h3; cases h3
        exact ⟨by omega, by omega, h3, fun j h5 h6 => h4 j (by omega) h6⟩

theorem indexLoop_error (eq : V → V → Bool) (l : List V) (x : V) (r : List ℕ) (e : PErr)
    (h : indexLoop eq l x r = .error e) : e = .value := by
  induction r with
  | nil => cases h; rfl
  | cons i r ih =>
    rw [indexLoop] at h
    split at h
    · cases h
    · exact ih h

/-- C126: `index` gives the first position in the range whose item is equal, in the sense of C++, to the
value; `ValueError` if there is none. -/
theorem C126_index (old : Bool) (eq : V → V → Bool) (l : List V) (p : P) (x : V) (a b : ℕ)
    (hb : b ≤ l.length) (h : ofDoc old p = .ok x) :
    (∀ i, index old eq l p a b = .ok i ↔
      a ≤ i ∧ i < b ∧ (∃ y, l[i]? = some y ∧ eq y x = true) ∧
        ∀ j y, a ≤ j → j < i → l[j]? = some y → eq y x = false) ∧
      ∀ e, index old eq l p a b = .error e → e = .value := by
  simp only [index, h]
  refine ⟨fun i => ?_, fun e he => indexLoop_error _ _ _ _ _ he⟩
  rw [indexLoop_spec]
  constructor
  · rintro ⟨h1, h2, h3, h4⟩
    refine ⟨h1, by omega, ⟨_, item_eq (by omega), h3⟩, fun j y h5 h6 h7 => ?_⟩
    rw [item_eq (by omega)] at h7
    cases h7
    exact h4 j h5 h6
  · rintro ⟨h1, h2, ⟨y, h3, h3'⟩, h4⟩
    rw [item_eq (by omega)] at h3
    cases h3
    exact ⟨h1, by omega, h3', fun j h5 h6 => h4 j _ h5 h6 (item_eq (by omega))⟩

/-- C126: `count` counts the items that are equal to the value. -/
theorem C126_count (old : Bool) (eq : V → V → Bool) (l : List V) (p : P) (x : V)
    (h : ofDoc old p = .ok x) : count old eq l p = .ok (l.countP fun y => eq y x) := by
  simp only [count, h]
  congr 1
  have key : ∀ (n : ℕ), n ≤ l.length →
      (List.range n).foldl (fun n i => if eq (item l i) x then n + 1 else n) 0 =
        (l.take n).countP fun y => eq y x := by
    intro n
    induction n with
    | zero => intro _; rfl
    | succ n ih =>
      intro hn
      rw [List.range_succ, List.foldl_append, ih (by omega), List.take_add_one, item_eq (by omega),
        List.countP_append]
      simp only [List.foldl_cons, List.foldl_nil, Option.toList_some, List.countP_singleton]
      split <;> simp_all
  rw [key _ le_rfl, List.take_length]

/-- C126: `None` stands for the null value whatever the version of Python: `count(None)` counts the
nulls. -/
theorem C126_none (old : Bool) (eq : V → V → Bool) (l : List V) :
    count old eq l .none = .ok (l.countP fun y => eq y .null) :=
  C126_count old eq l .none .null rfl

/-- C126: `remove` takes out the first item that is equal to the value. -/
theorem C126_remove (old : Bool) (eq : V → V → Bool) (l : List V) (p : P) (i : ℕ)
    (h : index old eq l p 0 l.length = .ok i) :
    i < l.length ∧ remove old eq l p = (.arr (l.eraseIdx i), .ok ()) := by
  have hi : i < l.length := by
    unfold index at h
    cases hx : ofDoc old p with
    | error e => rw [hx] at h; cases h
    | ok x =>
      rw [hx] at h
      have := (indexLoop_spec _ _ _ _ _ _).1 h
      omega
  refine ⟨hi, ?_⟩
  simp only [remove, h]
  exact (C126_list_del l i).1 i (pos_nat hi)

/-- The equality of C++ on values that are not arrays or objects (`/repo/src/pyne.cc:14935-14990`): the
types must be the same. -/
def plainEq : V → V → Bool
  | .null, .null => true
  | .int a, .int b => decide (a = b)
  | .uint a, .uint b => decide (a = b)
  | .real (.num a), .real (.num b) => decide (a = b)
  | .str a, .str b => decide (a = b)
  | .bool a, .bool b => decide (a = b)
  | _, _ => false

/-- C126, negation: `in` compares as Python does and `index` as C++ does: `1 in v` is true for the
array `[1.0]`, but `v.index(1)` is a `ValueError`, and `v.count(1)` is 0. -/
theorem C126_fails_in :
    containsItem true plainEq (.int 1) [.real (.num 1)] = .ok true ∧
      index true plainEq [.real (.num 1)] (.int 1) 0 1 = .error .value ∧
      count true plainEq [.real (.num 1)] (.int 1) = .ok 0 := by
  refine ⟨?_, rfl, rfl⟩
  simp [containsItem, got, pyEq]

/-- C126, partial: `pop(i)` gives the item and takes it out.  Missing, because the code does not do it:
the same for items that are arrays or objects. -/
theorem C126_pop_partial (l : List V) (i : ℤ) (j : ℕ) (x : V) (g : Got) (hj : Pos i l.length j)
    (hx : l[j]? = some x) (hn : ¬ Nested x) (hg : got x = .ok g) :
    popInt (.arr l) i = (.arr (l.eraseIdx j), .ok (.own g)) := by
  have e : item l j = x := by
    have := item_eq (pos_lt hj)
    rw [hx] at this
    exact (Option.some.inj this).symm
  have h1 : getInt (.arr l) i = (.arr l, .ok g) := by
    simp only [getInt, (posIndex_ok _ _ _).2 hj, e, hg]
  simp only [popInt, h1, (C126_list_del l i).1 j hj]
  cases g with
  | view v =>
    exfalso
    cases x with
    | arr _ => exact hn trivial
    | obj _ => exact hn trivial
    | int z => rw [got] at hg; split at hg <;> cases hg
    | uint n => rw [got] at hg; split at hg <;> cases hg
    | null => cases hg
    | real _ => cases hg
    | str _ => cases hg
    | bool _ => cases hg
  | _ => rfl

example : popInt (.arr [.int 4, .str ['a']]) 0 = (.arr [.str ['a']], .ok (.own (.int 4))) := rfl

/-- C126, negation: `pop(i)` of an item that is an array or an object takes it out, but what is returned
shows the item that came after it; for the last item it shows freed memory. -/
theorem C126_fails_pop (l : List V) (i : ℤ) (j : ℕ) (x : V) (hj : Pos i l.length j)
    (hx : l[j]? = some x) (hn : Nested x) :
    (∀ y, l[j + 1]? = some y → popInt (.arr l) i = (.arr (l.eraseIdx j), .ok (.view y))) ∧
      (j + 1 = l.length → popInt (.arr l) i = (.arr (l.eraseIdx j), .error .dangling)) := by
  have hlt := pos_lt hj
  have e : item l j = x := by
    have := item_eq hlt
    rw [hx] at this
    exact (Option.some.inj this).symm
  have hg : got x = .ok (.view x) := by
    cases x with
    | arr _ => rfl
    | obj _ => rfl
    | _ => exact hn.elim
  have h1 : getInt (.arr l) i = (.arr l, .ok (.view x)) := by
    simp only [getInt, (posIndex_ok _ _ _).2 hj, e, hg]
  have hlen : (l.eraseIdx j).length = l.length - 1 := List.length_eraseIdx_of_lt hlt
  simp only [popInt, h1, (C126_list_del l i).1 j hj, size, (posIndex_ok _ _ _).2 hj]
  constructor
  · intro y hy
    have hl : j + 1 < l.length := by
      by_contra hc
      rw [List.getElem?_eq_none (by omega)] at hy
      cases hy
    rw [if_pos (by omega)]
    have : item (l.eraseIdx j) j = y := by
      have h2 := item_eq (l := l.eraseIdx j) (j := j) (by omega)
      rw [List.getElem?_eraseIdx, if_neg (by omega), hy] at h2
      exact (Option.some.inj h2).symm
    rw [this]
  · intro hl
    rw [if_neg (by omega)]

example : popInt (.arr [.arr [.int 1], .arr [.int 2]]) 0 =
    (.arr [.arr [.int 2]], .ok (.view (.arr [.int 2]))) := rfl

/-! ## Dicts -/

/-- C126: `self[k]` of a key that is there is its value; the object stays as it is. -/
theorem C126_dict_get (ms : List (Text × V)) (hm : Members ms) (k : Text) (x : V)
    (h : Has ms (cstr k) x) : getKey (.obj ms) k = (.obj ms, got x) := by
  simp only [getKey, (find_iff hm _ _).2 h]

/-- C126, negation: `self[k]` of a key that is not there is `None`, not a `KeyError`, and the object
has the key afterwards, with the value null.  Null becomes an object with this key. -/
theorem C126_fails_read (ms : List (Text × V)) (hm : Members ms) (k : Text)
    (h : cstr k ∉ ms.map Prod.fst) :
    (∃ ms', getKey (.obj ms) k = (.obj ms', .ok .none) ∧ Members ms' ∧
      (∀ k' x, Has ms' k' x ↔ (k' = cstr k ∧ x = .null) ∨ (k' ≠ cstr k ∧ Has ms k' x)) ∧
      ms'.length = ms.length + 1) ∧
      getKey .null k = (.obj [(cstr k, .null)], .ok .none) := by
  refine ⟨⟨setMember ms (cstr k) .null, ?_, members_set hm _ _, has_set hm _ _, length_set _ _ h⟩, rfl⟩
  simp only [getKey, (find_none _).2 h]

example : getKey (.obj [(['a'], .int 1)]) ['b'] =
    (.obj [(['a'], .int 1), (['b'], .null)], .ok .none) := rfl

/-- C126: `self[k] = p` gives the key the value and leaves the other keys as they are; null becomes an
object. -/
theorem C126_dict_set (old : Bool) (ms : List (Text × V)) (hm : Members ms) (k : Text) (p : P) (x : V)
    (h : toCpp old p = .ok x) :
    (∃ ms', setKey old (.obj ms) k p = (.obj ms', .ok ()) ∧ Members ms' ∧
      ∀ k' y, Has ms' k' y ↔ (k' = cstr k ∧ y = x) ∨ (k' ≠ cstr k ∧ Has ms k' y)) ∧
      setKey old .null k p = (.obj [(cstr k, x)], .ok ()) := by
  refine ⟨⟨setMember ms (cstr k) x, ?_, members_set hm _ _, has_set hm _ _⟩, ?_⟩
  · simp only [setKey, h]
  · simp only [setKey, h, setMember]

/-- C126, negation: if the value cannot be converted, the exception is raised, but a key that was not
there is there afterwards, with the value null. -/
theorem C126_fails_assign (old : Bool) (ms : List (Text × V)) (hm : Members ms) (k : Text) (p : P)
    (e : PErr) (he : toCpp old p = .error e) (h : cstr k ∉ ms.map Prod.fst) :
    ∃ ms', setKey old (.obj ms) k p = (.obj ms', .error e) ∧ Has ms' (cstr k) .null := by
  refine ⟨setMember ms (cstr k) .null, ?_, (has_set hm _ _ _ _).2 (Or.inl ⟨rfl, rfl⟩)⟩
  simp only [setKey, he, (find_none _).2 h]

/-- C126: an assignment to a key that is there changes nothing if the value cannot be converted. -/
theorem C126_dict_kept (old : Bool) (ms : List (Text × V)) (hm : Members ms) (k : Text) (p : P)
    (e : PErr) (x : V) (he : toCpp old p = .error e) (h : Has ms (cstr k) x) :
    setKey old (.obj ms) k p = (.obj ms, .error e) := by
  simp only [setKey, he, (find_iff hm _ _).2 h]

/-- C126: `del self[k]` takes the key out and leaves the others as they are; a key that is not there is
no error. -/
theorem C126_dict_del (ms : List (Text × V)) (hm : Members ms) (k : Text) :
    ∃ ms', delKey (.obj ms) k = (.obj ms', .ok ()) ∧ Members ms' ∧
      (∀ k' x, Has ms' k' x ↔ k' ≠ cstr k ∧ Has ms k' x) ∧
      (cstr k ∉ ms.map Prod.fst → ms' = ms) := by
  refine ⟨_, rfl, hm.filter _, fun k' x => ?_, fun h => ?_⟩
  · unfold Has
    rw [List.mem_filter]
    simp [and_comm]
  · rw [List.filter_eq_self]
    intro q hq
    simp only [ne_eq, decide_not, Bool.not_eq_eq_eq_not, Bool.not_true, decide_eq_false_iff_not]
    intro e
    exact h (List.mem_map.2 ⟨q, hq, e⟩)

/-- C126: `in`, `keys` and `get` of an object tell of exactly its keys; the keys come in order, each
once; `get` does not add any. -/
theorem C126_dict_keys (ms : List (Text × V)) (hm : Members ms) (k : Text) :
    (∃ b, contains (.obj ms) k = .ok b ∧ (b = true ↔ ∃ x, Has ms (cstr k) x)) ∧
      (∃ ks, keys (.obj ms) = .ok ks ∧ ks.Pairwise (· < ·) ∧ ∀ n, n ∈ ks ↔ ∃ x, Has ms n x) ∧
      (∀ x g, Has ms (cstr k) x → got x = .ok g → getDefault (.obj ms) k = (.obj ms, .ok (some g))) ∧
      ((¬ ∃ x, Has ms (cstr k) x) → getDefault (.obj ms) k = (.obj ms, .ok none)) := by
  refine ⟨⟨_, rfl, ?_⟩, ⟨_, rfl, ?_, fun n => ?_⟩, fun x g hx hg => ?_, fun h => ?_⟩
  · rw [Option.isSome_iff_exists]
    exact exists_congr fun x => find_iff hm _ _
  · rw [List.pairwise_map]
    exact hm
  · rw [List.mem_map]
    constructor
    · rintro ⟨⟨a, x⟩, h, rfl⟩
      exact ⟨x, h⟩
    · rintro ⟨x, h⟩
      exact ⟨(n, x), h, rfl⟩
  · simp only [getDefault, (find_iff hm _ _).2 hx, C126_dict_get ms hm k x hx, hg]
  · have : find ms (cstr k) = none := by
      cases e : find ms (cstr k) with
      | none => rfl
      | some x => exact absurd ⟨x, (find_iff hm _ _).1 e⟩ h
    simp only [getDefault, this]

/-- C126: `setdefault` gives the value of a key that is there; otherwise it sets the key and gives the
new value. -/
theorem C126_setdefault (old : Bool) (ms : List (Text × V)) (hm : Members ms) (k : Text) (p : P) :
    (∀ x, Has ms (cstr k) x → setDefault old (.obj ms) k p = (.obj ms, got x)) ∧
      ∀ x, cstr k ∉ ms.map Prod.fst → toCpp old p = .ok x →
        setDefault old (.obj ms) k p = (.obj (setMember ms (cstr k) x), got x) := by
  refine ⟨fun x hx => ?_, fun x hk hx => ?_⟩
  · simp only [setDefault, (find_iff hm _ _).2 hx, C126_dict_get ms hm k x hx]
  · have h1 : setKey old (.obj ms) k p = (.obj (setMember ms (cstr k) x), .ok ()) := by
      simp only [setKey, hx]
    simp only [setDefault, (find_none _).2 hk, h1]
    exact C126_dict_get _ (members_set hm _ _) k x
      ((has_set hm _ _ _ _).2 (Or.inl ⟨rfl, rfl⟩))

/-- C126: `update` gives every key of the dict its value, a later one for the same key, and leaves the
other keys as they are. -/
theorem C126_update (old : Bool) (ms : List (Text × V)) (hm : Members ms) (d : List (Text × P))
    (hd : (d.map fun q => cstr q.1).Nodup) (hc : ∀ q ∈ d, ∃ x, toCpp old q.2 = .ok x) :
    ∃ ms', update old (.obj ms) d = (.obj ms', .ok ()) ∧ Members ms' ∧
      (∀ q ∈ d, ∀ x, toCpp old q.2 = .ok x → Has ms' (cstr q.1) x) ∧
      ∀ k x, k ∉ d.map (fun q => cstr q.1) → (Has ms' k x ↔ Has ms k x) := by
  induction d generalizing ms with
  | nil => exact ⟨ms, rfl, hm, by simp, fun _ _ _ => Iff.rfl⟩
  | cons q d ih =>
    obtain ⟨k, p⟩ := q
    simp only [List.map_cons, List.nodup_cons] at hd
    obtain ⟨x, hx⟩ := hc (k, p) List.mem_cons_self
    obtain ⟨ms', h1, h2, h3, h4⟩ := ih (setMember ms (cstr k) x) (members_set hm _ _) hd.2
      (fun q hq => hc q (List.mem_cons_of_mem _ hq))
    refine ⟨ms', ?_, h2, ?_, ?_⟩
    · have : setKey old (.obj ms) k p = (.obj (setMember ms (cstr k) x), .ok ()) := by
        simp only [setKey]
        simp only at hx
        rw [hx]
      simp only [update, this]
      exact h1
    · intro q hq y hy
      rcases List.mem_cons.1 hq with rfl | hq
      · simp only at hx hy ⊢
        rw [hx] at hy
        cases hy
        exact (h4 _ _ hd.1).2 ((has_set hm _ _ _ _).2 (Or.inl ⟨rfl, rfl⟩))
      · exact h3 q hq y hy
    · intro k' y hk'
      simp only [List.map_cons, List.mem_cons, not_or] at hk'
      rw [h4 k' y hk'.2, has_set hm]
      simp [hk'.1]

example : update true (.obj [(['a'], .int 1)]) [(['b'], .int 2), (['a'], .none)] =
    (.obj [(['a'], .null), (['b'], .int 2)], .ok ()) := rfl

/-- C126, negation: `pop(k)` of a key that is not there is `None`, not a `KeyError`; of a key whose value
is an array or an object it shows freed memory. -/
theorem C126_fails_popkey (ms : List (Text × V)) (hm : Members ms) (k : Text) :
    (cstr k ∉ ms.map Prod.fst → popKey (.obj ms) k = (.obj ms, .ok (.own .none))) ∧
      ∀ x, Has ms (cstr k) x → Nested x → (popKey (.obj ms) k).2 = .error .dangling := by
  refine ⟨fun h => ?_, fun x hx hn => ?_⟩
  · have h1 : getKey (.obj ms) k = (.obj (setMember ms (cstr k) .null), .ok .none) := by
      simp only [getKey, (find_none _).2 h]
    simp only [popKey, h1, delKey]
    congr 2
    clear h1
    induction ms with
    | nil => simp [setMember]
    | cons q ms ih =>
      obtain ⟨n, y⟩ := q
      simp only [List.map_cons, List.mem_cons, not_or] at h
      have hself : ((n, y) :: ms).filter (fun p => decide (p.1 ≠ cstr k)) = (n, y) :: ms := by
        rw [List.filter_eq_self]
        intro q hq
        rw [decide_eq_true_iff]
        rintro e
        rcases List.mem_cons.1 hq with rfl | hq
        · exact h.1 e.symm
        · exact h.2 (List.mem_map.2 ⟨q, hq, e⟩)
      rw [setMember]
      split
      · rw [List.filter_cons, if_pos (by simpa using Ne.symm h.1), ih (List.pairwise_cons.1 hm).2 h.2]
      · rw [if_neg (Ne.symm h.1), List.filter_cons, if_neg (by simp), hself]
  · have hg : got x = .ok (.view x) := by
      cases x with
      | arr _ => rfl
      | obj _ => rfl
      | _ => exact hn.elim
    simp only [popKey, C126_dict_get ms hm k x hx, hg, delKey]

/-- C126: `pop(k)` of a key that has a plain value gives the value and takes the key out. -/
theorem C126_popkey (ms : List (Text × V)) (hm : Members ms) (k : Text) (x : V) (g : Got)
    (hx : Has ms (cstr k) x) (hn : ¬ Nested x) (hg : got x = .ok g) :
    ∃ ms', popKey (.obj ms) k = (.obj ms', .ok (.own g)) ∧
      ∀ k' y, Has ms' k' y ↔ k' ≠ cstr k ∧ Has ms k' y := by
  obtain ⟨ms', h1, -, h3, -⟩ := C126_dict_del ms hm k
  refine ⟨ms', ?_, h3⟩
  simp only [popKey, C126_dict_get ms hm k x hx, hg, h1]
  cases g with
  | view v =>
    exfalso
    cases x with
    | arr _ => exact hn trivial
    | obj _ => exact hn trivial
    | int z => rw [got] at hg; split at hg <;> cases hg
    | uint n => rw [got] at hg; split at hg <;> cases hg
    | null => cases hg
    | real _ => cases hg
    | str _ => cases hg
    | bool _ => cases hg
  | _ => rfl

/-! ## Text -/

/-- C126, negation: a file cannot be parsed: its text is asked for a method that does not exist. -/
theorem C126_fails_file (rd : ℚ → Kahan.Dbl) (s : Text) : parseDoc rd (.file s) = .error .attribute :=
  rfl

/-- C126: parsing a string gives the value of the text. -/
theorem C126_parse (rd : ℚ → Kahan.Dbl) (s : Text) (v : V) (r : Text) (h0 : nul ∉ s)
    (h : parse rd s = .ok v r) : parseDoc rd (.str s) = .ok (some v) := by
  simp only [parseDoc, cstr_eq h0, h]

/-- C126, negation: a text that is not JSON is no error. -/
theorem C126_fails_parse (rd : ℚ → Kahan.Dbl) (s : Text) (h0 : nul ∉ s) (h : parse rd s = .bad) :
    parseDoc rd (.str s) = .ok none := by
  simp only [parseDoc, cstr_eq h0, h]

example : parse (fun q => .num q) ['[', '1'] = .bad := by rfl

/-- C126, partial: `str` of a string is the string, if it has no quotes, no backslashes and no control
characters.  Missing, because the code does not do it: the same for the others. -/
theorem C126_str_partial (s : Text) (h : ∀ c ∈ s, 32 ≤ c.toNat ∧ c ≠ '"' ∧ c ≠ '\\') : strOf s = s := by
  have h0 : nul ∉ s := fun hc => absurd (h _ hc).1 (by decide)
  have hp : s.all (fun x => !special.contains x && !isControl x) = true := by
    rw [List.all_eq_true]
    intro c hc
    obtain ⟨h1, h2, h3⟩ := h c hc
    have hctl : isControl c = false := by
      unfold isControl
      rw [Bool.and_eq_false_iff]
      exact Or.inr (decide_eq_false (by omega))
    have hsp : special.contains c = false := by
      rw [List.contains_eq_mem, decide_eq_false_iff_not]
      intro hm
      simp only [special, List.mem_cons, List.not_mem_nil, or_false] at hm
      rcases hm with rfl | rfl | rfl | rfl | rfl | rfl | rfl
      · exact h2 rfl
      · exact h3 rfl
      all_goals exact absurd h1 (by decide)
    rw [hctl, hsp]
    rfl
  unfold strOf quoted
  rw [cstr_eq h0]
  simp only
  rw [if_pos hp]
  simp [List.dropLast_append]

example : strOf ['a', ' ', 'b'] = ['a', ' ', 'b'] := by decide +kernel

/-- C126, negation: `str` of a string shows it as a JSON text does: a line break is two characters. -/
theorem C126_fails_str : strOf ['a', '\n', 'b'] = ['a', '\\', 'n', 'b'] := by decide +kernel

end Cyclus.PyJson.Props
