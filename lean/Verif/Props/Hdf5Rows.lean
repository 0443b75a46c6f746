import Verif.Lemmas.Hdf5Rows
import Mathlib.Tactic.FinCases
import Mathlib.Tactic.NormNum

/-!
# C109: rows written to an HDF5 table are read back as recorded

The shape which is given with a value is "the maximum shape for this field" (`/repo/src/datum.h:35-46`): a value which
does not exceed it should be read back as it is.  The code does so for values which fill their shape; it stores
whatever was in memory behind a shorter container at the top of a type.
-/

namespace Cyclus.Hdf5Rows.C109

open Cyclus.Hdf5Rows

/-! ## Full values -/

theorem sinsert_last {α : Type} (lt : α → α → Bool) (hlt : ∀ a b, lt a b = true → lt b a = false) (x : α) :
    ∀ l : List α, (∀ y ∈ l, lt y x = true) → sinsert lt x l = l ++ [x] := by
  intro l
  induction l with
  | nil => intro _; rfl
  | cons y ys ih =>
    intro h
    have hy := h y (by simp)
    simp only [sinsert, hlt _ _ hy, hy, if_true, Bool.false_eq_true, if_false, List.cons_append]
    rw [ih fun z hz => h z (by simp [hz])]

theorem setOf_sorted {e : Env} (g : Good e) (c : Ty) (l : List (Val c))
    (h : l.Pairwise fun x y => e.lt c x y = true) : setOf e c l = l := by
  have key : ∀ (l s : List (Val c)), (s ++ l).Pairwise (fun x y => e.lt c x y = true) →
      l.foldl (fun s x => sinsert (e.lt c) x s) s = s ++ l := by
    intro l
    induction l with
    | nil => intro s _; simp
    | cons x xs ih =>
      intro s hs
      simp only [List.foldl_cons]
      rw [sinsert_last (e.lt c) (g.asymm c) x s (fun y hy => (List.pairwise_append.1 hs).2.2 y hy x (by simp)),
        ih (s ++ [x]) (by simpa [List.append_assoc] using hs)]
      simp
  exact key l [] (by simpa using h)

theorem minsert_last {α β : Type} (lt : α → α → Bool) (hlt : ∀ a b, lt a b = true → lt b a = false) (k : α) (v : β) :
    ∀ l : List (α × β), (∀ y ∈ l, lt y.1 k = true) → minsert lt k v l = l ++ [(k, v)] := by
  intro l
  induction l with
  | nil => intro _; rfl
  | cons y ys ih =>
    intro h
    have hy := h y (by simp)
    simp only [minsert, hlt _ _ hy, hy, if_true, Bool.false_eq_true, if_false, List.cons_append]
    rw [ih fun z hz => h z (by simp [hz])]

theorem mapOf_sorted {e : Env} (g : Good e) (a b : Ty) (l : List (Val a × Val b))
    (h : l.Pairwise fun x y => e.lt a x.1 y.1 = true) : mapOf e a b l = l := by
  have key : ∀ (l s : List (Val a × Val b)), (s ++ l).Pairwise (fun x y => e.lt a x.1 y.1 = true) →
      l.foldl (fun m p => minsert (e.lt a) p.1 p.2 m) s = s ++ l := by
    intro l
    induction l with
    | nil => intro s _; simp
    | cons x xs ih =>
      intro s hs
      simp only [List.foldl_cons]
      rw [minsert_last (e.lt a) (g.asymm a) x.1 x.2 s
          (fun y hy => (List.pairwise_append.1 hs).2.2 y hy x (by simp)),
        ih (s ++ [x]) (by simpa [List.append_assoc] using hs)]
      simp
  exact key l [] (by simpa using h)

theorem full_within {e : Env} : ∀ (t : Ty) (v : Val t), Full e t v → Within t v := by
  intro t
  induction t with
  | prim n => exact fun _ h => h
  | str n => exact fun _ _ => trivial
  | vl => exact fun _ _ => trivial
  | seq n c ih => exact fun v h => ⟨h.1.le, fun x hx => ih x (h.2 x hx)⟩
  | set n c ih => exact fun v h => ⟨h.1.le, fun x hx => ih x (h.2.1 x hx)⟩
  | map n a b iha ihb => exact fun v h => ⟨h.1.le, fun p hp => ⟨iha _ (h.2.1 p hp).1, ihb _ (h.2.1 p hp).2⟩⟩
  | pair a b iha ihb => exact fun v h => ⟨iha _ h.1, ihb _ h.2⟩

theorem within_below : ∀ (t : Ty) (v : Val t), Within t v → WithinBelow t v := by
  intro t v h
  cases t with
  | seq n c => exact h.2
  | set n c => exact h.2
  | map n a b => exact h.2
  | prim n => exact h
  | str n => exact h
  | vl => exact h
  | pair a b => exact h

theorem back_full {e : Env} (g : Good e) : ∀ (t : Ty) (v : Val t), Full e t v → back e t v = v := by
  intro t
  induction t with
  | prim n => exact fun _ _ => rfl
  | str n =>
    intro v h
    simp only [back]
    rw [List.take_of_length_le h.1]
    have key : ∀ l : List ℕ, 0 ∉ l → l.takeWhile (· ≠ 0) = l := by
      intro l
      induction l with
      | nil => intro _; rfl
      | cons x xs ih =>
        intro hx
        simp only [List.mem_cons, not_or] at hx
        rw [List.takeWhile_cons, if_pos (by simpa using fun h => hx.1 h.symm), ih hx.2]
    exact key v h.2
  | vl => exact fun _ _ => rfl
  | seq n c ih =>
    intro v h
    simp only [back]
    rw [h.1, Nat.sub_self, List.map_congr_left (g := id) fun x hx => ih x (h.2 x hx)]
    simp
  | set n c ih =>
    intro v h
    simp only [back]
    rw [h.1, Nat.sub_self, List.map_congr_left (g := id) fun x hx => ih x (h.2.1 x hx)]
    simp only [List.map_id, List.replicate_zero, List.append_nil]
    exact setOf_sorted g c v h.2.2
  | map n a b iha ihb =>
    intro v h
    simp only [back]
    rw [h.1, Nat.sub_self, List.map_congr_left (g := id) fun p hp => by
      rw [iha _ (h.2.1 p hp).1, ihb _ (h.2.1 p hp).2]; rfl]
    simp only [List.map_id, List.replicate_zero, List.append_nil]
    exact mapOf_sorted g a b v h.2.2
  | pair a b iha ihb =>
    intro v h
    simp only [back]
    rw [iha _ h.1, ihb _ h.2]

theorem seen_full {e : Env} (g : Good e) (t : Ty) (v r : Val t) (h : Full e t v) (hs : Seen e t v r) : r = v := by
  have hb := back_full g t v h
  cases t with
  | prim n => exact hs.trans hb
  | str n => exact hs.trans hb
  | vl => exact hs.trans hb
  | pair a b => exact hs.trans hb
  | seq n c =>
    obtain ⟨w, hw, rfl⟩ := hs
    rw [h.1, Nat.sub_self] at hw
    rw [List.length_eq_zero_iff.1 hw, List.take_of_length_le h.1.le]
    simp only [back, h.1, Nat.sub_self, List.replicate_zero] at hb
    exact hb
  | set n c =>
    obtain ⟨w, hw, rfl⟩ := hs
    rw [h.1, Nat.sub_self] at hw
    rw [List.length_eq_zero_iff.1 hw, List.take_of_length_le h.1.le]
    simp only [back, h.1, Nat.sub_self, List.replicate_zero] at hb
    exact hb
  | map n a b =>
    obtain ⟨w, hw, rfl⟩ := hs
    rw [h.1, Nat.sub_self] at hw
    rw [List.length_eq_zero_iff.1 hw, List.take_of_length_le h.1.le]
    simp only [back, h.1, Nat.sub_self, List.replicate_zero] at hb
    exact hb

/-! ## A world for examples -/

/-- A world for examples: a digest has the value in its first byte, bytes are compared in order. -/
def demo : Env where
  digest v := v :: List.replicate 19 0
  fetch l := l.headD 0
  lt
    | .prim _ => fun a b => decide (toNat a < toNat b)
    | .str _ => fun a b => decide (toNat a < toNat b)
    | .vl => fun a b => decide (a < b)
    | _ => fun _ _ => false
where
  /-- The number of some bytes, the lowest first. -/
  toNat : List ℕ → ℕ
    | [] => 0
    | b :: bs => b + 256 * toNat bs

theorem demo_good : Good demo := by
  refine ⟨by intro v; rfl, by intro v; rfl, ?_⟩
  intro t a b h
  cases t with
  | prim n => simp only [demo, decide_eq_true_eq, decide_eq_false_iff_not] at h ⊢; exact Nat.not_lt.2 h.le
  | str n => simp only [demo, decide_eq_true_eq, decide_eq_false_iff_not] at h ⊢; exact Nat.not_lt.2 h.le
  | vl => simp only [demo, decide_eq_true_eq, decide_eq_false_iff_not] at h ⊢; exact Nat.not_lt.2 h.le
  | seq n c => cases h
  | set n c => cases h
  | map n a b => cases h
  | pair a b => cases h

/-- A table with a number, a text and a vector of three pairs of a number and a set of two texts of variable length. -/
def demoTypes : List Ty := [.prim 4, .str 3, .seq 3 (.pair (.prim 1) (.set 2 .vl))]

/-- A row of it whose vector has a given number of elements. -/
def demoRow (a : ℕ) (l : List (List ℕ × List ℕ)) : List Cell :=
  [⟨.prim 4, [a, 0, 0, 0]⟩, ⟨.str 3, [72, 105]⟩, ⟨.seq 3 (.pair (.prim 1) (.set 2 .vl)), l⟩]

theorem demo_shaped : ∀ t ∈ demoTypes, Shaped t ∧ size t < 2 ^ 64 := by
  intro t ht
  fin_cases ht <;> simp [Shaped, size]

/-! ## The property -/

/-- **Every row that was recorded is in the table, in order, and each of its values is the one recorded as far as its
type allows.**  Whatever the calls of `Notify`, the contents of fresh memory and the chunks in which the table is read:
if the data have the types and shapes of the columns and no container inside a value is longer than its shape, then
nothing is written outside of the buffers; texts are cut at their length, containers inside a value are filled up with
elements of zeros, and a container at the top has its first elements — followed by anything at all if it is shorter
than its shape. -/
theorem C109_seen {e : Env} (g : Good e) (ts : List Ty) (hts : ∀ t ∈ ts, Shaped t ∧ size t < 2 ^ 64)
    (gs : List (List (List Cell) × (ℕ → ℕ))) (hgs : ∀ p ∈ gs, ∀ d ∈ p.1, RowOf ts WithinBelow d)
    (hne : (gs.map (·.1)).flatten ≠ []) (chunk : ℕ) (hc : 1 ≤ chunk) :
    ∃ t rows, history e none gs = some (some t) ∧ t.schema = ts ∧ query e t chunk = some rows ∧
      List.Forall₂ (List.Forall₂ (CellRel (Seen e))) (gs.map (·.1)).flatten rows := by
  obtain ⟨t', h1, h2⟩ := history_holds g ts hts gs hgs [] none rfl
  cases t' with
  | none => exact absurd h2.2 hne
  | some t' =>
    simp only [List.nil_append] at h2
    obtain ⟨rows, h3, h4⟩ := query_holds h2 chunk hc
    exact ⟨t', rows, h1, h2.1, h3, h4⟩

example :
    let g1 : List (List Cell) := [demoRow 1 [], demoRow 2 [([7], [1]), ([8], []), ([9], [1, 4]), ([10], [5])]]
    ∃ t rows, history demo none [(g1, fun i => i)] = some (some t) ∧ t.schema = demoTypes ∧
      query demo t 1024 = some rows ∧ List.Forall₂ (List.Forall₂ (CellRel (Seen demo))) g1 rows := by
  intro g1
  refine C109_seen demo_good demoTypes demo_shaped [(g1, fun i => i)] ?_ (by simp [g1]) 1024 (by norm_num)
  intro p hp
  fin_cases hp
  simp [g1, RowOf, demoRow, demoTypes, WithinBelow, Within]

/-- The full statement is `∀ …, (∀ p ∈ gs, ∀ d ∈ p.1, RowOf ts NotAbove d) → query … = some (recorded rows)`, for values
whose containers are *at most* as long as their shape.  What is missing are containers shorter than their shape: see
`C109_fails_short` and `C109_fails_padding`.

**Values which fill their shape are read back as recorded**: every row, in order, with every value, for every type, any
split into calls of `Notify` and into chunks, and any contents of fresh memory. -/
theorem C109_roundtrip_partial {e : Env} (g : Good e) (ts : List Ty) (hts : ∀ t ∈ ts, Shaped t ∧ size t < 2 ^ 64)
    (gs : List (List (List Cell) × (ℕ → ℕ))) (hgs : ∀ p ∈ gs, ∀ d ∈ p.1, RowOf ts (Full e) d)
    (hne : (gs.map (·.1)).flatten ≠ []) (chunk : ℕ) (hc : 1 ≤ chunk) :
    ∃ t, history e none gs = some (some t) ∧ query e t chunk = some (gs.map (·.1)).flatten := by
  obtain ⟨t, rows, h1, _, h3, h4⟩ := C109_seen g ts hts gs
    (fun p hp d hd => ⟨(hgs p hp d hd).1, fun c hc => within_below _ _ (full_within _ _ ((hgs p hp d hd).2 c hc))⟩)
    hne chunk hc
  refine ⟨t, h1, ?_⟩
  have hfull : ∀ d ∈ (gs.map (·.1)).flatten, ∀ c ∈ d, Full e c.1 c.2 := by
    intro d hd
    obtain ⟨l, hl, hdl⟩ := List.mem_flatten.1 hd
    obtain ⟨p, hp, rfl⟩ := List.mem_map.1 hl
    exact (hgs p hp d hdl).2
  have row : ∀ (d r : List Cell), List.Forall₂ (CellRel (Seen e)) d r → (∀ c ∈ d, Full e c.1 c.2) → r = d := by
    intro d r h
    induction h with
    | nil => intro _; rfl
    | @cons c c' d r hc _ ih =>
      intro hf
      rw [ih fun x hx => hf x (by simp [hx])]
      cases hc with
      | mk t v r hr => rw [seen_full g t v r (hf ⟨t, v⟩ (by simp)) hr]
  have all : ∀ (ds rs : List (List Cell)), List.Forall₂ (List.Forall₂ (CellRel (Seen e))) ds rs →
      (∀ d ∈ ds, ∀ c ∈ d, Full e c.1 c.2) → rs = ds := by
    intro ds rs h
    induction h with
    | nil => intro _; rfl
    | cons hd _ ih =>
      intro hf
      rw [ih fun x hx => hf x (by simp [hx]), row _ _ hd (hf _ (by simp))]
  rw [h3, all _ _ h4 hfull]

example :
    let g1 : List (List Cell) := [demoRow 1 [([7], [1, 2]), ([8], [3, 4]), ([9], [1, 4])],
      demoRow 2 [([0], [5, 6]), ([0], [5, 6]), ([0], [5, 7])]]
    let g2 : List (List Cell) := [demoRow 3 [([7], [1, 2]), ([8], [3, 4]), ([9], [1, 4])]]
    ∃ t, history demo none [(g1, fun i => i), ([], fun _ => 0), (g2, fun _ => 255)] = some (some t) ∧
      query demo t 2 = some (g1 ++ g2) := by
  intro g1 g2
  refine C109_roundtrip_partial demo_good demoTypes demo_shaped _ ?_ (by simp [g1]) 2 (by norm_num)
  intro p hp
  fin_cases hp <;> simp [g1, g2, RowOf, demoRow, demoTypes, Full, demo]

/-- **A column is written within its bounds**: whatever is before and behind it in the buffer stays, for every type and
every value whose inner containers are no longer than their shape, however long the value is at the top. -/
theorem C109_inside {e : Env} (g : Good e) (t : Ty) (hs : Shaped t) (hz : size t < 2 ^ 64) (v : Val t)
    (h : WithinBelow t v) (before column behind : List ℕ) (hl : column.length = size t) :
    ∃ new, new.length = size t ∧
      writeCol e t v (size t) before.length (before ++ column ++ behind) = some (before ++ new ++ behind) := by
  obtain ⟨new, h1, h2, _⟩ := writeCol_seen g t hs hz v h before column behind hl
  exact ⟨new, h1, h2⟩

example :
    ∃ new : List ℕ, new.length = 6 ∧
      writeCol demo (.seq 2 (.str 3)) [[65], [66, 67, 68, 69], [70]] 6 1 ([1] ++ [0, 0, 0, 0, 0, 0] ++ [2])
        = some ([1] ++ new ++ [2]) :=
  C109_inside demo_good (.seq 2 (.str 3)) (by simp [Shaped]) (by simp [size]) _ (by simp [WithinBelow, Within])
    [1] [0, 0, 0, 0, 0, 0] [2] rfl

/-! ## Where the code departs from the property -/

theorem write_length (e : Env) : ∀ (t : Ty) (v : Val t) (off : ℕ) (buf b : List ℕ),
    write e t v off buf = some b → b.length = buf.length := by
  have loop : ∀ {α : Type} (w : α → ℕ → List ℕ → Option (List ℕ)) (sz off : ℕ),
      (∀ x o bf b, w x o bf = some b → b.length = bf.length) →
      ∀ (l : List α) (k : ℕ) (buf b : List ℕ), wloop w sz off k l buf = some b → b.length = buf.length := by
    intro α w sz off hw l
    induction l with
    | nil => intro k buf b h; cases h; rfl
    | cons x xs ih =>
      intro k buf b h
      simp only [wloop] at h
      obtain ⟨b1, h1, h2⟩ := Option.bind_eq_some_iff.1 h
      rw [ih _ _ _ h2, hw _ _ _ _ h1]
  have hz : ∀ buf b off total n count, zeros buf off total n count = some b → b.length = buf.length := by
    intro buf b off total n count h
    unfold zeros at h
    simp only at h
    split at h
    · exact (poke_length h).1
    · cases h
  intro t
  induction t with
  | prim n => intro v off buf b h; exact (poke_length h).1
  | str n =>
    intro v off buf b h
    simp only [write] at h
    obtain ⟨b1, h1, h2⟩ := Option.bind_eq_some_iff.1 h
    rw [(poke_length h2).1, (poke_length h1).1]
  | vl => intro v off buf b h; exact (poke_length h).1
  | seq n c ih =>
    intro v off buf b h
    simp only [write] at h
    obtain ⟨b1, h1, h2⟩ := Option.bind_eq_some_iff.1 h
    rw [hz _ _ _ _ _ _ h2, loop _ _ _ ih _ _ _ _ h1]
  | set n c ih =>
    intro v off buf b h
    simp only [write] at h
    obtain ⟨b1, h1, h2⟩ := Option.bind_eq_some_iff.1 h
    rw [hz _ _ _ _ _ _ h2, loop _ _ _ ih _ _ _ _ h1]
  | map n a b iha ihb =>
    intro v off buf b h
    simp only [write] at h
    obtain ⟨b1, h1, h2⟩ := Option.bind_eq_some_iff.1 h
    rw [hz _ _ _ _ _ _ h2]
    refine loop _ _ _ ?_ _ _ _ _ h1
    intro p o bf b' h'
    obtain ⟨b2, h3, h4⟩ := Option.bind_eq_some_iff.1 h'
    rw [ihb _ _ _ _ h4, iha _ _ _ _ h3]
  | pair a b iha ihb =>
    intro v off buf b h
    simp only [write] at h
    obtain ⟨b1, h1, h2⟩ := Option.bind_eq_some_iff.1 h
    rw [ihb _ _ _ _ h2, iha _ _ _ _ h1]

/-- **A container shorter than its shape is read back with whatever was in memory**: for a vector or list of `n`
elements of `sz` bytes and a value with fewer, any further elements whatsoever may be read, depending on the memory
which the buffer got.  The condition of the `memset` (`/repo/src/hdf5_back_gen.py:2306-2312`) is false for every column
that was created with the same shape. -/
theorem C109_fails_short (e : Env) (g : Good e) (sz n : ℕ) (hsz : 1 ≤ sz) (hn : 1 ≤ n) (hz : sz * n < 2 ^ 64)
    (v w : List (List ℕ)) (hv : ∀ x ∈ v, x.length = sz) (hw : ∀ x ∈ w, x.length = sz)
    (hlen : v.length + w.length = n) (chunk : ℕ) (hc : 1 ≤ chunk) :
    ∃ (fresh : ℕ → ℕ) (t : Table),
      history e none [([[⟨.seq n (.prim sz), v⟩]], fresh)] = some (some t) ∧
      query e t chunk = some [[⟨.seq n (.prim sz), v ++ w⟩]] := by
  have hlv : v.flatten.length = sz * v.length := by
    have := length_flatten_const v id sz hv; simpa using this
  have hlw : w.flatten.length = sz * w.length := by
    have := length_flatten_const w id sz hw; simpa using this
  have hbytes : (v ++ w).flatten.length = sz * n := by
    rw [List.flatten_append, List.length_append, hlv, hlw, ← Nat.mul_add, hlen]
  let T : Ty := .seq n (.prim sz)
  have hT : (v ++ w).flatten.length = size T := hbytes
  let fresh : ℕ → ℕ := fun i => (v ++ w).flatten.getD i 0
  have hfresh : (List.range (1 * (size T + 0))).map fresh = (v ++ w).flatten := by
    apply List.ext_getElem
    · rw [List.length_map, List.length_range, hT, Nat.one_mul, Nat.add_zero]
    · intro i h1 h2
      rw [List.getElem_map, List.getElem_range]
      simp only [fresh]
      rw [List.getD_eq_getElem?_getD, List.getElem?_eq_getElem h2]
      rfl
  -- the same bytes are what a full value would have
  have hwr : writeCol e T v (size T) 0 ((v ++ w).flatten) = some (v ++ w).flatten := by
    have := writeTop_eq (write e (.prim sz)) (fun x => x) sz n hsz v
      (fun x hx => ⟨hv x hx, fun o b => rfl⟩) [] (v ++ w).flatten [] hbytes
    simp only [List.nil_append, List.append_nil, List.length_nil] at this
    have htake : v.take n = v := List.take_of_length_le (by omega)
    rw [htake, List.map_id'] at this
    have hdrop : (v ++ w).flatten.drop (sz * v.length) = w.flatten := by
      rw [List.flatten_append, ← hlv, List.drop_left]
    rw [hdrop, ← List.flatten_append] at this
    exact this
  have hhist : history e none [([[⟨T, v⟩]], fresh)] = some (some ⟨[T], 1, (v ++ w).flatten⟩) := by
    simp only [history, notify, writeGroup, Option.getD_none, create, Table.sizes, Table.rowsize, List.map_cons,
      List.map_nil, List.sum_cons, List.sum_nil, List.length_cons, List.length_nil, Nat.zero_add, hfresh, fillBuf,
      fillRow, List.getElem?_cons_zero]
    rw [hwr]
    simp
  refine ⟨fresh, _, hhist, ?_⟩
  have hrec : Rec e [T] [⟨T, v ++ w⟩] ((v ++ w).flatten, [⟨T, v ++ w⟩]) := by
    have hfull : Full e T (v ++ w) := ⟨by rw [List.length_append, hlen], fun x hx => by
      rcases List.mem_append.1 hx with h | h
      · exact hv x h
      · exact hw x h⟩
    have henc : enc e T (v ++ w) = (v ++ w).flatten := by
      simp only [T, enc, List.length_append, hlen, Nat.sub_self, Nat.mul_zero, List.replicate_zero, List.append_nil]
      congr 1
      exact List.map_id' _
    refine ⟨by simpa using hT, List.Forall₂.cons (CellRel.mk _ _ _ ⟨[], ?_, ?_⟩) List.Forall₂.nil, ?_⟩
    · rw [List.length_append, hlen, Nat.sub_self]; rfl
    · rw [List.take_of_length_le (by rw [List.length_append, hlen]), List.append_nil]
      exact (List.map_id' _).symm
    · intro pre post
      have := read_enc g T (v ++ w) (full_within T (v ++ w) hfull) pre post
      rw [henc, back_full g T _ hfull] at this
      simp only [readRow]
      rw [this]
      rfl
  have hrows := readChunks_flat (e := e) (ts := [T]) ⟨[T], 1, (v ++ w).flatten⟩ chunk hc rfl 1 0 []
    [[⟨T, v ++ w⟩]] [] [((v ++ w).flatten, [⟨T, v ++ w⟩])] List.Forall₂.nil
    (List.Forall₂.cons hrec List.Forall₂.nil) (by simp) rfl (by simp) (by simpa using hc) (by simp)
  have hq : 1 / chunk + (if 1 % chunk = 0 then 0 else 1) = 1 := by
    rcases Nat.eq_or_lt_of_le hc with h | h
    · subst h; rfl
    · rw [Nat.div_eq_of_lt h, Nat.mod_eq_of_lt h]; rfl
  simp only [query]
  rw [hq]
  exact hrows

example :
    ∃ (fresh : ℕ → ℕ) (t : Table),
      history demo none [([[⟨.seq 3 (.prim 2), [[1, 0]]⟩]], fresh)] = some (some t) ∧
      query demo t 1024 = some [[⟨.seq 3 (.prim 2), [[1, 0], [222, 173], [190, 239]]⟩]] :=
  C109_fails_short demo demo_good 2 3 (by norm_num) (by norm_num) (by norm_num) [[1, 0]] [[222, 173], [190, 239]]
    (by simp) (by simp) rfl 1024 (by norm_num)

/-- **A container inside a value which is longer than its shape destroys memory**: the number of zeros behind it is
negative, so `memset` clears nearly the whole address space (there is neither an exception nor a cut, unlike at the top).
The same holds for sets. -/
theorem C109_fails_inner (e : Env) (n : ℕ) (c : Ty) (v : List (Val c)) (hs : 1 ≤ size c) (h : n < v.length)
    (hsmall : size c * v.length ≤ 2 ^ 63) (off : ℕ) (buf : List ℕ) (hb : buf.length < 2 ^ 63) :
    write e (.seq n c) v off buf = none ∧ write e (.set n c) v off buf = none := by
  have hlen : (((size c : ℤ) * ((n : ℤ) - (v.length : ℤ))) % 2 ^ 64).toNat ≥ 2 ^ 63 := by
    have hd : size c * (v.length - n) ≤ size c * v.length := Nat.mul_le_mul_left _ (by omega)
    have hpos : 1 ≤ size c * (v.length - n) := Nat.mul_pos hs (by omega)
    have e1 : (size c : ℤ) * ((n : ℤ) - (v.length : ℤ)) = -((size c * (v.length - n) : ℕ) : ℤ) := by
      push_cast [Nat.cast_sub h.le]; ring
    rw [e1]
    generalize size c * (v.length - n) = m at *
    omega
  have key : ∀ b : List ℕ, b.length = buf.length → zeros b (off + size c * v.length) (size c) n v.length = none := by
    intro b hbl
    unfold zeros
    simp only
    rw [if_neg (by omega)]
  have fin : ((wloop (write e c) (size c) off 0 v buf).bind fun b =>
      zeros b (off + size c * v.length) (size c) n v.length) = none := by
    cases hw : wloop (write e c) (size c) off 0 v buf with
    | none => rfl
    | some b =>
      simp only [Option.bind_some]
      refine key b ?_
      have loop : ∀ (l : List (Val c)) (k : ℕ) (buf b : List ℕ),
          wloop (write e c) (size c) off k l buf = some b → b.length = buf.length := by
        intro l
        induction l with
        | nil => intro k buf b h; cases h; rfl
        | cons x xs ih =>
          intro k buf b h
          simp only [wloop] at h
          obtain ⟨b1, h1, h2⟩ := Option.bind_eq_some_iff.1 h
          rw [ih _ _ _ h2, write_length e c _ _ _ _ h1]
      exact loop _ _ _ _ hw
  exact ⟨fin, fin⟩

example : write demo (.seq 1 (.prim 1)) [[1], [2]] 0 (List.replicate 100 0) = none :=
  (C109_fails_inner demo 1 (.prim 1) [[1], [2]] (by simp [size]) (by simp) (by simp [size]) 0 _ (by simp)).1

/-- The table of one row with one value of a type below the top, in the example world. -/
theorem one_row (t : Ty) (hs : Shaped t) (hz : size t < 2 ^ 64) (v : Val t) (hw : WithinBelow t v)
    (hseen : ∀ r, Seen demo t v r → r = back demo t v) (fresh : ℕ → ℕ) :
    ∃ tb, history demo none [([[⟨t, v⟩]], fresh)] = some (some tb) ∧
      query demo tb 1024 = some [[⟨t, back demo t v⟩]] := by
  obtain ⟨tb, rows, h1, _, h3, h4⟩ := C109_seen demo_good [t] (by simpa using ⟨hs, hz⟩) [([[⟨t, v⟩]], fresh)]
    (by simpa [RowOf] using hw) (by simp) 1024 (by norm_num)
  refine ⟨tb, h1, ?_⟩
  rw [h3]
  simp only [List.map_cons, List.map_nil, List.flatten_cons, List.flatten_nil, List.append_nil] at h4
  cases h4 with
  | cons hrow hnil =>
    cases hnil
    cases hrow with
    | cons hcell hn =>
      cases hn
      cases hcell with
      | mk t v r h => rw [hseen r h]

/-- **A map inside a value gets a key of zeros**: a pair of a number and the map `{1 ↦ 7}` recorded with shape 2 is read
back as `{0 ↦ 0, 1 ↦ 7}`, whatever the memory; and of `{0 ↦ 7}` the value is lost, it is read back as `{0 ↦ 0}`. -/
theorem C109_fails_padding (fresh : ℕ → ℕ) :
    (∃ t, history demo none
        [([[⟨.pair (.prim 1) (.map 2 (.prim 1) (.prim 1)), ([5], [([1], [7])])⟩]], fresh)] = some (some t) ∧
      query demo t 1024
        = some [[⟨.pair (.prim 1) (.map 2 (.prim 1) (.prim 1)), ([5], [([0], [0]), ([1], [7])])⟩]]) ∧
    (∃ t, history demo none
        [([[⟨.pair (.prim 1) (.map 2 (.prim 1) (.prim 1)), ([5], [([0], [7])])⟩]], fresh)] = some (some t) ∧
      query demo t 1024
        = some [[⟨.pair (.prim 1) (.map 2 (.prim 1) (.prim 1)), ([5], [([0], [0])])⟩]]) := by
  have b1 : back demo (.pair (.prim 1) (.map 2 (.prim 1) (.prim 1))) ([5], [([1], [7])])
      = ([5], [([0], [0]), ([1], [7])]) := rfl
  have b2 : back demo (.pair (.prim 1) (.map 2 (.prim 1) (.prim 1))) ([5], [([0], [7])]) = ([5], [([0], [0])]) := rfl
  have h1 := one_row (.pair (.prim 1) (.map 2 (.prim 1) (.prim 1))) (by simp [Shaped]) (by simp [size])
    ([5], [([1], [7])]) (by simp [WithinBelow, Within]) (fun _ h => h) fresh
  have h2 := one_row (.pair (.prim 1) (.map 2 (.prim 1) (.prim 1))) (by simp [Shaped]) (by simp [size])
    ([5], [([0], [7])]) (by simp [WithinBelow, Within]) (fun _ h => h) fresh
  rw [b1] at h1
  rw [b2] at h2
  exact ⟨h1, h2⟩

/-- **A later value with a longer shape is written over its column's end**: the size of the column is that of the first
datum, the number of bytes written for a text that of the later datum's own shape.  In the last row of a group this is
outside of the buffer; elsewhere the next columns are written over it, and the text is cut. -/
theorem C109_fails_shape (fresh fresh' : ℕ → ℕ) :
    history demo none [([[⟨.str 2, [65]⟩]], fresh), ([[⟨.str 5, [66]⟩]], fresh')] = none ∧
    ∃ t, history demo none [([[⟨.str 1, [65]⟩, ⟨.prim 1, [7]⟩], [⟨.str 2, [66, 67]⟩, ⟨.prim 1, [8]⟩],
        [⟨.str 1, [68]⟩, ⟨.prim 1, [9]⟩]], fresh)] = some (some t) ∧
      query demo t 1024 = some [[⟨.str 1, [65]⟩, ⟨.prim 1, [7]⟩], [⟨.str 1, [66]⟩, ⟨.prim 1, [8]⟩],
        [⟨.str 1, [68]⟩, ⟨.prim 1, [9]⟩]] := by
  refine ⟨rfl, ⟨[.str 1, .prim 1], 3, [65, 7, 66, 8, 68, 9]⟩, ?_, ?_⟩
  · simp [history, notify, writeGroup, create, Table.sizes, Table.rowsize, size, fillBuf, fillRow, writeCol, write,
      poke, List.range_succ]
  · rfl

/-- **A text ends at its first zero byte**: what follows is in the file but not in what is read. -/
theorem C109_fails_nul (fresh : ℕ → ℕ) :
    ∃ t, history demo none [([[⟨.str 3, [65, 0, 66]⟩]], fresh)] = some (some t) ∧
      query demo t 1024 = some [[⟨.str 3, [65]⟩]] := by
  refine ⟨⟨[.str 3], 1, [65, 0, 66]⟩, rfl, rfl⟩

/-- **`Tables` gives every data set but those whose name ends in `Keys` or `Vals`**, among them all of the data sets
for values of variable length. -/
theorem C109_tables (names : List (List Char)) (s : List Char) :
    s ∈ tables names ↔ s ∈ names ∧ ¬ (∃ p, s = p ++ "Keys".toList ∨ s = p ++ "Vals".toList) := by
  have hend : ∀ (s k : List Char), k.length = 4 → ((∃ p, s = p ++ k) ↔ 4 ≤ s.length ∧ s.drop (s.length - 4) = k) := by
    intro s k hk
    constructor
    · rintro ⟨p, rfl⟩
      simp [hk]
    · rintro ⟨h1, h2⟩
      refine ⟨s.take (s.length - 4), ?_⟩
      conv_lhs => rw [← List.take_append_drop (s.length - 4) s, h2]
  have h1 := hend s "Keys".toList rfl
  have h2 := hend s "Vals".toList rfl
  unfold tables
  rw [List.mem_filter]
  refine and_congr_right fun _ => ?_
  rw [exists_or, h1, h2]
  simp only [Bool.or_eq_true, decide_eq_true_eq, Bool.and_eq_true, bne_iff_ne, ne_eq, not_or, not_and]
  constructor
  · rintro (h | ⟨h3, h4⟩)
    · exact ⟨fun h' => by omega, fun h' => by omega⟩
    · exact ⟨fun _ => h3, fun _ => h4⟩
  · rintro ⟨h3, h4⟩
    by_cases h : s.length < 4
    · exact Or.inl h
    · exact Or.inr ⟨h3 (by omega), h4 (by omega)⟩

/-- **A table of one's own whose name ends so is hidden**: `FuelKeys` can be recorded and queried but is no table. -/
theorem C109_fails_tables : tables ["FuelKeys".toList, "Fuel".toList] = ["Fuel".toList] := by
  decide +kernel

end Cyclus.Hdf5Rows.C109
