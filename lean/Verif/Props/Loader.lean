import Verif.Model.Loader
import Verif.Props.Query
import Verif.Props.SimInit
import Verif.Props.Precond
import Mathlib.Tactic.Linarith
import Mathlib.Algebra.Order.Field.Rat

/-!
# C34, C35, C36: commodity priorities and agent specifications
-/

namespace Cyclus.Load

open Exchange (Weights processWeights)
open Rec (Vals Datum Queryable QueryResult Cmp Conform Proper)

/-! ## C35 -/

theorem foldl_max (l : Weights) : ∀ x : ℚ,
    x ≤ l.foldl (fun b y => if b < y.2 then y.2 else b) x ∧
    ∀ e ∈ l, e.2 ≤ l.foldl (fun b y => if b < y.2 then y.2 else b) x := by
  induction l with
  | nil => intro x; exact ⟨le_refl _, by simp⟩
  | cons e es ih =>
    intro x
    rw [List.foldl_cons]
    obtain ⟨h1, h2⟩ := ih (if x < e.2 then e.2 else x)
    have hx : x ≤ (if x < e.2 then e.2 else x) ∧ e.2 ≤ (if x < e.2 then e.2 else x) := by
      split_ifs with h
      · exact ⟨le_of_lt h, le_refl _⟩
      · exact ⟨le_refl _, not_lt.1 h⟩
    refine ⟨le_trans hx.1 h1, ?_⟩
    intro e' he'
    rcases List.mem_cons.1 he' with rfl | he'
    · exact le_trans hx.2 h1
    · exact h2 e' he'

/-- **C35** for a file with commodities: priorities that are at least 1 are kept, and all others become
one common priority that is larger than them. -/
theorem C35_partial {m : Weights} (hm : m ≠ []) : ∃ c, 1 ≤ c ∧ (∀ e ∈ m, 1 ≤ e.2 → e.2 < c) ∧
    processCommodities m = some (m.map fun e => (e.1, if 1 ≤ e.2 then e.2 else c)) := by
  cases m with
  | nil => exact absurd rfl hm
  | cons e es =>
    obtain ⟨h1, h2⟩ := foldl_max es e.2
    simp only [processCommodities]
    generalize es.foldl (fun b y => if b < y.2 then y.2 else b) e.2 = mx at h1 h2
    refine ⟨(if mx < 1 then 0 else mx) + 1, ?_, ?_, ?_⟩
    · split_ifs <;> linarith
    · intro e' he' hle
      have : e'.2 ≤ mx := by
        rcases List.mem_cons.1 he' with rfl | he'
        · exact h1
        · exact h2 e' he'
      split_ifs <;> linarith
    · congr 1
      apply List.map_congr_left
      intro y _
      by_cases hy : y.2 < 1
      · rw [if_pos hy, if_neg (not_le.2 hy)]
      · rw [if_neg hy, if_pos (not_lt.1 hy)]

example : processCommodities [("a", 3), ("b", -1), ("c", 1 / 2), ("d", 7)] =
    some [("a", 3), ("b", 8), ("c", 8), ("d", 7)] ∧ processCommodities [("a", -1)] = some [("a", 1)] := by
  decide +kernel

/-- **C35** fails for a file without commodities, which the schema allows: undefined behaviour. -/
theorem C35_fails (sid : ℕ) (precon : String) (exclusive : Bool) :
    processCommodities [] = none ∧ loadSolver sid [] precon exclusive = none := ⟨rfl, rfl⟩

/-! ## C34 -/

theorem mapInsert_ne {A K : Type} [LinearOrder K] (key : A → K) (x : A) (m : List A) :
    Init.mapInsert key x m ≠ [] := by
  cases m with
  | nil => simp [Init.mapInsert]
  | cons y ys => unfold Init.mapInsert; split_ifs <;> simp

theorem mapOf_ne {A K : Type} [LinearOrder K] (key : A → K) {l : List A} (h : l ≠ []) :
    Init.mapOf key l ≠ [] := by
  rw [← List.dropLast_append_getLast h, Init.mapOf, List.foldl_append]
  exact mapInsert_ne _ _ _

theorem proper_datum (sid : ℕ) (title : String) (vals : List (String × Cell))
    (h : ("SimId" :: vals.map Prod.fst).Nodup) : Proper (datum sid title vals) ("SimId" :: vals.map Prod.fst) := by
  refine ⟨by simp [datum], ?_, h⟩
  simp [datum, Function.comp_def]

/-- What the loader records can be stored. -/
theorem conform_data (sid : ℕ) (m : Weights) (precon : String) (exclusive : Bool) :
    Conform cells (commodData sid m ++
      [datum sid "SolverInfo" [("Solver", .str "greedy"), ("ExclusiveOrders", .bool exclusive)],
        datum sid "GreedySolverInfo" [("Preconditioner", .str precon)]]) := by
  have key : ∀ d ∈ commodData sid m ++
      [datum sid "SolverInfo" [("Solver", .str "greedy"), ("ExclusiveOrders", .bool exclusive)],
        datum sid "GreedySolverInfo" [("Preconditioner", .str precon)]],
      (∃ e : String × ℚ, d = datum sid "CommodPriority"
        [("Commodity", .str e.1), ("SolutionPriority", .dbl e.2)]) ∨
      d = datum sid "SolverInfo" [("Solver", .str "greedy"), ("ExclusiveOrders", .bool exclusive)] ∨
      d = datum sid "GreedySolverInfo" [("Preconditioner", .str precon)] := by
    intro d hd
    simp only [commodData, List.mem_append, List.mem_map, List.mem_cons, List.not_mem_nil, or_false] at hd
    rcases hd with ⟨e, _, rfl⟩ | rfl | rfl
    · exact Or.inl ⟨e, rfl⟩
    · exact Or.inr (Or.inl rfl)
    · exact Or.inr (Or.inr rfl)
  constructor
  · intro d hd
    rcases key d hd with ⟨e, rfl⟩ | rfl | rfl
    · exact ⟨_, proper_datum _ _ _ (by simp)⟩
    · exact ⟨_, proper_datum _ _ _ (by simp)⟩
    · exact ⟨_, proper_datum _ _ _ (by simp)⟩
  · intro d hd d' hd' ht
    rcases key d hd with ⟨e, rfl⟩ | rfl | rfl <;> rcases key d' hd' with ⟨e', rfl⟩ | rfl | rfl <;>
      first
      | exact ⟨rfl, rfl⟩
      | (exfalso; revert ht; simp [datum])

/-- Loading stops at the first row. -/
theorem readOrder_key {q : QueryResult Cell} (hr : q.rows ≠ [])
    (hrow : ∀ row ∈ q.rows, row.length = q.fields.length) (hf : "SolutionOrder" ∉ q.fields) :
    ∃ e, readOrder q q.rows.length 0 [] = some (.error e) := by
  have hpos : 0 < q.rows.length := List.length_pos_of_ne_nil hr
  obtain ⟨n, hn⟩ : ∃ n, q.rows.length = n + 1 := ⟨q.rows.length - 1, by omega⟩
  rw [hn]
  unfold readOrder
  have hnone : ∀ f, q.getVal f ((0 : ℕ) : ℤ) ≠ none := by
    intro f
    unfold QueryResult.getVal
    rw [if_neg hr, if_neg (by rintro (h | h) <;> omega)]
    cases hi : q.fields.findIdx? (· == f) with
    | none => simp
    | some j =>
      have hj := List.findIdx?_eq_some_iff_findIdx_eq.1 hi
      obtain ⟨r, hr0⟩ : ∃ r, q.rows[(((0 : ℕ) : ℤ)).toNat]? = some r :=
        ⟨q.rows[0], by simp [List.getElem?_eq_getElem hpos]⟩
      simp only [hr0]
      have hl := hrow r (List.mem_of_getElem? hr0)
      rw [List.getElem?_eq_getElem (by omega)]
      simp
  have hkey : q.getVal "SolutionOrder" ((0 : ℕ) : ℤ) = some (.error .key) := by
    unfold QueryResult.getVal
    rw [if_neg hr, if_neg (by rintro (h | h) <;> omega)]
    have : q.fields.findIdx? (· == "SolutionOrder") = none := by
      rw [List.findIdx?_eq_none_iff]
      intro x hx
      simpa using fun h : x = "SolutionOrder" => hf (h ▸ hx)
    simp only [this]
  cases h1 : getStr q "Commodity" 0 with
  | none => exact absurd h1 (by unfold getStr; simpa using hnone "Commodity")
  | some r =>
    cases r with
    | error e => exact ⟨e, rfl⟩
    | ok c =>
      refine ⟨.key, ?_⟩
      simp only [getDbl, hkey, Option.map_some]

theorem loadPreconditioner_null {b : Queryable Cell} {q : QueryResult Cell} (name : String)
    (hb : b.query "CommodPriority" none = .ok q) (hr : q.rows ≠ [])
    (hrow : ∀ row ∈ q.rows, row.length = q.fields.length) (hf : "SolutionOrder" ∉ q.fields) :
    loadPreconditioner b name = some (.ok none) := by
  obtain ⟨e, he⟩ := readOrder_key hr hrow hf
  simp only [loadPreconditioner, hb, he]

/-- **C34** fails, for every input file: whatever priorities it gives, the solver is made without
weights, because `LoadPreconditioner` looks for a column that the loader does not write, and the
exception is taken to mean that there is no table. -/
theorem C34_fails {l : List (String × Option ℚ)} (hl : l ≠ []) (sid : ℕ) (exclusive : Bool) :
    ∃ data q, loadSolver sid l "greedy" exclusive = some data ∧
      Rec.Sqlite.empty.notify cells data = some (.ok q) ∧
      loadGreedySolver (simBackend q sid) ["CommodPriority", "SolverInfo", "GreedySolverInfo"] =
        some (.ok []) := by
  have hm : readCommods l ≠ [] := mapOf_ne _ (by simpa using hl)
  obtain ⟨c, -, -, hpc⟩ := C35_partial hm
  generalize hM : (readCommods l).map (fun e => (e.1, if 1 ≤ e.2 then e.2 else c)) = M at hpc
  have hMne : M ≠ [] := by rw [← hM]; simpa using hm
  obtain ⟨q, hq, hquery, -⟩ := Rec.C30_sqlite_partial cells (conform_data sid M "greedy" exclusive)
  refine ⟨_, q, by rw [loadSolver, hpc]; rfl, hq, ?_⟩
  -- the name of the preconditioner
  have hG := (hquery (datum sid "GreedySolverInfo" [("Preconditioner", .str "greedy")]) (by simp)
    _ (proper_datum _ _ _ (by simp)) (some [⟨"SimId", .eq, .uuid sid⟩]) (by simp)).1 (by simp)
  -- the priorities
  obtain ⟨e, es, rfl⟩ := List.exists_cons_of_ne_nil hMne
  have hP := (hquery (datum sid "CommodPriority"
      [("Commodity", .str e.1), ("SolutionPriority", .dbl e.2)]) (by simp [commodData])
    _ (proper_datum _ _ _ (by simp)) (some [⟨"SimId", .eq, .uuid sid⟩]) (by simp)).1 (by simp)
  have hpre : loadPreconditioner (simBackend q sid) "greedy" = some (.ok none) := by
    refine loadPreconditioner_null "greedy" (b := simBackend q sid) hP ?_ ?_ ?_
    · apply List.ne_nil_of_mem (a := [.uuid sid, .str e.1, .dbl e.2])
      unfold Rec.selected
      rw [List.mem_filter]
      refine ⟨?_, ?_⟩
      · rw [List.mem_map]
        refine ⟨datum sid "CommodPriority" [("Commodity", .str e.1), ("SolutionPriority", .dbl e.2)], ?_, rfl⟩
        rw [List.mem_filter]
        exact ⟨by simp [commodData], by simp [datum]⟩
      · simp [Rec.satisfies, cells]
    · intro row hrow
      have := (List.mem_filter.1 hrow).1
      rw [List.mem_map] at this
      obtain ⟨d, hd, rfl⟩ := this
      rw [List.mem_filter] at hd
      obtain ⟨hd1, hd2⟩ := hd
      simp only [commodData, List.mem_append, List.mem_map, List.mem_cons, List.not_mem_nil, or_false] at hd1
      rcases hd1 with ⟨e', _, rfl⟩ | rfl | rfl
      · simp [datum]
      · simp [datum] at hd2
      · simp [datum] at hd2
    · simp
  unfold loadGreedySolver
  have hb : (simBackend q sid).query "GreedySolverInfo" none =
      q.query cells "GreedySolverInfo" (some [⟨"SimId", .eq, .uuid sid⟩]) := rfl
  rw [hb]
  change q.query cells "GreedySolverInfo" _ = _ at hG
  rw [hG]
  have hrows : Rec.selected cells ("SimId" :: ([("Preconditioner", Cell.str "greedy")] : List (String × Cell)).map Prod.fst)
      (((commodData sid (e :: es) ++
        [datum sid "SolverInfo" [("Solver", .str "greedy"), ("ExclusiveOrders", .bool exclusive)],
          datum sid "GreedySolverInfo" [("Preconditioner", .str "greedy")]]).filter
        fun d' => d'.title = (datum sid "GreedySolverInfo" [("Preconditioner", .str "greedy")]).title).map
          fun d' => d'.vals.map Prod.snd) (some [⟨"SimId", .eq, .uuid sid⟩]) =
        [[.uuid sid, .str "greedy"]] := by
    have h0 : (commodData sid (e :: es)).filter (fun d' => decide (d'.title =
        (datum sid "GreedySolverInfo" [("Preconditioner", .str "greedy")]).title)) = [] := by
      rw [List.filter_eq_nil_iff]
      intro d hd
      obtain ⟨e', _, rfl⟩ := List.mem_map.1 hd
      simp [datum]
    rw [List.filter_append, h0]
    simp [datum, Rec.selected, Rec.satisfies, cells]
  rw [hrows]
  simp only [List.mem_cons, List.length_cons, List.length_nil]
  have hname : getStr ⟨"SimId" :: ([("Preconditioner", Cell.str "greedy")] : List (String × Cell)).map Prod.fst,
      (datum sid "GreedySolverInfo" [("Preconditioner", .str "greedy")]).vals.map (fun v => cells.ty v.2),
      [[.uuid sid, .str "greedy"]]⟩ "Preconditioner" 0 = some (.ok "greedy") := rfl
  rw [hname]
  simp [hpre, Except.map]

/-- A file with two commodities. -/
example : (loadSolver 3 [("spam", some 2), ("eggs", none)] "greedy" true).map (fun l => l.map Datum.title) =
    some ["CommodPriority", "CommodPriority", "SolverInfo", "GreedySolverInfo"] := by decide +kernel

theorem readOrder_rows {ty : List ℕ} {sid : ℕ} {rows : Weights} (n : ℕ) : ∀ (i : ℕ) (w : Weights),
    i + n = rows.length →
    readOrder ⟨["SimId", "Commodity", "SolutionOrder"], ty,
      rows.map fun e => [.uuid sid, .str e.1, .dbl e.2]⟩ n i w =
      some (.ok ((rows.drop i).foldl (fun m x => Init.mapInsert Prod.fst x m) w)) := by
  induction n with
  | zero => intro i w h; rw [List.drop_eq_nil_of_le (by omega)]; rfl
  | succ n ih =>
    intro i w h
    have hi : i < rows.length := by omega
    have hne : rows.map (fun e : String × ℚ => [Cell.uuid sid, .str e.1, .dbl e.2]) ≠ [] := by
      intro hc
      have := congrArg List.length hc
      simp at this
      rw [this] at hi; simp at hi
    have hget : ∀ f, QueryResult.getVal ⟨["SimId", "Commodity", "SolutionOrder"], ty,
        rows.map fun e : String × ℚ => [Cell.uuid sid, .str e.1, .dbl e.2]⟩ f (i : ℤ) =
        match ["SimId", "Commodity", "SolutionOrder"].findIdx? (· == f) with
        | none => some (.error .key)
        | some j => ([Cell.uuid sid, .str rows[i].1, .dbl rows[i].2][j]?).map .ok := by
      intro f
      unfold QueryResult.getVal
      rw [if_neg hne, if_neg (by simp only [List.length_map]; omega)]
      have hr : (rows.map fun e : String × ℚ => [Cell.uuid sid, .str e.1, .dbl e.2])[(i : ℤ).toNat]? =
          some [Cell.uuid sid, .str rows[i].1, .dbl rows[i].2] := by
        simp [List.getElem?_eq_getElem hi]
      simp only [hr]
      rfl
    have h1 : QueryResult.getVal ⟨["SimId", "Commodity", "SolutionOrder"], ty,
        rows.map fun e : String × ℚ => [Cell.uuid sid, .str e.1, .dbl e.2]⟩ "Commodity" (i : ℤ) =
        some (.ok (.str rows[i].1)) := by rw [hget]; rfl
    have h2 : QueryResult.getVal ⟨["SimId", "Commodity", "SolutionOrder"], ty,
        rows.map fun e : String × ℚ => [Cell.uuid sid, .str e.1, .dbl e.2]⟩ "SolutionOrder" (i : ℤ) =
        some (.ok (.dbl rows[i].2)) := by rw [hget]; rfl
    simp only [readOrder, getStr, getDbl, h1, h2, Option.map_some]
    rw [ih (i + 1) _ (by omega), List.drop_eq_getElem_cons hi]
    rfl

theorem lookup_mem {w : Weights} (hn : (w.map Prod.fst).Nodup) {e : String × ℚ} (he : e ∈ w) :
    w.lookup e.1 = some e.2 := by
  induction w with
  | nil => cases he
  | cons x xs ih =>
    obtain ⟨k, v⟩ := x
    simp only [List.map_cons, List.nodup_cons] at hn
    rcases List.mem_cons.1 he with rfl | he
    · simp [List.lookup]
    · have : (e.1 == k) = false := by
        simp only [beq_eq_false_iff_ne, ne_eq]
        intro hk
        exact hn.1 (hk ▸ List.mem_map_of_mem he)
      simp only [List.lookup, this]
      exact ih hn.2 he

/-- **C34** for a table that has the column `SolutionOrder`: the preconditioner has a positive weight for
each commodity, and a commodity has the larger weight iff it has the smaller number, so those with small
numbers come first. -/
theorem C34_partial {b : Queryable Cell} {sid : ℕ} {ty : List ℕ} {rows : Weights} (hne : rows ≠ [])
    (hn : (rows.map Prod.fst).Nodup) (hpos : ∀ e ∈ rows, 0 < e.2)
    (hb : b.query "CommodPriority" none = .ok ⟨["SimId", "Commodity", "SolutionOrder"], ty,
      rows.map fun e => [.uuid sid, .str e.1, .dbl e.2]⟩) :
    ∃ w, loadPreconditioner b "greedy" = some (.ok (some w)) ∧
      (∀ e ∈ rows, 0 < Exchange.Spec.commodWeight w e.1) ∧
      ∀ e ∈ rows, ∀ e' ∈ rows, Exchange.Spec.commodWeight w e'.1 < Exchange.Spec.commodWeight w e.1 ↔
        e.2 < e'.2 := by
  have hperm : (Init.mapOf Prod.fst rows).Perm rows := Init.mapOf_perm hn
  have hM : Init.mapOf Prod.fst rows ≠ [] := mapOf_ne _ hne
  generalize hm : Init.mapOf Prod.fst rows = M at hperm hM
  obtain ⟨x, xs, hx⟩ : ∃ x xs, M.map Prod.snd = x :: xs := by
    cases M with
    | nil => exact absurd rfl hM
    | cons y ys => exact ⟨_, _, rfl⟩
  obtain ⟨a1, a2⟩ := Exchange.foldl_min_mem x xs
  obtain ⟨b1, b2⟩ := Exchange.foldl_max_mem x xs
  rw [← hx] at a1 a2 b1 b2
  generalize xs.foldl (fun b y => if y < b then y else b) x = lo at a1 a2
  generalize xs.foldl (fun b y => if b < y then y else b) x = hi at b1 b2
  have hmin : ∀ e ∈ M, lo ≤ e.2 := fun e he => a2 _ (List.mem_map_of_mem he)
  have hmax : ∀ e ∈ M, e.2 ≤ hi := fun e he => b2 _ (List.mem_map_of_mem he)
  have hlo : 0 < lo := by
    obtain ⟨e, he, rfl⟩ := List.mem_map.1 a1
    exact hpos e (hperm.mem_iff.1 he)
  have hpw := ((Exchange.C16_reverse M lo hi a1 b1 hmin hmax).1 (le_of_lt hlo)).1
  refine ⟨M.map fun e => (e.1, hi + lo - e.2), ?_, ?_⟩
  · unfold loadPreconditioner
    rw [hb]
    dsimp only
    rw [List.length_map, readOrder_rows rows.length 0 [] (by omega)]
    have : (rows.drop 0).foldl (fun m x => Init.mapInsert Prod.fst x m) [] = M := hm
    simp only [this, if_true, hpw, Option.map_some]
  · have hw : ∀ e ∈ rows, Exchange.Spec.commodWeight (M.map fun e => (e.1, hi + lo - e.2)) e.1 =
        hi + lo - e.2 := by
      intro e he
      have hmem : (e.1, hi + lo - e.2) ∈ M.map fun e : String × ℚ => (e.1, hi + lo - e.2) :=
        List.mem_map_of_mem (hperm.mem_iff.2 he)
      have hnd : ((M.map fun e : String × ℚ => (e.1, hi + lo - e.2)).map Prod.fst).Nodup := by
        rw [List.map_map]
        exact ((hperm.map Prod.fst).nodup_iff).2 hn
      have hl := lookup_mem hnd hmem
      have hf := Exchange.lookup_find (M.map fun e => (e.1, hi + lo - e.2)) e.1
      rw [hl] at hf
      unfold Exchange.Spec.commodWeight
      rw [if_neg (by simpa using hM), ← hf]
      rfl
    refine ⟨?_, ?_⟩
    · intro e he
      rw [hw e he]
      have := hmax e (hperm.mem_iff.2 he)
      linarith
    · intro e he e' he'
      rw [hw e he, hw e' he']
      constructor <;> intro h <;> linarith

/-- The weights make a difference: with priorities 1 for eggs and 5 for spam the requests for eggs should
be met first, without weights those for spam are. -/
theorem C34_fails_order : processWeights true [("eggs", 1), ("spam", 5)] = some [("eggs", 5), ("spam", 1)] ∧
    ((Exchange.condition [("eggs", 5), ("spam", 1)] Exchange.exGraph16).group 0).nodes = [0, 1] ∧
    ((Exchange.condition [] Exchange.exGraph16).group 0).nodes = [1, 0] ∧
    (Exchange.exGraph16.node 0).commod = "eggs" ∧ (Exchange.exGraph16.node 1).commod = "spam" := by
  decide +kernel

/-! ## C36 -/

/-- A string without colons. -/
def NoColon (s : List Char) : Prop := ':' ∉ s

theorem split_ne (c : Char) (s : List Char) : split c s ≠ [] := by
  cases s with
  | nil => simp [split]
  | cons x xs =>
    unfold split
    split_ifs
    · simp
    · split <;> simp

theorem split_none {c : Char} {s : List Char} (h : c ∉ s) : split c s = [s] := by
  induction s with
  | nil => rfl
  | cons x xs ih =>
    simp only [List.mem_cons, not_or] at h
    simp only [split, ih h.2, if_neg (Ne.symm h.1)]

theorem split_append {c : Char} {s : List Char} (h : c ∉ s) (t : List Char) :
    split c (s ++ c :: t) = s :: split c t := by
  induction s with
  | nil => simp [split]
  | cons x xs ih =>
    simp only [List.mem_cons, not_or] at h
    rw [List.cons_append]
    simp only [split, ih h.2, if_neg (Ne.symm h.1)]

theorem split_length (c : Char) (s : List Char) : (split c s).length = s.count c + 1 := by
  induction s with
  | nil => rfl
  | cons x xs ih =>
    simp only [split]
    split_ifs with h
    · subst h; simp [ih]
    · cases hs : split c xs with
      | nil => exact absurd hs (split_ne c xs)
      | cons p ps =>
        rw [hs] at ih
        simpa [List.count_cons, h] using ih

/-- The pieces have no separator, and joined by it give the string. -/
theorem split_pieces (c : Char) (s : List Char) :
    (∀ p ∈ split c s, c ∉ p) ∧ [c].intercalate (split c s) = s := by
  induction s with
  | nil => exact ⟨by simp [split], rfl⟩
  | cons x xs ih =>
    obtain ⟨h1, h2⟩ := ih
    cases hs : split c xs with
    | nil => exact absurd hs (split_ne c xs)
    | cons p ps =>
      simp only [split, hs]
      rw [hs] at h1 h2
      split_ifs with h
      · refine ⟨by simpa using h1, ?_⟩
        rw [List.intercalate_cons_cons, h2, h]
        rfl
      · refine ⟨?_, ?_⟩
        · intro q hq
          rcases List.mem_cons.1 hq with rfl | hq
          · simp only [List.mem_cons, not_or]
            exact ⟨Ne.symm h, h1 p List.mem_cons_self⟩
          · exact h1 q (List.mem_cons_of_mem _ hq)
        · cases ps with
          | nil => simp at h2 ⊢; exact h2
          | cons q qs =>
            rw [List.intercalate_cons_cons] at h2 ⊢
            rw [← h2]
            simp

/-- **C36**, printing and parsing: a spec whose fields have no colon is read back from its string, with
the name of the agent as alias. -/
theorem C36_roundtrip {s : Spec} (hp : NoColon s.path) (hl : NoColon s.lib) (ha : NoColon s.agent) :
    Spec.parse s.str = .ok { s with nick := s.agent } := by
  have : split ':' s.str = [s.path, s.lib, s.agent] := by
    rw [Spec.str, List.append_assoc, List.append_assoc, List.append_assoc, List.singleton_append,
      split_append hp, List.singleton_append, split_append hl, split_none ha]
  simp only [Spec.parse, this]

/-- **C36**, parsing and printing: a string that is accepted is printed again, its fields have no colon,
and the alias is the name of the agent. -/
theorem C36_str {s : List Char} {sp : Spec} (h : Spec.parse s = .ok sp) :
    sp.str = s ∧ NoColon sp.path ∧ NoColon sp.lib ∧ NoColon sp.agent ∧ sp.nick = sp.agent := by
  unfold Spec.parse at h
  split at h
  · rename_i p l a hs
    injection h with h
    subst h
    obtain ⟨h1, h2⟩ := split_pieces ':' s
    rw [hs] at h1 h2
    refine ⟨?_, h1 p (by simp), h1 l (by simp), h1 a (by simp), rfl⟩
    rw [← h2]
    simp [Spec.str, List.intercalate]
  · cases h

/-- **C36**, rejection: exactly the strings with two colons are accepted, the others are a
`ValueError`. -/
theorem C36_rejects (s : List Char) :
    ((∃ sp, Spec.parse s = .ok sp) ↔ s.count ':' = 2) ∧
    (s.count ':' ≠ 2 → Spec.parse s = .error .value) := by
  have hlen := split_length ':' s
  have key : s.count ':' = 2 ↔ ∃ sp, Spec.parse s = .ok sp := by
    constructor
    · intro h
      rw [h] at hlen
      obtain ⟨p, l, a, hs⟩ := List.length_eq_three.1 hlen
      exact ⟨⟨p, l, a, a⟩, by simp only [Spec.parse, hs]⟩
    · rintro ⟨sp, h⟩
      unfold Spec.parse at h
      split at h
      · rename_i p l a hs
        rw [hs] at hlen
        simp at hlen
        omega
      · cases h
  refine ⟨key.symm, fun hne => ?_⟩
  unfold Spec.parse
  split
  · rename_i p l a hs
    rw [hs] at hlen
    simp at hlen
    omega
  · rfl

example : NoColon "my/path".toList ∧ Spec.parse "my/path:mylib:Agent".toList =
    .ok ⟨"my/path".toList, "mylib".toList, "Agent".toList, "Agent".toList⟩ ∧
    Spec.parse "a:b".toList = .error .value ∧ Spec.parse "::A".toList = .ok ⟨[], [], ['A'], ['A']⟩ := by
  unfold NoColon
  refine ⟨by decide, rfl, rfl, rfl⟩

/-- **C36**, elements of the input file: library and alias default to the name of the agent, the path to
the empty string. -/
theorem C36_read (name : List Char) (lib path nick : Option (List Char)) :
    ∃ sp, Spec.read (some name) lib path nick = .ok sp ∧ sp.agent = name ∧
      (lib = none → sp.lib = name) ∧ (nick = none → sp.nick = name) ∧ (path = none → sp.path = []) ∧
      (∀ x, lib = some x → sp.lib = x) ∧ (∀ x, nick = some x → sp.nick = x) ∧
      ∀ x, path = some x → sp.path = x := by
  refine ⟨_, rfl, rfl, ?_, ?_, ?_, ?_, ?_, ?_⟩ <;> simp +contextual

/-- **C36** fails: the alias of the constructor with four arguments does not default to the name of the
agent; it stays empty (the library does default). -/
theorem C36_fails_alias (path lib agent : List Char) (h : agent ≠ []) :
    (Spec.make path lib agent []).nick = [] ∧ (Spec.make path lib agent []).nick ≠ agent ∧
    (Spec.make path [] agent []).lib = agent := ⟨rfl, Ne.symm h, rfl⟩

/-- **C36** fails: the alias is not part of the string, so a spec with another alias is not read back. -/
theorem C36_fails_roundtrip {s : Spec} (hp : NoColon s.path) (hl : NoColon s.lib) (ha : NoColon s.agent)
    (h : s.nick ≠ s.agent) : Spec.parse s.str ≠ .ok s := by
  rw [C36_roundtrip hp hl ha]
  intro hc
  injection hc with hc
  exact h (congrArg Spec.nick hc).symm

/-- **C36** fails: distinct specs share a table name. -/
theorem C36_fails_sanitize : ∃ a b : Spec, a.str ≠ b.str ∧ NoColon a.path ∧ NoColon a.lib ∧
    NoColon a.agent ∧ NoColon b.path ∧ NoColon b.lib ∧ NoColon b.agent ∧ a.sanitize = b.sanitize := by
  refine ⟨⟨[], "my_lib".toList, "Fac".toList, "Fac".toList⟩, ⟨[], "my".toList, "lib_Fac".toList,
    "lib_Fac".toList⟩, ?_⟩
  unfold NoColon
  decide +kernel

/-- A character that `Sanitize` neither replaces nor puts in. -/
def Plain (c : Char) : Prop := c ≠ '/' ∧ c ≠ '-' ∧ c ≠ ':' ∧ c ≠ '.' ∧ c ≠ '_'

theorem sanitize_eq (s : Spec) : s.sanitize = s.str.map fun c =>
    if c = '/' ∨ c = '-' ∨ c = ':' ∨ c = '.' then '_' else c := by
  simp only [Spec.sanitize, replaceAll, List.map_map]
  apply List.map_congr_left
  intro c _
  simp only [Function.comp_apply]
  by_cases h1 : c = '/'
  · subst h1; decide
  by_cases h2 : c = '-'
  · subst h2; decide
  by_cases h3 : c = ':'
  · subst h3; decide
  by_cases h4 : c = '.'
  · subst h4; decide
  simp [h1, h2, h3, h4]

/-- **C36**, table names: specs whose fields consist of characters other than `/ - : . _` have distinct
table names. -/
theorem C36_sanitize_partial {a b : Spec}
    (ha : ∀ c, c ∈ a.path ∨ c ∈ a.lib ∨ c ∈ a.agent → Plain c)
    (hb : ∀ c, c ∈ b.path ∨ c ∈ b.lib ∨ c ∈ b.agent → Plain c) (h : a.sanitize = b.sanitize) :
    a.path = b.path ∧ a.lib = b.lib ∧ a.agent = b.agent := by
  have key : ∀ s : Spec, (∀ c, c ∈ s.path ∨ c ∈ s.lib ∨ c ∈ s.agent → Plain c) →
      split '_' s.sanitize = [s.path, s.lib, s.agent] := by
    intro s hs
    have hid : ∀ l : List Char, (∀ c ∈ l, Plain c) → (l.map fun c =>
        if c = '/' ∨ c = '-' ∨ c = ':' ∨ c = '.' then '_' else c) = l := by
      intro l hl
      conv_rhs => rw [← List.map_id l]
      apply List.map_congr_left
      intro c hc
      obtain ⟨h1, h2, h3, h4, _⟩ := hl c hc
      simp [h1, h2, h3, h4]
    have hno : ∀ l : List Char, (∀ c ∈ l, Plain c) → '_' ∉ l := fun l hl hm => (hl _ hm).2.2.2.2 rfl
    have p1 : ∀ c ∈ s.path, Plain c := fun c hc => hs c (Or.inl hc)
    have p2 : ∀ c ∈ s.lib, Plain c := fun c hc => hs c (Or.inr (Or.inl hc))
    have p3 : ∀ c ∈ s.agent, Plain c := fun c hc => hs c (Or.inr (Or.inr hc))
    rw [sanitize_eq, Spec.str]
    simp only [List.map_append, hid _ p1, hid _ p2, hid _ p3]
    have e : ([':'].map fun c => if c = '/' ∨ c = '-' ∨ c = ':' ∨ c = '.' then '_' else c) = ['_'] := by
      decide
    rw [e, List.append_assoc, List.append_assoc, List.append_assoc, List.singleton_append,
      split_append (hno _ p1), List.singleton_append, split_append (hno _ p2), split_none (hno _ p3)]
  have := (key a ha).symm.trans ((congrArg _ h).trans (key b hb))
  injection this with e1 this
  injection this with e2 this
  injection this with e3 _
  exact ⟨e1, e2, e3⟩

example : ∀ c, c ∈ "path".toList ∨ c ∈ "Lib2".toList ∨ c ∈ "Agent".toList → Plain c := by
  intro c hc
  unfold Plain
  have : c ∈ "path".toList ++ "Lib2".toList ++ "Agent".toList := by
    simp only [List.mem_append]; tauto
  revert this
  have : ∀ c ∈ "path".toList ++ "Lib2".toList ++ "Agent".toList,
      c ≠ '/' ∧ c ≠ '-' ∧ c ≠ ':' ∧ c ≠ '.' ∧ c ≠ '_' := by decide
  exact this c

end Cyclus.Load
