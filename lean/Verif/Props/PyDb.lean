import Verif.Lemmas.PyDb

/-!
# C130: data recorded and queried from Python
-/

namespace Cyclus.PyDb.Props

open Cyclus.PyDb Spec
open InfileGen (Str Ty PyVal Val)

/-- A call of `add_val` with a text of one byte as the name. -/
def demoA : Add := ⟨.str ['a'], .int 7, none, .known (.prim .int)⟩
/-- One with a longer name. -/
def demoB : Add := ⟨.str ['c', 'o', 'l'], .float (1 / 2), some [3], .known (.prim .double)⟩
/-- One with a longer name that the caller keeps. -/
def demoC : Add := ⟨.bytes ['k', 'e', 'y'], .list [.int 1, .int 2], none, .known (.seq .vector (.prim .int))⟩
/-- One with a value that is not of the type. -/
def demoD : Add := ⟨.str ['b', 'a', 'd'], .str ['x'], none, .known (.prim .int)⟩

theorem demoA_says : Says demoA ⟨true, ['a'], .prim .int, .int 7, []⟩ :=
  .str (s := ['a']) (sh := none) rfl (fun l hl => by cases hl)

theorem demoB_says : Says demoB ⟨false, ['c', 'o', 'l'], .prim .double, .dbl (1 / 2), [3]⟩ :=
  .str (s := ['c', 'o', 'l']) (sh := some [3]) rfl
    (fun l hl z hz => by cases hl; rw [List.mem_singleton] at hz; subst hz; norm_num)

theorem demoC_says : Says demoC ⟨true, ['k', 'e', 'y'], .seq .vector (.prim .int), .seq [.int 1, .int 2], []⟩ :=
  .bytes (s := ['k', 'e', 'y']) (sh := none) (by simp only [PyInfile.toCpp]; rfl) (fun l hl => by cases hl)

theorem demoD_says (p : Put) : ¬ Says demoD p := by
  intro h
  cases h with
  | str h _ => cases h

/-- **C130.**  What the backends get of a program that records data from Python, for every size of the buffer: exactly
what the rules of the buffer say, and nothing of it is lost or comes twice. -/
theorem C130_record (sim : Option Val) (n : ℕ) (as : List Act) (r : Option (List Row)) :
    Gets n (simCells sim) [] as r ↔ (run (baseOf sim) (start n) as).map St.got = r := by
  have key : ∀ r, Gets n (simCells sim) [] as r → (run (baseOf sim) (start n) as).map St.got = r := by
    intro r h
    rw [← base_cells] at h
    rw [run_spec (base_static sim) h (start_rel _ n)]
    cases r <;> simp [start]
  refine ⟨key r, fun h => ?_⟩
  obtain ⟨r', h'⟩ := gets_total n (simCells sim) as []
  rw [← h, key r' h']
  exact h'

/-- Three data in a buffer of two: the second is passed on while it is recorded. -/
example : ∃ rows, Gets 2 [] [] [.datum ['T'] [demoA, demoB], .datum ['T'] [demoA, demoB], .datum ['U'] [demoC], .flush]
    (some rows) ∧ rows.map (fun r => r.cells.map Cell.name) =
      [[some ['a'], none], [some ['a'], some ['c', 'o', 'l']], [some ['k', 'e', 'y']]] :=
  ⟨_, .wait (.cons demoA_says (.cons demoB_says .nil)) (by decide)
    (.full (.cons demoA_says (.cons demoB_says .nil)) (by decide)
      (.wait (.cons demoC_says .nil) (by decide) (.flush .done))), rfl⟩

/-- Without failures, all the data come in order, each once, with the names (as strings), types, values and shapes that were
given.  The names as pointers are right, or can no longer be read. -/
theorem C130_data (sim : Option Val) (n : ℕ) (hn : 0 < n) (as : List Act) (ds : List (Str × List Put))
    (h : Data as ds) : ∃ s, run (baseOf sim) (start n) (as ++ [.flush]) = some s ∧
      List.Forall₂ (fun r d => r = row (simCells sim) true d ∨ r = row (simCells sim) false d) s.got ds := by
  obtain ⟨rows, hg, hF⟩ := data_gets hn (simCells sim) h (w := []) hn
  have := (C130_record sim n _ _).1 hg
  cases hr : run (baseOf sim) (start n) (as ++ [.flush]) with
  | none => rw [hr] at this; cases this
  | some s =>
    rw [hr] at this
    simp only [Option.map_some, Option.some.injEq] at this
    exact ⟨s, rfl, by rw [this]; exact hF⟩

/-- So the titles, the names that `fields` gives (which the backend in memory reads), the types, values and shapes are
always those given. -/
theorem C130_fields (sim : Option Val) (n : ℕ) (hn : 0 < n) (as : List Act) (ds : List (Str × List Put))
    (h : Data as ds) : ∃ s, run (baseOf sim) (start n) (as ++ [.flush]) = some s ∧
      s.got.map (fun r => (r.title, r.cells.map fun c => (c.field, c.ty, c.val, c.shape))) =
        ds.map fun d => (d.1, ((simCells sim).map fun c => (c.field, c.ty, c.val, c.shape)) ++
          d.2.map fun p => (p.name, p.ty, p.val, p.shape)) := by
  obtain ⟨s, hs, hF⟩ := C130_data sim n hn as ds h
  refine ⟨s, hs, forall₂_map ?_ hF⟩
  rintro r d (rfl | rfl) <;> simp [row, cell, Function.comp_def]

example : Data [.datum ['T'] [demoA, demoB], .flush, .datum ['U'] [demoC]]
    [(['T'], [⟨true, ['a'], .prim .int, .int 7, []⟩, ⟨false, ['c', 'o', 'l'], .prim .double, .dbl (1 / 2), [3]⟩]),
      (['U'], [⟨true, ['k', 'e', 'y'], .seq .vector (.prim .int), .seq [.int 1, .int 2], []⟩])] :=
  .datum (.cons demoA_says (.cons demoB_says .nil)) (.flush (.datum (.cons demoC_says .nil) .nil))

/-- The full statement would be that all the rows have all their names.  They do when the names last: they are bytes
objects that the caller keeps, or no longer than a byte. -/
theorem C130_lasting_partial (sim : Option Val) (n : ℕ) (hn : 0 < n) (as : List Act) (ds : List (Str × List Put))
    (h : Data as ds) (hl : ∀ d ∈ ds, ∀ p ∈ d.2, p.lasting = true) :
    ∃ s, run (baseOf sim) (start n) (as ++ [.flush]) = some s ∧ s.got = ds.map (row (simCells sim) true) := by
  obtain ⟨s, hs, hF⟩ := C130_data sim n hn as ds h
  refine ⟨s, hs, ?_⟩
  have hrow : ∀ d : Str × List Put, (∀ p ∈ d.2, p.lasting = true) →
      row (simCells sim) false d = row (simCells sim) true d := by
    intro d hd
    unfold row
    congr 2
    refine List.map_congr_left fun p hp => ?_
    simp [cell, hd p hp]
  clear hs h
  generalize s.got = g at hF ⊢
  induction hF with
  | nil => rfl
  | @cons r d rs ds h1 _ ih =>
    rw [List.map_cons, ih fun d hd => hl d (List.mem_cons_of_mem _ hd)]
    rcases h1 with rfl | rfl
    · rfl
    · rw [hrow d (hl d List.mem_cons_self)]

example : Data [.datum ['T'] [demoA, demoC]]
    [(['T'], [⟨true, ['a'], .prim .int, .int 7, []⟩,
      ⟨true, ['k', 'e', 'y'], .seq .vector (.prim .int), .seq [.int 1, .int 2], []⟩])] :=
  .datum (.cons demoA_says (.cons demoC_says .nil)) .nil

/-- They also do when the buffer has room for one datum. -/
theorem C130_single_partial (sim : Option Val) (as : List Act) (ds : List (Str × List Put)) (h : Data as ds) :
    ∃ s, run (baseOf sim) (start 1) as = some s ∧ s.got = ds.map (row (simCells sim) true) := by
  have hg : Gets 1 (simCells sim) [] as (some (ds.map (row (simCells sim) true))) := by
    induction h with
    | nil => exact .done
    | flush _ ih => exact .flush ih
    | datum ha _ ih => exact .full (w := []) ha rfl ih
  have := (C130_record sim 1 _ _).1 hg
  cases hr : run (baseOf sim) (start 1) as with
  | none => rw [hr] at this; cases this
  | some s =>
    rw [hr] at this
    simp only [Option.map_some, Option.some.injEq] at this
    exact ⟨s, rfl, this⟩

/-- Otherwise a name that does not last is read after it was freed: by the time of the flush the Python object for the datum
has let go of it. -/
theorem C130_fails_names (sim : Option Val) (n : ℕ) (hn : 2 ≤ n) (t : Str) (adds : List Add) (ps : List Put)
    (h : AllSay adds ps true) (p : Put) (hp : p ∈ ps) (hl : p.lasting = false) :
    ∃ s r, run (baseOf sim) (start n) [.datum t adds, .flush] = some s ∧ s.got = [r] ∧
      ⟨none, p.name, p.ty, p.val, p.shape⟩ ∈ r.cells := by
  have hg : Gets n (simCells sim) [] [.datum t adds, .flush] (some ([row (simCells sim) false (t, ps)] ++ [])) :=
    .wait h (by simp only [List.length_nil]; omega) (.flush .done)
  have := (C130_record sim n _ _).1 hg
  cases hr : run (baseOf sim) (start n) [.datum t adds, .flush] with
  | none => rw [hr] at this; cases this
  | some s =>
    rw [hr] at this
    simp only [Option.map_some, Option.some.injEq] at this
    refine ⟨s, _, rfl, this, ?_⟩
    rw [row, List.mem_append]
    right
    exact List.mem_map.2 ⟨p, hp, by simp [cell, hl]⟩

/-- The name "col". -/
example : AllSay [demoA, demoB] [⟨true, ['a'], .prim .int, .int 7, []⟩,
    ⟨false, ['c', 'o', 'l'], .prim .double, .dbl (1 / 2), [3]⟩] true := .cons demoA_says (.cons demoB_says .nil)

/-- A datum whose construction ended with an exception is passed on nevertheless, with the values it had got. -/
theorem C130_fails_half (sim : Option Val) (n : ℕ) (hn : 1 ≤ n) (t : Str) (adds : List Add) (ps : List Put)
    (h : AllSay adds ps false) : ∃ s, run (baseOf sim) (start n) [.datum t adds, .flush] = some s ∧
      s.got = [row (simCells sim) false (t, ps)] := by
  have hg : Gets n (simCells sim) [] [.datum t adds, .flush] (some ([row (simCells sim) false (t, ps)] ++ [])) :=
    .broken h (by simpa using hn) (.flush .done)
  have := (C130_record sim n _ _).1 hg
  cases hr : run (baseOf sim) (start n) [.datum t adds, .flush] with
  | none => rw [hr] at this; cases this
  | some s =>
    rw [hr] at this
    simp only [Option.map_some, Option.some.injEq] at this
    exact ⟨s, rfl, this⟩

example : AllSay [demoA, demoD] [⟨true, ['a'], .prim .int, .int 7, []⟩] false :=
  .cons demoA_says (.stop demoD_says)

/-- When exceptions have filled the buffer, the next datum is taken from beyond its end. -/
theorem C130_fails_full (sim : Option Val) (n : ℕ) (t t' : Str) (adds adds' : List Add) (ps : List Put)
    (h : AllSay adds ps false) :
    run (baseOf sim) (start n) (List.replicate n (.datum t adds) ++ [.datum t' adds']) = none := by
  have hg : ∀ k w, w.length + k = n → Gets n (simCells sim) w
      (List.replicate k (.datum t adds) ++ [.datum t' adds']) none := by
    intro k
    induction k with
    | zero => intro w hw; exact .beyond (by omega)
    | succ k ih =>
      intro w hw
      rw [List.replicate_succ, List.cons_append]
      exact .broken h (by omega) (ih _ (by simp; omega))
  have := (C130_record sim n _ _).1 (hg n [] (by simp))
  simpa using this

/-- Making a datum raises an exception exactly when one of its calls says nothing. -/
theorem C130_raises (sim : Option Val) (n : ℕ) (as : List Act) (s s' : St) (t : Str) (adds : List Add) (x : Option Exc)
    (h : run (baseOf sim) (start n) as = some s) (hd : datum (baseOf sim) s t adds = some (s', x)) :
    x = none ↔ ∃ ps, AllSay adds ps true := by
  obtain ⟨w, hw⟩ := run_rel (base_static sim) (start_rel _ n) h
  have hlt : w.length < n := by
    unfold datum at hd
    split at hd
    · rename_i hlt
      rwa [hw.index, hw.len] at hlt
    · cases hd
  obtain ⟨ps, b, ha⟩ := allSay_total adds
  obtain ⟨s1, x1, h1, hx, -, -⟩ := datum_spec (base_static sim) hw hlt t ha
  rw [hd] at h1
  cases h1
  rw [hx]
  constructor
  · rintro rfl
    exact ⟨ps, ha⟩
  · rintro ⟨qs, hq⟩
    exact (allSay_det ha hq).2

example : ∃ s s' x, run (baseOf none) (start 2) [] = some s ∧ datum (baseOf none) s ['T'] [demoA, demoD] = some (s', x) :=
  ⟨_, _, _, rfl, rfl⟩

/-- Which exception a call raises. -/
theorem C130_errors (alive : ℕ → Option Str) (next : ℕ) (fields : List ℕ) (es : List Entry) (f : FieldArg) (x : PyVal)
    (sh : Option (List ℤ)) (t : Ty) :
    (addVal alive next fields es ⟨f, x, sh, .none⟩).2.2.2.2 = some .type ∧
    (addVal alive next fields es ⟨f, x, sh, .unknown⟩).2.2.2.2 = some .type ∧
    (∀ e, PyInfile.toCpp t x = .error e → (addVal alive next fields es ⟨f, x, sh, .known t⟩).2.2.2.2 = some (.conv e)) ∧
    ∀ v, PyInfile.toCpp t x = .ok v →
      (addVal alive next fields es ⟨.other, x, sh, .known t⟩).2.2.2.2 = some .value ∧
      (f ≠ .other → ¬ ShapeOk sh → (addVal alive next fields es ⟨f, x, sh, .known t⟩).2.2.2.2 = some .overflow) ∧
      (f ≠ .other → ShapeOk sh → (addVal alive next fields es ⟨f, x, sh, .known t⟩).2.2.2.2 = none) := by
  refine ⟨rfl, rfl, fun e he => by simp [addVal, toAny, he], fun v hv => ⟨by simp [addVal, toAny, hv, encode], ?_, ?_⟩⟩
  · intro hf hs
    cases f with
    | other => exact absurd rfl hf
    | bytes s => simp [addVal, toAny, hv, encode, toShape_err hs]
    | str s => by_cases hl : s.length ≤ 1 <;> simp [addVal, toAny, hv, encode, toShape_err hs, hl]
  · intro hf hs
    cases f with
    | other => exact absurd rfl hf
    | bytes s => simp [addVal, toAny, hv, encode, toShape_ok hs]
    | str s => by_cases hl : s.length ≤ 1 <;> simp [addVal, toAny, hv, encode, toShape_ok hs, hl]

example : ¬ ShapeOk (some [3000000000]) ∧ ShapeOk (some [3]) := by
  refine ⟨fun h => ?_, ?_⟩
  · have := h _ rfl 3000000000 (by simp)
    norm_num at this
  · intro l hl z hz
    cases hl
    rw [List.mem_singleton] at hz
    subst hz
    norm_num

/-- A recorded value that is read back from the database converts to the recorded value again; if the value given to
`add_val` denotes it, what is read back does. -/
theorem C130_back (a : Add) (p : Put) (h : Says a p) : PyInfile.toCpp p.ty (PyAgent.toPy p.val) = .ok p.val ∧
    (PyInfile.Denotes p.ty a.value p.val → PyInfile.Denotes p.ty (PyAgent.toPy p.val) p.val) := by
  refine ⟨?_, denotes_toPy _ _ _⟩
  cases h with
  | str hv _ => exact PyAgent.toCpp_toPy _ _ _ hv
  | bytes hv _ => exact PyAgent.toCpp_toPy _ _ _ hv

example : PyInfile.Denotes (.prim .int) demoA.value (.int 7) := ⟨7, rfl, by norm_num, by norm_num, rfl⟩

/-! ## Queries -/

/-- A table with two columns. -/
def demoT : Table :=
  ⟨[(['t'], .prim .int), (['q'], .prim .double)], [[.int 1, .dbl 5], [.int 2, .dbl 6], [.int 3, .dbl 5]]⟩

theorem demoT_regular : Regular demoT := by
  refine ⟨by decide, ?_⟩
  intro r hr
  simp only [demoT, List.mem_cons, List.not_mem_nil, or_false] at hr
  rcases hr with rfl | rfl | rfl <;> rfl

open Classical in
/-- A query gives the columns of the table in order, each with the values of the rows for which the conditions hold, in the
order of the rows.  Conditions about columns that there are not do not count. -/
theorem C130_query (cmp : Op → Val → Val → Bool) (t : Table) (ht : Regular t) (cs : Option (List (Str × Str × PyVal)))
    (hs : ∀ c ∈ cs.getD [], Sense t c) : ∃ fr, query cmp t cs = .ok fr ∧ fr.map Prod.fst = t.cols.map Prod.fst ∧
      ∀ (j : ℕ) (f : Str) (col : List PyVal), fr[j]? = some (f, col) →
        List.Forall₂ (fun (r : List Val) x => ∃ v, r[j]? = some v ∧ x = PyAgent.toPy v)
          (t.rows.filter fun r => ∀ c ∈ cs.getD [], Holds cmp t r c) col := by
  obtain ⟨ds, hd, hm⟩ := conds_ok ht hs
  have hsel : select cmp t ds = t.rows.filter fun r => ∀ c ∈ cs.getD [], Holds cmp t r c := by
    refine List.filter_congr fun r hr => ?_
    exact Bool.eq_iff_iff.2 ((select_iff cmp ht hs hm hr).trans decide_eq_true_iff.symm)
  refine ⟨_, by rw [query, hd], ?_, ?_⟩
  · rw [List.map_map]
    have : (t.cols.zipIdx.map Prod.fst).map Prod.fst = t.cols.map Prod.fst := by rw [List.zipIdx_map_fst]
    rw [← this, List.map_map]
    rfl
  · intro j f col hj
    rw [List.getElem?_map, List.getElem?_zipIdx] at hj
    cases hc : t.cols[j]? with
    | none => rw [hc] at hj; cases hj
    | some x =>
      rw [hc] at hj
      simp only [Option.map_some, Option.some.injEq, Prod.mk.injEq, Nat.zero_add] at hj
      rw [← hsel, ← hj.2]
      refine column_spec fun r hr => ?_
      have hr' : r ∈ t.rows := (List.mem_filter.1 hr).1
      rw [ht.rows r hr']
      exact (List.getElem?_eq_some_iff.1 hc).1

/-- A condition on the second column and one about nothing. -/
example : ∀ c ∈ [(['q'], ['=', '='], PyVal.float 5), (['z'], ['?'], PyVal.none)], Sense demoT c := by
  intro c hc ty hty
  simp only [List.mem_cons, List.not_mem_nil, or_false] at hc
  rcases hc with rfl | rfl
  · have : ty = .prim .double := by
      have h2 : upToNull ['q'] = ['q'] := by decide
      simp only [h2, demoT, List.mem_cons, List.not_mem_nil, or_false, Prod.mk.injEq] at hty
      rcases hty with ⟨h, -⟩ | ⟨-, h⟩
      · exact absurd h (by decide)
      · exact h
    subst this
    exact ⟨⟨.eq, rfl⟩, .dbl 5, rfl⟩
  · have h2 : upToNull ['z'] = ['z'] := by decide
    simp only [h2, demoT, List.mem_cons, List.not_mem_nil, or_false, Prod.mk.injEq] at hty
    rcases hty with ⟨h, -⟩ | ⟨h, -⟩ <;> exact absurd h (by decide)

/-- A condition without sense ends the query with an exception. -/
theorem C130_refuses (cmp : Op → Val → Val → Bool) (t : Table) (ht : Regular t) (cs : List (Str × Str × PyVal))
    (h : ∃ c ∈ cs, ¬ Sense t c) : ∃ e, query cmp t (some cs) = .error e := by
  obtain ⟨e, he⟩ := conds_err ht h
  exact ⟨e, by rw [query, Option.getD_some, he]⟩

example : ¬ Sense demoT (['q'], ['?'], .float 5) := by
  intro h
  obtain ⟨⟨op, ho⟩, -⟩ := h (.prim .double) (by simp [demoT, upToNull])
  cases op <;> exact absurd ho (by decide)

/-- The tables that there are, the first time one asks. -/
theorem C130_tables (there : List Str) : (tables none there).1 = there := rfl

/-- Later answers are the first one, whatever has been recorded since. -/
theorem C130_fails_tables (there later : List Str) : (tables (tables none there).2 later).1 = there := rfl

end Cyclus.PyDb.Props
