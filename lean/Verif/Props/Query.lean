import Verif.Model.Query
import Mathlib.Data.List.Basic
import Mathlib.Data.List.Nodup

/-!
# C30: queries return exactly the rows that satisfy the conditions
-/

namespace Cyclus.Rec

variable {V : Type}

/-! ## Specification -/

/-- The row has, in the column named by the condition, a value that satisfies it. -/
def satisfies (S : Vals V) (fields : List String) (row : List V) (c : Cond V) : Bool :=
  (fields.zip row).any fun p => p.1 == c.field && S.cmp c.op p.2 c.val

/-- The rows of a table that satisfy all conditions; no conditions (`NULL` or an empty list) select all
rows. -/
def selected (S : Vals V) (fields : List String) (rows : List (List V))
    (conds : Option (List (Cond V))) : List (List V) :=
  rows.filter fun row => (conds.getD []).all (satisfies S fields row)

/-- A datum with named values, no name twice. -/
def Proper (d : Datum V) (names : List String) : Prop :=
  d.vals ≠ [] ∧ d.vals.map Prod.fst = names.map some ∧ names.Nodup

/-- Data of the same title have the same names and types, as `datum.h:54-56` demands. -/
def Conform (S : Vals V) (ds : List (Datum V)) : Prop :=
  (∀ d ∈ ds, ∃ names, Proper d names) ∧
  ∀ d ∈ ds, ∀ d' ∈ ds, d.title = d'.title → d.vals.map Prod.fst = d'.vals.map Prod.fst ∧
    (d.vals.map fun v => S.ty v.2) = d'.vals.map fun v => S.ty v.2

/-! ## Proof -/

theorem names_of {d : Datum V} {names : List String} (h : d.vals.map Prod.fst = names.map some) :
    d.names = some names := by
  unfold Datum.names
  generalize d.vals = l at *
  induction l generalizing names with
  | nil => cases names <;> simp_all
  | cons a l ih =>
    cases names with
    | nil => simp at h
    | cons n ns =>
      simp only [List.map_cons, List.cons.injEq] at h
      rw [List.mapM_cons, h.1, ih h.2]; rfl

theorem parseTerms_text (c : Cond V) (cs : List (Cond V)) :
    parseTerms ((((c :: cs).map fun c => [Tok.field c.field, .op c.op, .hole]).intersperse
      [.and]).flatten ++ [.semi]) = some ((c :: cs).map fun c => (c.field, c.op)) := by
  induction cs generalizing c with
  | nil => simp [parseTerms]
  | cons c' cs ih =>
    have := ih c'
    simp only [List.map_cons] at this ⊢
    rw [List.intersperse_cons₂]
    simp only [List.flatten_cons, List.cons_append, List.nil_append]
    simp only [parseTerms, this, Option.map_some]

theorem parseSql_none (t : String) : parseSql (sqlText (V := V) t none) = some (t, []) := rfl

theorem parseSql_nil (t : String) : parseSql (sqlText (V := V) t (some [])) = none := rfl

theorem parseSql_cons (t : String) (c : Cond V) (cs : List (Cond V)) :
    parseSql (sqlText t (some (c :: cs))) = some (t, (c :: cs).map fun c => (c.field, c.op)) := by
  have := parseTerms_text c cs
  unfold sqlText
  simp only [List.cons_append, List.nil_append]
  simp only [parseSql, this, Option.map_some]

theorem column_zip {fields : List String} (hn : fields.Nodup) {row : List V} (f : String)
    (p : V → Bool) : (match column fields row f with | none => false | some x => p x) =
      (fields.zip row).any fun q => q.1 == f && p q.2 := by
  unfold column
  induction fields generalizing row with
  | nil => simp
  | cons g gs ih =>
    rw [List.nodup_cons] at hn
    cases row with
    | nil =>
      simp only [List.zip_nil_right, List.any_nil]
      cases (g :: gs).findIdx? (· == f) <;> simp
    | cons x xs =>
      have := ih hn.2 (row := xs)
      by_cases hg : g = f
      · subst hg
        have hno : (gs.zip xs).any (fun q => q.1 == g && p q.2) = false := by
          rw [List.any_eq_false]
          intro q hq
          have := List.of_mem_zip hq
          have hne : q.1 ≠ g := fun e => hn.1 (e ▸ this.1)
          simp [hne]
        simp [List.findIdx?_cons, hno]
      · simp only [List.findIdx?_cons, List.zip_cons_cons, List.any_cons]
        have hb : (g == f) = false := by simpa using hg
        rw [hb, Bool.false_and, Bool.false_or, ← this]
        simp only [Bool.false_eq_true, if_false]
        cases gs.findIdx? (· == f) <;> simp

theorem sqlTerms_eq (S : Vals V) {fields : List String} (hn : fields.Nodup) (row : List V)
    (cs : List (Cond V)) :
    ((cs.map fun c => (c.field, c.op)).zip (cs.map Cond.val)).all
      (fun m => sqlTerm S fields row m.1 m.2) = cs.all (satisfies S fields row) := by
  induction cs with
  | nil => rfl
  | cons c cs ih =>
    simp only [List.map_cons, List.zip_cons_cons, List.all_cons, ih]
    congr 1
    exact column_zip hn c.field fun x => S.cmp c.op x c.val

/-- What the database contains. -/
structure Holds (S : Vals V) (q : Sqlite V) (ds : List (Datum V)) : Prop where
  none : ∀ t, (∀ d ∈ ds, d.title ≠ t) → q.tables t = none ∧ q.stmts t = none
  some : ∀ d ∈ ds, ∀ names, Proper d names → q.tables d.title = some ⟨names,
      d.vals.map fun v => S.ty v.2,
      (ds.filter fun d' => d'.title = d.title).map fun d' => d'.vals.map Prod.snd⟩ ∧
    q.stmts d.title = some (d.vals.map fun v => S.ty v.2)

theorem Holds.put {S : Vals V} {q : Sqlite V} {ds : List (Datum V)} {d : Datum V}
    (h : Holds S q ds) (hc : Conform S (ds ++ [d])) :
    ∃ q', q.put S d = Option.some (.ok q') ∧ Holds S q' (ds ++ [d]) := by
  obtain ⟨names, hp1, hp2, hp3⟩ := hc.1 d (by simp)
  have hnames := names_of hp2
  have hlen : names.length = d.vals.length := by
    have := congrArg List.length hp2; simpa using this.symm
  by_cases hex : ∃ d0 ∈ ds, d0.title = d.title
  · obtain ⟨d0, hd0, ht⟩ := hex
    obtain ⟨k1, k2⟩ := hc.2 d0 (by simp [hd0]) d (by simp) ht
    have hp0 : Proper d0 names := by
      refine ⟨?_, by rw [k1, hp2], hp3⟩
      intro e
      rw [e] at k1
      simp only [List.map_nil] at k1
      exact hp1 (List.map_eq_nil_iff.1 k1.symm)
    obtain ⟨t1, t2⟩ := h.some d0 hd0 names hp0
    rw [ht, k2] at t1 t2
    refine ⟨_, by simp only [Sqlite.put, t1, t2, Option.isNone_some, Bool.false_eq_true, if_false,
      Sqlite.writeDatum, List.length_map, ne_eq, not_true_eq_false]; rfl, ?_, ?_⟩
    · intro t hn
      have hne : t ≠ d.title := fun e => hn d (by simp) e.symm
      simp only [Function.update_of_ne hne]
      exact h.none t fun d' hd' => hn d' (by simp [hd'])
    · intro d' hd' names' hp'
      by_cases he : d'.title = d.title
      · obtain ⟨m1, m2⟩ := hc.2 d' hd' d (by simp) he
        have hnn : names' = names := by
          have := hp'.2.1
          rw [m1, hp2] at this
          exact (List.map_injective_iff.2 (Option.some_injective _) this).symm
        subst hnn
        simp only [he, Function.update_self, m2, t2, and_true]
        simp [List.filter_append]
      · have hd'' : d' ∈ ds := by
          rcases List.mem_append.1 hd' with h | h
          · exact h
          · rw [List.mem_singleton] at h; exact absurd (h ▸ rfl) he
        obtain ⟨n1, n2⟩ := h.some d' hd'' names' hp'
        simp only [Function.update_of_ne he]
        refine ⟨?_, n2⟩
        rw [n1, List.filter_append]
        simp [Ne.symm he]
  · have hno : ∀ d0 ∈ ds, d0.title ≠ d.title := fun d0 h0 e => hex ⟨d0, h0, e⟩
    obtain ⟨t1, t2⟩ := h.none d.title hno
    refine ⟨_, by simp only [Sqlite.put, t1, t2, Option.isNone_none, if_true, Sqlite.createTable, hnames,
      hp1, if_false, hp3, not_true_eq_false, Sqlite.buildStmt, Function.update_self, hlen, ne_eq,
      Sqlite.writeDatum, List.length_map]; rfl, ?_, ?_⟩
    · intro t hn
      have hne : t ≠ d.title := fun e => hn d (by simp) e.symm
      simp only [Function.update_of_ne hne]
      exact h.none t fun d' hd' => hn d' (by simp [hd'])
    · intro d' hd' names' hp'
      by_cases he : d'.title = d.title
      · obtain ⟨m1, m2⟩ := hc.2 d' hd' d (by simp) he
        have hnn : names' = names := by
          have := hp'.2.1
          rw [m1, hp2] at this
          exact (List.map_injective_iff.2 (Option.some_injective _) this).symm
        subst hnn
        have hf : ds.filter (fun d' => decide (d'.title = d.title)) = [] := by
          rw [List.filter_eq_nil_iff]
          intro a ha; simpa using hno a ha
        simp only [he, Function.update_self, m2, and_true]
        simp [List.filter_append, hf]
      · have hd'' : d' ∈ ds := by
          rcases List.mem_append.1 hd' with h | h
          · exact h
          · rw [List.mem_singleton] at h; exact absurd (h ▸ rfl) he
        obtain ⟨n1, n2⟩ := h.some d' hd'' names' hp'
        simp only [Function.update_of_ne he]
        refine ⟨?_, n2⟩
        rw [n1, List.filter_append]
        simp [Ne.symm he]

theorem Conform.left {S : Vals V} {a b : List (Datum V)} (h : Conform S (a ++ b)) : Conform S a :=
  ⟨fun d hd => h.1 d (List.mem_append_left _ hd), fun d hd d' hd' =>
    h.2 d (List.mem_append_left _ hd) d' (List.mem_append_left _ hd')⟩

theorem notify_holds {S : Vals V} {q : Sqlite V} {ds es : List (Datum V)} (h : Holds S q ds)
    (hc : Conform S (ds ++ es)) :
    ∃ q', q.notify S es = Option.some (.ok q') ∧ Holds S q' (ds ++ es) := by
  induction es generalizing q ds with
  | nil => exact ⟨q, rfl, by simpa using h⟩
  | cons e es ih =>
    have hc' : Conform S ((ds ++ [e]) ++ es) := by simpa using hc
    obtain ⟨q1, h1, h2⟩ := h.put hc'.left
    obtain ⟨q2, h3, h4⟩ := ih h2 hc'
    refine ⟨q2, ?_, by simpa using h4⟩
    simp only [Sqlite.notify, h1, h3]

theorem Holds.empty (S : Vals V) : Holds S Sqlite.empty [] :=
  ⟨fun _ _ => ⟨rfl, rfl⟩, fun _ h => by cases h⟩

/-- **C30** for SQLite: after conforming data have been sent to an empty database, a query of a recorded
table whose conditions are `NULL` or a non-empty list of conditions on existing columns returns the
values of exactly those data of the table that satisfy all conditions, in order of recording; a
condition on another column is an error, and so is another table. -/
theorem C30_sqlite_partial (S : Vals V) {ds : List (Datum V)} (hc : Conform S ds) :
    ∃ q, Sqlite.empty.notify S ds = some (.ok q) ∧
      (∀ d ∈ ds, ∀ names, Proper d names → ∀ conds : Option (List (Cond V)), conds ≠ some [] →
        ((∀ c ∈ conds.getD [], c.field ∈ names) → q.query S d.title conds =
          .ok ⟨names, d.vals.map fun v => S.ty v.2, selected S names
            ((ds.filter fun d' => d'.title = d.title).map fun d' => d'.vals.map Prod.snd) conds⟩) ∧
        ((∃ c ∈ conds.getD [], c.field ∉ names) → q.query S d.title conds = .error .io)) ∧
      ∀ t conds, (∀ d ∈ ds, d.title ≠ t) → q.query S t conds = .error .value := by
  obtain ⟨q, h1, h2⟩ := notify_holds (Holds.empty S) (es := ds) (by simpa using hc)
  rw [List.nil_append] at h2
  refine ⟨q, h1, ?_, ?_⟩
  · intro d hd names hp conds hne
    obtain ⟨t1, _⟩ := h2.some d hd names hp
    have hparse : parseSql (sqlText d.title conds) =
        some (d.title, (conds.getD []).map fun c => (c.field, c.op)) := by
      cases conds with
      | none => rfl
      | some cs => cases cs with
        | nil => exact absurd rfl hne
        | cons c cs => exact parseSql_cons d.title c cs
    constructor
    · intro hf
      simp only [Sqlite.query, t1, hparse]
      rw [if_pos]
      · congr 2
        unfold selected
        congr 1
        funext row
        exact sqlTerms_eq S hp.2.2 row _
      · simpa using hf
    · intro hf
      simp only [Sqlite.query, t1, hparse]
      rw [if_neg]
      simpa using hf
  · intro t conds hn
    simp only [Sqlite.query, (h2.none t hn).1]

theorem cmpConds_all (S : Vals V) (x : V) (cs : List (Cond V)) :
    cmpConds S x cs = cs.all fun c => S.cmp c.op x c.val := by
  induction cs with
  | nil => rfl
  | cons c cs ih => simp only [cmpConds, List.all_cons, ih]; cases S.cmp c.op x c.val <;> simp

theorem hdf5Row_spec (S : Vals V) (cs : List (Cond V)) (fields : List String) (row : List V) :
    hdf5Row S cs fields row = (fields.zip row).all fun p =>
      cs.all fun c => !(p.1 == c.field) || S.cmp c.op p.2 c.val := by
  induction fields generalizing row with
  | nil => cases row <;> rfl
  | cons f fs ih =>
    cases row with
    | nil => rfl
    | cons x xs =>
      simp only [hdf5Row, List.zip_cons_cons, List.all_cons, ih, cmpConds_all]
      have : (cs.filter fun c => decide (c.field = f)).all (fun c => S.cmp c.op x c.val) =
          cs.all fun c => !(f == c.field) || S.cmp c.op x c.val := by
        rw [List.all_filter]
        congr 1
        funext c
        by_cases h : c.field = f
        · simp [h]
        · simp [h, Ne.symm h]
      rw [this]
      cases cs.all fun c => !(f == c.field) || S.cmp c.op x c.val <;> simp

/-- **C30** for HDF5: if every condition is on an existing column, the query returns exactly the rows
that satisfy all of them (all rows for `NULL` and for an empty list). -/
theorem C30_hdf5_partial (S : Vals V) {t : Table V} (hn : t.fields.Nodup)
    (hr : ∀ row ∈ t.rows, row.length = t.fields.length) {conds : Option (List (Cond V))}
    (hf : ∀ c ∈ conds.getD [], c.field ∈ t.fields) :
    hdf5Query S (some t) conds = .ok ⟨t.fields, t.types, selected S t.fields t.rows conds⟩ := by
  simp only [hdf5Query]
  congr 2
  unfold selected
  apply List.filter_congr
  intro row hrow
  rw [hdf5Row_spec, Bool.eq_iff_iff]
  simp only [List.all_eq_true, satisfies, List.any_eq_true, Bool.and_eq_true, beq_iff_eq,
    Bool.or_eq_true, Bool.not_eq_true', beq_eq_false_iff_ne, ne_eq]
  constructor
  · intro h c hc
    obtain ⟨j, hj, hje⟩ := List.mem_iff_getElem.1 (hf c hc)
    have hjr : j < row.length := by rw [hr row hrow]; exact hj
    have hm : (t.fields[j], row[j]) ∈ t.fields.zip row := by
      rw [List.mem_iff_getElem]
      exact ⟨j, by simp [hj, hjr], by simp⟩
    refine ⟨_, hm, hje, ?_⟩
    rcases h _ hm c hc with h | h
    · exact absurd hje h
    · exact h
  · intro h p hp c hc
    by_cases he : p.1 = c.field
    · right
      obtain ⟨q, hq, hq1, hq2⟩ := h c hc
      obtain ⟨i, hi, hie⟩ := List.mem_iff_getElem.1 hp
      obtain ⟨j, hj, hje⟩ := List.mem_iff_getElem.1 hq
      simp only [List.getElem_zip] at hie hje
      simp only [List.length_zip, lt_inf_iff] at hi hj
      have : t.fields[i]'hi.1 = t.fields[j]'hj.1 := by
        have a : t.fields[i]'hi.1 = p.1 := by rw [← hie]
        have b : t.fields[j]'hj.1 = q.1 := by rw [← hje]
        rw [a, b, he, hq1]
      have hij : i = j := (List.Nodup.getElem_inj_iff hn).1 this
      subst hij
      rw [← hie, hje]; exact hq2
    · exact Or.inl he

/-- The wrapper that adds conditions: over a backend that answers all queries with conditions on
existing columns correctly, its queries return the rows that satisfy the given and the added
conditions. -/
theorem C30_injector {S : Vals V} {b : Queryable V} {inject : List (Cond V)} {table : String}
    {t : Table V} (hb : ∀ cs, b.query table (some cs) =
      .ok ⟨t.fields, t.types, selected S t.fields t.rows (some cs)⟩)
    (conds : Option (List (Cond V))) :
    (condInjector b inject).query table conds =
      .ok ⟨t.fields, t.types, selected S t.fields t.rows (some (conds.getD [] ++ inject))⟩ := by
  cases conds with
  | none => simp [condInjector, hb]
  | some cs => simp [condInjector, hb]

/-- The wrapper that adds a prefix asks for the table of the prefixed name. -/
theorem C30_prefix (b : Queryable V) (pre table : String) (conds : Option (List (Cond V))) :
    (prefixInjector b pre).query table conds = b.query (pre ++ table) conds := rfl

/-- `GetVal` returns the value in the first column with the given name, and throws exactly if there is no
such row or column. -/
theorem C30_getVal (q : QueryResult V) (hr : ∀ row ∈ q.rows, row.length = q.fields.length)
    (field : String) (row : ℤ) :
    ((0 ≤ row ∧ row < q.rows.length) ∧ field ∈ q.fields →
      ∃ (r : List V) (j : ℕ) (v : V), q.rows[row.toNat]? = some r ∧ q.fields[j]? = some field ∧
        (∀ k < j, q.fields[k]? ≠ some field) ∧ r[j]? = some v ∧ q.getVal field row = some (.ok v)) ∧
    (¬ ((0 ≤ row ∧ row < q.rows.length) ∧ field ∈ q.fields) →
      ∃ e, q.getVal field row = some (.error e)) := by
  constructor
  · rintro ⟨⟨h0, h1⟩, hf⟩
    have hne : q.rows ≠ [] := by
      intro e; rw [e] at h1; simp at h1; omega
    have hlt : row.toNat < q.rows.length := by omega
    have hrow : q.rows[row.toNat]? = some q.rows[row.toNat] := List.getElem?_eq_getElem hlt
    obtain ⟨j, hj⟩ : ∃ j, q.fields.findIdx? (· == field) = some j := by
      cases hx : q.fields.findIdx? (· == field) with
      | some j => exact ⟨j, rfl⟩
      | none =>
        rw [List.findIdx?_eq_none_iff] at hx
        have := hx field hf
        simp at this
    rw [List.findIdx?_eq_some_iff_getElem] at hj
    obtain ⟨hjl, hje, hjn⟩ := hj
    have hlen := hr _ (List.getElem_mem hlt)
    have hjr : j < (q.rows[row.toNat]).length := by rw [hlen]; exact hjl
    refine ⟨_, j, _, hrow, ?_, ?_, List.getElem?_eq_getElem hjr, ?_⟩
    · rw [List.getElem?_eq_getElem hjl]; congr 1; simpa using hje
    · intro k hk e
      have hkl : k < q.fields.length := by omega
      rw [List.getElem?_eq_getElem hkl] at e
      have := hjn k hk
      simp only [Option.some.injEq] at e
      simp [e] at this
    · unfold QueryResult.getVal
      rw [if_neg hne, if_neg (by omega)]
      have hj' : q.fields.findIdx? (· == field) = some j := by
        rw [List.findIdx?_eq_some_iff_getElem]; exact ⟨hjl, hje, hjn⟩
      simp only [hj', hrow, List.getElem?_eq_getElem hjr, Option.map_some]
  · intro h
    unfold QueryResult.getVal
    split_ifs with h1 h2
    · exact ⟨_, rfl⟩
    · exact ⟨_, rfl⟩
    · have hx : q.fields.findIdx? (· == field) = none := by
        rw [List.findIdx?_eq_none_iff]
        intro x hx
        by_contra hc
        simp only [Bool.not_eq_false, beq_iff_eq] at hc
        exact h ⟨by omega, hc ▸ hx⟩
      simp only [hx]
      exact ⟨_, rfl⟩

/-- The operator a text denotes. -/
def denotes : Cmp → String
  | .lt => "<"
  | .gt => ">"
  | .le => "<="
  | .ge => ">="
  | .eq => "=="
  | .ne => "!="

/-- A condition is made from exactly the six operators, with the operator, field and value given. -/
theorem C30_cond (field op : String) (v : V) :
    (∀ c, Cond.make field op v = .ok c ↔ c.field = field ∧ c.val = v ∧ op = denotes c.op) ∧
    ((∀ o, op ≠ denotes o) → Cond.make field op v = .error .value) := by
  constructor
  · rintro ⟨f, o, x⟩
    unfold Cond.make
    split_ifs with h1 h2 h3 h4 h5 h6
    all_goals constructor
    all_goals first
      | (intro e; injection e with e; injection e with e1 e2 e3; subst e1 e2 e3
         exact ⟨rfl, rfl, by assumption⟩)
      | (intro e; cases e; done)
      | (rintro ⟨rfl, rfl, h⟩
         revert h1; try revert h2
         try revert h3
         try revert h4
         try revert h5
         try revert h6
         rw [h]
         cases o <;> simp [denotes])
  · intro h
    unfold Cond.make
    have a := h .lt; have b := h .gt; have c := h .le; have d := h .ge; have e := h .eq
    have f := h .ne
    simp only [denotes, ne_eq] at a b c d e f
    rw [if_neg a, if_neg b, if_neg c, if_neg d, if_neg e, if_neg f]

/-! ## Disagreements -/

/-- With SQLite an empty list of conditions gives malformed SQL and an error, for every table. -/
theorem C30_fails_empty (S : Vals V) (q : Sqlite V) (table : String) :
    ∃ e, q.query S table (some []) = .error e := by
  unfold Sqlite.query
  split
  · exact ⟨_, rfl⟩
  · rw [parseSql_nil]; exact ⟨_, rfl⟩

/-- So a wrapper with nothing to inject makes every query without conditions fail. -/
theorem C30_fails_injector (S : Vals V) (q : Sqlite V) (table : String) :
    ∃ e, (condInjector (q.queryable S) []).query table none = .error e := C30_fails_empty S q table

/-- HDF5 ignores conditions on columns that do not exist: here the only row is returned, although no
column satisfies the condition. -/
theorem C30_fails_unknown : ∃ r, hdf5Query (V := ℕ) ⟨fun _ => 0, fun _ _ _ => true⟩
    (some ⟨["a"], [0], [[1]]⟩) (some [⟨"b", .eq, 5⟩]) = .ok r ∧ r.rows = [[1]] := ⟨_, rfl, rfl⟩

/-- The prefix is not used for `ColumnTypes`: the types of a table that can be queried are not
found. -/
theorem C30_fails_prefix : ∃ (q : Sqlite ℕ) (S : Vals ℕ) (r : QueryResult ℕ),
    (prefixInjector (q.queryable S) "p").query "t" none = .ok r ∧
    (prefixInjector (q.queryable S) "p").columnTypes "t" = .error .value :=
  ⟨⟨fun t => if t = "pt" then some ⟨["a"], [0], [[1]]⟩ else none, fun _ => none⟩,
    ⟨fun _ => 0, fun _ _ _ => true⟩, ⟨["a"], [0], [[1]]⟩, by decide +kernel, by decide +kernel⟩

/-! ## Examples -/

/-- Numbers, compared as numbers. -/
def nats : Vals ℕ where
  ty := fun _ => 1
  cmp := fun o x y => match o with
    | .lt => x < y
    | .gt => x > y
    | .le => x ≤ y
    | .ge => x ≥ y
    | .eq => x = y
    | .ne => x ≠ y

/-- Two tables. -/
def demoData : List (Datum ℕ) :=
  [⟨"t", [(some "a", 1), (some "b", 2)], [[], []], ["a", "b"]⟩, ⟨"u", [(some "c", 3)], [[]], ["c"]⟩,
    ⟨"t", [(some "a", 4), (some "b", 5)], [[], []], ["a", "b"]⟩]

-- C30_sqlite_partial: the data conform, and a condition selects the second row of `t`
example : Conform nats demoData ∧ Proper (demoData[0]) ["a", "b"] ∧
    selected nats ["a", "b"] [[1, 2], [4, 5]] (some [⟨"a", .gt, 2⟩]) = [[4, 5]] := by
  refine ⟨⟨?_, ?_⟩, ?_, by decide +kernel⟩
  · intro d hd
    simp only [demoData, List.mem_cons, List.not_mem_nil, or_false] at hd
    rcases hd with rfl | rfl | rfl
    · exact ⟨["a", "b"], by simp, by simp, by decide⟩
    · exact ⟨["c"], by simp, by simp, by decide⟩
    · exact ⟨["a", "b"], by simp, by simp, by decide⟩
  · intro d hd d' hd'
    simp only [demoData, List.mem_cons, List.not_mem_nil, or_false] at hd hd'
    rcases hd with rfl | rfl | rfl <;> rcases hd' with rfl | rfl | rfl <;> simp [nats]
  · exact ⟨by simp [demoData], by simp [demoData], by decide⟩

-- C30_hdf5_partial
example : ∃ r, hdf5Query nats (some ⟨["a", "b"], [1, 1], [[1, 2], [4, 5]]⟩)
    (some [⟨"a", .gt, 2⟩, ⟨"b", .le, 5⟩]) = .ok r ∧ r.rows = [[4, 5]] := ⟨_, rfl, by decide +kernel⟩

-- C30_injector: a backend that answers all queries
example : ∃ b : Queryable ℕ, ∀ cs, b.query "t" (some cs) =
    .ok ⟨["a"], [1], selected nats ["a"] [[1], [2]] (some cs)⟩ :=
  ⟨⟨fun _ cs => .ok ⟨["a"], [1], selected nats ["a"] [[1], [2]] cs⟩, fun _ => .ok []⟩, fun _ => rfl⟩

-- C30_cond
example : Cond.make "a" "<=" 3 = .ok ⟨"a", .le, 3⟩ ∧ Cond.make "a" "=" 3 = .error .value := by
  decide +kernel

-- C30_getVal
example : (⟨["a", "b"], [1, 1], [[1, 2], [4, 5]]⟩ : QueryResult ℕ).getVal "b" 1 = some (.ok 5) := by
  decide +kernel

end Cyclus.Rec
