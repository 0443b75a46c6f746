import Verif.Model.SqliteValues

/-!
# C106: data written to SQLite are read back as written

The specification says what each type number means, which values SQLite can keep, and that a query returns
the values of all data with a title in the order in which they were written.  It does not use the model's
tables of types.
-/

namespace Cyclus.Sql

/-! ## Specification -/

/-- The type that is meant by the name of a type number. -/
def meaning : DbType → Ty
  | .int => .int
  | .double => .double
  | .float => .float
  | .bool => .bool
  | .blob => .blob
  | .uuid => .uuid
  | .string => .string
  | .setInt => .set .int
  | .setString => .set .string
  | .vectorInt => .vector .int
  | .vectorDouble => .vector .double
  | .vectorString => .vector .string
  | .listInt => .list .int
  | .listString => .list .string
  | .mapIntInt => .map .int .int
  | .mapIntDouble => .map .int .double
  | .mapIntString => .map .int .string
  | .mapStringInt => .map .string .int
  | .mapStringDouble => .map .string .double
  | .mapStringString => .map .string .string
  | .mapStringVectorDouble => .map .string (.vector .double)
  | .mapStringMapIntDouble => .map .string (.map .int .double)
  | .mapStringPairDoubleMapIntDouble => .map .string (.pair .double (.map .int .double))
  | .mapIntMapStringDouble => .map .int (.map .string .double)
  | .mapStringVectorPairIntPairStringString =>
    .map .string (.vector (.pair .int (.pair .string .string)))
  | .mapStringPairStringVectorDouble => .map .string (.pair .string (.vector .double))
  | .mapStringMapStringInt => .map .string (.map .string .int)
  | .listPairIntInt => .list (.pair .int .int)
  | .vectorPairPairDoubleDoubleMapStringDouble =>
    .vector (.pair (.pair .double .double) (.map .string .double))
  | .mapPairStringStringInt => .map (.pair .string .string) .int
  | .mapStringMapStringDouble => .map .string (.map .string .double)

/-- Types with elements. -/
def Ty.IsContainer : Ty → Prop
  | .vector _ | .set _ | .list _ | .map _ _ | .pair _ _ => True
  | _ => False

variable {C : Type}

/-- The type has a number. -/
def Supported (T : Ty) : Prop := ∃ t, meaning t = T

/-- Values that exist in C++ and that the file can keep: not NaN, no text with NUL, and containers whose
XML is read as the same container. -/
def Kept (L : Lib C) : Val C → Prop
  | .bool _ => True
  | .int z => -2 ^ 31 ≤ z ∧ z < 2 ^ 31
  | .float d => d ≠ .nan ∧ L.narrow d = d
  | .double d => d ≠ .nan
  | .string s => 0 ∉ s
  | .blob _ => True
  | .uuid s => s.length = 16
  | .cont c => (L.ty c).IsContainer ∧ 0 ∉ L.ser c ∧ L.des (L.ty c) (L.ser c) = some c

/-- Names and types of the values of a datum. -/
def shape (L : Lib C) (d : Datum C) : List (String × Ty) := d.vals.map fun nv => (nv.1, nv.2.ty L)

/-- A datum that can be written. -/
def Good (L : Lib C) (d : Datum C) : Prop :=
  d.vals ≠ [] ∧ (d.vals.map Prod.fst).Nodup ∧ ∀ nv ∈ d.vals, Supported (nv.2.ty L) ∧ Kept L nv.2

/-- Data that can be written, and those with the same title have the same names and types. -/
def Conforming (L : Lib C) (D : List (Datum C)) : Prop :=
  (∀ d ∈ D, Good L d) ∧ ∀ d ∈ D, ∀ d' ∈ D, d.title = d'.title → shape L d = shape L d'

/-- A query of the title returns the data with this title, in order. -/
def Shows (L : Lib C) (f : File) (D : List (Datum C)) (t : String) : Prop :=
  ((∀ d ∈ D, d.title ≠ t) → query L f t = some (.error .value)) ∧
  ∀ d ∈ D, d.title = t → ∃ r, query L f t = some (.ok r) ∧
    r.fields.zip (r.types.map meaning) = shape L d ∧
    r.fields.length = r.types.length ∧
    r.rows = (D.filter fun d => d.title = t).map fun d => d.vals.map Prod.snd

/-! ## Values -/

theorem lookup_meaning (t : DbType) : typeMap.lookup (meaning t) = some t := by
  cases t <;> decide

theorem meaning_of_lookup {T : Ty} {t : DbType} (h : typeMap.lookup T = some t) : meaning t = T := by
  have h1 : ∀ p ∈ typeMap, meaning p.2 = p.1 := by decide
  have h2 : ∀ (l : List (Ty × DbType)), l.lookup T = some t → (T, t) ∈ l := by
    intro l
    induction l with
    | nil => simp
    | cons p l ih =>
      obtain ⟨a, b⟩ := p
      rw [List.lookup_cons]
      by_cases hab : T = a
      · subst hab
        simp
        intro h; exact Or.inl h.symm
      · have : (T == a) = false := by simpa using hab
        rw [this]
        intro h
        exact List.mem_cons_of_mem _ (ih h)
  exact h1 _ (h2 _ h)

theorem typeOf_ok (L : Lib C) {v : Val C} {t : DbType} (h : meaning t = v.ty L) :
    typeOf L v = .ok t := by
  unfold typeOf
  rw [← h, lookup_meaning]

theorem typeOf_bad (L : Lib C) {v : Val C} (h : ¬ Supported (v.ty L)) : typeOf L v = .error .value := by
  unfold typeOf
  cases hl : typeMap.lookup (v.ty L) with
  | none => rfl
  | some t => exact absurd ⟨t, meaning_of_lookup hl⟩ h

theorem bind_cont_eq (L : Lib C) {t : DbType} (h : (meaning t).IsContainer) (c : C) :
    bind L t (.cont c) = if L.ty c = meaning t then .ok (.blob (L.ser c)) else .error .cast := by
  cases t <;> first | exact h.elim | rfl

theorem bind_cont (L : Lib C) {t : DbType} {c : C} (h : meaning t = L.ty c) (hc : (L.ty c).IsContainer) :
    bind L t (.cont c) = .ok (.blob (L.ser c)) := by
  rw [bind_cont_eq L (by rw [h]; exact hc), if_pos h.symm]

theorem aff_cont {t : DbType} (h : (meaning t).IsContainer) : aff t = .blob := by
  cases t <;> first | rfl | exact h.elim

theorem load_cont (L : Lib C) {t : DbType} (h : (meaning t).IsContainer) (x : List ℕ) :
    colAsVal L t (.blob x) = match L.des (meaning t) (cstr x) with
      | none => some (.error .generic)
      | some c => some (.ok (.cont c)) := by
  cases t <;> first | exact h.elim | rfl

theorem cstr_of_not_mem {s : List ℕ} (h : 0 ∉ s) : cstr s = s := by
  unfold cstr
  induction s with
  | nil => rfl
  | cons x s ih =>
    have hx : x ≠ 0 := by rintro rfl; exact h (by simp)
    simp only [ne_eq, List.takeWhile_cons, hx, not_false_eq_true, decide_true, if_true, List.cons.injEq,
      true_and]
    exact ih fun h' => h (by simp [h'])

theorem meaning_basic {t : DbType} :
    (meaning t = .bool → t = .bool) ∧ (meaning t = .int → t = .int) ∧ (meaning t = .float → t = .float) ∧
    (meaning t = .double → t = .double) ∧ (meaning t = .string → t = .string) ∧
    (meaning t = .blob → t = .blob) ∧ (meaning t = .uuid → t = .uuid) := by
  cases t <;> simp [meaning]

/-- A value that can be kept is read as it was. -/
theorem value_kept (L : Lib C) {v : Val C} {t : DbType} (ht : meaning t = v.ty L) (hk : Kept L v) :
    ∃ x, bind L t v = .ok x ∧ colAsVal L t (store L (aff t) x) = some (.ok v) := by
  obtain ⟨b1, b2, b3, b4, b5, b6, b7⟩ := @meaning_basic t
  cases v with
  | bool b =>
    obtain rfl := b1 ht
    refine ⟨_, rfl, ?_⟩
    cases b <;> simp [aff, store, colAsVal, getInt, low32]
  | int z =>
    obtain rfl := b2 ht
    refine ⟨_, rfl, ?_⟩
    simp only [Kept] at hk
    simp only [aff, store, colAsVal, getInt, low32, Option.some.injEq, Except.ok.injEq, Val.int.injEq]
    omega
  | float d =>
    obtain rfl := b3 ht
    obtain ⟨hn, hd⟩ := hk
    cases d with
    | nan => exact absurd rfl hn
    | fin q => exact ⟨_, rfl, by simp [bindDouble, aff, store, colAsVal, getDouble, hd]⟩
    | inf b => exact ⟨_, rfl, by simp [bindDouble, aff, store, colAsVal, getDouble, hd]⟩
  | double d =>
    obtain rfl := b4 ht
    cases d with
    | nan => exact absurd rfl hk
    | fin q => exact ⟨_, rfl, by simp [bindDouble, aff, store, colAsVal, getDouble]⟩
    | inf b => exact ⟨_, rfl, by simp [bindDouble, aff, store, colAsVal, getDouble]⟩
  | string s =>
    obtain rfl := b5 ht
    refine ⟨_, rfl, ?_⟩
    simp only [Kept] at hk
    simp [aff, store, colAsVal, getText, cstr_of_not_mem hk]
  | blob s =>
    obtain rfl := b6 ht
    exact ⟨_, rfl, by simp [aff, store, colAsVal, getText]⟩
  | uuid s =>
    obtain rfl := b7 ht
    refine ⟨_, rfl, ?_⟩
    simp only [Kept] at hk
    have : s.take 16 = s := by rw [← hk]; exact List.take_length
    simp [aff, store, colAsVal, getText, hk, this]
  | cont c =>
    obtain ⟨hc, h0, hd⟩ := hk
    have ht' : meaning t = L.ty c := ht
    have hc' : (meaning t).IsContainer := by rw [ht']; exact hc
    refine ⟨_, bind_cont L ht' hc, ?_⟩
    rw [aff_cont hc']
    simp only [store]
    rw [load_cont L hc', cstr_of_not_mem h0, ht', hd]

/-! ## Data -/

/-- Names and type numbers of a datum. -/
def sch (L : Lib C) (d : Datum C) : List (String × DbType) := (types L d.vals).1

theorem types_good (L : Lib C) : ∀ {vs : List (String × Val C)},
    (∀ nv ∈ vs, Supported (nv.2.ty L)) →
    (types L vs).2 = .ok () ∧ (types L vs).1.map Prod.fst = vs.map Prod.fst ∧
      (types L vs).1.map (fun nt => (nt.1, meaning nt.2)) = vs.map (fun nv => (nv.1, nv.2.ty L))
  | [], _ => ⟨rfl, rfl, rfl⟩
  | (n, v) :: vs, h => by
    obtain ⟨t, ht⟩ := h (n, v) (by simp)
    obtain ⟨i1, i2, i3⟩ := types_good L (vs := vs) (fun nv hm => h nv (List.mem_cons_of_mem _ hm))
    simp only [types, typeOf_ok L ht]
    exact ⟨i1, by simp [i2], by simp [i3, ht]⟩

theorem types_bad (L : Lib C) : ∀ {vs : List (String × Val C)},
    (∃ nv ∈ vs, ¬ Supported (nv.2.ty L)) → (types L vs).2 = .error .value
  | [], h => by simp at h
  | (n, v) :: vs, h => by
    by_cases hv : Supported (v.ty L)
    · obtain ⟨t, ht⟩ := hv
      simp only [types, typeOf_ok L ht]
      refine types_bad L ?_
      obtain ⟨nv, hm, hn⟩ := h
      rcases List.mem_cons.mp hm with rfl | hm
      · exact absurd ⟨t, ht⟩ hn
      · exact ⟨nv, hm, hn⟩
    · simp [types, typeOf_bad L hv]

theorem types_shape (L : Lib C) : ∀ {vs vs' : List (String × Val C)},
    vs.map (fun nv => (nv.1, nv.2.ty L)) = vs'.map (fun nv => (nv.1, nv.2.ty L)) →
    types L vs = types L vs'
  | [], [], _ => rfl
  | [], _ :: _, h => by simp at h
  | _ :: _, [], h => by simp at h
  | (n, v) :: vs, (n', v') :: vs', h => by
    simp only [List.map_cons, List.cons.injEq, Prod.mk.injEq] at h
    obtain ⟨⟨rfl, h1⟩, h2⟩ := h
    simp only [types, typeOf, h1, types_shape L h2]

/-- What is stored for a value. -/
def cell (L : Lib C) (t : DbType) (v : Val C) : Stored :=
  match bind L t v with
  | .ok x => store L (aff t) x
  | .error _ => .null

/-- What is stored for a datum. -/
def row (L : Lib C) (d : Datum C) : List Stored :=
  ((sch L d).zip d.vals).map fun p => cell L p.1.2 p.2.2

theorem bindAll_good (L : Lib C) : ∀ {vs : List (String × Val C)},
    (∀ nv ∈ vs, Supported (nv.2.ty L) ∧ Kept L nv.2) →
    ∃ xs, bindAll L ((types L vs).1.map Prod.snd) vs = some (.ok xs) ∧
      (((types L vs).1.map fun nt => (nt.1, aff nt.2)).zip xs).map (fun cx => store L cx.1.2 cx.2) =
        ((types L vs).1.zip vs).map (fun p => cell L p.1.2 p.2.2) ∧
      readRow L ((types L vs).1.map Prod.snd)
        (((types L vs).1.zip vs).map (fun p => cell L p.1.2 p.2.2)) = some (.ok (vs.map Prod.snd))
  | [], _ => ⟨[], rfl, rfl, rfl⟩
  | (n, v) :: vs, h => by
    obtain ⟨⟨t, ht⟩, hk⟩ := h (n, v) (by simp)
    obtain ⟨xs, i1, i2, i3⟩ := bindAll_good L (vs := vs) (fun nv hm => h nv (List.mem_cons_of_mem _ hm))
    obtain ⟨x, hb, hc⟩ := value_kept L ht hk
    have hb' : bind L t v = .ok x := hb
    refine ⟨x :: xs, ?_, ?_, ?_⟩
    · simp [types, typeOf_ok L ht, bindAll, hb', i1]
    · simp only [types, typeOf_ok L ht, List.map_cons, List.zip_cons_cons, i2]
      simp [cell, hb']
    · simp only [types, typeOf_ok L ht, List.map_cons, List.zip_cons_cons, readRow, List.head?_cons,
        Option.getD_some, List.tail_cons, i3]
      simp only [cell, hb', hc]

/-! ## The file -/

/-- The data with a title. -/
def ofTitle (D : List (Datum C)) (t : String) : List (Datum C) := D.filter fun d => d.title = t

/-- The file has these data with this title. -/
def HasTbl (L : Lib C) (f : File) (t : String) : List (Datum C) → Prop
  | [] => f.types.filter (·.1 = t) = [] ∧ f.tbls t = none
  | d :: ds => f.types.filter (·.1 = t) = (sch L d).map (fun nt => (t, nt)) ∧
    f.tbls t = some ⟨(sch L d).map fun nt => (nt.1, aff nt.2), (d :: ds).map (row L)⟩

/-- The file has these data, for the titles with `T`. -/
def Has (L : Lib C) (T : String → Prop) (f : File) (D : List (Datum C)) : Prop :=
  ∀ t, T t → HasTbl L f t (ofTitle D t)

/-- The connection knows its tables, and its statements are those of these data. -/
def Knows (L : Lib C) (T : String → Prop) (c : Conn) (D : List (Datum C)) : Prop :=
  ∀ t, T t → c.names t = (c.file.tbls t).isSome ∧
    (c.stmts t = none ∨ ∃ d ∈ D, d.title = t ∧ c.stmts t = some ((sch L d).map Prod.snd))

theorem sch_eq {L : Lib C} {D : List (Datum C)} (hD : Conforming L D) {d d' : Datum C} (h : d ∈ D)
    (h' : d' ∈ D) (ht : d.title = d'.title) : sch L d = sch L d' := by
  unfold sch
  rw [types_shape L (hD.2 d h d' h' ht)]

theorem ofTitle_append (D E : List (Datum C)) (t : String) :
    ofTitle (D ++ E) t = ofTitle D t ++ ofTitle E t := List.filter_append ..

theorem mem_ofTitle {D : List (Datum C)} {t : String} {d : Datum C} :
    d ∈ ofTitle D t ↔ d ∈ D ∧ d.title = t := by simp [ofTitle]

/-- One datum that conforms is appended. -/
theorem put_good {L : Lib C} {T : String → Prop} {c : Conn} {D : List (Datum C)} {d : Datum C}
    (hD : Conforming L (D ++ [d])) (hf : Has L T c.file D) (hk : Knows L T c D) (hT : T d.title) :
    ∃ c', put L c d = some (c', .ok ()) ∧ Has L T c'.file (D ++ [d]) ∧ Knows L T c' (D ++ [d]) ∧
      c'.inTx = c.inTx ∧ c'.saved = c.saved := by
  have hg : Good L d := hD.1 d (by simp)
  obtain ⟨hne, hnd, hv⟩ := hg
  obtain ⟨ty1, ty2, -⟩ := types_good L (vs := d.vals) (fun nv hm => (hv nv hm).1)
  obtain ⟨xs, hx1, hx2, -⟩ := bindAll_good L hv
  have hlen : (types L d.vals).1.length = d.vals.length := by
    have := congrArg List.length ty2
    simpa using this
  -- the connection with the table
  obtain ⟨c1, rs, h1, hfile1, hstm1, hin1, hsav1, htbl1, hnames1, hrs⟩ : ∃ (c1 : Conn) (rs : List (List Stored)),
      (if c.names d.title then some (c, .ok ()) else createTable L c d) = some (c1, .ok ()) ∧
      (c1.file.types.filter (·.1 = d.title) = (sch L d).map (fun nt => (d.title, nt)) ∧
        ∀ t, t ≠ d.title → c1.file.types.filter (·.1 = t) = c.file.types.filter (·.1 = t) ∧
          c1.file.tbls t = c.file.tbls t) ∧
      c1.stmts = c.stmts ∧ c1.inTx = c.inTx ∧ c1.saved = c.saved ∧
      c1.file.tbls d.title = some ⟨(sch L d).map fun nt => (nt.1, aff nt.2), rs⟩ ∧
      (c1.names d.title = true ∧ ∀ t, t ≠ d.title → c1.names t = c.names t) ∧
      rs = (ofTitle D d.title).map (row L) := by
    have h0 := hf d.title hT
    cases hE : ofTitle D d.title with
    | nil =>
      rw [hE] at h0
      obtain ⟨ha, hb⟩ := h0
      have hn : c.names d.title = false := by rw [(hk _ hT).1, hb]; rfl
      simp only [hn, Bool.false_eq_true, if_false, createTable, hne, ty1]
      have hcond : ((types L d.vals).1.map Prod.fst).Nodup ∧ c.file.tbls d.title = none := by
        rw [ty2]; exact ⟨hnd, hb⟩
      rw [if_pos hcond]
      refine ⟨_, [], rfl, ⟨?_, ?_⟩, rfl, rfl, rfl, ?_, ⟨?_, ?_⟩, rfl⟩
      · simp only [List.filter_append, ha, List.nil_append, sch]
        rw [List.filter_eq_self]
        intro p hp
        obtain ⟨q, -, rfl⟩ := List.mem_map.mp hp
        simp
      · intro t ht
        refine ⟨?_, ?_⟩
        · simp only [List.filter_append]
          refine List.append_right_eq_self.mpr ?_
          rw [List.filter_eq_nil_iff]
          intro p hp
          obtain ⟨q, -, rfl⟩ := List.mem_map.mp hp
          simpa using fun h => ht h.symm
        · simp [Function.update_of_ne ht]
      · simp [sch]
      · simp
      · intro t ht
        simp [Function.update_of_ne ht]
    | cons e es =>
      rw [hE] at h0
      obtain ⟨ha, hb⟩ := h0
      have he : e ∈ D ∧ e.title = d.title := mem_ofTitle.mp (by rw [hE]; simp)
      have hse : sch L e = sch L d := sch_eq hD (by simp [he.1]) (by simp) he.2
      have hn : c.names d.title = true := by rw [(hk _ hT).1, hb]; rfl
      rw [hn, if_pos rfl]
      refine ⟨c, _, rfl, ⟨by rw [ha, hse], fun t _ => ⟨rfl, rfl⟩⟩, rfl, rfl, rfl, ?_, ⟨hn, fun t _ => rfl⟩, rfl⟩
      rw [hb, hse]
  -- the statement
  obtain ⟨c2, h2, hfile2, hst2, hst2', hin2, hsav2, hnames2⟩ : ∃ c2 : Conn,
      (if (c1.stmts d.title).isSome then some (c1, .ok ()) else buildStmt L c1 d) = some (c2, .ok ()) ∧
      c2.file = c1.file ∧ c2.stmts d.title = some ((sch L d).map Prod.snd) ∧
      (∀ t, t ≠ d.title → c2.stmts t = c1.stmts t) ∧ c2.inTx = c1.inTx ∧ c2.saved = c1.saved ∧
      c2.names = c1.names := by
    rcases (hk _ hT).2 with hs | ⟨e, heD, het, hs⟩
    · rw [← hstm1] at hs
      simp only [hs, Option.isSome_none, Bool.false_eq_true, if_false, buildStmt, hne, ty1, htbl1]
      have : ((sch L d).map fun nt => (nt.1, aff nt.2)).length = d.vals.length := by simpa [sch] using hlen
      rw [if_pos this]
      refine ⟨_, rfl, rfl, ?_, ?_, rfl, rfl, rfl⟩
      · simp [sch]
      · intro t ht
        simp [Function.update_of_ne ht]
    · have hse : sch L e = sch L d := sch_eq hD (by simp [heD]) (by simp) het
      rw [← hstm1] at hs
      rw [hs]
      exact ⟨c1, rfl, rfl, by rw [hs, hse], fun t _ => rfl, rfl, rfl, rfl⟩
  -- the row
  have h3 : put L c d = writeDatum L c2 d := by
    unfold put
    rw [h1]
    simp only [Res.andThen]
    rw [h2]
  rw [h3]
  unfold writeDatum
  rw [hst2, hfile2, htbl1]
  have hx1' : bindAll L ((sch L d).map Prod.snd) d.vals = some (.ok xs) := hx1
  have hx2' : (((sch L d).map fun nt => (nt.1, aff nt.2)).zip xs).map (fun cx => store L cx.1.2 cx.2) =
      row L d := hx2
  simp only [hx1']
  refine ⟨_, rfl, ?_, ?_, by simp [hin2, hin1], by simp [hsav2, hsav1]⟩
  · intro t ht
    by_cases htd : t = d.title
    · subst htd
      have he : ofTitle (D ++ [d]) d.title = ofTitle D d.title ++ [d] := by
        rw [ofTitle_append]; simp [ofTitle]
      rw [he]
      have hmem : ∀ e ∈ ofTitle D d.title, sch L e = sch L d := by
        intro e hem
        obtain ⟨hm, htt⟩ := mem_ofTitle.mp hem
        exact sch_eq hD (by simp [hm]) (by simp) htt
      cases hE : ofTitle D d.title with
      | nil =>
        rw [hE] at hrs
        refine ⟨hfile1.1, ?_⟩
        simp [hx2', hrs]
      | cons e es =>
        have hse := hmem e (by rw [hE]; simp)
        rw [hE] at hrs
        refine ⟨by rw [hse]; exact hfile1.1, ?_⟩
        simp [hx2', hrs, hse]
    · have he : ofTitle (D ++ [d]) t = ofTitle D t := by
        rw [ofTitle_append]
        have : ¬ d.title = t := fun h => htd h.symm
        simp [ofTitle, this]
      rw [he]
      have h0 := hf t ht
      obtain ⟨e1, e2⟩ := hfile1.2 t htd
      cases hE : ofTitle D t with
      | nil =>
        rw [hE] at h0
        exact ⟨by simpa [e1] using h0.1, by simpa [Function.update_of_ne htd, e2] using h0.2⟩
      | cons e es =>
        rw [hE] at h0
        exact ⟨by simpa [e1] using h0.1, by simpa [Function.update_of_ne htd, e2] using h0.2⟩
  · intro t ht
    by_cases htd : t = d.title
    · subst htd
      refine ⟨by simp [hnames2, hnames1.1], Or.inr ⟨d, by simp, rfl, hst2⟩⟩
    · obtain ⟨e1, e2⟩ := hfile1.2 t htd
      obtain ⟨k1, k2⟩ := hk t ht
      refine ⟨by simp [hnames2, hnames1.2 t htd, Function.update_of_ne htd, e2, k1], ?_⟩
      rw [show _ = c2.stmts t from rfl, hst2' t htd, hstm1]
      rcases k2 with h | ⟨e, hm, h⟩
      · exact Or.inl h
      · exact Or.inr ⟨e, by simp [hm], h⟩

theorem Conforming.prefix {L : Lib C} {D E : List (Datum C)} (h : Conforming L (D ++ E)) : Conforming L D :=
  ⟨fun d hd => h.1 d (by simp [hd]), fun d hd d' hd' => h.2 d (by simp [hd]) d' (by simp [hd'])⟩

theorem putAll_good {L : Lib C} {T : String → Prop} : ∀ {ds : List (Datum C)} {c : Conn} {D : List (Datum C)},
    Conforming L (D ++ ds) → Has L T c.file D → Knows L T c D → (∀ d ∈ ds, T d.title) →
    ∃ c', (∀ rest, putAll L c (ds ++ rest) = putAll L c' rest) ∧ Has L T c'.file (D ++ ds) ∧
      Knows L T c' (D ++ ds) ∧ c'.inTx = c.inTx ∧ c'.saved = c.saved
  | [], c, D, _, hf, hk, _ => ⟨c, fun _ => rfl, by simpa using hf, by simpa using hk, rfl, rfl⟩
  | d :: ds, c, D, hD, hf, hk, hT => by
    have hD' : Conforming L ((D ++ [d]) ++ ds) := by simpa using hD
    obtain ⟨c1, p1, p2, p3, p4, p5⟩ := put_good hD'.prefix hf hk (hT d (by simp))
    obtain ⟨c2, q1, q2, q3, q4, q5⟩ := putAll_good hD' p2 p3 (fun e he => hT e (List.mem_cons_of_mem _ he))
    refine ⟨c2, ?_, by simpa using q2, by simpa using q3, by rw [q4, p4], by rw [q5, p5]⟩
    intro rest
    simp only [List.cons_append, putAll, p1, Res.andThen]
    exact q1 rest

/-- Outside of calls. -/
def Ready (L : Lib C) (T : String → Prop) (c : Conn) (D : List (Datum C)) : Prop :=
  Has L T c.file D ∧ Knows L T c D ∧ c.inTx = false ∧ c.saved = c.file

theorem notify_good {L : Lib C} {T : String → Prop} {ds : List (Datum C)} {c : Conn} {D : List (Datum C)}
    (hD : Conforming L (D ++ ds)) (hc : Ready L T c D) (hT : ∀ d ∈ ds, T d.title) :
    ∃ c', notify L c ds = some (c', .ok ()) ∧ Ready L T c' (D ++ ds) := by
  obtain ⟨hf, hk, hi, hs⟩ := hc
  obtain ⟨c1, p1, p2, p3, -, -⟩ := putAll_good (c := { c with inTx := true }) hD hf hk hT
  refine ⟨c1.commit, ?_, p2, p3, rfl, rfl⟩
  have := p1 []
  rw [List.append_nil] at this
  simp [notify, hi, this, putAll]

theorem notifyAll_good {L : Lib C} {T : String → Prop} : ∀ {s : List (List (Datum C))} {c : Conn}
    {D : List (Datum C)}, Conforming L (D ++ s.flatten) → Ready L T c D → (∀ d ∈ s.flatten, T d.title) →
    ∃ c', notifyAll L c s = some (c', .ok ()) ∧ Ready L T c' (D ++ s.flatten)
  | [], c, D, _, hc, _ => ⟨c, rfl, by simpa using hc⟩
  | ds :: s, c, D, hD, hc, hT => by
    have hD' : Conforming L ((D ++ ds) ++ s.flatten) := by simpa using hD
    obtain ⟨c1, p1, p2⟩ := notify_good hD'.prefix hc (fun d hd => hT d (by simp [hd]))
    obtain ⟨c2, q1, q2⟩ := notifyAll_good hD' p2 (fun d hd => hT d (by
      rw [List.flatten_cons]; exact List.mem_append_right _ hd))
    exact ⟨c2, by simp [notifyAll, p1, Res.andThen, q1], by simpa using q2⟩

theorem ready_new {L : Lib C} {T : String → Prop} {f : File} {D : List (Datum C)} (h : Has L T f D) :
    Ready L T (Conn.new f) D := ⟨h, fun _ _ => ⟨rfl, Or.inl rfl⟩, rfl, rfl⟩

theorem sessions_good {L : Lib C} {T : String → Prop} : ∀ {ss : List (List (List (Datum C)))} {f : File}
    {D : List (Datum C)}, Conforming L (D ++ ss.flatten.flatten) → Has L T f D →
    (∀ d ∈ ss.flatten.flatten, T d.title) →
    ∃ f', sessions L f ss = some (.ok f') ∧ Has L T f' (D ++ ss.flatten.flatten)
  | [], f, D, _, hf, _ => ⟨f, rfl, by simpa using hf⟩
  | s :: ss, f, D, hD, hf, hT => by
    have hD' : Conforming L ((D ++ s.flatten) ++ ss.flatten.flatten) := by simpa using hD
    have hT' : ∀ d, d ∈ s.flatten ∨ d ∈ ss.flatten.flatten → T d.title := fun d hd => hT d (by
      rw [List.flatten_cons, List.flatten_append]; exact List.mem_append.mpr hd)
    obtain ⟨c1, p1, p2⟩ := notifyAll_good hD'.prefix (ready_new hf) (fun d hd => hT' d (Or.inl hd))
    have hs : Has L T c1.saved (D ++ s.flatten) := by rw [p2.2.2.2]; exact p2.1
    obtain ⟨f', q1, q2⟩ := sessions_good hD' hs (fun d hd => hT' d (Or.inr hd))
    exact ⟨f', by simp [sessions, p1, q1], by simpa using q2⟩

theorem has_empty (L : Lib C) (T : String → Prop) : Has L T File.empty ([] : List (Datum C)) :=
  fun _ _ => ⟨rfl, rfl⟩

theorem readRows_good {L : Lib C} {ts : List DbType} : ∀ {E : List (Datum C)},
    (∀ d ∈ E, Good L d ∧ (sch L d).map Prod.snd = ts) →
    readRows L ts (E.map (row L)) = some (.ok (E.map fun d => d.vals.map Prod.snd))
  | [], _ => rfl
  | d :: E, h => by
    obtain ⟨hg, hs⟩ := h d (by simp)
    obtain ⟨xs, -, -, hr⟩ := bindAll_good L hg.2.2
    have hr' : readRow L ts (row L d) = some (.ok (d.vals.map Prod.snd)) := by rw [← hs]; exact hr
    simp [readRows, hr', readRows_good (E := E) (fun e he => h e (List.mem_cons_of_mem _ he))]

theorem shows_of_has {L : Lib C} {T : String → Prop} {f : File} {D : List (Datum C)} (hD : Conforming L D)
    (hf : Has L T f D) {t : String} (ht : T t) : Shows L f D t := by
  have h0 := hf t ht
  refine ⟨?_, ?_⟩
  · intro hno
    have hE : ofTitle D t = [] := by
      rw [List.eq_nil_iff_forall_not_mem]
      intro d hd
      obtain ⟨h1, h2⟩ := mem_ofTitle.mp hd
      exact hno d h1 h2
    rw [hE] at h0
    simp [query, h0.1]
  · intro d hd hdt
    have hin : d ∈ ofTitle D t := mem_ofTitle.mpr ⟨hd, hdt⟩
    have hall : ∀ e ∈ ofTitle D t, Good L e ∧ (sch L e).map Prod.snd = (sch L d).map Prod.snd := by
      intro e he
      obtain ⟨h1, h2⟩ := mem_ofTitle.mp he
      exact ⟨hD.1 e h1, by rw [sch_eq hD h1 hd (by rw [h2, hdt])]⟩
    cases hE : ofTitle D t with
    | nil => rw [hE] at hin; simp at hin
    | cons e es =>
      have hem : e ∈ ofTitle D t := by rw [hE]; simp
      obtain ⟨h1, h2⟩ := mem_ofTitle.mp hem
      have hse : sch L e = sch L d := sch_eq hD h1 hd (by rw [h2, hdt])
      rw [hE] at h0
      obtain ⟨ha, hb⟩ := h0
      obtain ⟨hne, -, hv⟩ := hD.1 d hd
      obtain ⟨-, t2, t3⟩ := types_good L (vs := d.vals) (fun nv hm => (hv nv hm).1)
      have hsne : (sch L d) ≠ [] := by
        intro h
        apply hne
        have := congrArg List.length t2
        unfold sch at h
        rw [h] at this
        exact List.length_eq_zero_iff.mp (by simpa using this.symm)
      have hinfo : (f.types.filter (·.1 = t)).map Prod.snd = sch L d := by
        rw [ha, hse, List.map_map]
        exact List.map_id _
      have hrows : readRows L ((sch L d).map Prod.snd) ((e :: es).map (row L)) =
          some (.ok ((e :: es).map fun d => d.vals.map Prod.snd)) := by
        rw [← hE]; exact readRows_good hall
      refine ⟨⟨(sch L d).map Prod.fst, (sch L d).map Prod.snd, (e :: es).map fun d => d.vals.map Prod.snd⟩,
        ?_, ?_, by simp, ?_⟩
      · simp only [query, hinfo, hsne, if_false, hb, hrows]
      · have : shape L d = (sch L d).map (fun nt => (nt.1, meaning nt.2)) := t3.symm
        rw [this, List.map_map]
        generalize sch L d = l
        induction l with
        | nil => rfl
        | cons p l ih => simpa using ih
      · rw [← hE]; rfl

/-! ## Exceptions -/

/-- The call of a datum with a value that is not supported, in a session that has not written the title. -/
theorem put_bad {L : Lib C} {T : String → Prop} {c : Conn} {D : List (Datum C)} {d : Datum C}
    (hf : Has L T c.file D) (hk : Knows L T c D) (hs : c.stmts d.title = none)
    (hb : ∃ nv ∈ d.vals, ¬ Supported (nv.2.ty L)) (hT : T d.title → c.names d.title = true) :
    ∃ c', put L c d = some (c', .error .value) ∧ Has L T c'.file D ∧ Knows L T c' D := by
  have hne : d.vals ≠ [] := by
    rintro h
    rw [h] at hb
    simp at hb
  have hty := types_bad L hb
  by_cases hn : c.names d.title = true
  · refine ⟨c, ?_, hf, hk⟩
    simp [put, hn, Res.andThen, hs, buildStmt, hne, hty]
  · have hn' : ¬ T d.title := fun h => hn (hT h)
    have hn'' : c.names d.title = false := by simpa using hn
    simp only [put, hn'', Bool.false_eq_true, if_false, createTable, hne, hty, Res.andThen]
    refine ⟨_, rfl, ?_, ?_⟩
    · intro t ht
      have htd : t ≠ d.title := by rintro rfl; exact hn' ht
      have h0 := hf t ht
      have hfil : ∀ l : List (String × DbType),
          (c.file.types ++ l.map fun nt => (d.title, nt)).filter (·.1 = t) =
            c.file.types.filter (·.1 = t) := by
        intro l
        rw [List.filter_append]
        refine List.append_right_eq_self.mpr ?_
        rw [List.filter_eq_nil_iff]
        intro p hp
        obtain ⟨q, -, rfl⟩ := List.mem_map.mp hp
        simpa using fun h => htd h.symm
      cases hE : ofTitle D t with
      | nil =>
        rw [hE] at h0
        exact ⟨by simpa [hfil] using h0.1, h0.2⟩
      | cons e es =>
        rw [hE] at h0
        exact ⟨by simpa [hfil] using h0.1, h0.2⟩
    · intro t ht
      have htd : t ≠ d.title := by rintro rfl; exact hn' ht
      obtain ⟨k1, k2⟩ := hk t ht
      exact ⟨by simp [Function.update_of_ne htd, k1], k2⟩

/-- A call does not touch what is committed, stays in the transaction and makes no statement
for the titles with `P`. -/
def Stays (P : String → Prop) (c : Conn) (r : Res) : Prop :=
  ∀ c' e, r = some (c', e) → c'.inTx = c.inTx ∧ c'.saved = c.saved ∧ ∀ t, P t → c'.stmts t = c.stmts t

theorem Stays.self (P : String → Prop) (c : Conn) (e : Except Err Unit)     : Stays P c (some (c, e)) := by
  rintro c' e' h
  simp only [Option.some.injEq, Prod.mk.injEq] at h
  obtain ⟨rfl, -⟩ := h
  exact ⟨rfl, rfl, fun _ _ => rfl⟩

theorem Stays.andThen {P : String → Prop} {c : Conn} {r : Res} {f : Conn → Res} (h : Stays P c r)
    (hf : ∀ c', Stays P c' (f c')) : Stays P c (Res.andThen r f) := by
  intro c' e he
  rcases r with _ | ⟨c1, e1 | ⟨⟨⟩⟩⟩
  · exact h _ _ he
  · exact h _ _ he
  · obtain ⟨a1, a2, a3⟩ := h _ _ rfl
    obtain ⟨b1, b2, b3⟩ := hf c1 _ _ he
    exact ⟨by rw [b1, a1], by rw [b2, a2], fun t ht => by rw [b3 t ht, a3 t ht]⟩

theorem stays_put (L : Lib C) (c : Conn) (d : Datum C) :
    Stays (· ≠ d.title) c (put L c d) := by
  unfold put
  refine Stays.andThen ?_ fun c1 => Stays.andThen ?_ fun c2 => ?_
  · split
    · exact Stays.self _ _ _
    · intro c' e he
      unfold createTable at he
      split at he
      · exact absurd he (by simp)
      · dsimp only at he
        split at he
        · simp only [Option.some.injEq, Prod.mk.injEq] at he
          obtain ⟨rfl, -⟩ := he
          exact ⟨rfl, rfl, fun _ _ => rfl⟩
        · split at he <;>
          · simp only [Option.some.injEq, Prod.mk.injEq] at he
            obtain ⟨rfl, -⟩ := he
            exact ⟨rfl, rfl, fun _ _ => rfl⟩
  · split
    · exact Stays.self _ _ _
    · intro c' e he
      unfold buildStmt at he
      split at he
      · exact absurd he (by simp)
      · dsimp only at he
        split at he
        · simp only [Option.some.injEq, Prod.mk.injEq] at he
          obtain ⟨rfl, -⟩ := he
          exact ⟨rfl, rfl, fun _ _ => rfl⟩
        · split at he
          · simp only [Option.some.injEq, Prod.mk.injEq] at he
            obtain ⟨rfl, -⟩ := he
            exact ⟨rfl, rfl, fun _ _ => rfl⟩
          · split at he <;>
            · simp only [Option.some.injEq, Prod.mk.injEq] at he
              obtain ⟨rfl, -⟩ := he
              exact ⟨rfl, rfl, fun t ht => by simp [Function.update_of_ne ht]⟩
  · intro c' e he
    unfold writeDatum at he
    split at he
    · split at he
      · exact absurd he (by simp)
      · simp only [Option.some.injEq, Prod.mk.injEq] at he
        obtain ⟨rfl, -⟩ := he
        exact ⟨rfl, rfl, fun _ _ => rfl⟩
      · simp only [Option.some.injEq, Prod.mk.injEq] at he
        obtain ⟨rfl, -⟩ := he
        exact ⟨rfl, rfl, fun _ _ => rfl⟩
    · exact absurd he (by simp)

theorem Stays.mono {P Q : String → Prop} {c : Conn} {r : Res} (h : Stays P c r) (hPQ : ∀ t, Q t → P t) :
    Stays Q c r := fun c' e he =>
  have ⟨h1, h2, h3⟩ := h c' e he
  ⟨h1, h2, fun t ht => h3 t (hPQ t ht)⟩

theorem stays_putAll (L : Lib C) : ∀ (ds : List (Datum C)) (c : Conn),
    Stays (fun t => ∀ d ∈ ds, d.title ≠ t) c (putAll L c ds)
  | [], c => Stays.self _ c _
  | d :: ds, c => Stays.andThen ((stays_put L c d).mono fun t ht => (ht d (by simp)).symm) fun c' =>
      (stays_putAll L ds c').mono fun t ht e he => ht e (by simp [he])

theorem notify_stmts (L : Lib C) {ds : List (Datum C)} {c c' : Conn} {e : Except Err Unit}
    (h : notify L c ds = some (c', e)) {t : String} (ht : ∀ d ∈ ds, d.title ≠ t) :
    c'.stmts t = c.stmts t := by
  unfold notify at h
  split at h
  · simp only [Option.some.injEq, Prod.mk.injEq] at h
    rw [h.1]
  · have hst := stays_putAll L ds { c with inTx := true }
    split at h
    · exact absurd h (by simp)
    all_goals
      rename_i hp
      obtain ⟨-, -, a3⟩ := hst _ _ hp
      simp only [Option.some.injEq, Prod.mk.injEq] at h
      obtain ⟨rfl, -⟩ := h
      exact a3 t ht

theorem notifyAll_stmts (L : Lib C) : ∀ {s : List (List (Datum C))} {c c' : Conn} {e : Except Err Unit},
    notifyAll L c s = some (c', e) → ∀ {t : String}, (∀ d ∈ s.flatten, d.title ≠ t) →
    c'.stmts t = c.stmts t
  | [], c, c', e, h, t, _ => by
    simp only [notifyAll, Option.some.injEq, Prod.mk.injEq] at h
    rw [h.1]
  | ds :: s, c, c', e, h, t, ht => by
    have h1 : ∀ d ∈ ds, d.title ≠ t := fun d hd => ht d (by simp [hd])
    have h2 : ∀ d ∈ s.flatten, d.title ≠ t := fun d hd => ht d (by
      rw [List.flatten_cons]; exact List.mem_append_right _ hd)
    simp only [notifyAll] at h
    rcases hn : notify L c ds with _ | ⟨c1, e1 | ⟨⟨⟩⟩⟩
    · rw [hn] at h
      exact absurd h (by simp [Res.andThen])
    · rw [hn] at h
      simp only [Res.andThen, Option.some.injEq, Prod.mk.injEq] at h
      obtain ⟨rfl, -⟩ := h
      exact notify_stmts L hn h1
    · rw [hn] at h
      rw [notifyAll_stmts L (s := s) h h2, notify_stmts L hn h1]

namespace C106

/-! ## The theorems -/

/-- **C106** (partial): whatever data are written by whatever number of backends on the same file, one
after the other, if the values can be kept and data with the same title have the same names and types, then
no call throws, and afterwards a query of any title returns the names, the types and the values of all data
with this title in the order in which they were written.  Missing: NaN (`C106_fails_nan`), texts with NUL
(`C106_fails_nul`), names in another order (`C106_fails_order`) and other types for the same title
(`C106_fails_type`, `C106_fails_cast`). -/
theorem C106_rows_partial (L : Lib C) (ss : List (List (List (Datum C))))
    (hD : Conforming L ss.flatten.flatten) :
    ∃ f, sessions L File.empty ss = some (.ok f) ∧ ∀ t, Shows L f ss.flatten.flatten t := by
  obtain ⟨f, h1, h2⟩ := sessions_good (L := L) (T := fun _ => True) (D := []) (f := File.empty)
    (by simpa using hD) (has_empty L _) (fun _ _ => trivial)
  rw [List.nil_append] at h2
  exact ⟨f, h1, fun t => shows_of_has hD h2 trivial⟩

/-- **C106**: a value of a type without number, in a datum whose title was not written before by the same
backend, makes the call throw `ValueError`; everything before it is saved, also from the same call, and
calls with other titles afterwards work as before. -/
theorem C106_unsupported (L : Lib C) (ss : List (List (List (Datum C)))) (s : List (List (Datum C)))
    (ds : List (Datum C)) (bad : Datum C) (rest : List (Datum C)) (after : List (List (Datum C)))
    (hD : Conforming L (ss.flatten.flatten ++ s.flatten ++ ds ++ after.flatten))
    (hnew : ∀ d ∈ s.flatten ++ ds ++ after.flatten, d.title ≠ bad.title)
    (hbad : ∃ nv ∈ bad.vals, ¬ Supported (nv.2.ty L)) :
    ∃ f c c' c'', sessions L File.empty ss = some (.ok f) ∧
      notifyAll L (Conn.new f) s = some (c, .ok ()) ∧
      notify L c (ds ++ bad :: rest) = some (c', .error .value) ∧
      (∀ t, t ≠ bad.title ∨ (∃ d ∈ ss.flatten.flatten, d.title = t) →
        Shows L c'.saved (ss.flatten.flatten ++ s.flatten ++ ds) t) ∧
      notifyAll L c' after = some (c'', .ok ()) ∧
      (∀ t, t ≠ bad.title ∨ (∃ d ∈ ss.flatten.flatten, d.title = t) →
        Shows L c''.saved (ss.flatten.flatten ++ s.flatten ++ ds ++ after.flatten) t) := by
  let T : String → Prop := fun t => t ≠ bad.title ∨ ∃ d ∈ ss.flatten.flatten, d.title = t
  have hT : ∀ d, d ∈ s.flatten ∨ d ∈ ds ∨ d ∈ after.flatten → T d.title := by
    intro d hd
    refine Or.inl (hnew d ?_)
    rcases hd with h | h | h <;> simp only [List.mem_append, h, true_or, or_true]
  obtain ⟨f, h1, h2⟩ := sessions_good (L := L) (T := T) (D := []) (f := File.empty) (ss := ss)
    (by simpa using hD.prefix.prefix.prefix) (has_empty L _) (fun d hd => Or.inr ⟨d, hd, rfl⟩)
  rw [List.nil_append] at h2
  obtain ⟨c, h3, h4⟩ := notifyAll_good hD.prefix.prefix (ready_new h2) (fun d hd => hT d (Or.inl hd))
  obtain ⟨r1, r2, r3, r4⟩ := h4
  obtain ⟨c1, p1, p2, p3, -, -⟩ := putAll_good (c := { c with inTx := true }) hD.prefix r1 r2
    (fun d hd => hT d (Or.inr (Or.inl hd)))
  have hst : c1.stmts bad.title = none := by
    have hp := stays_putAll L ds { c with inTx := true }
    have hp1 := p1 []
    rw [List.append_nil] at hp1
    obtain ⟨-, -, a3⟩ := hp c1 _ hp1
    rw [a3 bad.title fun d hd => hnew d (by simp [hd])]
    exact notifyAll_stmts L h3 fun d hd => hnew d (by
      rw [List.append_assoc]; exact List.mem_append_left _ hd)
  obtain ⟨c2, q1, q2, q3⟩ := put_bad p2 p3 hst hbad (by
    intro ht
    rw [(p3 _ ht).1]
    have h0 := p2 _ ht
    rcases ht with ht | ⟨d, hd, hdt⟩
    · exact absurd rfl ht
    · have hin : d ∈ ofTitle (ss.flatten.flatten ++ s.flatten ++ ds) bad.title :=
        mem_ofTitle.mpr ⟨List.mem_append_left _ (List.mem_append_left _ hd), hdt⟩
      cases hE : ofTitle (ss.flatten.flatten ++ s.flatten ++ ds) bad.title with
      | nil => rw [hE] at hin; simp at hin
      | cons e es =>
        rw [hE] at h0
        rw [h0.2]
        rfl)
  have hready : Ready L T c2.commit (ss.flatten.flatten ++ s.flatten ++ ds) := ⟨q2, q3, rfl, rfl⟩
  obtain ⟨c3, r5, r6, r7, r8, r9⟩ := notifyAll_good hD hready (fun d hd => hT d (Or.inr (Or.inr hd)))
  refine ⟨f, c, c2.commit, c3, h1, h3, ?_, fun t ht => shows_of_has hD.prefix q2 ht, r5,
    fun t ht => ?_⟩
  · simp only [notify, r3, Bool.false_eq_true, if_false, p1, putAll, q1, Res.andThen]
  · rw [r9]
    exact shows_of_has hD r6 ht

/-- **C106**: if a call throws anything but `ValueError`, nothing of it is saved, and every later call on
the same backend throws `IOError` and saves nothing: the transaction is never ended. -/
theorem C106_stuck (L : Lib C) (c c' : Conn) (ds : List (Datum C)) (e : Err) (he : e ≠ .value)
    (h : notify L c ds = some (c', .error e)) (hi : c.inTx = false) :
    c'.saved = c.saved ∧ ∀ ds', notify L c' ds' = some (c', .error .io) := by
  unfold notify at h
  rw [hi] at h
  simp only [Bool.false_eq_true, if_false] at h
  have hst := stays_putAll L ds { c with inTx := true }
  split at h
  · exact absurd h (by simp)
  · exact absurd h (by simp)
  · simp only [Option.some.injEq, Prod.mk.injEq, Except.error.injEq] at h
    exact absurd h.2.symm he
  · rename_i c1 e1 _ hp
    simp only [Option.some.injEq, Prod.mk.injEq, Except.error.injEq] at h
    obtain ⟨rfl, rfl⟩ := h
    obtain ⟨a1, a2, -⟩ := hst _ _ hp
    refine ⟨a2, fun ds' => ?_⟩
    unfold notify
    rw [show c1.inTx = true from a1]
    rfl

/-! ## Where the property fails -/

/-- What is read of a table after several backends. -/
def readBack (L : Lib C) (ss : List (List (List (Datum C)))) (t : String) :
    Option (Except Err (Result C)) :=
  match sessions L File.empty ss with
  | some (.ok f) => query L f t
  | some (.error e) => some (.error e)
  | none => none

/-- The property does not hold for NaN: it is read as 0. -/
theorem C106_fails_nan (L : Lib C) :
    readBack L [[[⟨"t", [("x", .double .nan)]⟩]]] "t" =
      some (.ok ⟨["x"], [.double], [[.double (.fin 0)]]⟩) := rfl

/-- The property does not hold for texts with NUL: only what is before it is kept. -/
theorem C106_fails_nul (L : Lib C) :
    readBack L [[[⟨"t", [("x", .string [97, 0, 98])]⟩]]] "t" =
      some (.ok ⟨["x"], [.string], [[.string [97]]]⟩) := rfl

/-- The property does not hold when names come in another order: the names of all data but the first are
ignored, so that the values are read under each other's names. -/
theorem C106_fails_order (L : Lib C) :
    readBack L [[[⟨"t", [("a", .int 1), ("b", .int 2)]⟩, ⟨"t", [("b", .int 2), ("a", .int 1)]⟩]]] "t" =
      some (.ok ⟨["a", "b"], [.int, .int], [[.int 1, .int 2], [.int 2, .int 1]]⟩) := rfl

/-- The property does not hold when another backend uses another type for a title in the file: nothing is
thrown, and the value is read with the old type. -/
theorem C106_fails_type (L : Lib C) :
    readBack L [[[⟨"t", [("x", .int 1)]⟩]], [[⟨"t", [("x", .double (.fin (5 / 2)))]⟩]]] "t" =
      some (.ok ⟨["x"], [.int], [[.int 1], [.int (low32 (L.realInt (.fin (5 / 2))))]]⟩) := by
  have h : ¬ (5 / 2 : ℚ).den = 1 := by decide +kernel
  have h1 : store L .integer (.real (.fin (5 / 2))) = .real (.fin (5 / 2)) := by simp only [store, h, if_false]
  have h2 : readBack L [[[⟨"t", [("x", .int 1)]⟩]], [[⟨"t", [("x", .double (.fin (5 / 2)))]⟩]]] "t" =
      some (.ok ⟨["x"], [.int],
        [[.int 1], [.int (getInt L (store L .integer (.real (.fin (5 / 2)))))]]⟩) := rfl
  rw [h2, h1]
  rfl

/-- The property does not hold when the same backend is given another type for a title: the cast fails, and
the transaction stays open, so that the data before it in the same call are not saved, and those of all later
calls neither. -/
theorem C106_fails_cast (L : Lib C) :
    ∃ c, notify L (Conn.new File.empty)
        [⟨"u", [("x", .int 7)]⟩, ⟨"t", [("x", .int 1)]⟩, ⟨"t", [("x", .double (.fin 1))]⟩] =
      some (c, .error .cast) ∧ c.saved = File.empty ∧
      ∀ ds, notify L c ds = some (c, .error .io) := by
  refine ⟨_, rfl, rfl, fun ds => rfl⟩

/-- The property does not hold after a value that is not supported either: the title stays in the list of
tables although the table was not made, so that the next datum with this title, now with good values, throws
`IOError` and leaves the transaction open. -/
theorem C106_fails_retry (L : Lib C) (c : C) (hc : L.ty c = .vector .bool) :
    ∃ c' c'', notify L (Conn.new File.empty) [⟨"t", [("x", .int 1), ("y", .cont c)]⟩] =
        some (c', .error .value) ∧
      notify L c' [⟨"t", [("x", .int 1), ("y", .int 2)]⟩] = some (c'', .error .io) ∧
      ∀ ds, notify L c'' ds = some (c'', .error .io) := by
  have hb : types L [("x", .int 1), ("y", .cont c)] = ([("x", .int)], .error .value) := by
    have : typeMap.lookup (.vector .bool) = none := by decide
    simp only [types, typeOf, Val.ty, hc, this]
    rfl
  have h1 : ∃ c', notify L (Conn.new File.empty) [⟨"t", [("x", .int 1), ("y", .cont c)]⟩] =
      some (c', .error .value) ∧ c' = ⟨⟨[("t", "x", .int)], fun _ => none⟩, ⟨[("t", "x", .int)], fun _ => none⟩,
        false, Function.update (fun _ => false) "t" true, fun _ => none⟩ := by
    simp only [notify, Conn.new, Bool.false_eq_true, if_false, putAll, put, File.empty, Option.isSome_none,
      createTable, hb, Res.andThen, reduceCtorEq]
    exact ⟨_, rfl, rfl⟩
  obtain ⟨c', h1, rfl⟩ := h1
  exact ⟨_, _, h1, rfl, fun ds => rfl⟩

/-! ## Examples -/

/-- A library for the examples: containers are `vector<int>`s. -/
def exLib : Lib (List ℕ) where
  ty _ := .vector .int
  ser c := c.map (· + 1)
  des T s := if T = .vector .int then some (s.map (· - 1)) else none
  narrow d := d
  number _ := none
  textInt _ := 0
  realInt _ := 2
  textReal _ := .nan
  shown _ := []

/-- Two titles, two backends, six types of values. -/
def exData : List (List (List (Datum (List ℕ)))) :=
  [[[⟨"t", [("a", .int (-5)), ("b", .double (.inf true)), ("c", .cont [3, 4])]⟩,
     ⟨"u", [("s", .string [104, 105])]⟩],
    [⟨"t", [("a", .int 6), ("b", .double (.fin (1 / 2))), ("c", .cont [])]⟩]],
   [[⟨"u", [("s", .string [])]⟩]]]

/-- The hypothesis of `C106_rows_partial` is met. -/
example : Conforming exLib exData.flatten.flatten := by
  have hs : Supported .int ∧ Supported .double ∧ Supported .string ∧ Supported (.vector .int) :=
    ⟨⟨.int, rfl⟩, ⟨.double, rfl⟩, ⟨.string, rfl⟩, ⟨.vectorInt, rfl⟩⟩
  refine ⟨?_, ?_⟩
  · obtain ⟨s1, s2, s3, s4⟩ := hs
    intro d hd
    simp only [exData, List.flatten_cons, List.flatten_nil, List.append_nil, List.cons_append,
      List.nil_append, List.mem_cons, List.not_mem_nil, or_false] at hd
    rcases hd with rfl | rfl | rfl | rfl <;> refine ⟨by simp, by simp, ?_⟩ <;>
      simp only [List.forall_mem_cons, List.not_mem_nil, false_imp_iff, implies_true, and_true]
    · exact ⟨⟨s1, by simp [Kept]⟩, ⟨s2, by simp [Kept]⟩, ⟨s4, by simp [Kept, exLib, Ty.IsContainer]⟩⟩
    · exact ⟨s3, by simp [Kept]⟩
    · exact ⟨⟨s1, by simp [Kept]⟩, ⟨s2, by simp [Kept]⟩, ⟨s4, by simp [Kept, exLib, Ty.IsContainer]⟩⟩
    · exact ⟨s3, by simp [Kept]⟩
  · simp [exData, shape, Val.ty, exLib]

/-- What is read of them. -/
example : readBack exLib exData "t" = some (.ok ⟨["a", "b", "c"], [.int, .double, .vectorInt],
    [[.int (-5), .double (.inf true), .cont [3, 4]], [.int 6, .double (.fin (1 / 2)), .cont []]]⟩) := by
  decide +kernel

example : readBack exLib exData "u" = some (.ok ⟨["s"], [.string], [[.string [104, 105]], [.string []]]⟩) := by
  decide +kernel

/-- The hypothesis of `C106_unsupported` on the bad datum is met by a `vector<bool>`. -/
example : ∃ nv ∈ [("x", Val.int 1), ("y", Val.cont ([] : List ℕ))],
    ¬ Supported (nv.2.ty { exLib with ty := fun _ => .vector .bool }) := by
  refine ⟨("y", .cont []), by simp, ?_⟩
  rintro ⟨t, ht⟩
  cases t <;> simp [meaning, Val.ty] at ht

/-- The hypothesis of `C106_stuck` is met by a bad cast. -/
example : ∃ c e, e ≠ .value ∧ notify exLib (Conn.new File.empty)
    [⟨"t", [("x", .int 1)]⟩, ⟨"t", [("x", .bool true)]⟩] = some (c, .error e) :=
  ⟨_, .cast, by simp, rfl⟩

end C106

end Cyclus.Sql
