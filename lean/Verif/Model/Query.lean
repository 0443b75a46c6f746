import Verif.Model.Recorder

/-!
# Model of queries

Models `/repo/src/query_backend.h:366-625`, the query and write paths of `/repo/src/sqlite_back.cc`, and
the row selection of `/repo/src/hdf5_back.cc.in`.

* A value (`hold_any`) is an element of a type `V`; its database type is a number, and comparison is a
  parameter, the same for all backends.
* SQLite executes `INSERT` and `SELECT` on tables that are lists of rows, in order of insertion, and
  rejects text that does not follow the grammar of `SELECT`.  Table and column names are single tokens.
* Unsupported types, disk errors and transactions are dropped.
-/

namespace Cyclus.Rec

/-- `CmpOpCode` (`query_backend.h:372-379`). -/
inductive Cmp
  | lt
  | gt
  | le
  | ge
  | eq
  | ne
  deriving DecidableEq, Repr

/-- Values: their database type and how they compare (`CmpCond`, `query_backend.h:585-615`). -/
structure Vals (V : Type) where
  ty : V → ℕ
  cmp : Cmp → V → V → Bool

/-- Models `Cond` (`query_backend.h:382-418`). -/
structure Cond (V : Type) where
  field : String
  op : Cmp
  val : V
  deriving DecidableEq, Repr

/-- Models the constructor of `Cond` (`query_backend.h:386-405`). -/
def Cond.make {V : Type} (field op : String) (val : V) : Except Err (Cond V) :=
  if op = "<" then .ok ⟨field, .lt, val⟩
  else if op = ">" then .ok ⟨field, .gt, val⟩
  else if op = "<=" then .ok ⟨field, .le, val⟩
  else if op = ">=" then .ok ⟨field, .ge, val⟩
  else if op = "==" then .ok ⟨field, .eq, val⟩
  else if op = "!=" then .ok ⟨field, .ne, val⟩
  else .error .value

/-- Models `QueryResult` (`query_backend.h:423-478`). -/
structure QueryResult (V : Type) where
  fields : List String
  types : List ℕ
  rows : List (List V)
  deriving DecidableEq, Repr

/-- Models `QueryResult::GetVal` (`query_backend.h:455-477`) without the cast.  A negative row is
converted to an unsigned number before the comparison.  A row that is shorter than the list of fields is
undefined behaviour. -/
def QueryResult.getVal {V : Type} (q : QueryResult V) (field : String) (row : ℤ) :
    Option (Except Err V) :=
  if q.rows = [] then some (.error .state)
  else if row < 0 ∨ row ≥ q.rows.length then some (.error .key)
  else match q.fields.findIdx? (· == field) with
    | none => some (.error .key)
    | some j => match q.rows[row.toNat]? with
      | none => none
      | some r => (r[j]?).map .ok

/-- A table: names and types of the columns, and rows. -/
structure Table (V : Type) where
  fields : List String
  types : List ℕ
  rows : List (List V)
  deriving DecidableEq, Repr

/-- The tokens of an SQL query. -/
inductive Tok
  | select
  | star
  | from
  | table (name : String)
  | where
  | field (name : String)
  | op (o : Cmp)
  | hole
  | and
  | semi
  deriving DecidableEq, Repr

/-- The text of the query (`sqlite_back.cc:107-119`). -/
def sqlText {V : Type} (table : String) (conds : Option (List (Cond V))) : List Tok :=
  [.select, .star, .from, .table table] ++
  (match conds with
    | none => []
    | some cs => .where :: ((cs.map fun c => [Tok.field c.field, .op c.op, .hole]).intersperse
        [.and]).flatten) ++ [.semi]

/-- The grammar of SQLite for the part after the table: terms joined by `AND`. -/
def parseTerms : List Tok → Option (List (String × Cmp))
  | [.field f, .op o, .hole, .semi] => some [(f, o)]
  | .field f :: .op o :: .hole :: .and :: rest => (parseTerms rest).map ((f, o) :: ·)
  | _ => none

/-- The grammar of `SELECT`; `none` is a syntax error. -/
def parseSql : List Tok → Option (String × List (String × Cmp))
  | [.select, .star, .from, .table t, .semi] => some (t, [])
  | .select :: .star :: .from :: .table t :: .where :: rest => (parseTerms rest).map (t, ·)
  | _ => none

/-- The value of a column in a row. -/
def column {V : Type} (fields : List String) (row : List V) (f : String) : Option V :=
  match fields.findIdx? (· == f) with
  | none => none
  | some j => row[j]?

/-- Members of `SqliteBack`: the tables of the database, and the prepared statements with their schemas
(`stmts_`, `schemas_`).  `tbl_names_` is the set of tables. -/
structure Sqlite (V : Type) where
  tables : String → Option (Table V)
  stmts : String → Option (List ℕ)

/-- An empty database. -/
def Sqlite.empty {V : Type} : Sqlite V := ⟨fun _ => none, fun _ => none⟩

variable {V : Type}

/-- The names of the values of a datum; `none` if one is a dangling pointer. -/
def Datum.names (d : Datum V) : Option (List String) := d.vals.mapM fun v => v.1

/-- Models `CreateTable` (`sqlite_back.cc:205-234`): rows of `FieldTypes` and the table.  A datum
without values is undefined behaviour (`*vals.begin()`); two columns with one name are an SQL error. -/
def Sqlite.createTable (S : Vals V) (q : Sqlite V) (d : Datum V) : Option (Except Err (Sqlite V)) :=
  match d.names with
  | none => none
  | some names =>
    if d.vals = [] then none
    else if ¬ names.Nodup then some (.error .io)
    else some (.ok { q with
      tables := Function.update q.tables d.title (some ⟨names, d.vals.map fun v => S.ty v.2, []⟩) })

/-- Models `BuildStmt` (`sqlite_back.cc:188-203`); the statement is rejected unless the table has as many
columns. -/
def Sqlite.buildStmt (S : Vals V) (q : Sqlite V) (d : Datum V) : Option (Except Err (Sqlite V)) :=
  if d.vals = [] then none
  else match q.tables d.title with
    | none => some (.error .io)
    | some t =>
      if t.fields.length ≠ d.vals.length then some (.error .io)
      else some (.ok { q with
        stmts := Function.update q.stmts d.title (some (d.vals.map fun v => S.ty v.2)) })

/-- Models `WriteDatum` (`sqlite_back.cc:236-247`) with `Bind` (`249-366`): more values than the schema
has are undefined behaviour, a value of another type is a bad cast.  Fewer values leave `NULL`s in the
row, which is not modelled (`none`). -/
def Sqlite.writeDatum (S : Vals V) (q : Sqlite V) (d : Datum V) : Option (Except Err (Sqlite V)) :=
  match q.stmts d.title, q.tables d.title with
  | some schema, some t =>
    if d.vals.length ≠ schema.length then none
    else if (d.vals.map fun v => S.ty v.2) ≠ schema then some (.error .cast)
    else some (.ok { q with
      tables := Function.update q.tables d.title
        (some { t with rows := t.rows ++ [d.vals.map Prod.snd] }) })
  | _, _ => none

/-- The body of the loop in `Notify` (`sqlite_back.cc:75-82`). -/
def Sqlite.put (S : Vals V) (q : Sqlite V) (d : Datum V) : Option (Except Err (Sqlite V)) :=
  let q1 := if (q.tables d.title).isNone then q.createTable S d else some (.ok q)
  match q1 with
  | none => none
  | some (.error e) => some (.error e)
  | some (.ok q1) =>
    let q2 := if (q1.stmts d.title).isNone then q1.buildStmt S d else some (.ok q1)
    match q2 with
    | none => none
    | some (.error e) => some (.error e)
    | some (.ok q2) => q2.writeDatum S d

/-- Models `Notify` (`sqlite_back.cc:71-90`). -/
def Sqlite.notify (S : Vals V) (q : Sqlite V) : List (Datum V) → Option (Except Err (Sqlite V))
  | [] => some (.ok q)
  | d :: ds => match q.put S d with
    | some (.ok q') => q'.notify S ds
    | r => r

/-- Whether a row satisfies a term of the query. -/
def sqlTerm (S : Vals V) (fields : List String) (row : List V) (term : String × Cmp) (v : V) : Bool :=
  match column fields row term.1 with
  | none => false
  | some x => S.cmp term.2 x v

/-- Models `Query` (`sqlite_back.cc:104-138`): an unknown table is a `ValueError`; SQL errors, such as
unknown columns, are an `IOError`. -/
def Sqlite.query (S : Vals V) (q : Sqlite V) (table : String) (conds : Option (List (Cond V))) :
    Except Err (QueryResult V) :=
  match q.tables table with
  | none => .error .value
  | some t => match parseSql (sqlText table conds) with
    | none => .error .io
    | some (_, terms) =>
      if terms.all fun m => m.1 ∈ t.fields then
        .ok ⟨t.fields, t.types, t.rows.filter fun row =>
          (terms.zip ((conds.getD []).map Cond.val)).all fun m => sqlTerm S t.fields row m.1 m.2⟩
      else .error .io

/-- Models `CmpConds` (`query_backend.h:617-625`) on one value. -/
def cmpConds (S : Vals V) (x : V) : List (Cond V) → Bool
  | [] => true
  | c :: cs => if ¬ S.cmp c.op x c.val then false else cmpConds S x cs

/-- The loop over the columns of a row (`hdf5_back.cc.in:226-237`, generated code
`hdf5_back_gen.py:1071-1080`): the row is kept while each value satisfies the conditions on its
column. -/
def hdf5Row (S : Vals V) (conds : List (Cond V)) : List String → List V → Bool
  | f :: fs, x :: xs => if cmpConds S x (conds.filter fun c => c.field = f) then hdf5Row S conds fs xs
    else false
  | _, _ => true

/-- Models `Hdf5Back::Query` (`hdf5_back.cc.in:163-250`) for an existing table. -/
def hdf5Query (S : Vals V) (t : Option (Table V)) (conds : Option (List (Cond V))) :
    Except Err (QueryResult V) :=
  match t with
  | none => .error .io
  | some t => .ok ⟨t.fields, t.types, t.rows.filter fun row => hdf5Row S (conds.getD []) t.fields row⟩

/-- Interface `QueryableBackend` (`query_backend.h:495-512`). -/
structure Queryable (V : Type) where
  query : String → Option (List (Cond V)) → Except Err (QueryResult V)
  columnTypes : String → Except Err (List (String × ℕ))

/-- Models `CondInjector` (`query_backend.h:522-553`). -/
def condInjector (b : Queryable V) (inject : List (Cond V)) : Queryable V where
  query := fun table conds => match conds with
    | none => b.query table (some inject)
    | some cs => b.query table (some (cs ++ inject))
  columnTypes := b.columnTypes

/-- Models `PrefixInjector` (`query_backend.h:559-582`). -/
def prefixInjector (b : Queryable V) (pre : String) : Queryable V where
  query := fun table conds => b.query (pre ++ table) conds
  columnTypes := b.columnTypes

/-- `SqliteBack` as `QueryableBackend`; `ColumnTypes` is `sqlite_back.cc:140-146`. -/
def Sqlite.queryable (S : Vals V) (q : Sqlite V) : Queryable V where
  query := q.query S
  columnTypes := fun table => match q.tables table with
    | none => .error .value
    | some t => .ok (t.fields.zip t.types)

end Cyclus.Rec
