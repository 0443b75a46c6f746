import Verif.Model.Basic
import Mathlib.Logic.Function.Basic

/-!
# Model of how values are kept in SQLite

Models `Notify`, `CreateTable`, `BuildStmt`, `WriteDatum`, `Bind`, `ColAsVal`, `SqlType`, `Type`,
`GetTableInfo` and `Query` without conditions of `/repo/src/sqlite_back.cc`, on top of
`/repo/src/sqlite_db.cc`.  C30 has the conditions of queries; here are the values, the transactions and
databases that are opened again.

* Of SQLite are modelled: storage classes, the affinities of columns, the conversions of
  `sqlite3_column_*`, `NULL` for a bound NaN, transactions, and the errors for nested transactions,
  missing tables, duplicate columns and wrong numbers of values.  How numbers and texts are converted into
  each other is arbitrary (`Lib`).
* Texts are lists of bytes; 0 is the NUL that ends a C string.  Names of tables and columns are compared
  as they are, while SQLite does not distinguish case.
* Containers are elements of an arbitrary type; how Boost writes them to XML and reads them is arbitrary
  (`Lib`).
* The number of a type in `FieldTypes` is the type.
* Names of tables and columns are names in SQL, and no datum has the title `FieldTypes`.
* Uncommitted changes are not seen after the connection is gone.
* Undefined behaviour (data without values, more values than the first datum of a table has, `NULL`
  texts) is `none`.
-/

namespace Cyclus.Sql

/-- C++ types of values. -/
inductive Ty
  | bool
  | int
  | float
  | double
  | string
  | blob
  | uuid
  | vector (t : Ty)
  | set (t : Ty)
  | list (t : Ty)
  | map (k v : Ty)
  | pair (a b : Ty)
  deriving DecidableEq, Repr

/-- The members of `enum DbTypes` (`query_backend.h:28-348`) that `SqliteBack` knows. -/
inductive DbType
  | int
  | double
  | float
  | bool
  | blob
  | uuid
  | string
  | setInt
  | setString
  | vectorInt
  | vectorDouble
  | vectorString
  | listInt
  | listString
  | mapIntInt
  | mapIntDouble
  | mapIntString
  | mapStringInt
  | mapStringDouble
  | mapStringString
  | mapStringVectorDouble
  | mapStringMapIntDouble
  | mapStringPairDoubleMapIntDouble
  | mapIntMapStringDouble
  | mapStringVectorPairIntPairStringString
  | mapStringPairStringVectorDouble
  | mapStringMapStringInt
  | listPairIntInt
  | vectorPairPairDoubleDoubleMapStringDouble
  | mapPairStringStringInt
  | mapStringMapStringDouble
  deriving DecidableEq, Repr

/-- `type_map` (`sqlite_back.cc:509-567`). -/
def typeMap : List (Ty × DbType) := [
  (.int, .int),
  (.double, .double),
  (.float, .float),
  (.bool, .bool),
  (.blob, .blob),
  (.uuid, .uuid),
  (.string, .string),
  (.set .int, .setInt),
  (.set .string, .setString),
  (.vector .int, .vectorInt),
  (.vector .double, .vectorDouble),
  (.vector .string, .vectorString),
  (.list .int, .listInt),
  (.list .string, .listString),
  (.map .int .int, .mapIntInt),
  (.map .int .double, .mapIntDouble),
  (.map .int .string, .mapIntString),
  (.map .string .int, .mapStringInt),
  (.map .string .double, .mapStringDouble),
  (.map .string .string, .mapStringString),
  (.map .string (.vector .double), .mapStringVectorDouble),
  (.map .string (.map .int .double), .mapStringMapIntDouble),
  (.map .string (.pair .double (.map .int .double)), .mapStringPairDoubleMapIntDouble),
  (.map .int (.map .string .double), .mapIntMapStringDouble),
  (.map .string (.vector (.pair .int (.pair .string .string))), .mapStringVectorPairIntPairStringString),
  (.map .string (.pair .string (.vector .double)), .mapStringPairStringVectorDouble),
  (.map .string (.map .string .int), .mapStringMapStringInt),
  (.list (.pair .int .int), .listPairIntInt),
  (.vector (.pair (.pair .double .double) (.map .string .double)), .vectorPairPairDoubleDoubleMapStringDouble),
  (.map (.pair .string .string) .int, .mapPairStringStringInt),
  (.map .string (.map .string .double), .mapStringMapStringDouble)]

/-- The uses of `CYCLUS_BINDVAL` in `Bind` (`sqlite_back.cc:304-358`). -/
def bindMap : List (DbType × Ty) := [
  (.setInt, .set .int),
  (.setString, .set .string),
  (.listInt, .list .int),
  (.listString, .list .string),
  (.vectorInt, .vector .int),
  (.vectorDouble, .vector .double),
  (.vectorString, .vector .string),
  (.mapIntDouble, .map .int .double),
  (.mapIntInt, .map .int .int),
  (.mapIntString, .map .int .string),
  (.mapStringInt, .map .string .int),
  (.mapStringDouble, .map .string .double),
  (.mapStringString, .map .string .string),
  (.mapStringVectorDouble, .map .string (.vector .double)),
  (.mapStringMapIntDouble, .map .string (.map .int .double)),
  (.mapStringPairDoubleMapIntDouble, .map .string (.pair .double (.map .int .double))),
  (.mapIntMapStringDouble, .map .int (.map .string .double)),
  (.mapStringVectorPairIntPairStringString, .map .string (.vector (.pair .int (.pair .string .string)))),
  (.mapStringPairStringVectorDouble, .map .string (.pair .string (.vector .double))),
  (.listPairIntInt, .list (.pair .int .int)),
  (.mapStringMapStringInt, .map .string (.map .string .int)),
  (.vectorPairPairDoubleDoubleMapStringDouble, .vector (.pair (.pair .double .double) (.map .string .double))),
  (.mapPairStringStringInt, .map (.pair .string .string) .int),
  (.mapStringMapStringDouble, .map .string (.map .string .double))]

/-- The uses of `CYCLUS_LOADVAL` in `ColAsVal` (`sqlite_back.cc:417-471`). -/
def loadMap : List (DbType × Ty) := [
  (.setInt, .set .int),
  (.setString, .set .string),
  (.listInt, .list .int),
  (.listString, .list .string),
  (.vectorInt, .vector .int),
  (.vectorDouble, .vector .double),
  (.vectorString, .vector .string),
  (.mapIntDouble, .map .int .double),
  (.mapIntInt, .map .int .int),
  (.mapIntString, .map .int .string),
  (.mapStringDouble, .map .string .double),
  (.mapStringInt, .map .string .int),
  (.mapStringString, .map .string .string),
  (.mapStringVectorDouble, .map .string (.vector .double)),
  (.mapStringMapIntDouble, .map .string (.map .int .double)),
  (.mapStringPairDoubleMapIntDouble, .map .string (.pair .double (.map .int .double))),
  (.mapIntMapStringDouble, .map .int (.map .string .double)),
  (.mapStringVectorPairIntPairStringString, .map .string (.vector (.pair .int (.pair .string .string)))),
  (.mapStringPairStringVectorDouble, .map .string (.pair .string (.vector .double))),
  (.listPairIntInt, .list (.pair .int .int)),
  (.mapStringMapStringInt, .map .string (.map .string .int)),
  (.vectorPairPairDoubleDoubleMapStringDouble, .vector (.pair (.pair .double .double) (.map .string .double))),
  (.mapPairStringStringInt, .map (.pair .string .string) .int),
  (.mapStringMapStringDouble, .map .string (.map .string .double))]

/-- A `double`. -/
inductive Dbl
  | fin (q : ℚ)
  | inf (neg : Bool)
  | nan
  deriving DecidableEq, Repr

/-- A `hold_any`. -/
inductive Val (C : Type)
  | bool (b : Bool)
  | int (z : ℤ)
  | float (d : Dbl)
  | double (d : Dbl)
  | string (s : List ℕ)
  | blob (s : List ℕ)
  | uuid (s : List ℕ)
  | cont (c : C)
  deriving DecidableEq, Repr

/-- A value in the database: its storage class. -/
inductive Stored
  | null
  | int (z : ℤ)
  | real (d : Dbl)
  | text (s : List ℕ)
  | blob (s : List ℕ)
  deriving DecidableEq, Repr

/-- What the libraries do: the types of containers, how they are written to XML and read (`none`: an
exception), the conversion of `double` to `float`, the number that a text in a column for numbers is
replaced by, texts and doubles read as integers, texts read as doubles, and numbers written as text. -/
structure Lib (C : Type) where
  ty : C → Ty
  ser : C → List ℕ
  des : Ty → List ℕ → Option C
  narrow : Dbl → Dbl
  number : List ℕ → Option Stored
  textInt : List ℕ → ℤ
  realInt : Dbl → ℤ
  textReal : List ℕ → Dbl
  shown : Stored → List ℕ

variable {C : Type}

/-- `v.type()`. -/
def Val.ty (L : Lib C) : Val C → Ty
  | .bool _ => .bool
  | .int _ => .int
  | .float _ => .float
  | .double _ => .double
  | .string _ => .string
  | .blob _ => .blob
  | .uuid _ => .uuid
  | .cont c => L.ty c

/-- `Type` (`sqlite_back.cc:508-574`). -/
def typeOf (L : Lib C) (v : Val C) : Except Err DbType :=
  match typeMap.lookup (v.ty L) with
  | none => .error .value
  | some t => .ok t

/-- What `c_str()` shows of a text. -/
def cstr (s : List ℕ) : List ℕ := s.takeWhile (· ≠ 0)

/-- `sqlite3_bind_double`: NaN is `NULL`. -/
def bindDouble : Dbl → Stored
  | .nan => .null
  | d => .real d

/-- `Bind` (`sqlite_back.cc:249-366`).  `cast` of a value of another type throws. -/
def bind (L : Lib C) (t : DbType) (v : Val C) : Except Err Stored :=
  match t with
  | .int => match v with
    | .int z => .ok (.int z)
    | _ => .error .cast
  | .bool => match v with
    | .bool b => .ok (.int (if b then 1 else 0))
    | _ => .error .cast
  | .double => match v with
    | .double d => .ok (bindDouble d)
    | _ => .error .cast
  | .float => match v with
    | .float d => .ok (bindDouble d)
    | _ => .error .cast
  | .blob => match v with
    | .blob s => .ok (.blob s)
    | _ => .error .cast
  | .string => match v with
    | .string s => .ok (.text (cstr s))
    | _ => .error .cast
  | .uuid => match v with
    | .uuid s => .ok (.blob s)
    | _ => .error .cast
  | t => match bindMap.lookup t with
    | none => .error .value
    | some T => match v with
      | .cont c => if L.ty c = T then .ok (.blob (L.ser c)) else .error .cast
      | _ => .error .cast

/-- Affinities of columns. -/
inductive Aff
  | integer
  | real
  | text
  | blob
  deriving DecidableEq, Repr

/-- `SqlType` (`sqlite_back.cc:483-498`), which determines the affinity of a column. -/
def aff : DbType → Aff
  | .int => .integer
  | .bool => .integer
  | .double => .real
  | .float => .real
  | .string => .text
  | _ => .blob

/-- What SQLite stores in a column for a bound value. -/
def store (L : Lib C) : Aff → Stored → Stored
  | .integer, .real (.fin q) => if q.den = 1 then .int q.num else .real (.fin q)
  | .integer, .text s => (L.number s).getD (.text s)
  | .real, .int z => .real (.fin z)
  | .real, .text s => match L.number s with
    | none => .text s
    | some (.int z) => .real (.fin z)
    | some x => x
  | .text, .int z => .text (L.shown (.int z))
  | .text, .real d => .text (L.shown (.real d))
  | _, x => x

/-- The lower 32 bits as a signed number. -/
def low32 (z : ℤ) : ℤ := (z + 2 ^ 31) % 2 ^ 32 - 2 ^ 31

/-- `GetInt` (`sqlite_db.cc:35-37`): `sqlite3_column_int`. -/
def getInt (L : Lib C) : Stored → ℤ
  | .null => 0
  | .int z => low32 z
  | .real d => low32 (L.realInt d)
  | .text s => low32 (L.textInt s)
  | .blob s => low32 (L.textInt s)

/-- `GetDouble` (`sqlite_db.cc:39-41`): `sqlite3_column_double`. -/
def getDouble (L : Lib C) : Stored → Dbl
  | .null => .fin 0
  | .int z => .fin z
  | .real d => d
  | .text s => L.textReal s
  | .blob s => L.textReal s

/-- `GetText` (`sqlite_db.cc:43-50`): `sqlite3_column_text`, `none` is a null pointer. -/
def getText (L : Lib C) : Stored → Option (List ℕ)
  | .null => none
  | .int z => some (L.shown (.int z))
  | .real d => some (L.shown (.real d))
  | .text s => some s
  | .blob s => some s

/-- `ColAsVal` (`sqlite_back.cc:368-481`).  The 16 bytes of a UUID are copied from a text of any
length. -/
def colAsVal (L : Lib C) (t : DbType) (x : Stored) : Option (Except Err (Val C)) :=
  match t with
  | .int => some (.ok (.int (getInt L x)))
  | .bool => some (.ok (.bool (getInt L x ≠ 0)))
  | .double => some (.ok (.double (getDouble L x)))
  | .float => some (.ok (.float (L.narrow (getDouble L x))))
  | .string => (getText L x).map fun s => .ok (.string (cstr s))
  | .blob => (getText L x).map fun s => .ok (.blob s)
  | .uuid => match getText L x with
    | none => none
    | some s => if s.length < 16 then none else some (.ok (.uuid (s.take 16)))
  | t => match loadMap.lookup t with
    | none => some (.error .value)
    | some T => match getText L x with
      | none => none
      | some s => match L.des T (cstr s) with
        | none => some (.error .generic)
        | some c => some (.ok (.cont c))

/-- Members of `Datum` (`datum.h:81-86`) that are used: title, names and values. -/
structure Datum (C : Type) where
  title : String
  vals : List (String × Val C)
  deriving DecidableEq, Repr

/-- A table: columns with their affinities, and rows. -/
structure Tbl where
  cols : List (String × Aff)
  rows : List (List Stored)
  deriving DecidableEq, Repr

/-- A database: the rows of `FieldTypes` (table, column, type) and the other tables. -/
structure File where
  types : List (String × String × DbType)
  tbls : String → Option Tbl

/-- A new database. -/
def File.empty : File := ⟨[], fun _ => none⟩

/-- A `SqliteBack`: what its connection sees, what is committed, whether a transaction is open,
`tbl_names_`, and the types in `schemas_` of the prepared statements (`sqlite_back.h:75-84`). -/
structure Conn where
  file : File
  saved : File
  inTx : Bool
  names : String → Bool
  stmts : String → Option (List DbType)

/-- The constructor (`sqlite_back.cc:48-69`). -/
def Conn.new (f : File) : Conn := ⟨f, f, false, fun t => (f.tbls t).isSome, fun _ => none⟩

/-- A call that leaves a connection, normally or with an exception; `none` is undefined behaviour. -/
abbrev Res := Option (Conn × Except Err Unit)

/-- The types of values, up to the first that is not supported. -/
def types (L : Lib C) : List (String × Val C) → List (String × DbType) × Except Err Unit
  | [] => ([], .ok ())
  | (n, v) :: vs => match typeOf L v with
    | .error e => ([], .error e)
    | .ok t => let r := types L vs
      ((n, t) :: r.1, r.2)

/-- `CreateTable` (`sqlite_back.cc:205-234`). -/
def createTable (L : Lib C) (c : Conn) (d : Datum C) : Res :=
  if d.vals = [] then none
  else
    let r := types L d.vals
    let c := { c with
      names := Function.update c.names d.title true
      file := { c.file with types := c.file.types ++ r.1.map fun nt => (d.title, nt) } }
    match r.2 with
    | .error e => some (c, .error e)
    | .ok () =>
      if (r.1.map Prod.fst).Nodup ∧ c.file.tbls d.title = none then
        some ({ c with file := { c.file with
          tbls := Function.update c.file.tbls d.title
            (some ⟨r.1.map fun nt => (nt.1, aff nt.2), []⟩) } }, .ok ())
      else some (c, .error .io)

/-- `BuildStmt` (`sqlite_back.cc:188-203`).  `stmts_[name]` is not made if `Prepare` throws. -/
def buildStmt (L : Lib C) (c : Conn) (d : Datum C) : Res :=
  if d.vals = [] then none
  else
    let r := types L d.vals
    match r.2 with
    | .error e => some (c, .error e)
    | .ok () => match c.file.tbls d.title with
      | none => some (c, .error .io)
      | some t =>
        if t.cols.length = d.vals.length then
          some ({ c with stmts := Function.update c.stmts d.title (some (r.1.map Prod.snd)) }, .ok ())
        else some (c, .error .io)

/-- The loop of `WriteDatum` (`sqlite_back.cc:241-244`); values that are not bound are `NULL` (`sqlite_db.cc:20-23`). -/
def bindAll (L : Lib C) : List DbType → List (String × Val C) → Option (Except Err (List Stored))
  | ts, [] => some (.ok (ts.map fun _ => .null))
  | [], _ :: _ => none
  | t :: ts, v :: vs => match bind L t v.2 with
    | .error e => some (.error e)
    | .ok x => match bindAll L ts vs with
      | some (.ok xs) => some (.ok (x :: xs))
      | r => r

/-- `WriteDatum` (`sqlite_back.cc:236-247`). -/
def writeDatum (L : Lib C) (c : Conn) (d : Datum C) : Res :=
  match c.stmts d.title, c.file.tbls d.title with
  | some schema, some t => match bindAll L schema d.vals with
    | none => none
    | some (.error e) => some (c, .error e)
    | some (.ok xs) => some ({ c with file := { c.file with
        tbls := Function.update c.file.tbls d.title (some { t with
          rows := t.rows ++ [(t.cols.zip xs).map fun cx => store L cx.1.2 cx.2] }) } }, .ok ())
  | _, _ => none

/-- Continues after a call that returned. -/
def Res.andThen (r : Res) (f : Conn → Res) : Res :=
  match r with
  | some (c, .ok ()) => f c
  | r => r

/-- The body of the loop of `Notify` (`sqlite_back.cc:74-82`). -/
def put (L : Lib C) (c : Conn) (d : Datum C) : Res :=
  Res.andThen (if c.names d.title then some (c, .ok ()) else createTable L c d) fun c =>
    Res.andThen (if (c.stmts d.title).isSome then some (c, .ok ()) else buildStmt L c d) fun c =>
      writeDatum L c d

/-- The loop of `Notify` (`sqlite_back.cc:74-82`). -/
def putAll (L : Lib C) (c : Conn) : List (Datum C) → Res
  | [] => some (c, .ok ())
  | d :: ds => Res.andThen (put L c d) fun c => putAll L c ds

/-- `END TRANSACTION`. -/
def Conn.commit (c : Conn) : Conn := { c with saved := c.file, inTx := false }

/-- `Notify` (`sqlite_back.cc:71-90`).  `BEGIN TRANSACTION` fails inside a transaction; only
`ValueError`s end the transaction. -/
def notify (L : Lib C) (c : Conn) (ds : List (Datum C)) : Res :=
  if c.inTx then some (c, .error .io)
  else match putAll L { c with inTx := true } ds with
    | none => none
    | some (c, .ok ()) => some (c.commit, .ok ())
    | some (c, .error .value) => some (c.commit, .error .value)
    | some (c, .error e) => some (c, .error e)

/-- Several calls of `Notify`, up to the first that throws. -/
def notifyAll (L : Lib C) (c : Conn) : List (List (Datum C)) → Res
  | [] => some (c, .ok ())
  | ds :: dss => Res.andThen (notify L c ds) fun c => notifyAll L c dss

/-- Several backends on the same file, one after the other; each makes several calls of `Notify`. -/
def sessions (L : Lib C) (f : File) : List (List (List (Datum C))) → Option (Except Err File)
  | [] => some (.ok f)
  | s :: ss => match notifyAll L (Conn.new f) s with
    | none => none
    | some (_, .error e) => some (.error e)
    | some (c, .ok ()) => sessions L c.saved ss

/-- `QueryResult`. -/
structure Result (C : Type) where
  fields : List String
  types : List DbType
  rows : List (List (Val C))
  deriving DecidableEq, Repr

/-- The loop over the columns of a row (`sqlite_back.cc:133-135`); columns beyond the last are `NULL`. -/
def readRow (L : Lib C) : List DbType → List Stored → Option (Except Err (List (Val C)))
  | [], _ => some (.ok [])
  | t :: ts, xs => match colAsVal L t (xs.head?.getD .null) with
    | none => none
    | some (.error e) => some (.error e)
    | some (.ok v) => match readRow L ts xs.tail with
      | some (.ok vs) => some (.ok (v :: vs))
      | r => r

/-- The loop over the rows (`sqlite_back.cc:131-137`). -/
def readRows (L : Lib C) (ts : List DbType) : List (List Stored) → Option (Except Err (List (List (Val C))))
  | [] => some (.ok [])
  | x :: xs => match readRow L ts x with
    | none => none
    | some (.error e) => some (.error e)
    | some (.ok v) => match readRows L ts xs with
      | some (.ok vs) => some (.ok (v :: vs))
      | r => r

/-- `Query` without conditions (`sqlite_back.cc:104-138`) with `GetTableInfo`
(`sqlite_back.cc:166-182`). -/
def query (L : Lib C) (f : File) (table : String) : Option (Except Err (Result C)) :=
  let info := (f.types.filter (·.1 = table)).map Prod.snd
  if info = [] then some (.error .value)
  else match f.tbls table with
    | none => some (.error .io)
    | some t => match readRows L (info.map Prod.snd) t.rows with
      | none => none
      | some (.error e) => some (.error e)
      | some (.ok rows) => some (.ok ⟨info.map Prod.fst, info.map Prod.snd, rows⟩)

end Cyclus.Sql
