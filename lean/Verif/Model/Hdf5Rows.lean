import Verif.Model.Basic

/-!
# Model of the rows of HDF5 tables: layout, writing and reading

Models `/repo/src/hdf5_back.cc.in:163-250` (`Query`), `336-428` (`CreateTable`), `516-575` (`WriteGroup`) and
`621-658` (`FillBuf`), with the code which `/repo/src/hdf5_back_gen.py` generates for each type: sizes
(`1488-1547`), `WriteToBuf` (`1831-1960`, `2158-2345`) and the bodies of the switch in `Query` (`651-1050`).

* A byte is a natural number, a buffer the list of its bytes.  Writing or reading outside of a buffer is undefined
  (`none`).  The contents of fresh memory are arbitrary.
* A type of the table of types is a tree (`Ty`) whose containers and texts carry their length (the entry of the
  shape).  Vectors and lists are one case, as they differ neither in writing nor in reading.  The bytes of numbers,
  truth values and UUIDs are given: what they mean is not modelled.
* Values of variable length are stored elsewhere, and the row has the digest (20 bytes); storing and fetching are
  arbitrary functions here (they are modelled in `Verif.Model.VL`).  So is the order of the elements of a set and of
  the keys of a map.
* One table is modelled, created by this run.  Calls of the HDF5 library succeed, and the data set keeps the bytes
  written to it.  Conditions of a query are not modelled (see `Verif.Model.Query`).
-/

namespace Cyclus.Hdf5Rows

/-- A type with its shape, `/repo/src/query_backend.h:33-345`. -/
inductive Ty
  /-- A type of a fixed number of bytes: `BOOL`, `INT`, `FLOAT`, `DOUBLE`, `UUID`. -/
  | prim (n : ℕ)
  /-- `STRING`, with its length. -/
  | str (n : ℕ)
  /-- A type of variable length. -/
  | vl
  /-- `VECTOR` or `LIST`, with its length. -/
  | seq (n : ℕ) (c : Ty)
  /-- `SET`, with its length. -/
  | set (n : ℕ) (c : Ty)
  /-- `MAP`, with its length. -/
  | map (n : ℕ) (a b : Ty)
  /-- `PAIR`. -/
  | pair (a b : Ty)
  deriving DecidableEq, Repr

/-- The values of a type.  Sets and maps are the lists of what their iterators give. -/
@[reducible] def Val : Ty → Type
  | .prim _ => List ℕ
  | .str _ => List ℕ
  | .vl => ℕ
  | .seq _ c => List (Val c)
  | .set _ c => List (Val c)
  | .map _ a b => List (Val a × Val b)
  | .pair a b => Val a × Val b

/-- What is outside of the model: the digest which storing a value of variable length gives, the value which is
fetched with a digest, and the order of the values of a type. -/
structure Env where
  digest : ℕ → List ℕ
  fetch : List ℕ → ℕ
  lt : (t : Ty) → Val t → Val t → Bool

/-- The size of a type in a row, `/repo/src/hdf5_back_gen.py:1488-1547` (`get_item_size`). -/
def size : Ty → ℕ
  | .prim n => n
  | .str n => n
  | .vl => 20
  | .seq n c => size c * n
  | .set n c => size c * n
  | .map n a b => (size a + size b) * n
  | .pair a b => size a + size b

/-- `memcpy` to or `memset` of a buffer. -/
def poke (buf : List ℕ) (off : ℕ) (bs : List ℕ) : Option (List ℕ) :=
  if off + bs.length ≤ buf.length then some (buf.take off ++ bs ++ buf.drop (off + bs.length)) else none

/-- `memset` with zeros; the number of bytes is a product of `size_t`. -/
def zeros (buf : List ℕ) (off total n count : ℕ) : Option (List ℕ) :=
  let len := (((total : ℤ) * ((n : ℤ) - (count : ℤ))) % 2 ^ 64).toNat
  if off + len ≤ buf.length then poke buf off (List.replicate len 0) else none

/-- The loop over the elements of a container, `/repo/src/hdf5_back_gen.py:2284-2300`: element `k` is written `sz * k`
bytes after the start. -/
def wloop {α : Type} (w : α → ℕ → List ℕ → Option (List ℕ)) (sz off : ℕ) :
    ℕ → List α → List ℕ → Option (List ℕ)
  | _, [], buf => some buf
  | k, x :: xs, buf => (w x (off + sz * k) buf).bind (wloop w sz off (k + 1) xs)

/-- `WriteToBuf` below the top of a type, `/repo/src/hdf5_back_gen.py:1918-1960` (the primitive types) and `2158-2320`
(depth above 0): the elements, then always zeros up to the length. -/
def write (e : Env) : (t : Ty) → Val t → ℕ → List ℕ → Option (List ℕ)
  | .prim _, v, off, buf => poke buf off v
  | .str n, v, off, buf =>
    let len := min v.length n
    (poke buf off (v.take len)).bind fun b => poke b (off + len) (List.replicate (n - len) 0)
  | .vl, v, off, buf => poke buf off (e.digest v)
  | .seq n c, v, off, buf =>
    (wloop (write e c) (size c) off 0 v buf).bind fun b => zeros b (off + size c * v.length) (size c) n v.length
  | .set n c, v, off, buf =>
    (wloop (write e c) (size c) off 0 v buf).bind fun b => zeros b (off + size c * v.length) (size c) n v.length
  | .map n a b, v, off, buf =>
    (wloop (fun (p : Val a × Val b) o bf => (write e a p.1 o bf).bind (write e b p.2 (o + size a)))
      (size a + size b) off 0 v buf).bind
        fun bf => zeros bf (off + (size a + size b) * v.length) (size a + size b) n v.length
  | .pair a b, v, off, buf => (write e a v.1 off buf).bind (write e b v.2 (off + size a))

/-- A container at the top of a type, `/repo/src/hdf5_back_gen.py:1897-1912` and `2301-2316`: the elements beyond the
column are erased, and there are zeros only if the column is longer than the length of the shape. -/
def writeTop {α : Type} (w : α → ℕ → List ℕ → Option (List ℕ)) (total n column : ℕ) (v : List α) (off : ℕ)
    (buf : List ℕ) : Option (List ℕ) :=
  let v' := if total * v.length > column then v.take (column / total) else v
  (wloop w total off 0 v' buf).bind fun b =>
    if total * n < column then zeros b (off + total * v'.length) total n v'.length else some b

/-- `WriteToBuf`, `/repo/src/hdf5_back_gen.py:2158-2345`, with the size of the column. -/
def writeCol (e : Env) : (t : Ty) → Val t → ℕ → ℕ → List ℕ → Option (List ℕ)
  | .seq n c, v, column, off, buf => writeTop (write e c) (size c) n column v off buf
  | .set n c, v, column, off, buf => writeTop (write e c) (size c) n column v off buf
  | .map n a b, v, column, off, buf =>
    writeTop (fun (p : Val a × Val b) o bf => (write e a p.1 o bf).bind (write e b p.2 (o + size a)))
      (size a + size b) n column v off buf
  | .prim n, v, _, off, buf => write e (.prim n) v off buf
  | .str n, v, _, off, buf => write e (.str n) v off buf
  | .vl, v, _, off, buf => write e .vl v off buf
  | .pair a b, v, _, off, buf => write e (.pair a b) v off buf

/-- A value of a datum with its type and the shape given to `AddVal`. -/
abbrev Cell := (t : Ty) × Val t

/-- The columns of one row, `/repo/src/hdf5_back.cc.in:643-655`: as many as the first datum of the group has.  A datum
with fewer values, or a table with fewer columns, is accessed outside of its bounds. -/
def fillRow (e : Env) (sizes : List ℕ) (d : List Cell) : (ncols col off : ℕ) → List ℕ → Option (ℕ × List ℕ)
  | 0, _, off, buf => some (off, buf)
  | m + 1, col, off, buf =>
    match d[col]?, sizes[col]? with
    | some c, some s =>
      (writeCol e c.1 c.2 s off buf).bind fun b => fillRow e sizes d m (col + 1) (off + s) b
    | _, _ => none

/-- `FillBuf`, `/repo/src/hdf5_back.cc.in:621-658`. -/
def fillBuf (e : Env) (sizes : List ℕ) (ncols : ℕ) : List (List Cell) → ℕ → List ℕ → Option (List ℕ)
  | [], _, buf => some buf
  | d :: ds, off, buf =>
    (fillRow e sizes d ncols 0 off buf).bind fun (off', b) => fillBuf e sizes ncols ds off' b

/-- A table: the types of its columns, and its records in the file. -/
structure Table where
  schema : List Ty
  nrec : ℕ
  data : List ℕ
  deriving DecidableEq, Repr

/-- `col_sizes_`, `/repo/src/hdf5_back.cc.in:351-357`. -/
def Table.sizes (t : Table) : List ℕ := t.schema.map size

/-- `schema_sizes_`, `/repo/src/hdf5_back.cc.in:351-357`: the sum of the sizes. -/
def Table.rowsize (t : Table) : ℕ := t.sizes.sum

/-- `CreateTable`, `/repo/src/hdf5_back.cc.in:336-428`: the columns are those of the datum. -/
def create (d : List Cell) : Table := ⟨d.map (·.1), 0, []⟩

/-- `WriteGroup`, `/repo/src/hdf5_back.cc.in:516-575`: `fresh` is the memory which `new char[]` gives.  The records are
written after those in the file. -/
def writeGroup (e : Env) (t : Table) (group : List (List Cell)) (fresh : ℕ → ℕ) : Option Table :=
  match group with
  | [] => none
  | d :: _ =>
    (fillBuf e t.sizes d.length group 0 ((List.range (group.length * t.rowsize)).map fresh)).map fun b =>
      { t with nrec := t.nrec + group.length, data := t.data.take (t.nrec * t.rowsize) ++ b }

/-- `Notify` with data of one title, `/repo/src/hdf5_back.cc.in:75-97`: the first datum of all creates the table. -/
def notify (e : Env) (t : Option Table) (group : List (List Cell)) (fresh : ℕ → ℕ) : Option (Option Table) :=
  match group with
  | [] => some t
  | d :: _ => (writeGroup e (t.getD (create d)) group fresh).map some

/-- A history of calls of `Notify`, each with the memory which it gets. -/
def history (e : Env) : Option Table → List (List (List Cell) × (ℕ → ℕ)) → Option (Option Table)
  | t, [] => some t
  | t, (g, fresh) :: gs => (notify e t g fresh).bind fun t' => history e t' gs

/-- Bytes of a buffer. -/
def peek (buf : List ℕ) (off len : ℕ) : Option (List ℕ) :=
  if off + len ≤ buf.length then some ((buf.drop off).take len) else none

/-- `std::set::insert`. -/
def sinsert {α : Type} (lt : α → α → Bool) (x : α) : List α → List α
  | [] => [x]
  | y :: ys => if lt x y then x :: y :: ys else if lt y x then y :: sinsert lt x ys else y :: ys

/-- `m[k] = v` of a `std::map`. -/
def minsert {α β : Type} (lt : α → α → Bool) (k : α) (v : β) : List (α × β) → List (α × β)
  | [] => [(k, v)]
  | y :: ys => if lt k y.1 then (k, v) :: y :: ys else if lt y.1 k then y :: minsert lt k v ys else (y.1, v) :: ys

/-- The loop over the elements of a container in `Query`: `m` further elements from number `k`. -/
def rloop {α : Type} (r : ℕ → Option α) (sz off : ℕ) : ℕ → ℕ → Option (List α)
  | 0, _ => some []
  | m + 1, k => (r (off + sz * k)).bind fun x => (rloop r sz off m (k + 1)).map (x :: ·)

/-- The body of the switch in `Query`, `/repo/src/hdf5_back_gen.py:651-1050`: the number of elements is the length in
the type of the file; a text ends before its first zero. -/
def read (e : Env) : (t : Ty) → List ℕ → ℕ → Option (Val t)
  | .prim n, buf, off => peek buf off n
  | .str n, buf, off => (peek buf off n).map fun s => s.takeWhile (· ≠ 0)
  | .vl, buf, off => (peek buf off 20).map e.fetch
  | .seq n c, buf, off => rloop (read e c buf) (size c) off n 0
  | .set n c, buf, off =>
    (rloop (read e c buf) (size c) off n 0).map fun l => l.foldl (fun s x => sinsert (e.lt c) x s) []
  | .map n a b, buf, off =>
    (rloop (fun o => (read e a buf o).bind fun x => (read e b buf (o + size a)).map fun y => (x, y))
      (size a + size b) off n 0).map fun l => l.foldl (fun m p => minsert (e.lt a) p.1 p.2 m) []
  | .pair a b, buf, off => (read e a buf off).bind fun x => (read e b buf (off + size a)).map fun y => (x, y)

/-- The columns of one row, `/repo/src/hdf5_back.cc.in:218-236`. -/
def readRow (e : Env) (buf : List ℕ) : List Ty → ℕ → Option (List Cell)
  | [], _ => some []
  | t :: ts, off =>
    (read e t buf off).bind fun v => (readRow e buf ts (off + size t)).map (⟨t, v⟩ :: ·)

/-- The rows of one chunk, `/repo/src/hdf5_back.cc.in:213-240`: `m` further rows from number `i`. -/
def readRows (e : Env) (ts : List Ty) (rowsize : ℕ) (buf : List ℕ) : ℕ → ℕ → Option (List (List Cell))
  | 0, _ => some []
  | m + 1, i =>
    (readRow e buf ts (i * rowsize)).bind fun r => (readRows e ts rowsize buf m (i + 1)).map (r :: ·)

/-- The chunks of a table, `/repo/src/hdf5_back.cc.in:202-242`: `m` further chunks from number `n`. -/
def readChunks (e : Env) (t : Table) (chunk : ℕ) : ℕ → ℕ → Option (List (List Cell))
  | 0, _ => some []
  | m + 1, n =>
    let start := n * chunk
    let count := if t.nrec - start < chunk then t.nrec - start else chunk
    (peek t.data (start * t.rowsize) (count * t.rowsize)).bind fun buf =>
      (readRows e t.schema t.rowsize buf count 0).bind fun rs => (readChunks e t chunk m (n + 1)).map (rs ++ ·)

/-- `Query` without conditions, `/repo/src/hdf5_back.cc.in:163-250`. -/
def query (e : Env) (t : Table) (chunk : ℕ) : Option (List (List Cell)) :=
  readChunks e t chunk (t.nrec / chunk + if t.nrec % chunk = 0 then 0 else 1) 0

/-- `Tables`, `/repo/src/hdf5_back.cc.in:483-514`, of the names of the data sets in the file. -/
def tables (names : List (List Char)) : List (List Char) :=
  names.filter fun s =>
    decide (s.length < 4) || (s.drop (s.length - 4) != "Keys".toList && s.drop (s.length - 4) != "Vals".toList)

/-- The data sets of one type of variable length, `/repo/src/hdf5_back.cc.in:694-703` (`VLDataset`): the name of the
type with `Keys` and with `Vals`. -/
def vlNames (ty : List Char) : List (List Char) := [ty ++ "Keys".toList, ty ++ "Vals".toList]

end Cyclus.Hdf5Rows
