import Mathlib.Data.Fintype.Pi
import Mathlib.Logic.Function.Basic
import Verif.Model.Basic

/-!
# The data sets of variable-length values of the HDF5 backend

`VLWrite`, `VLRead`, `VLDataset`, `AppendVLKey` and `InsertVLVal` of `src/hdf5_back.cc.in` together with the
parts that `src/hdf5_back_gen.py` generates for them: which types share a data set, and how containers of
variable-length values are written and read. `Cyclus.VL` models the digests and the store of one type; here
are several types, the caches of a `Hdf5Back`, and files that are closed and opened again.

A C++ type such as `std::vector<std::string>` has several variable-length `DbTypes`, here called variations
(`VL_VECTOR_STRING`, `VL_VECTOR_VL_STRING`). The variations of one C++ type share two data sets, named after
the C++ type.

Simplifications: the digest of a value is an arbitrary function of the value (`Sha1` is in `Cyclus.VL`); a
value is a tree whose children are the parts that are stored by digest; the other parts are opaque. HDF5
calls fail exactly where an argument is invalid: a negative handle, the type `0`, or an index outside the
extent. Allocation and release of buffers and the closing of handles are left out.
-/

namespace Cyclus.VLFiles

variable {T N D : Type} [DecidableEq T] [DecidableEq N]

/-- `Digest`: five 32-bit numbers (`query_backend.h:10-18, 628`). -/
abbrev Digest := Fin 5 → Fin (2 ^ 32)

/-- The index is inside the value array, whose extent is `UINT_MAX` in each of the five directions
(`hdf5_back.cc.in:756-757`). -/
def fits (k : Digest) : Bool := decide (∀ i, (k i).val < 2 ^ 32 - 1)

/-- The generated tables: `fam t` is the name to which `VLDataset` maps the type `t` (`main_vl_dataset`,
`hdf5_back_gen.py:1708-1732`), `full n` the variation in which values of the C++ type `n` inside other
values are stored (`ORIGIN_TO_VL`, `hdf5_back_gen.py:2831-2834`), `preset` the types that the constructor
enters into `vldts_` (`hdf5_back.cc.in:35-38`). `blank n` is the content of a cell that was not written: an
empty container. -/
structure Types (T N D : Type) where
  fam : T → N
  full : N → T
  preset : T → Bool
  blank : N → D

/-- A value of the C++ type `n`: the parts `d` stored in place, and the parts stored by digest. -/
inductive Val (N D : Type) where
  | node (n : N) (d : D) (kids : List (Val N D))

/-- The C++ type of a value. -/
def Val.type : Val N D → N
  | .node n _ _ => n

/-- What `VLValToBuf` makes of a value (`hdf5_back_gen.py:2448-2545`): the parts stored in place, and the
digests of the others. Which parts these are depends on the C++ type only, not on the variation
(`hdf5_back_gen.py:1468-1474, 2516-2523`). -/
structure Cell (N D : Type) where
  data : D
  kids : List (N × Digest)

/-- The data sets in the file: `<name>Keys` and `<name>Vals`, if they exist. -/
structure File (N D : Type) where
  keys : N → Option (List Digest)
  cells : N → Option (Digest → Option (Cell N D))

/-- A `Hdf5Back` on its file (`hdf5_back.h.in:225-245`). `kopen` and `vopen` are `vldatasets_` for the keys
and the values; `vopen n = some false` is a negative handle. `dts t` is `vldts_`: `some false` is the `0` that
`vldts_[t]` inserts for a type that is not there. `known` is `vlkeys_`. -/
structure Back (T N D : Type) where
  file : File N D
  kopen : N → Bool
  vopen : N → Option Bool
  dts : T → Option Bool
  known : T → List Digest

/-- The constructor on a file (`hdf5_back.cc.in:11-39`). -/
def Back.open (ty : Types T N D) (f : File N D) : Back T N D :=
  { file := f, kopen := fun _ => false, vopen := fun _ => none,
    dts := fun t => if ty.preset t then some true else none, known := fun _ => [] }

/-- A new file (`H5Fcreate`, `hdf5_back.cc.in:17`). -/
def File.new : File N D := ⟨fun _ => none, fun _ => none⟩

/-- `VL_ADD_BLOCK` (`hdf5_back_gen.py:1216-1228`) in `CreateTable`, for the types of the columns and the types
inside them (`hdf5_back_gen.py:1468-1474`): a type that is not in `vldts_` is entered. -/
def Back.create (s : Back T N D) : List T → Back T N D
  | [] => s
  | t :: ts =>
    Back.create (if s.dts t = none then { s with dts := Function.update s.dts t (some true) } else s) ts

/-- `vldts_[t]`: an element that is not there is inserted with the value `0`. -/
def Back.index (s : Back T N D) (t : T) : Back T N D :=
  if s.dts t = none then { s with dts := Function.update s.dts t (some false) } else s

/-- `VLDataset(t, true)` (`hdf5_back.cc.in:694-764`): the keys of an existing data set are read when it is
opened for the first time, into `vlkeys_` of the type for which it is opened. -/
def Back.openKeys (ty : Types T N D) (t : T) (s : Back T N D) : Back T N D :=
  let n := ty.fam t
  if s.kopen n then s
  else match s.file.keys n with
    | some ks => { s with kopen := Function.update s.kopen n true,
                          known := Function.update s.known t (s.known t ++ ks) }
    | none => { s with kopen := Function.update s.kopen n true,
                       file := { s.file with keys := Function.update s.file.keys n (some []) } }

/-- `VLDataset(t, false)` (`hdf5_back.cc.in:694-764`): `vldts_[t]` is taken from an existing data set only
when it is opened for the first time; a new data set is created with `vldts_[t]`, which fails for `0`, and
the negative handle is kept. The result says whether the handle is valid. -/
def Back.openVals (ty : Types T N D) (t : T) (s : Back T N D) : Back T N D × Bool :=
  let n := ty.fam t
  match s.vopen n with
  | some h => (s, h)
  | none =>
    match s.file.cells n with
    | some _ =>
      ({ s with dts := if s.dts t = none then Function.update s.dts t (some true) else s.dts,
                vopen := Function.update s.vopen n (some true) }, true)
    | none =>
      let s := s.index t
      if s.dts t = some true then
        ({ s with vopen := Function.update s.vopen n (some true),
                  file := { s.file with
                    cells := Function.update s.file.cells n (some fun _ => none) } }, true)
      else ({ s with vopen := Function.update s.vopen n (some false) }, false)

/-- `AppendVLKey` (`hdf5_back.cc.in:773-794`). -/
def Back.appendKey (ty : Types T N D) (t : T) (k : Digest) (s : Back T N D) : Back T N D :=
  let ks := (s.file.keys (ty.fam t)).getD [] ++ [k]
  { s with file := { s.file with keys := Function.update s.file.keys (ty.fam t) (some ks) },
           known := Function.update s.known t (s.known t ++ [k]) }

/-- The checks that HDF5 makes before a cell is read or written (`hdf5_back.cc.in:800-812, 822-832,
667-682`): the handle of the data set, the type `vldts_[t]`, and the index. -/
def Back.access (t : T) (k : Digest) (h : Bool) (s : Back T N D) : Outcome (Back T N D) Unit :=
  if h = false then (s, .error .io)
  else
    let s := s.index t
    if s.dts t = some true then
      if fits k then (s, .ok ()) else (s, .error .io)
    else (s, .error .io)

/-- `InsertVLVal` (`hdf5_back.cc.in:796-838`). -/
def Back.insertVal (ty : Types T N D) (t : T) (k : Digest) (h : Bool) (c : Cell N D) (s : Back T N D) :
    Outcome (Back T N D) Unit :=
  match s.access t k h with
  | (s, .error e) => (s, .error e)
  | (s, .ok ()) =>
    let cs := Function.update ((s.file.cells (ty.fam t)).getD fun _ => none) k (some c)
    ({ s with file := { s.file with cells := Function.update s.file.cells (ty.fam t) (some cs) } }, .ok ())

mutual
/-- `VLWrite` (`hdf5_back.cc.in:577-616`, and the same statements in `hdf5_back_gen.py:1748-1800`): both data
sets are opened, a value whose digest is known for this variation is skipped, otherwise the parts are
written, then the digest is appended to the keys, then the value is stored. -/
def write (ty : Types T N D) (H : Val N D → Digest) (t : T) :
    Val N D → Back T N D → Outcome (Back T N D) Digest
  | .node n d kids, s =>
    let k := H (.node n d kids)
    let s := s.openKeys ty t
    let (s, h) := s.openVals ty t
    if k ∈ s.known t then (s, .ok k)
    else
      match writeKids ty H kids s with
      | (s, .error e) => (s, .error e)
      | (s, .ok ks) =>
        match (s.appendKey ty t k).insertVal ty t k h ⟨d, ks⟩ with
        | (s, .error e) => (s, .error e)
        | (s, .ok ()) => (s, .ok k)

/-- The parts of a value in `VLValToBuf` (`hdf5_back_gen.py:2511-2523`): each is written in the variation
`ORIGIN_TO_VL`. -/
def writeKids (ty : Types T N D) (H : Val N D → Digest) :
    List (Val N D) → Back T N D → Outcome (Back T N D) (List (N × Digest))
  | [], s => (s, .ok [])
  | v :: vs, s =>
    match write ty H (ty.full v.type) v s with
    | (s, .error e) => (s, .error e)
    | (s, .ok k) =>
      match writeKids ty H vs s with
      | (s, .error e) => (s, .error e)
      | (s, .ok ks) => (s, .ok ((v.type, k) :: ks))
end

/-- Reading the parts of a value in `VLBufToVal` (`hdf5_back_gen.py:2682-2697`). -/
def readKids (rd : N → Digest → Back T N D → Option (Outcome (Back T N D) (Val N D))) :
    List (N × Digest) → Back T N D → Option (Outcome (Back T N D) (List (Val N D)))
  | [], s => some (s, .ok [])
  | (n, k) :: ks, s =>
    match rd n k s with
    | none => none
    | some (s, .error e) => some (s, .error e)
    | some (s, .ok v) =>
      match readKids rd ks s with
      | none => none
      | some (s, .error e) => some (s, .error e)
      | some (s, .ok vs) => some (s, .ok (v :: vs))

/-- `VLRead` (`hdf5_back.cc.in:98-160, 660-691`); `Query` calls it with the type of the column
(`hdf5_back_gen.py:718-726`), `VLBufToVal` with `ORIGIN_TO_VL` (`hdf5_back_gen.py:2594-2612`). The first
argument bounds the depth; `none` if it does not suffice. -/
def read (ty : Types T N D) : ℕ → T → Digest → Back T N D → Option (Outcome (Back T N D) (Val N D))
  | 0, _, _, _ => none
  | f + 1, t, k, s =>
    let (s, h) := s.openVals ty t
    match s.access t k h with
    | (s, .error e) => some (s, .error e)
    | (s, .ok ()) =>
      let c := (((s.file.cells (ty.fam t)).getD fun _ => none) k).getD ⟨ty.blank (ty.fam t), []⟩
      match readKids (fun n k s => read ty f (ty.full n) k s) c.kids s with
      | none => none
      | some (s, .error e) => some (s, .error e)
      | some (s, .ok vs) => some (s, .ok (.node (ty.fam t) c.data vs))

/-- Reading several values one after the other (the rows and columns of `Query`). -/
def readAll (ty : Types T N D) (f : ℕ) :
    List (T × Digest) → Back T N D → Option (Outcome (Back T N D) (List (Val N D)))
  | [], s => some (s, .ok [])
  | (t, k) :: ks, s =>
    match read ty f t k s with
    | none => none
    | some (s, .error e) => some (s, .error e)
    | some (s, .ok v) =>
      match readAll ty f ks s with
      | none => none
      | some (s, .error e) => some (s, .error e)
      | some (s, .ok vs) => some (s, .ok (v :: vs))

end Cyclus.VLFiles
