import Mathlib.Data.List.Basic
import Mathlib.Logic.Function.Basic

/-!
# Variable-length values of the HDF5 backend

`Sha1` in `src/query_backend.h` and `VLWrite`/`VLRead` in `src/hdf5_back.cc.in`. A value of a
variable-length type is stored in an array indexed by the SHA1 of the value; table rows contain the
digest only.

Simplifications: the digest function is an arbitrary function of the message; HDF5 itself is an array of
cells; values of fixed-size types are their bytes. The code that turns nested containers into HDF5
buffers (`VLValToBuf`, `VLBufToVal`, generated by `src/hdf5_back_gen.py`) is not modelled: a value that
is not a string is taken to be stored as it is.
-/

namespace Cyclus.VL

abbrev Byte := UInt8

/-- The types with a `Sha1::Update` (`query_backend.h:639-1006`): `fixed w` are the types hashed with
`process_bytes(&x, w)` (`int`, `float`, `double`, `bool`, `uuid`), `str` is `std::string` and `Blob`, `seq` is
`std::vector` and `std::list`. -/
inductive Ty where
  | fixed (w : ℕ)
  | str
  | pair (a b : Ty)
  | seq (a : Ty)
  | set (a : Ty)
  | map (k v : Ty)
  deriving DecidableEq

/-- Values; sets and maps as the lists of their elements in iteration order. -/
@[reducible] def Val : Ty → Type
  | .fixed w => {l : List Byte // l.length = w}
  | .str => List Byte
  | .pair a b => Val a × Val b
  | .seq a => List (Val a)
  | .set a => List (Val a)
  | .map k v => List (Val k × Val v)

/-- The bytes given to `process_bytes` by `Sha1::Update` (`query_backend.h:639-1006`): every overload hands
over the components one after the other, strings by `c_str()` and `size()`, containers in iteration order,
without lengths or separators. The overload for
`map<string, pair<double, map<int, double>>>` (`query_backend.h:926-932`) is the exception, see
`updateRaw`. -/
def enc : (t : Ty) → Val t → List Byte
  | .fixed _, x => x.1
  | .str, x => x
  | .pair a b, x => enc a x.1 ++ enc b x.2
  | .seq a, x => (List.map (enc a) x).flatten
  | .set a, x => (List.map (enc a) x).flatten
  | .map k v, x => (List.map (fun p : Val k × Val v => enc k p.1 ++ enc v p.2) x).flatten

/-- `int` (and `float`), `double`, `bool`, `uuid`. -/
abbrev int : Ty := .fixed 4
abbrev dbl : Ty := .fixed 8
abbrev bool : Ty := .fixed 1
abbrev uuid : Ty := .fixed 16

/-- All overloads of `Sha1::Update` (`query_backend.h:639-1006`), in order, `float` as `int` and `Blob` as
`str`, without the exception. -/
def overloads : List Ty :=
  [.str, .seq int, .seq dbl, .seq .str, .seq uuid, .set int, .set bool, .set dbl, .set .str, .set uuid,
    .seq bool, .pair int int, .pair int .str, .map int int, .map int bool, .map int dbl, .map int .str,
    .map int uuid, .map .str int, .map .str dbl, .map .str bool, .map .str .str, .map .str uuid,
    .map (.pair int .str) dbl, .map (.pair .str .str) int, .map .str (.seq dbl), .map .str (.map int dbl),
    .map int (.map .str dbl), .pair dbl (.map int dbl), .pair int (.pair .str .str),
    .seq (.pair int (.pair .str .str)), .map .str (.seq (.pair int (.pair .str .str))),
    .seq (.pair int int), .pair .str (.seq dbl), .map .str (.pair .str (.seq dbl)),
    .map .str (.map .str int), .pair dbl dbl, .pair (.pair dbl dbl) (.map .str dbl),
    .seq (.pair (.pair dbl dbl) (.map .str dbl)), .map .str (.map .str dbl)]

/-- The overload for `map<string, pair<double, map<int, double>>>` (`query_backend.h:926-932`): for the key
it hashes `&(it->first)`, that is the memory of the `std::string` object, not its characters. `mem` is that
memory for each entry (it depends on the addresses); `none` if the size read exceeds the object (read
beyond the object). `objSize` is `sizeof(std::string)`. -/
def updateRaw (objSize : ℕ)
    (x : List ((List Byte × List Byte) × Val (.pair dbl (.map int dbl)))) : Option (List Byte) :=
  match x with
  | [] => some []
  | ((key, mem), v) :: x =>
    if objSize < key.length then none
    else (updateRaw objSize x).map fun r => mem.take key.length ++ enc (.pair dbl (.map int dbl)) v ++ r

/-- The key set and the value array of one type (`vlkeys_[U]` and the `Vals` dataset,
`hdf5_back.cc.in:693-768`). -/
structure Store (K V : Type) where
  keys : List K
  vals : K → Option V

/-- `VLWrite` (`hdf5_back.cc.in:578-619`): a value whose digest is among the keys is not stored again.
`msg` is what the hasher is given, `put` what arrives in the file. -/
def Store.write {K V : Type} [DecidableEq K] (H : List Byte → K) (msg : V → List Byte) (put : V → V)
    (s : Store K V) (x : V) : K × Store K V :=
  let key := H (msg x)
  if key ∈ s.keys then (key, s)
  else (key, { s with keys := s.keys ++ [key], vals := Function.update s.vals key (some (put x)) })

/-- `VLRead` (`hdf5_back.cc.in:99-130, 133-160, 660-690`): the value at the digest. -/
def Store.read {K V : Type} (s : Store K V) (key : K) : Option V := s.vals key

/-- What arrives in the file for a string or blob: `InsertVLVal` hands over `c_str()`
(`hdf5_back.cc.in:796-814`), whose end HDF5 finds by the first NUL. -/
def cstr (s : List Byte) : List Byte := s.takeWhile (· ≠ 0)

/-- An empty file. -/
def Store.empty {K V : Type} : Store K V := ⟨[], fun _ => none⟩

/-- Writing several values. -/
def Store.writes {K V : Type} [DecidableEq K] (H : List Byte → K) (msg : V → List Byte) (put : V → V)
    (s : Store K V) : List V → Store K V
  | [] => s
  | x :: xs => Store.writes H msg put (s.write H msg put x).2 xs

end Cyclus.VL
