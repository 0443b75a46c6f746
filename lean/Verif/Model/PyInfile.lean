import Verif.Model.InfileGen

/-!
# Model of how agents written in Python read the input file

Models `_Agent.infile_to_db` and the methods it calls (`/repo/cyclus/agents.pyx:809-914`), the wrapper
of the tree (`/repo/cyclus/lib.pyx:998-1057`, `1083-1102`), `str_py_to_cpp`
(`/repo/cyclus/gentypesystem.py:1577-1583`), `prepare_type_representation` (2394-2411) and the
converters of values to C++ (649-750).

* Types, aliases, values, the tree and the library functions are those of `Model/InfileGen.lean`.  The
  alias of a variable is canonical (`agents.pyx:780`, the function of `cli/cycpp.py:542-586`).
* Queries on the tree are not declared `except +` (`cpp_cyclus.pxd:317-325`): an exception of C++ passes
  the Python code without a handler.  It is the outcome `cpp` here.
* Numbers of matches are kept in an `int` of C (`agents.pyx:867`, 896); here they are natural numbers.
* `float` is treated like `double`.  A Python `set` is the list of the values added, a `dict` the list of
  the assignments.
* A list passed as `uitype` is long enough to be filled up in place; tuples are left out.
* Values that are read have the type that was asked for, and the conversion to C++ that precedes the
  record (`lib.pyx:114`) is modelled for defaults only.  An exception of a converter ends the method here;
  older versions of Cython print it and go on with an empty value.  Arrays of numpy are left out, as is whether the
  database knows the type.
-/

namespace Cyclus.PyInfile

open Infile (Tree)
open InfileGen

/-- What ends the method before the record: exceptions of Python and of C++, and what is not modelled. -/
inductive Exc where
  | type
  | index
  | overflow
  | runtime
  | cpp (f : Fault)
  | other
  deriving DecidableEq

abbrev R (α : Type) := Except Exc α

/-- A call of C++. -/
def cpp {α : Type} : Res α → R α
  | .ok a => .ok a
  | .throws f => .error (.cpp f)
  | .rejected => .error .other

/-- `x[i]` for a string, a list or `None`. -/
def item : Ann → ℕ → R Ann
  | .none, _ => .error .type
  | .str s, i =>
    match s[i]? with
    | some c => .ok (.str [c])
    | none => .error .index
  | .list l, i =>
    match l[i]? with
    | some a => .ok a
    | none => .error .index

/-- `str_py_to_cpp` (`gentypesystem.py:1577-1583`): of a list the first element counts, as `str` writes
it.  A nested list is written with a bracket, which is no XPath expression. -/
def text : Ann → R Str
  | .none => .error .other
  | .str s => .ok s
  | .list [] => .error .index
  | .list (.str s :: _) => .ok s
  | .list (.none :: _) => .ok ['N', 'o', 'n', 'e']
  | .list (.list _ :: _) => .ok ['[']

/-- `nmatches` (`lib.pyx:998-1013`). -/
def nmatches (t : Tree) (q : Ann) : R ℕ :=
  (text q).bind fun s => (cpp (parsePath s)).bind fun q => .ok (t.nMatches q)

/-- `subtree` (`lib.pyx:1083-1102`). -/
def subtree (t : Tree) (q : Ann) (i : ℕ) : R Tree :=
  (text q).bind fun s => (cpp (parsePath s)).bind fun q => cpp (Res.ofExcept (t.subTree q i))

/-- `query` knows the type (`lib.pyx:1039-1056`). -/
def queryable : Prim → Bool
  | .blob => false
  | .uuid => false
  | _ => true

/-- `_query_infile` (`agents.pyx:835-841`). -/
def queryInfile (L : Lib) (p : Prim) (ui : Ann) (t : Tree) (path : Str) (i : ℕ) : R Val :=
  if ui.isNuclide then
    (cpp (parsePath path)).bind fun q =>
      (cpp (Res.ofExcept (t.getString q i))).bind fun s =>
        (cpp (Res.ofExcept (L.nuc s))).bind fun z => .ok (.int z)
  else if queryable p then
    (cpp (parsePath path)).bind fun q => cpp (Res.ofExcept (L.query p t q i))
  else .error .type

/-- `path + alias`. -/
def concat (path : Str) : Ann → R Str
  | .str s => .ok (path ++ s)
  | _ => .error .type

/-- `dflt if a is None else a`. -/
def orElse (dflt : Str) : Ann → Ann
  | .none => .str dflt
  | a => a

/-- The name of the elements (`agents.pyx:870-875`). -/
def valName : Ann → R Ann
  | .none => .ok (.str sVal)
  | .str s => .ok (.str s)
  | .list l => item (.list l) 0

/-- The name of the items of a map (`agents.pyx:899-904`). -/
def itemName : Ann → R Ann
  | .str _ => .ok (.str sItem)
  | a => (item a 1).bind fun x => .ok (orElse sItem x)

/-- `hash` accepts the value: lists, sets and dictionaries have no hash. -/
def hashable : Val → Bool
  | .seq _ => false
  | .map _ => false
  | .pair a b => hashable a && hashable b
  | _ => true

/-- `path` inside the elements: `_set_from_infile` does not pass it on (`agents.pyx:883-886`). -/
def innerPath : Seq → Str → Str
  | .set, _ => []
  | _, path => path

/-- `set(rtn)` (`agents.pyx:885`). -/
def collected : Seq → List Val → R Val
  | .set, l => if l.all hashable then .ok (.seq l) else .error .type
  | _, l => .ok (.seq l)

/-- A loop that makes a list: `n` turns, from `i` on. -/
def turns {α : Type} (f : ℕ → R α) : ℕ → ℕ → R (List α)
  | 0, _ => .ok []
  | n + 1, i => (f i).bind fun a => (turns f n (i + 1)).bind fun l => .ok (a :: l)

/-- `_read_from_infile` and the methods for containers (`agents.pyx:843-914`). -/
def read (L : Lib) : Ty → Ann → Ann → Tree → ℕ → Str → R Val
  | .prim p, alias', ui, t, i, path =>
    (concat path alias').bind fun s => queryInfile L p ui t s i
  | .seq k e, alias', ui, t, i, path =>
    (item alias' 0).bind fun a0 =>
      (subtree t a0 i).bind fun sub =>
        (item alias' 1).bind fun a1 =>
          (valName a1).bind fun val =>
            (nmatches sub val).bind fun n =>
              (turns (fun j =>
                (item ui 1).bind fun u => read L e val u sub j (innerPath k path)) n 0).bind (collected k)
  | .pair a b, alias', ui, t, i, path =>
    (item alias' 0).bind fun a0 =>
      (subtree t a0 i).bind fun sub =>
        (item alias' 1).bind fun a1 =>
          (item alias' 2).bind fun a2 =>
            (item ui 1).bind fun u1 =>
              (read L a (orElse sFirst a1) u1 sub i path).bind fun x =>
                (item ui 2).bind fun u2 =>
                  (read L b (orElse sSecond a2) u2 sub i path).bind fun y => .ok (.pair x y)
  | .map k v, alias', ui, t, i, _ =>
    (item alias' 0).bind fun a0 =>
      (subtree t a0 i).bind fun sub =>
        (itemName a0).bind fun nm =>
          (item alias' 1).bind fun a1 =>
            (item alias' 2).bind fun a2 =>
              (concat [] nm).bind fun it =>
                (nmatches sub nm).bind fun n =>
                  (turns (fun j =>
                    (item ui 1).bind fun u1 =>
                      (read L k (orElse sKey a1) u1 sub j (it ++ ['/'])).bind fun x =>
                        (item ui 2).bind fun u2 =>
                          (read L v (orElse sVal a2) u2 sub j (it ++ ['/'])).bind fun y =>
                            if hashable x then .ok (x, y) else .error .type) n 0).bind fun l =>
                    .ok (.map l)

/-- `prepare_type_representation` (`gentypesystem.py:2394-2411`), used for `uitype` (`agents.pyx:783`). -/
def prepare : Ty → Ann → Ann
  | .prim _, a => a
  | .seq _ e, a =>
    let l := expand 2 a
    .list (l.set 1 (prepare e (l.getD 1 .none)))
  | .pair x y, a =>
    let l := expand 3 a
    .list ((l.set 1 (prepare x (l.getD 1 .none))).set 2 (prepare y (l.getD 2 .none)))
  | .map x y, a =>
    let l := expand 3 a
    .list ((l.set 1 (prepare x (l.getD 1 .none))).set 2 (prepare y (l.getD 2 .none)))

/-- `<int> x`: a number of Python beyond the range of `int` overflows; a `float` or a text is refused. -/
def toInt : PyVal → R ℤ
  | .bool b => .ok (if b then 1 else 0)
  | .int z => if -2 ^ 31 ≤ z ∧ z < 2 ^ 31 then .ok z else .error .overflow
  | _ => .error .type

/-- `<double> x`.  Overflow of large integers is left out. -/
def toDouble : PyVal → R ℚ
  | .bool b => .ok (if b then 1 else 0)
  | .int z => .ok z
  | .float q => .ok q
  | _ => .error .type

/-- The conversion of a primitive value (`gentypesystem.py:649-664`).  A text ends at the first null
character (662).  A `str` is neither `bytes` nor a UUID (663-664); other values for texts, blobs and UUIDs
are not modelled. -/
def toPrim : Prim → PyVal → R Val
  | .bool, d => .ok (.bool d.truth)
  | .int, d => (toInt d).map .int
  | .float, d => (toDouble d).map .dbl
  | .double, d => (toDouble d).map .dbl
  | .string, .str s => .ok (.str (s.takeWhile (· ≠ Char.ofNat 0)))
  | .string, _ => .error .other
  | .blob, .str _ => .error .type
  | .blob, _ => .error .other
  | .uuid, .str _ => .error .type
  | .uuid, _ => .error .other

/-- A loop over a list. -/
def each {α β : Type} (f : α → R β) : List α → R (List β)
  | [] => .ok []
  | x :: xs => (f x).bind fun y => (each f xs).bind fun ys => .ok (y :: ys)

/-- `py_to_any` for a default (`gentypesystem.py:680-744`).  Other things that can be iterated or indexed are
not modelled. -/
def toCpp : Ty → PyVal → R Val
  | .prim p, d => toPrim p d
  | .seq _ e, .list l => (each (toCpp e) l).bind fun vs => .ok (.seq vs)
  | .pair a b, .list l =>
    match l with
    | x :: y :: _ => (toCpp a x).bind fun u => (toCpp b y).bind fun v => .ok (.pair u v)
    | _ => .error .index
  | .map k v, .dict l =>
    (each (fun x => (toCpp k x.1).bind fun a => (toCpp v x.2).bind fun b => .ok (a, b)) l).bind fun vs =>
      .ok (.map vs)
  | _, _ => .error .other

/-- `var.value` after the first loop: what was read, or the default as the class gives it. -/
inductive Held where
  | read (v : Val)
  | given (d : PyVal)

/-- The name that decides whether the default counts (`agents.pyx:823`). -/
def queryName : Ann → R Ann
  | .str s => .ok (.str s)
  | a => item a 0

/-- One turn of the first loop (`agents.pyx:815-828`). -/
def hold (L : Lib) (sub : Tree) (v : Var) : R Held :=
  let fetch : R Held := (read L v.ty v.names.toAnn (prepare v.ty v.ui) sub 0 []).map .read
  if v.internal then
    match v.dflt with
    | none => .error .runtime
    | some d => .ok (.given d)
  else
    match v.dflt with
    | none => fetch
    | some d =>
      (queryName v.names.toAnn).bind fun query =>
        (nmatches sub query).bind fun n => if n = 0 then .ok (.given d) else fetch

/-- The value for the record (`agents.pyx:831-832`, `lib.pyx:114`). -/
def Held.toVal (t : Ty) : Held → R Val
  | .read v => .ok v
  | .given d => toCpp t d

/-- `infile_to_db` (`agents.pyx:809-833`): the recorded row of the table `Info`. -/
def infileToDb (L : Lib) (vs : List Var) (tree : Tree) : R (List (Str × CTy × Val)) :=
  (subtree tree (.str sConfig) 0).bind fun sub =>
    (each (hold L sub) vs).bind fun hs =>
      each (fun x => (x.2.toVal x.1.ty).bind fun w => .ok (x.1.name, .val x.1.ty, w)) (vs.zip hs)

end Cyclus.PyInfile
