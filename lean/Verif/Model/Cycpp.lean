import Verif.Model.Basic

/-!
Model of the text and type helpers of the cyclus preprocessor, `/repo/cli/cycpp.py`.

Python strings are lists of characters.  A C++ type as the preprocessor holds it is a
string (no template arguments) or a tuple or list whose first element is the name of the
template and whose other elements are the arguments; tuples and lists are not told apart.
-/

namespace Cyclus.Cycpp

abbrev Str := List Char

/-- A type: a string, or a tuple `(name, arg, arg, ...)` (`cli/cycpp.py:762-828`).  The empty
tuple and tuples whose first element is not a string are left out: neither
`_canonize_targs` (lines 825-828) nor `parse_template` (2227-2249) makes them. -/
inductive Ty where
  | str (s : Str)
  | tup (name : Str) (args : List Ty)

/-! ## Strings -/

/-- `s.find(c)`: index of the first `c`, or -1. -/
def find (c : Char) (s : Str) : Int :=
  match s.findIdx? (· = c) with
  | some k => k
  | none => -1

/-- `s.rfind(c)`: index of the last `c`, or -1. -/
def rfind (c : Char) (s : Str) : Int :=
  match s.reverse.findIdx? (· = c) with
  | some k => s.length - 1 - k
  | none => -1

/-- How Python reads a slice bound: a negative one counts from the end, and bounds outside
the string are moved to its ends. -/
def pyIdx (n : Nat) (i : Int) : Nat :=
  if i < 0 then (n + i).toNat else min i.toNat n

/-- `s[a:b]`. -/
def pySlice (s : Str) (a b : Int) : Str :=
  (s.take (pyIdx s.length b)).drop (pyIdx s.length a)

/-- `s.split(sep)` for a separator of one character. -/
def pySplit (sep : Char) : Str → List Str
  | [] => [[]]
  | c :: cs =>
    if c = sep then [] :: pySplit sep cs
    else match pySplit sep cs with
      | [] => [[c]]
      | p :: ps => (c :: p) :: ps

/-- `s.strip()`; `ws` says which characters are white space. -/
def strip (ws : Char → Bool) (s : Str) : Str :=
  (((s.dropWhile ws).reverse).dropWhile ws).reverse

/-- The loop of `outter_split` (`cli/cycpp.py:2210-2225`), with the running brace count and
the text gathered so far. -/
def outterLoop (ws : Char → Bool) (op cl sep : Char) : Int → Str → List Str → List Str
  | _, _, [] => []
  | count, val, n :: ns =>
    let count := count + n.count op
    let count := count - n.count cl
    let val := val ++ n
    if count = 0 then strip ws val :: outterLoop ws op cl sep count [] ns
    else outterLoop ws op cl sep count (val ++ [sep]) ns

/-- `outter_split` (`cli/cycpp.py:2210-2225`). -/
def outterSplit (ws : Char → Bool) (op cl sep : Char) (s : Str) : List Str :=
  outterLoop ws op cl sep 0 [] (pySplit sep s)

/-- The loop of `parse_arg` (`cli/cycpp.py:2267-2283`): cuts the text at the commas where
`nest` is zero.  `cur` is `s[start:i]`; the last piece is kept when it is not empty
(`start < len(s)`). -/
def splitArgs : Int → Str → Str → List Str
  | _, cur, [] => if cur.isEmpty then [] else [cur]
  | nest, cur, c :: cs =>
    let nest := if c = '<' then nest + 1 else if c = '>' then nest - 1 else nest
    if c = ',' ∧ nest = 0 then cur :: splitArgs nest [] cs
    else splitArgs nest (cur ++ [c]) cs

/-- `parse_template` with `parse_arg` inlined (`cli/cycpp.py:2227-2284`), for the default
braces and separator, the only ones it is called with (line 796).  Python's recursion is
bounded by `fuel`; `none` means the bound was reached. -/
def parseTemplate : Nat → Str → Option Ty
  | 0, _ => none
  | fuel + 1, s0 =>
    let s := s0.filter (· ≠ ' ')
    if '<' ∉ s ∧ ',' ∉ s then some (.str s)
    else
      let i := find '<' s
      let j := rfind '>' s
      let inner := pySlice s (i + 1) j
      match (splitArgs 0 [] inner).mapM (parseTemplate fuel) with
      | none => none
      | some ts => some (.tup (pySlice s 0 i) ts)

mutual
/-- `type_to_str` (`cli/cycpp.py:2286-2295`).  `prims` is membership in `PRIMITIVES`.  The
result is a Python value, a string or a tuple: a tuple that is in the set is returned as it
is.  For a string outside the set line 2290 takes `t[0]` and line 2291 recurses on the
character `t[1]`, which raises IndexError, at once or one level down, as the set holds no
string of one character. -/
def typeToStr (prims : Ty → Bool) : Ty → Except Err Ty
  | .str s => if prims (.str s) then .ok (.str s) else .error .generic
  | .tup n args =>
    if prims (.tup n args) then .ok (.tup n args)
    else match joinArgs prims args with
      | .ok body => .ok (.str (n ++ "< ".toList ++ body ++ " >".toList))
      | .error e => .error e

/-- Lines 2291-2293: the arguments joined with `', '`.  No argument is an IndexError, and
adding a tuple to a string is a TypeError. -/
def joinArgs (prims : Ty → Bool) : List Ty → Except Err Str
  | [] => .error .generic
  | [a] =>
    match typeToStr prims a with
    | .ok (.str s) => .ok s
    | .ok (.tup _ _) => .error .cast
    | .error e => .error e
  | a :: b :: r =>
    match typeToStr prims a with
    | .ok (.str s) =>
      match joinArgs prims (b :: r) with
      | .ok body => .ok (s ++ ", ".toList ++ body)
      | .error e => .error e
    | .ok (.tup _ _) => .error .cast
    | .error e => .error e
end

/-- The names in `PRIMITIVES` as line 96 writes it. -/
def primNames : List Str :=
  ["bool".toList, "int".toList, "float".toList, "double".toList, "std::string".toList,
    "cyclus::Blob".toList, "boost::uuids::uuid".toList]

def resBuf : Str := "cyclus::toolkit::ResBuf".toList
def resMap : Str := "cyclus::toolkit::ResMap".toList
def invTracker : Str := "cyclus::toolkit::TotalInvTracker".toList
def resource : Str := "cyclus::Resource".toList
def product : Str := "cyclus::Product".toList
def material : Str := "cyclus::Material".toList

/-- Membership in `BUFFERS` (`cli/cycpp.py:99-106`). -/
def isBuffer : Ty → Bool
  | .str s => s = resBuf ∨ s = resMap ∨ s = invTracker
  | .tup n [.str a] => n = resBuf ∧ (a = resource ∨ a = product ∨ a = material)
  | .tup n [.str a, .str b] => n = invTracker ∧ a = resBuf ∧ b = material
  | .tup _ _ => false

/-- Membership in `PRIMITIVES` when the functions run: lines 745-749 bind `supported_types`
to the same set and extend it in place with `BUFFERS` and the resource classes. -/
def isPrim : Ty → Bool
  | .str s => s ∈ primNames ∨ isBuffer (.str s) ∨ s = resource ∨ s = material ∨ s = product
  | t => isBuffer t

/-! ## Shapes -/

/-- The flattening loop of `canonize_shape` (`cli/cycpp.py:849-858`).  Inserting the
elements of `temp` one by one at `i + j` puts them in order at `i`. -/
def flattenLoop : Nat → Nat → List Ty → Option (List Ty)
  | 0, _, _ => none
  | fuel + 1, i, r =>
    match r[i]? with
    | none => some r
    | some (.str _) => flattenLoop fuel (i + 1) r
    | some (.tup _ args) => flattenLoop fuel (i + 1) (r.take (i + 1) ++ args ++ r.drop (i + 1))

/-- Lines 845-858. -/
def flatten (fuel : Nat) : Ty → Option (List Ty)
  | .str s => some [.str s]
  | .tup n args => flattenLoop fuel 0 (.str n :: args)

/-- `canonize_shape` (`cli/cycpp.py:830-874`); the outer `Option` is the fuel of the loop.
The shape is the annotation, `none` if there is none, else a list of integers.  A tuple in
place of a list, which has no `extend`, is left out.  The value is what the function
returns and line 502 stores: in the too short case `current_shape.extend(...)`, that is
`None`. -/
def canonizeShape (fuel : Nat) (t : Ty) (shape : Option (List Int)) :
    Option (Except Err (Option (List Int))) :=
  match flatten fuel t with
  | none => none
  | some result =>
    let expected := result.length
    match shape with
    | none => some (.ok (some (List.replicate expected (-1))))
    | some current =>
      if current.length = expected then some (.ok (some current))
      else if current.length < expected then some (.ok none)
      else some (.error .value)

/-! ## UUID literals -/

/-- `l[1::2]`. -/
def odds {α : Type} : List α → List α
  | _ :: b :: r => b :: odds r
  | _ => []

/-- The list `l` of `_val_uuid` (`cli/cycpp.py:1243`): `val.hex[::1]` is the whole text of
the 32 digits. -/
def uuidPairs (hex : Str) : List (Char × Char) := List.zip hex (odds hex)

/-- `', 0x'.join(l)`. -/
def joinPairs : List (Char × Char) → Str
  | [] => []
  | [p] => [p.1, p.2]
  | p :: q :: r => p.1 :: p.2 :: (", 0x".toList ++ joinPairs (q :: r))

/-- The braces written by `_val_uuid` (`cli/cycpp.py:1244`) for a `uuid.UUID`. -/
def uuidLiteral (hex : Str) : Str := "{0x".toList ++ joinPairs (uuidPairs hex) ++ "}".toList

/-! ## Class hierarchy -/

/-- `superclasses`: the direct parents of each class seen (`cli/cycpp.py:368-386`).  A set
is a list in its order of iteration. -/
abbrev PDict := Nat → Option (List Nat)

def PDict.set (d : PDict) (c : Nat) (v : List Nat) : PDict :=
  fun x => if x = c then some v else d x

/-- The loop at `cli/cycpp.py:2300-2302`, over the recursive call `rec`. -/
def parentLoop (rec : Nat → PDict → Option (List Nat × PDict)) :
    List Nat → List Nat → PDict → Option (List Nat × PDict)
  | [], rents, d => some (rents, d)
  | v :: vs, rents, d =>
    match rec v d with
    | none => none
    | some (r, d) => parentLoop rec vs (rents ++ [v] ++ r) d

/-- `parent_classes` (`cli/cycpp.py:2297-2303`), with the dictionary it changes; `none`
when the recursion is deeper than `fuel` (Python: RecursionError). -/
def parentClasses : Nat → Nat → PDict → Option (List Nat × PDict)
  | 0, _, _ => none
  | fuel + 1, c, d =>
    let vals := (d c).getD []
    parentLoop (parentClasses fuel) vals [] (d.set c vals)

/-- The loop at `cli/cycpp.py:2311-2312`. -/
def grandLoop (fuel : Nat) : List Nat → List Nat → PDict → Option (List Nat × PDict)
  | [], grents, d => some (grents, d)
  | p :: ps, grents, d =>
    match parentClasses fuel p d with
    | none => none
    | some (r, d) => grandLoop fuel ps (grents ++ r) d

/-- `parent_intersection` (`cli/cycpp.py:2305-2314`); a class that is not in the dictionary
is a KeyError. -/
def parentIntersection (fuel : Nat) (c : Nat) (query : List Nat) (d : PDict) :
    Option (Except Err (List Nat)) :=
  match d c with
  | none => some (.error .key)
  | some sup =>
    let rents := query.filter (· ∈ sup)
    match grandLoop fuel rents [] d with
    | none => none
    | some (grents, _) => some (.ok (rents.filter (· ∉ grents)))

end Cyclus.Cycpp
