import Verif.Model.JsonText

/-!
# Model of JSON values in Python

Models `/repo/cyclus/jsoncpp.pyx:1-514`: the conversion of Python values to `Json::Value`, the class
`Value` that makes a `Json::Value` behave like a list or a dict, and `Reader.parse`; with the
functions of `Json::Value` that they call (`/repo/src/pyne.cc:14867-15660`).

* `Json::Value` is `JsonText.V`.  The items of an array that were never assigned are null there; the
  equality of C++ (`pyne.cc:14950-14990`), which counts items in the map, does not see a difference
  here.
* A text is a list of bytes in UTF-8; decoding succeeds.  A `char *` ends at the first byte 0.
* The methods work on the value `v` of `self._inst`; they give the value afterwards, also after an
  exception.
* `old` says whether the module `collections` has `Sequence` and `Set`, which is so before
  Python 3.10; without them line 52 raises `AttributeError`.
* A slice is the list of its positions, which Python's `slice.indices` and `range` give.
* `PErr` is the class of an exception; `abort` is a failed `assert` of C++ (undefined behaviour if
  assertions are disabled), `dangling` is memory that was freed.
-/

namespace Cyclus.PyJson

open Cyclus.JsonText
open Kahan (Dbl)

/-- What ends a call. -/
inductive PErr where
  | key | value | type | index | attribute | overflow | runtime | abort | dangling
  deriving DecidableEq, Repr

/-- Python values: `seq` is a list, a tuple or a set (in the order of iteration); the keys of a dict
are `some k` for a string and `none` for anything else. -/
inductive P where
  | none
  | bool (b : Bool)
  | int (z : ℤ)
  | float (x : Dbl)
  | str (s : Text)
  | bytes (s : Text)
  | dict (l : List (Option Text × P))
  | seq (l : List P)
  | value (v : V)
  | other

/-- Whether a number is an `int` of C. -/
def fitsInt (z : ℤ) : Bool := decide (-2147483648 ≤ z) && decide (z ≤ 2147483647)

mutual

/-- Models `tocppval` (`jsoncpp.pyx:34-70`). -/
def toCpp (old : Bool) : P → Except PErr V
  | .value v => .ok v
  | .dict l => toMembers old [] l
  | .str s => .ok (.str (cstr s))
  | .bytes s => .ok (.str (cstr s))
  | .seq l =>
    if old then
      match toItems old l with
      | .error e => .error e
      | .ok vs => .ok (.arr vs)
    else .error .attribute
  | .float x => if old then .ok (.real x) else .error .attribute
  | .bool b => if old then .ok (.bool b) else .error .attribute
  | .int z =>
    if old then if fitsInt z then .ok (.int z) else .error .overflow
    else .error .attribute
  | .none => if old then .ok .null else .error .attribute
  | .other => if old then .error .value else .error .attribute

/-- The loop over the items of a dict (`jsoncpp.pyx:40-44`). -/
def toMembers (old : Bool) (acc : List (Text × V)) : List (Option Text × P) → Except PErr V
  | [] => .ok (.obj acc)
  | (.none, _) :: _ => .error .key
  | (some k, p) :: l =>
    match toCpp old p with
    | .error e => .error e
    | .ok v => toMembers old (setMember acc (cstr k) v) l

/-- The loop over a sequence (`jsoncpp.pyx:55-56`). -/
def toItems (old : Bool) : List P → Except PErr (List V)
  | [] => .ok []
  | p :: l =>
    match toCpp old p with
    | .error e => .error e
    | .ok v =>
      match toItems old l with
      | .error e => .error e
      | .ok vs => .ok (v :: vs)

end

/-- `Value(document)` (`jsoncpp.pyx:97-105`): `None` is not converted. -/
def ofDoc (old : Bool) : P → Except PErr V
  | .none => .ok .null
  | p => toCpp old p

/-- What an item is in Python; `view` is a `Value` that shows the item. -/
inductive Got where
  | view (v : V)
  | str (s : Text)
  | float (x : Dbl)
  | bool (b : Bool)
  | int (z : ℤ)
  | none

/-- The end of `__getitem__` (`jsoncpp.pyx:141-157`), with `asInt` (`pyne.cc:15035-15060`). -/
def got : V → Except PErr Got
  | .obj ms => .ok (.view (.obj ms))
  | .arr l => .ok (.view (.arr l))
  | .str s => .ok (.str s)
  | .real x => .ok (.float x)
  | .bool b => .ok (.bool b)
  | .int z => if fitsInt z then .ok (.int z) else .error .runtime
  | .uint n => if n ≤ 2147483647 then .ok (.int n) else .error .runtime
  | .null => .ok .none

/-- Models `toposindex` (`jsoncpp.pyx:73-79`). -/
def posIndex (i : ℤ) (n : ℕ) : Except PErr ℕ :=
  let j := if i < 0 then n + i else i
  if n ≤ j ∨ j < 0 then .error .index else .ok j.toNat

/-- `Value::size` (`pyne.cc:15294-15325`). -/
def size : V → ℕ
  | .arr l => l.length
  | .obj ms => ms.length
  | _ => 0

/-- `find` in the map of an object (`pyne.cc:15492-15495`). -/
def find (ms : List (Text × V)) (k : Text) : Option V := (ms.find? fun p => p.1 = k).map Prod.snd

/-- Item `j` of an array. -/
def item (l : List V) (j : ℕ) : V := l.getD j .null

/-- `swap` of two items of an array (`pyne.cc:14867-14876`). -/
def swapAt (l : List V) (i j : ℕ) : List V := (l.set i (item l j)).set j (item l i)

/-! ## Items -/

/-- `self[k]` for a string (`jsoncpp.pyx:117-121`): `operator[]` adds a member that is missing
(`pyne.cc:15443-15468`). -/
def getKey (v : V) (k : Text) : V × Except PErr Got :=
  match v with
  | .null => (.obj [(cstr k, .null)], .ok .none)
  | .obj ms =>
    match find ms (cstr k) with
    | some x => (v, got x)
    | none => (.obj (setMember ms (cstr k) .null), .ok .none)
  | _ => (v, .error .abort)

/-- `self[i]` for an integer (`jsoncpp.pyx:122-124,134-139`). -/
def getInt (v : V) (i : ℤ) : V × Except PErr Got :=
  match v with
  | .arr l =>
    match posIndex i l.length with
    | .error e => (v, .error e)
    | .ok j => (v, got (item l j))
  | _ => (v, .error .key)

/-- `self[a:b:c]` (`jsoncpp.pyx:125-133`): a new array. -/
def getSlice (v : V) (r : List ℕ) : Except PErr V :=
  match v with
  | .arr l => .ok (.arr (r.map (item l)))
  | _ => .error .key

/-- `self[k] = p` for a string (`jsoncpp.pyx:161-167`): the member is there before `p` is converted. -/
def setKey (old : Bool) (v : V) (k : Text) (p : P) : V × Except PErr Unit :=
  let put := fun ms : List (Text × V) =>
    match toCpp old p with
    | .ok x => (V.obj (setMember ms (cstr k) x), Except.ok ())
    | .error e =>
      match find ms (cstr k) with
      | some _ => (.obj ms, .error e)
      | none => (.obj (setMember ms (cstr k) .null), .error e)
  match v with
  | .null => put []
  | .obj ms => put ms
  | _ => (v, .error .abort)

/-- `self[i] = p` for an integer (`jsoncpp.pyx:168-172`). -/
def setInt (old : Bool) (v : V) (i : ℤ) (p : P) : V × Except PErr Unit :=
  match posIndex i (size v) with
  | .error e => (v, .error e)
  | .ok j =>
    match v with
    | .arr l =>
      match toCpp old p with
      | .error e => (v, .error e)
      | .ok x => (.arr (l.set j x), .ok ())
    | _ => (v, .error .abort)

/-- The loop of `self[a:b:c] = …` (`jsoncpp.pyx:176-179`) on an array. -/
def setLoop (old : Bool) : List V → List ℕ → List P → List V × Except PErr Unit
  | l, j :: r, p :: ps =>
    match toCpp old p with
    | .error e => (l, .error e)
    | .ok x => setLoop old (l.set j x) r ps
  | l, _, _ => (l, .ok ())

/-- `self[a:b:c] = ps` (`jsoncpp.pyx:173-179`) on an array. -/
def setSlice (old : Bool) (l : List V) (r : List ℕ) (ps : List P) : V × Except PErr Unit :=
  let x := setLoop old l r ps
  (.arr x.1, x.2)

/-- `del self[k]` for a string (`jsoncpp.pyx:186-191`), with `removeMember` (`pyne.cc:15583-15605`). -/
def delKey (v : V) (k : Text) : V × Except PErr Unit :=
  match v with
  | .obj ms => (.obj (ms.filter fun p => p.1 ≠ cstr k), .ok ())
  | _ => (v, .error .key)

/-- `del self[i]` for an integer (`jsoncpp.pyx:192-198`). -/
def delInt (v : V) (i : ℤ) : V × Except PErr Unit :=
  match v with
  | .arr l =>
    match posIndex i l.length with
    | .error e => (v, .error e)
    | .ok k =>
      let l' := (List.range' (k + 1) (l.length - (k + 1))).foldl (fun l i => swapAt l (i - 1) i) l
      (.arr (l'.take (l.length - 1)), .ok ())
  | _ => (v, .error .key)

/-- `ctemp[i].swap(self[r_i])` (`jsoncpp.pyx:206-207`): the two arrays. -/
def takeLoop : List V × List V → ℕ → List ℕ → List V × List V
  | x, _, [] => x
  | (t, l), i, j :: r => takeLoop (t.set i (item l j), l.set j (item t i)) (i + 1) r

/-- `self[i].swap(ctemp[i])` (`jsoncpp.pyx:208-209`): the array. -/
def putLoop : List V → List V → ℕ → ℕ → List V
  | _, l, _, 0 => l
  | t, l, i, n + 1 => putLoop (t.set i (item l i)) (l.set i (item t i)) (i + 1) n

/-- `del self[a:b:c]` (`jsoncpp.pyx:199-210`); `r` are the positions of the slice, `kept` the others. -/
def delSlice (v : V) (r : List ℕ) : V × Except PErr Unit :=
  match v with
  | .arr l =>
    let kept := (List.range l.length).filter fun j => j ∉ r
    let x := takeLoop (List.replicate kept.length .null, l) 0 kept
    (.arr ((putLoop x.1 x.2 0 kept.length).take kept.length), .ok ())
  | _ => (v, .error .key)

/-! ## Methods of lists -/

/-- `append` (`jsoncpp.pyx:435-438`), with `resize` (`pyne.cc:15366-15387`). -/
def append (old : Bool) (v : V) (p : P) : V × Except PErr Unit :=
  match v with
  | .null => setInt old (.arr [.null]) (-1) p
  | .arr l => setInt old (.arr (l ++ [.null])) (-1) p
  | _ => (v, .error .abort)

/-- `extend` (`jsoncpp.pyx:457-460`). -/
def extend (old : Bool) : V → List P → V × Except PErr Unit
  | v, [] => (v, .ok ())
  | v, p :: ps =>
    match append old v p with
    | (v', .error e) => (v', .error e)
    | (v', .ok ()) => extend old v' ps

/-- `insert` (`jsoncpp.pyx:440-448`): the array is made longer before the position is checked. -/
def insert (old : Bool) (v : V) (i : ℤ) (p : P) : V × Except PErr Unit :=
  let go := fun l : List V =>
    let l1 := l ++ [V.null]
    match posIndex i l.length with
    | .error e => (V.arr l1, Except.error e)
    | .ok j =>
      let l2 := (List.range' j (l.length - j)).reverse.foldl (fun l i => swapAt l i (i + 1)) l1
      setInt old (.arr l2) j p
  match v with
  | .null => go []
  | .arr l => go l
  | _ => (v, .error .abort)

/-- `reverse` (`jsoncpp.pyx:450-455`). -/
def reverse (l : List V) : List V :=
  (List.range (l.length / 2)).foldl (fun m i => swapAt m i (l.length - i - 1)) l

/-- The loop of `index` (`jsoncpp.pyx:419-421`); `eq` is the equality of C++. -/
def indexLoop (eq : V → V → Bool) (l : List V) (x : V) : List ℕ → Except PErr ℕ
  | [] => .error .value
  | i :: r => if eq (item l i) x then .ok i else indexLoop eq l x r

/-- `index` (`jsoncpp.pyx:413-422`) on an array, from `a` up to `b`. -/
def index (old : Bool) (eq : V → V → Bool) (l : List V) (p : P) (a b : ℕ) : Except PErr ℕ :=
  match ofDoc old p with
  | .error e => .error e
  | .ok x => indexLoop eq l x (List.range' a (b - a))

/-- `count` (`jsoncpp.pyx:424-433`) on an array. -/
def count (old : Bool) (eq : V → V → Bool) (l : List V) (p : P) : Except PErr ℕ :=
  match ofDoc old p with
  | .error e => .error e
  | .ok x => .ok ((List.range l.length).foldl (fun n i => if eq (item l i) x then n + 1 else n) 0)

/-- `remove` (`jsoncpp.pyx:462-465`) on an array. -/
def remove (old : Bool) (eq : V → V → Bool) (l : List V) (p : P) : V × Except PErr Unit :=
  match index old eq l p 0 l.length with
  | .error e => (.arr l, .error e)
  | .ok i => delInt (.arr l) i

/-- `+=` (`jsoncpp.pyx:467-472`) on an array. -/
def iadd (old : Bool) (l : List V) (ps : List P) : V × Except PErr Unit :=
  setSlice old (l ++ List.replicate ps.length .null) (List.range' l.length ps.length) ps

/-- What `pop` returns: a value of its own, or a view of what is in the place of the item. -/
inductive Popped where
  | own (g : Got)
  | view (v : V)

/-- `pop(i)` (`jsoncpp.pyx:389-392`): what was read before the item was deleted. -/
def popInt (v : V) (i : ℤ) : V × Except PErr Popped :=
  match getInt v i with
  | (v, .error e) => (v, .error e)
  | (v, .ok g) =>
    match delInt v i with
    | (v', .error e) => (v', .error e)
    | (v', .ok ()) =>
      match g with
      | .view _ =>
        match posIndex i (size v), v' with
        | .ok j, .arr l => if j < l.length then (v', .ok (.view (item l j))) else (v', .error .dangling)
        | _, _ => (v', .error .dangling)
      | g => (v', .ok (.own g))

/-! ## Methods of dicts -/

/-- `pop(k)` (`jsoncpp.pyx:389-392`). -/
def popKey (v : V) (k : Text) : V × Except PErr Popped :=
  match getKey v k with
  | (v, .error e) => (v, .error e)
  | (v, .ok g) =>
    match delKey v k with
    | (v', .error e) => (v', .error e)
    | (v', .ok ()) =>
      match g with
      | .view _ => (v', .error .dangling)
      | g => (v', .ok (.own g))

/-- `k in self` for a string (`jsoncpp.pyx:216-218`), with `isMember` (`pyne.cc:15621-15625`). -/
def contains (v : V) (k : Text) : Except PErr Bool :=
  match v with
  | .obj ms => .ok (find ms (cstr k)).isSome
  | _ => .error .key

/-- Whether an item is equal to a Python value (`jsoncpp.pyx:223`): numbers are equal whatever their
type; a view is compared as in C++. -/
def pyEq (old : Bool) (eq : V → V → Bool) (p : P) : Got → Bool
  | .view v =>
    match ofDoc old p with
    | .ok x => eq v x
    | .error _ => false
  | .str s => match p with | .str t => decide (t = s) | _ => false
  | .none => match p with | .none => true | _ => false
  | .int z => match p with
    | .int y => decide (y = z)
    | .bool b => decide ((if b then 1 else 0) = z)
    | .float (.num x) => decide (x = z)
    | _ => false
  | .bool b => match p with
    | .int y => decide (y = if b then 1 else 0)
    | .bool c => decide (c = b)
    | .float (.num x) => decide (x = if b then 1 else 0)
    | _ => false
  | .float (.num x) => match p with
    | .int y => decide ((y : ℚ) = x)
    | .bool b => decide ((if b then 1 else 0) = x)
    | .float (.num y) => decide (y = x)
    | _ => false
  | .float x => match p with
    | .float y => decide (y = x ∧ x ≠ .nan)
    | _ => false

/-- `p in self` for an array (`jsoncpp.pyx:219-225`). -/
def containsItem (old : Bool) (eq : V → V → Bool) (p : P) : List V → Except PErr Bool
  | [] => .ok false
  | x :: l =>
    match got x with
    | .error e => .error e
    | .ok g => if pyEq old eq p g then .ok true else containsItem old eq p l

/-- `keys` (`jsoncpp.pyx:320-331`). -/
def keys (v : V) : Except PErr (List Text) :=
  match v with
  | .obj ms => .ok (ms.map Prod.fst)
  | _ => .error .type

/-- `get(k, default)` (`jsoncpp.pyx:356-364`); `none` is the default. -/
def getDefault (v : V) (k : Text) : V × Except PErr (Option Got) :=
  match v with
  | .obj ms =>
    match find ms (cstr k) with
    | none => (v, .ok none)
    | some _ =>
      match getKey v k with
      | (v', .error e) => (v', .error e)
      | (v', .ok g) => (v', .ok (some g))
  | _ => (v, .error .type)

/-- `setdefault(k, d)` (`jsoncpp.pyx:399-404`). -/
def setDefault (old : Bool) (v : V) (k : Text) (d : P) : V × Except PErr Got :=
  let go := fun v : V =>
    match setKey old v k d with
    | (v', .error e) => (v', Except.error e)
    | (v', .ok ()) => getKey v' k
  match v with
  | .null => go v
  | .obj ms =>
    match find ms (cstr k) with
    | some _ => getKey v k
    | none => go v
  | _ => (v, .error .abort)

/-- `update(d)` (`jsoncpp.pyx:406-408`) for a dict with strings as keys. -/
def update (old : Bool) : V → List (Text × P) → V × Except PErr Unit
  | v, [] => (v, .ok ())
  | v, (k, p) :: d =>
    match setKey old v k p with
    | (v', .error e) => (v', .error e)
    | (v', .ok ()) => update old v' d

/-! ## Text -/

/-- `str(self)` of a string (`jsoncpp.pyx:248-255`): the styled writer gives the quoted text and a
newline (`pyne.cc:16339-16368`). -/
def strOf (s : Text) : Text := ((quoted s ++ ['\n']).drop 1).dropLast.dropLast

/-- What `Reader.parse` is given: a string, or a file with its contents. -/
inductive Doc where
  | str (s : Text)
  | file (s : Text)

/-- `Reader.parse` (`jsoncpp.pyx:486-514`): the method `endcode` does not exist; what the parser says
is not looked at.  `none` is the value that the parser leaves behind when it fails. -/
def parseDoc (rd : ℚ → Dbl) : Doc → Except PErr (Option V)
  | .file _ => .error .attribute
  | .str s =>
    match parse rd (cstr s) with
    | .ok v _ => .ok (some v)
    | _ => .ok none

end Cyclus.PyJson
