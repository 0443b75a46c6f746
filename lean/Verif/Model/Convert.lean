import Verif.Model.Infile
import Mathlib.Data.Int.Log
import Mathlib.Data.Nat.Digits.Defs
import Mathlib.Data.Rat.Floor

/-!
# Model of the conversions between JSON and XML

Models `AddJsonToXml`, `JsonInsertOrAppend` and `AddXmlToJson`
(`/repo/src/toolkit/infile_converters.cc:15-162`).

* Parsing of XML text is not modelled; the reader and the writer of JSON text are in
  `Verif.Model.JsonText`.  The conversions take and give values.  An object is the list of its members in the order of `getMemberNames`, which is that of the
  names; names occur once.
* `stringstream` writes doubles with six significant digits.  `shown` is the text of a number with at
  most six digits; it is arbitrary.
* `SubTree("*", i)` and `GetElementName(i)` are the i-th child element and its name (C96), so that the
  loop of `AddXmlToJson` is a loop over the child elements.
-/

namespace Cyclus.Convert

open Infile (Node Fail)

/-- `Json::Value`. -/
inductive J where
  | null
  | bool (b : Bool)
  | int (z : ℤ)
  | real (r : ℚ)
  | str (s : List Char)
  | arr (items : List J)
  | obj (members : List (List Char × J))

/-- `isObject`. -/
def J.isObj : J → Bool
  | .obj _ => true
  | _ => false

/-- `isArray`. -/
def J.isArr : J → Bool
  | .arr _ => true
  | _ => false

/-- `isNull`. -/
def J.isNull : J → Bool
  | .null => true
  | _ => false

/-- The rounding of `ostream << double` with the default precision of six significant digits. -/
def round6 (r : ℚ) : ℚ :=
  if r = 0 then 0
  else (Random.lrint (r / 10 ^ (Int.log 10 |r| - 5)) : ℚ) * 10 ^ (Int.log 10 |r| - 5)

/-- The decimal digits of a number, without leading zeros. -/
def decimal (n : ℕ) : List Char :=
  if n = 0 then ['0'] else (Nat.digits 10 n).reverse.map fun d => Char.ofNat (d + 48)

/-- `ostream << int64` and `ostream << uint64`. -/
def showInt (z : ℤ) : List Char := if z < 0 then '-' :: decimal z.natAbs else decimal z.natAbs

/-- `<name>`. -/
def openTag (n : List Char) : List Char := '<' :: n ++ ['>']
/-- `</name>` and a newline. -/
def closeTag (n : List Char) : List Char := '<' :: '/' :: n ++ ['>', '\n']
/-- `<name/>` and a newline. -/
def emptyTag (n : List Char) : List Char := '<' :: n ++ ['/', '>', '\n']

/-- `indent.substr(0, indent.size() - 2)` (`infile_converters.cc:44`): for less than two characters the
length wraps around. -/
def outdent (i : List Char) : List Char := if i.length < 2 then i else i.take (i.length - 2)

/-- The value of `indent_child` for a member (`infile_converters.cc:30-32`).  The access to item 0 of an
empty array appends a null, which is neither. -/
def indentMember : J → Bool
  | .obj _ => true
  | .arr (x :: _) => x.isObj || x.isArr
  | _ => false

mutual

/-- `AddJsonToXml` (`infile_converters.cc:15-78`). -/
def emit (shown : ℚ → List Char) : J → List Char → List Char → List Char
  | .obj ms, _, ind => emitMembers shown ms ind
  | .arr xs, p, ind => emitItems shown xs true p ind
  | .str s, _, _ => s
  | .int z, _, _ => showInt z
  | .real r, _, _ => shown (round6 r)
  | .bool b, _, _ => if b then ['1'] else ['0']
  | .null, _, _ => []

/-- The loop over the members (`infile_converters.cc:24-40`).  An empty array has one null item when it
is written (see `indentMember`). -/
def emitMembers (shown : ℚ → List Char) : List (List Char × J) → List Char → List Char
  | [], _ => []
  | (n, .null) :: ms, ind => ind ++ emptyTag n ++ emitMembers shown ms ind
  | (n, .arr []) :: ms, ind =>
    ind ++ openTag n ++ (ind ++ emptyTag n) ++ closeTag n ++ emitMembers shown ms ind
  | (n, v) :: ms, ind =>
    ind ++ openTag n ++ (if indentMember v then ['\n'] else []) ++
      emit shown v n (ind ++ [' ', ' ']) ++ (if indentMember v then ind else []) ++ closeTag n ++
      emitMembers shown ms ind

/-- The loop over the items of an array (`infile_converters.cc:46-63`); `first` is `n == 0`. -/
def emitItems (shown : ℚ → List Char) : List J → Bool → List Char → List Char → List Char
  | [], _, _, _ => []
  | .null :: xs, _, p, ind => outdent ind ++ emptyTag p ++ emitItems shown xs false p ind
  | x :: xs, first, p, ind =>
    (if first then [] else outdent ind ++ openTag p ++ (if x.isObj || x.isArr then ['\n'] else [])) ++
      emit shown x p ind ++
      (if xs.isEmpty then [] else (if x.isObj || x.isArr then outdent ind else []) ++ closeTag p) ++
      emitItems shown xs false p ind

end

/-- `JsonToXml` of a parsed value (`infile_converters.cc:98-100`). -/
def toXml (shown : ℚ → List Char) (j : J) : List Char := emit shown j [] []

/-! ## From XML to JSON -/

/-- Order of names: that of `strcmp`. -/
def nameLt (a b : List Char) : Bool := decide (a < b)

/-- `node[key] = val` for a new key: the map is ordered by the keys. -/
def addMember (k : List Char) (v : J) : List (List Char × J) → List (List Char × J)
  | [] => [(k, v)]
  | m :: ms => if nameLt k m.1 then (k, v) :: m :: ms else m :: addMember k v ms

/-- The new value of a member that is there (`infile_converters.cc:108-116`). -/
def appendTo : J → J → J
  | .arr xs, v => .arr (xs ++ [v])
  | old, v => .arr [old, v]

/-- `JsonInsertOrAppend` (`infile_converters.cc:104-120`). -/
def insertOrAppend (ms : List (List Char × J)) (k : List Char) (v : J) : List (List Char × J) :=
  if ms.any (·.1 = k) then
    ms.map fun m => if m.1 = k then (k, appendTo m.2 v) else m
  else addMember k v ms

/-- The value of an element without child elements (`infile_converters.cc:131-136`). -/
def leaf (name : List Char) (cs : List Node) : Except Fail J :=
  match Infile.content (.element name cs) with
  | .ok s => .ok (.str s)
  | .error (.err .value) => .ok .null
  | .error e => .error e

/-- `AddXmlToJson` (`infile_converters.cc:122-143`): the children of a node, added to the members of an
object. -/
def addXml : List Node → List (List Char × J) → Except Fail (List (List Char × J))
  | [], ms => .ok ms
  | .element name cs :: rest, ms =>
    if (cs.filter Node.isElement).isEmpty then
      match leaf name cs with
      | .error e => .error e
      | .ok v => addXml rest (insertOrAppend ms name v)
    else
      match addXml cs [] with
      | .error e => .error e
      | .ok sub => addXml rest (insertOrAppend ms name (.obj sub))
  | _ :: rest, ms => addXml rest ms

/-- `XmlToJson` up to the writer (`infile_converters.cc:154-158`), for the root element. -/
def toJson (name : List Char) (cs : List Node) : Except Fail J :=
  match addXml cs [] with
  | .error e => .error e
  | .ok ms => .ok (.obj [(name, .obj ms)])

end Cyclus.Convert
