import Verif.Model.Kahan
import Verif.Model.Random
import Mathlib.Data.Int.Log
import Mathlib.Data.Rat.Floor

/-!
# Model of the reader and the writers of JSON text

Models the JSON library that is part of `/repo/src/pyne.cc`: `codePointToUTF8` and `uintToString`
(`pyne.cc:13085-13146`), `Reader` (`pyne.cc:13239-13935`), `valueToString`, `valueToQuotedString` and
`FastWriter` (`pyne.cc:16091-16318`), `CustomWriter` (`pyne.cc:16867-17027`).  The reader is called by
`JsonToXml` (`toolkit/infile_converters.cc:89-96`) and by `cyclus/jsoncpp.pyx`, the custom writer by
`XmlToJson` (`infile_converters.cc:159-161`) and by `cli/cyclus.cc:393-395, 486-488`, the fast writer by
`cyclus/jsoncpp.pyx`.

* A text is a list of characters, each of which stands for the byte with its number.
* Comments are skipped; that `collectComments` attaches them to values is left out.  The features are
  `Features::all()` (`pyne.cc:13191-13200`), so that `strictRoot_` is false.
* A reader that meets an error skips to the end of the array or object, goes on in the same way in the
  ones around it and returns false: the result is `bad`.  Messages and what is left in the value are not
  modelled.
* The reader recurses with a counter.  `out` stands for a counter that is too small (which
  `C112_terminates` excludes); the depth of the stack is not limited.
* Integers have 64 bits and wrap around.  `-Value::minLargestInt`, `-value` and `-LargestInt(value)` of
  the least integer overflow, which C++ leaves undefined; they are taken to wrap around.
* A double is a rational number, an infinity or no number (`Kahan.Dbl`), without the sign of a zero.
  `rd` rounds a number to a double and is arbitrary.  `sprintf("%#.16g")` rounds the exact value to the
  nearest number of 16 digits, half to even; `sscanf("%lf")` fails on an exponent without digits
  (C11 7.21.6.2).
* An array is the list of what `operator[]` gives for its indices, which is null for an index without an
  item.  An object is the list of its members in the order of the map, which is that of `strcmp`.
-/

namespace Cyclus.JsonText

open Kahan (Dbl)

/-- A text: a list of bytes. -/
abbrev Text := List Char

/-- `Json::Value` (`pyne.cc:14604-14776`). -/
inductive V where
  | null
  | int (z : ℤ)
  | uint (n : ℕ)
  | real (x : Dbl)
  | str (s : Text)
  | bool (b : Bool)
  | arr (items : List V)
  | obj (members : List (Text × V))

/-- The byte 0. -/
def nul : Char := Char.ofNat 0

/-- A text as C sees it: up to the first byte 0. -/
def cstr (s : Text) : Text := s.takeWhile (· != nul)

/-! ## Writing -/

/-- The digit of a number below 10: `char(value % 10) + '0'`. -/
def digit (d : ℕ) : Char := Char.ofNat (d + 48)

/-- The loop of `uintToString` (`pyne.cc:13141-13145`).  There is room for 24 digits in the buffer
(`pyne.cc:13123-13129`). -/
def uintLoop : ℕ → ℕ → Text → Text
  | 0, _, cur => cur
  | f + 1, value, cur =>
    let cur := digit (value % 10) :: cur
    if value / 10 = 0 then cur else uintLoop f (value / 10) cur

/-- `valueToString( LargestUInt )` (`pyne.cc:16116-16122`). -/
def uintText (n : ℕ) : Text := uintLoop 24 n []

/-- `valueToString( LargestInt )` (`pyne.cc:16102-16113`). -/
def intText (z : ℤ) : Text := if z < 0 then '-' :: uintText z.natAbs else uintText z.natAbs

/-- The last `k` digits of a number. -/
def digs : ℕ → ℕ → Text
  | 0, _ => []
  | k + 1, m => digs k (m / 10) ++ [digit (m % 10)]

/-- `%#.16g`: the 16 digits and the exponent of the number above 0, rounded to 16 digits. -/
def dec16 (a : ℚ) : ℕ × ℤ :=
  let e := Int.log 10 a
  let m := (Random.lrint (a / 10 ^ (e - 15))).toNat
  if m = 10 ^ 16 then (10 ^ 15, e + 1) else (m, e)

/-- `%#.16g`: the text of the digits `m` with the exponent `e`, which has two or more digits. -/
def body (m : ℕ) (e : ℤ) : Text :=
  let d := digs 16 m
  if -4 ≤ e ∧ e < 16 then
    if e < 0 then '0' :: '.' :: List.replicate (-e - 1).toNat '0' ++ d
    else d.take (e.toNat + 1) ++ '.' :: d.drop (e.toNat + 1)
  else
    let x := uintLoop (e.natAbs + 1) e.natAbs []
    d.take 1 ++ '.' :: d.drop 1 ++ 'e' :: (if e < 0 then '-' else '+') ::
      (if e.natAbs < 10 then '0' :: x else x)

/-- `sprintf(buffer, "%#.16g", value)`. -/
def fmt : Dbl → Text
  | .num x =>
    if x = 0 then "0.000000000000000".toList
    else (if x < 0 then ['-'] else []) ++ body (dec16 |x|).1 (dec16 |x|).2
  | .pinf => "inf".toList
  | .ninf => "-inf".toList
  | .nan => "nan".toList

/-- Whether a character is a digit. -/
def isDig (c : Char) : Bool := decide ('0'.toNat ≤ c.toNat) && decide (c.toNat ≤ '9'.toNat)

/-- The end of `valueToString( double )` (`pyne.cc:16146-16174`): zeros at the end are cut, but for one,
if there are only digits back to a point. -/
def trim (t : Text) : Text :=
  let r := t.reverse
  if r.head? = some '0' then
    let z := r.dropWhile (· == '0')
    match z.dropWhile isDig with
    | '.' :: _ => z.reverse ++ ['0']
    | _ => t
  else t

/-- `valueToString( double )` (`pyne.cc:16139-16175`). -/
def realText (x : Dbl) : Text := trim (fmt x)

/-- `isControlCharacter` (`pyne.cc:13117-13120`). -/
def isControl (c : Char) : Bool := decide (0 < c.toNat) && decide (c.toNat ≤ 0x1F)

/-- A digit as `std::hex << std::uppercase` writes it. -/
def hexDigit (d : ℕ) : Char := if d < 10 then Char.ofNat (d + 48) else Char.ofNat (d + 55)

/-- The characters of `strpbrk` (`pyne.cc:16184`). -/
def special : List Char := ['"', '\\', Char.ofNat 8, Char.ofNat 12, '\n', '\r', '\t']

/-- One character of the loop of `valueToQuotedString` (`pyne.cc:16193-16234`). -/
def escape (c : Char) : Text :=
  if c = '"' then ['\\', '"']
  else if c = '\\' then ['\\', '\\']
  else if c = Char.ofNat 8 then ['\\', 'b']
  else if c = Char.ofNat 12 then ['\\', 'f']
  else if c = '\n' then ['\\', 'n']
  else if c = '\r' then ['\\', 'r']
  else if c = '\t' then ['\\', 't']
  else if isControl c then
    ['\\', 'u', hexDigit (c.toNat / 4096 % 16), hexDigit (c.toNat / 256 % 16),
      hexDigit (c.toNat / 16 % 16), hexDigit (c.toNat % 16)]
  else [c]

/-- `valueToQuotedString` (`pyne.cc:16182-16237`). -/
def quoted (s : Text) : Text :=
  let c := cstr s
  if c.all (fun x => !special.contains x && !isControl x) then '"' :: c ++ ['"']
  else '"' :: c.flatMap escape ++ ['"']

/-- The text of a value that is no array and no object (`pyne.cc:16270-16288, 16901-16920`). -/
def scalar : V → Text
  | .null => "null".toList
  | .int z => intText z
  | .uint n => uintText n
  | .real x => realText x
  | .str s => quoted s
  | .bool b => if b then "true".toList else "false".toList
  | _ => []

mutual

/-- `FastWriter::writeValue` (`pyne.cc:16268-16318`), without the compatibility to YAML. -/
def fastValue : V → Text
  | .arr l => '[' :: fastItems l ++ [']']
  | .obj ms => '{' :: fastMembers ms ++ ['}']
  | .null => scalar .null
  | .int z => scalar (.int z)
  | .uint n => scalar (.uint n)
  | .real x => scalar (.real x)
  | .str s => scalar (.str s)
  | .bool b => scalar (.bool b)

/-- The loop over the items (`pyne.cc:16292-16296`). -/
def fastItems : List V → Text
  | [] => []
  | [x] => fastValue x
  | x :: y :: l => fastValue x ++ ',' :: fastItems (y :: l)

/-- The loop over the members (`pyne.cc:16303-16313`). -/
def fastMembers : List (Text × V) → Text
  | [] => []
  | [(k, x)] => quoted k ++ ':' :: fastValue x
  | (k, x) :: y :: l => quoted k ++ ':' :: fastValue x ++ ',' :: fastMembers (y :: l)

end

/-- `FastWriter::write` (`pyne.cc:16259-16265`). -/
def fast (v : V) : Text := fastValue v ++ ['\n']

/-- The parameters of `CustomWriter` (`pyne.cc:16867-16884`). -/
structure Style where
  opencurly : Text
  closecurly : Text
  opensquare : Text
  closesquare : Text
  colon : Text
  comma : Text
  indent : Text
  maxWidth : ℕ

mutual

/-- `CustomWriter::writeValue` (`pyne.cc:16898-17009`); `ind` is `indentString_`, which `unindent` sets
back to what it was, and `force` is `forceSingleLine`. -/
def customValue (st : Style) : Text → Bool → V → Text
  | ind, force, .arr l =>
    let line := st.opensquare ++ customItems st ind false l ++ st.closesquare
    if force ∨ ¬ line.length > st.maxWidth then line
    else st.opensquare ++ customItems st (ind ++ st.indent) true l ++ '\n' :: ind ++ st.closesquare
  | ind, force, .obj ms =>
    let line := st.opencurly ++ customMembers st ind false ms ++ st.closecurly
    if force ∨ ¬ line.length > st.maxWidth then line
    else st.opencurly ++ customMembers st (ind ++ st.indent) true ms ++ '\n' :: ind ++ st.closecurly
  | _, _, .null => scalar .null
  | _, _, .int z => scalar (.int z)
  | _, _, .uint n => scalar (.uint n)
  | _, _, .real x => scalar (.real x)
  | _, _, .str s => scalar (.str s)
  | _, _, .bool b => scalar (.bool b)

/-- The loop over the items (`pyne.cc:16941-16951`). -/
def customItems (st : Style) : Text → Bool → List V → Text
  | _, _, [] => []
  | ind, multi, [x] => (if multi then '\n' :: ind else []) ++ customValue st ind false x
  | ind, multi, x :: y :: l =>
    (if multi then '\n' :: ind else []) ++ customValue st ind false x ++ st.comma ++
      customItems st ind multi (y :: l)

/-- The loop over the members (`pyne.cc:16982-16998`).  A member of an object on one line is forced onto
one line. -/
def customMembers (st : Style) : Text → Bool → List (Text × V) → Text
  | _, _, [] => []
  | ind, multi, [(k, x)] =>
    (if multi then '\n' :: ind else []) ++ quoted k ++ st.colon ++ customValue st ind (!multi) x
  | ind, multi, (k, x) :: y :: l =>
    (if multi then '\n' :: ind else []) ++ quoted k ++ st.colon ++ customValue st ind (!multi) x ++
      st.comma ++ customMembers st ind multi (y :: l)

end

/-- `CustomWriter::write` (`pyne.cc:16887-16895`). -/
def custom (st : Style) (v : V) : Text := customValue st [] false v ++ ['\n']

/-! ## Reading -/

/-- A token (`pyne.h`, `Reader::TokenType`).  A string is what is between the quotes. -/
inductive Tok where
  | objectBegin
  | objectEnd
  | arrayBegin
  | arrayEnd
  | string (raw : Text)
  | number (t : Text)
  | tru
  | fls
  | null
  | comma
  | colon
  | comment
  | eos
  | error
  deriving DecidableEq

/-- White space (`skipSpaces`, `pyne.cc:13462`). -/
def isSpace (c : Char) : Bool := c == ' ' || c == '\t' || c == '\r' || c == '\n'

/-- `readString` (`pyne.cc:13559-13570`): what is before the closing quote and what is after it. -/
def readString : Text → Option (Text × Text)
  | [] => none
  | [c] => if c = '\\' then none else if c = '"' then some ([], []) else none
  | c :: d :: r =>
    if c = '\\' then (readString r).map fun p => (c :: d :: p.1, p.2)
    else if c = '"' then some ([], d :: r)
    else (readString (d :: r)).map fun p => (c :: p.1, p.2)

/-- `readCStyleComment` (`pyne.cc:13527-13535`): what is after the comment. -/
def cComment : Text → Option Text
  | [] => none
  | [_] => none
  | c :: d :: r => if c = '*' ∧ d = '/' then some r else cComment (d :: r)

/-- `readCppStyleComment` (`pyne.cc:13538-13546`). -/
def cppComment : Text → Text
  | [] => []
  | c :: r => if c = '\r' ∨ c = '\n' then r else cppComment r

/-- The characters of a number (`readNumber`, `pyne.cc:13552-13553`). -/
def isNum (c : Char) : Bool := isDig c || ['.', 'e', 'E', '+', '-'].contains c

/-- `match` (`pyne.cc:13470-13481`) and the type of the token. -/
def matchWord (w : Text) (t : Tok) (s : Text) : Tok × Text :=
  if w.isPrefixOf s then (t, s.drop w.length) else (.error, s)

/-- `readToken` after the white space (`pyne.cc:13388-13454, 13484-13507`): the token and what is left.  At the end of
the text the character is 0. -/
def tokenAt : Text → Tok × Text
  | [] => (.eos, [])
  | c :: r =>
    if c = '{' then (.objectBegin, r)
    else if c = '}' then (.objectEnd, r)
    else if c = '[' then (.arrayBegin, r)
    else if c = ']' then (.arrayEnd, r)
    else if c = '"' then
      match readString r with
      | some (raw, rest) => (.string raw, rest)
      | none => (.error, [])
    else if c = '/' then
      match r with
      | [] => (.error, [])
      | d :: r =>
        if d = '*' then
          match cComment r with
          | some rest => (.comment, rest)
          | none => (.error, [])
        else if d = '/' then (.comment, cppComment r)
        else (.error, r)
    else if isDig c ∨ c = '-' then (.number (c :: r.takeWhile isNum), r.dropWhile isNum)
    else if c = 't' then matchWord "rue".toList .tru r
    else if c = 'f' then matchWord "alse".toList .fls r
    else if c = 'n' then matchWord "ull".toList .null r
    else if c = ',' then (.comma, r)
    else if c = ':' then (.colon, r)
    else if c = nul then (.eos, r)
    else (.error, r)

/-- `readToken` (`pyne.cc:13385-13455`). -/
def readToken (s : Text) : Tok × Text := tokenAt (s.dropWhile isSpace)

/-- `readToken` until there is no comment, at most as often as given. -/
def skipTok : ℕ → Text → Tok × Text
  | 0, s => readToken s
  | f + 1, s =>
    match readToken s with
    | (.comment, r) => skipTok f r
    | t => t

/-- `skipCommentTokens` (`pyne.cc:13363-13373`): a comment takes characters from the text, so there are
fewer comments than characters. -/
def nextTok (s : Text) : Tok × Text := skipTok s.length s

/-- The number that digits give. -/
def digitsValue (l : Text) : ℕ := l.foldl (fun a c => 10 * a + (c.toNat - 48)) 0

/-- The sign of `%lf`: whether it is a minus, and what follows. -/
def scanSign (t : Text) : Bool × Text :=
  if t.head? = some '-' then (true, t.tail)
  else if t.head? = some '+' then (false, t.tail)
  else (false, t)

/-- The fraction of `%lf`: the digits after the point, and what follows. -/
def scanFrac (t : Text) : Text × Text :=
  if t.head? = some '.' then (t.tail.takeWhile isDig, t.tail.dropWhile isDig) else ([], t)

/-- The exponent of `%lf`: none, or `e`, a sign and digits. -/
def scanExp (t : Text) : Option ℤ :=
  if t.head? = some 'e' ∨ t.head? = some 'E' then
    let s := scanSign t.tail
    let ds := s.2.takeWhile isDig
    if ds = [] then none else some (if s.1 then -(digitsValue ds : ℤ) else digitsValue ds)
  else some 0

/-- `sscanf(buffer, "%lf", &value)` of a text of digits, points, signs and `e`: the number, before it is
rounded to a double.  What follows the number is not read. -/
def scan (t : Text) : Option ℚ :=
  let s := scanSign t
  let ds := s.2.takeWhile isDig
  let p := scanFrac (s.2.dropWhile isDig)
  if ds = [] ∧ p.1 = [] then none
  else
    match scanExp p.2 with
    | none => none
    | some e =>
      let a : ℚ := (digitsValue (ds ++ p.1) : ℚ) * 10 ^ (e - p.1.length)
      some (if s.1 then -a else a)

/-- `decodeDouble` (`pyne.cc:13715-13735`). -/
def decodeDouble (rd : ℚ → Dbl) (t : Text) : Option V := (scan t).map fun q => .real (rd q)

/-- What becomes of the digits of an integer. -/
inductive Digits where
  | value (n : ℕ)
  | double
  | bad

/-- The loop of `decodeNumber` (`pyne.cc:13690-13704`). -/
def intLoop (threshold last : ℕ) : Text → ℕ → Digits
  | [], value => .value value
  | c :: r, value =>
    if ¬ isDig c then .bad
    else
      let d := c.toNat - 48
      if value ≥ threshold ∧ (r ≠ [] ∨ d > last) then .double
      else intLoop threshold last r ((value * 10 + d) % 2 ^ 64)

/-- The conversion of an unsigned number to `LargestInt`. -/
def toSigned (n : ℕ) : ℤ := if n < 2 ^ 63 then n else (n : ℤ) - 2 ^ 64

/-- `-z`, in 64 bits. -/
def negSigned (z : ℤ) : ℤ := if z = -2 ^ 63 then z else -z

/-- `decodeNumber` (`pyne.cc:13666-13712`). -/
def decodeNumber (rd : ℚ → Dbl) (t : Text) : Option V :=
  if t.any (fun c => ['.', 'e', 'E', '+'].contains c) || t.tail.any (· == '-') then decodeDouble rd t
  else
    let neg := t.head? = some '-'
    let max : ℕ := if neg then 2 ^ 63 else 2 ^ 64 - 1
    match intLoop (max / 10) (max % 10) (if neg then t.tail else t) 0 with
    | .bad => none
    | .double => decodeDouble rd t
    | .value n =>
      some (if neg then .int (negSigned (toSigned n)) else if n ≤ 2 ^ 31 - 1 then .int n else .uint n)

/-- A hexadecimal digit (`pyne.cc:13823-13830`). -/
def hexValue (c : Char) : Option ℕ :=
  if '0'.toNat ≤ c.toNat ∧ c.toNat ≤ '9'.toNat then some (c.toNat - 48)
  else if 'a'.toNat ≤ c.toNat ∧ c.toNat ≤ 'f'.toNat then some (c.toNat - 'a'.toNat + 10)
  else if 'A'.toNat ≤ c.toNat ∧ c.toNat ≤ 'F'.toNat then some (c.toNat - 'A'.toNat + 10)
  else none

/-- `decodeUnicodeEscapeSequence` (`pyne.cc:13812-13833`) of four characters. -/
def hex4 (a b c d : Char) : Option ℕ := do
  let a ← hexValue a
  let b ← hexValue b
  let c ← hexValue c
  let d ← hexValue d
  return ((a * 16 + b) * 16 + c) * 16 + d

/-- `codePointToUTF8` (`pyne.cc:13086-13113`). -/
def utf8 (cp : ℕ) : Text :=
  if cp ≤ 0x7f then [Char.ofNat cp]
  else if cp ≤ 0x7FF then
    [Char.ofNat (0xC0 ||| (0x1f &&& (cp >>> 6))), Char.ofNat (0x80 ||| (0x3f &&& cp))]
  else if cp ≤ 0xFFFF then
    [Char.ofNat (0xE0 ||| (0xf &&& (cp >>> 12))), Char.ofNat (0x80 ||| (0x3f &&& (cp >>> 6))),
      Char.ofNat (0x80 ||| (0x3f &&& cp))]
  else if cp ≤ 0x10FFFF then
    [Char.ofNat (0xF0 ||| (0x7 &&& (cp >>> 18))), Char.ofNat (0x80 ||| (0x3f &&& (cp >>> 12))),
      Char.ofNat (0x80 ||| (0x3f &&& (cp >>> 6))), Char.ofNat (0x80 ||| (0x3f &&& cp))]
  else []

/-- An escape of one character (`pyne.cc:13762-13769`). -/
def unescape (c : Char) : Option Char :=
  if c = '"' then some '"'
  else if c = '/' then some '/'
  else if c = '\\' then some '\\'
  else if c = 'b' then some (Char.ofNat 8)
  else if c = 'f' then some (Char.ofNat 12)
  else if c = 'n' then some '\n'
  else if c = 'r' then some '\r'
  else if c = 't' then some '\t'
  else none

/-- `decodeString` (`pyne.cc:13748-13810`) of what is between the quotes. -/
def decodeString : Text → Option Text
  | [] => some []
  | [c] => if c = '"' then some [] else if c = '\\' then none else some [c]
  | c :: e :: r =>
    if c = '"' then some []
    else if c = '\\' then
      if e = 'u' then
        match r with
        | h1 :: h2 :: h3 :: h4 :: r =>
          match hex4 h1 h2 h3 h4 with
          | none => none
          | some u =>
            if 0xD800 ≤ u ∧ u ≤ 0xDBFF then
              match r with
              | p :: q :: l1 :: l2 :: l3 :: l4 :: r =>
                if p = '\\' ∧ q = 'u' then
                  match hex4 l1 l2 l3 l4 with
                  | none => none
                  | some l =>
                    (decodeString r).map
                      (utf8 (0x10000 + ((u &&& 0x3FF) <<< 10) + (l &&& 0x3FF)) ++ ·)
                else none
              | _ => none
            else (decodeString r).map (utf8 u ++ ·)
        | _ => none
      else
        match unescape e with
        | none => none
        | some x => (decodeString r).map (x :: ·)
    else (decodeString (e :: r)).map (c :: ·)

/-- `strcmp( a, b ) < 0` (`pyne.cc:14557-14563`). -/
def strLt : Text → Text → Bool
  | [], [] => false
  | [], _ :: _ => true
  | _ :: _, [] => false
  | a :: as, b :: bs => if a = b then strLt as bs else decide (a.toNat < b.toNat)

/-- `currentValue()[ name ]` and what is read into it: the member of that name is replaced or added
(`pyne.cc:15448-15468, 13599`). -/
def setMember (ms : List (Text × V)) (k : Text) (v : V) : List (Text × V) :=
  match ms with
  | [] => [(k, v)]
  | (k', v') :: ms =>
    if strLt k' k then (k', v') :: setMember ms k v
    else if k' = k then (k', v) :: ms
    else (k, v) :: (k', v') :: ms

/-- The result of a function of the reader: a result and what is left of the text, an error, or a counter
that is too small. -/
inductive Res (α : Type) where
  | ok (a : α) (rest : Text)
  | bad
  | out

mutual

/-- `readValue` (`pyne.cc:13316-13360`). -/
def readValue (rd : ℚ → Dbl) : ℕ → Text → Res V
  | 0, _ => .out
  | f + 1, s =>
    match nextTok s with
    | (.objectBegin, r) => readMembers rd f [] true r
    | (.arrayBegin, r) =>
      let r := r.dropWhile isSpace
      match r with
      | ']' :: r => .ok (.arr []) r
      | r => readItems rd f [] r
    | (.number t, r) =>
      match decodeNumber rd t with
      | some v => .ok v r
      | none => .bad
    | (.string raw, r) =>
      match decodeString raw with
      | some s => .ok (.str s) r
      | none => .bad
    | (.tru, r) => .ok (.bool true) r
    | (.fls, r) => .ok (.bool false) r
    | (.null, r) => .ok .null r
    | _ => .bad

/-- The loop of `readArray` (`pyne.cc:13637-13661`); `acc` are the items so far. -/
def readItems (rd : ℚ → Dbl) : ℕ → List V → Text → Res V
  | 0, _, _ => .out
  | f + 1, acc, s =>
    match readValue rd f s with
    | .ok v r =>
      match nextTok r with
      | (.comma, r) => readItems rd f (acc ++ [v]) r
      | (.arrayEnd, r) => .ok (.arr (acc ++ [v])) r
      | _ => .bad
    | .bad => .bad
    | .out => .out

/-- The loop of `readObject` (`pyne.cc:13578-13621`); `acc` are the members so far and `unnamed` is
`name.empty()`.  The token after a value is a comma, a closing brace or a comment; after comments it may
be any token. -/
def readMembers (rd : ℚ → Dbl) : ℕ → List (Text × V) → Bool → Text → Res V
  | 0, _, _, _ => .out
  | f + 1, acc, unnamed, s =>
    match nextTok s with
    | (.objectEnd, r) => if unnamed then .ok (.obj acc) r else .bad
    | (.string raw, r) =>
      match decodeString raw with
      | none => .bad
      | some name =>
        match readToken r with
        | (.colon, r) =>
          match readValue rd f r with
          | .ok v r =>
            let acc := setMember acc (cstr name) v
            match readToken r with
            | (.objectEnd, r) => .ok (.obj acc) r
            | (.comma, r) => readMembers rd f acc name.isEmpty r
            | (.comment, r) =>
              match nextTok r with
              | (.objectEnd, r) => .ok (.obj acc) r
              | (_, r) => readMembers rd f acc name.isEmpty r
            | _ => .bad
          | .bad => .bad
          | .out => .out
        | _ => .bad
    | _ => .bad

end

/-- `parse` (`pyne.cc:13276-13312`): what follows the value is not read. -/
def parse (rd : ℚ → Dbl) (s : Text) : Res V := readValue rd (2 * s.length + 2) s

end Cyclus.JsonText
