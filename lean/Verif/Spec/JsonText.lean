import Verif.Model.JsonText

/-!
# JSON text (RFC 8259)

What a JSON text is and what it means, for C112.  It is written without the functions of the model; only
the type of values is shared.
-/

namespace Cyclus.JsonText

open Kahan (Dbl)

/-- White space. -/
def White (w : Text) : Prop := ∀ c ∈ w, c = ' ' ∨ c = '\t' ∨ c = '\r' ∨ c = '\n'

/-- One or more decimal digits. -/
def IsDigits (ds : Text) : Prop := ds ≠ [] ∧ ∀ c ∈ ds, 48 ≤ c.toNat ∧ c.toNat ≤ 57

/-- The number that decimal digits stand for. -/
def decValue : Text → ℕ
  | [] => 0
  | c :: r => (c.toNat - 48) * 10 ^ r.length + decValue r

/-- The digits of a natural number, without zeros at the start. -/
def NatText (n : ℕ) (ds : Text) : Prop :=
  IsDigits ds ∧ (ds.head? = some '0' → ds = ['0']) ∧ decValue ds = n

/-- An integer without a fraction and an exponent. -/
def IntText (z : ℤ) (t : Text) : Prop :=
  ∃ ds, NatText z.natAbs ds ∧ (0 ≤ z ∧ t = ds ∨ z ≤ 0 ∧ t = '-' :: ds)

/-- A fraction: nothing, or a point and digits.  If `lax`, the digits may be missing. -/
def FracText (lax : Prop) (fs t : Text) : Prop :=
  fs = [] ∧ t = [] ∨ (IsDigits fs ∨ lax ∧ fs = []) ∧ t = '.' :: fs

/-- An exponent: nothing, or a letter, a sign and digits. -/
def ExpText (e : ℤ) (t : Text) : Prop :=
  e = 0 ∧ t = [] ∨
  ∃ c es, (c = 'e' ∨ c = 'E') ∧ IsDigits es ∧
    (e = decValue es ∧ (t = c :: es ∨ t = c :: '+' :: es) ∨ e = -(decValue es : ℤ) ∧ t = c :: '-' :: es)

/-- A number with a fraction or an exponent and its value. -/
def RealText (lax : Prop) (q : ℚ) (t : Text) : Prop :=
  ∃ (n : ℕ) (ds fs frac ex : Text) (e : ℤ), NatText n ds ∧ FracText lax fs frac ∧ ExpText e ex ∧
    (frac ≠ [] ∨ ex ≠ []) ∧
    (q = (decValue (ds ++ fs) : ℚ) * 10 ^ (e - fs.length) ∧ t = ds ++ frac ++ ex ∨
      q = -((decValue (ds ++ fs) : ℚ) * 10 ^ (e - fs.length)) ∧ t = '-' :: ds ++ frac ++ ex)

/-- A text of a double: that of a number which is rounded to it. -/
def Number (lax : Prop) (rd : ℚ → Dbl) (x : Dbl) (t : Text) : Prop := ∃ q, RealText lax q t ∧ x = rd q

/-- A hexadecimal digit and its value. -/
def IsHex (d : ℕ) (c : Char) : Prop :=
  d < 10 ∧ c.toNat = 48 + d ∨ 10 ≤ d ∧ d < 16 ∧ (c.toNat = 97 + (d - 10) ∨ c.toNat = 65 + (d - 10))

/-- Four hexadecimal digits and their value. -/
def IsHex4 (u : ℕ) (t : Text) : Prop :=
  ∃ a b c d : ℕ, ∃ w x y z : Char, IsHex a w ∧ IsHex b x ∧ IsHex c y ∧ IsHex d z ∧
    t = [w, x, y, z] ∧ u = a * 4096 + b * 256 + c * 16 + d

/-- UTF-8. -/
def encode (cp : ℕ) : Text :=
  if cp < 128 then [Char.ofNat cp]
  else if cp < 2048 then [Char.ofNat (192 + cp / 64), Char.ofNat (128 + cp % 64)]
  else if cp < 65536 then
    [Char.ofNat (224 + cp / 4096), Char.ofNat (128 + cp / 64 % 64), Char.ofNat (128 + cp % 64)]
  else
    [Char.ofNat (240 + cp / 262144), Char.ofNat (128 + cp / 4096 % 64), Char.ofNat (128 + cp / 64 % 64),
      Char.ofNat (128 + cp % 64)]

/-- The escapes of one character: the character after the backslash and what it stands for. -/
def escapes : List (Char × Char) :=
  [('"', '"'), ('\\', '\\'), ('/', '/'), ('b', Char.ofNat 8), ('f', Char.ofNat 12), ('n', Char.ofNat 10),
    ('r', Char.ofNat 13), ('t', Char.ofNat 9)]

/-- The text of a string, without the quotes: the bytes that it stands for and the text. -/
inductive Lit : Text → Text → Prop
  | nil : Lit [] []
  | plain {c s l} : 32 ≤ c.toNat → c ≠ '"' → c ≠ '\\' → Lit s l → Lit (c :: s) (c :: l)
  | esc {e c s l} : (e, c) ∈ escapes → Lit s l → Lit (c :: s) ('\\' :: e :: l)
  | code {u h s l} : IsHex4 u h → (u < 0xD800 ∨ 0xE000 ≤ u) → Lit s l →
      Lit (encode u ++ s) ('\\' :: 'u' :: h ++ l)
  | pair {u h v k s l} : IsHex4 u h → IsHex4 v k → 0xD800 ≤ u → u < 0xDC00 → 0xDC00 ≤ v → v < 0xE000 →
      Lit s l →
      Lit (encode (0x10000 + (u - 0xD800) * 1024 + (v - 0xDC00)) ++ s)
        ('\\' :: 'u' :: h ++ '\\' :: 'u' :: k ++ l)

mutual

/-- A JSON text of a value.  `num` says which texts a double has.  The members of an object are in the
order of the text. -/
def IsText (num : Dbl → Text → Prop) : V → Text → Prop
  | .null, t => t = "null".toList
  | .bool b, t => t = if b then "true".toList else "false".toList
  | .int z, t => IntText z t
  | .uint n, t => IntText n t
  | .real x, t => num x t
  | .str s, t => ∃ l, Lit s l ∧ t = '"' :: l ++ ['"']
  | .arr l, t => ∃ b, ItemsText num l b ∧ t = '[' :: b ++ [']']
  | .obj ms, t => ∃ b, MembersText num ms b ∧ t = '{' :: b ++ ['}']

/-- The items of an array with commas between them. -/
def ItemsText (num : Dbl → Text → Prop) : List V → Text → Prop
  | [], b => White b
  | [x], b => ∃ w t w', White w ∧ IsText num x t ∧ White w' ∧ b = w ++ t ++ w'
  | x :: y :: l, b => ∃ w t w' b', White w ∧ IsText num x t ∧ White w' ∧ ItemsText num (y :: l) b' ∧
      b = w ++ t ++ w' ++ ',' :: b'

/-- The members of an object with commas between them. -/
def MembersText (num : Dbl → Text → Prop) : List (Text × V) → Text → Prop
  | [], b => White b
  | [(k, x)], b => ∃ w l w' w'' t w''', White w ∧ Lit k l ∧ White w' ∧ White w'' ∧ IsText num x t ∧
      White w''' ∧ b = w ++ ('"' :: l ++ ['"']) ++ w' ++ ':' :: (w'' ++ t ++ w''')
  | (k, x) :: y :: ms, b => ∃ w l w' w'' t w''' b', White w ∧ Lit k l ∧ White w' ∧ White w'' ∧
      IsText num x t ∧ White w''' ∧ MembersText num (y :: ms) b' ∧
      b = w ++ ('"' :: l ++ ['"']) ++ w' ++ ':' :: (w'' ++ t ++ w''' ++ ',' :: b')

end

/-- A JSON document: a value with white space around it. -/
def IsDocument (num : Dbl → Text → Prop) (v : V) (t : Text) : Prop :=
  ∃ w s w', White w ∧ IsText num v s ∧ White w' ∧ t = w ++ s ++ w'

mutual

/-- The integers fit 64 bits and the names of members have no byte 0. -/
def Fits : V → Prop
  | .int z => -2 ^ 63 ≤ z ∧ z < 2 ^ 64
  | .uint n => n < 2 ^ 64
  | .arr l => FitsItems l
  | .obj ms => FitsMembers ms
  | _ => True

/-- The same of the items of an array. -/
def FitsItems : List V → Prop
  | [] => True
  | x :: l => Fits x ∧ FitsItems l

/-- The same of the members of an object. -/
def FitsMembers : List (Text × V) → Prop
  | [] => True
  | (k, x) :: ms => Char.ofNat 0 ∉ k ∧ Fits x ∧ FitsMembers ms

end

/-- A member put into members that are in the order of the names. -/
def put (ms : List (Text × V)) (k : Text) (v : V) : List (Text × V) :=
  ms.filter (fun p => p.1 < k) ++ (k, v) :: ms.filter (fun p => k < p.1)

mutual

/-- What a value means: an integer up to 2³¹-1 is signed and one above is unsigned; the members of an
object are in the order of their names, and of members with one name the last one counts. -/
def meaning : V → V
  | .int z => if z < 2 ^ 31 then .int z else .uint z.toNat
  | .uint n => if n < 2 ^ 31 then .int n else .uint n
  | .arr l => .arr (meaningItems l)
  | .obj ms => .obj (meaningMembers [] ms)
  | .null => .null
  | .bool b => .bool b
  | .real x => .real x
  | .str s => .str s

/-- The same of the items of an array. -/
def meaningItems : List V → List V
  | [] => []
  | x :: l => meaning x :: meaningItems l

/-- The members put in one after the other. -/
def meaningMembers : List (Text × V) → List (Text × V) → List (Text × V)
  | acc, [] => acc
  | acc, (k, x) :: ms => meaningMembers (put acc k (meaning x)) ms

end

/-! ## What is read from what a writer wrote -/

/-- A character with white space around it. -/
def Padded (c : Char) (t : Text) : Prop := ∃ w w', White w ∧ White w' ∧ t = w ++ c :: w'

/-- The brackets, the colon and the comma of a style are those of JSON with white space around them, and
the indentation is white space. -/
structure Spaced (st : Style) : Prop where
  opencurly : Padded '{' st.opencurly
  closecurly : Padded '}' st.closecurly
  opensquare : Padded '[' st.opensquare
  closesquare : Padded ']' st.closesquare
  colon : Padded ':' st.colon
  comma : Padded ',' st.comma
  indent : White st.indent

/-- The number `y` is `x` rounded to 16 decimal digits, half to even. -/
def Sixteen (x y : ℚ) : Prop :=
  x = 0 ∧ y = 0 ∨
  ∃ (k : ℤ) (n : ℕ), 10 ^ (k + 15) ≤ |x| ∧ |x| < 10 ^ (k + 16) ∧ |y| = n * 10 ^ k ∧
    (0 < x ∧ 0 < y ∨ x < 0 ∧ y < 0) ∧ |x - y| ≤ 10 ^ k / 2 ∧ (|x - y| = 10 ^ k / 2 → 2 ∣ n)

mutual

/-- A value that can be written: the texts have no byte 0, the doubles are finite, the integers have 64
bits, and the members of an object are in the order of their names, which occur once. -/
def Writable : V → Prop
  | .int z => -2 ^ 63 ≤ z ∧ z < 2 ^ 63
  | .uint n => n < 2 ^ 64
  | .real x => ∃ q, x = .num q
  | .str s => Char.ofNat 0 ∉ s
  | .arr l => WritableItems l
  | .obj ms => WritableMembers ms ∧ ms.Pairwise fun p q => p.1 < q.1
  | _ => True

/-- The same of the items of an array. -/
def WritableItems : List V → Prop
  | [] => True
  | x :: l => Writable x ∧ WritableItems l

/-- The same of the members of an object. -/
def WritableMembers : List (Text × V) → Prop
  | [] => True
  | (k, x) :: ms => Char.ofNat 0 ∉ k ∧ Writable x ∧ WritableMembers ms

end

mutual

/-- The value `v'` is `v` with every double rounded to 16 digits, and with integers up to 2³¹-1 signed
and those above unsigned. -/
def Back (rd : ℚ → Dbl) : V → V → Prop
  | .int z, v' => v' = if z < 2 ^ 31 then .int z else .uint z.toNat
  | .uint n, v' => v' = if n < 2 ^ 31 then .int n else .uint n
  | .real x, v' => ∃ q y, x = .num q ∧ Sixteen q y ∧ v' = .real (rd y)
  | .arr l, v' => ∃ l', BackItems rd l l' ∧ v' = .arr l'
  | .obj ms, v' => ∃ ms', BackMembers rd ms ms' ∧ v' = .obj ms'
  | .null, v' => v' = .null
  | .bool b, v' => v' = .bool b
  | .str s, v' => v' = .str s

/-- The same of the items of an array. -/
def BackItems (rd : ℚ → Dbl) : List V → List V → Prop
  | [], l' => l' = []
  | x :: l, l' => ∃ x' l'', Back rd x x' ∧ BackItems rd l l'' ∧ l' = x' :: l''

/-- The same of the members of an object. -/
def BackMembers (rd : ℚ → Dbl) : List (Text × V) → List (Text × V) → Prop
  | [], l' => l' = []
  | (k, x) :: l, l' => ∃ x' l'', Back rd x x' ∧ BackMembers rd l l'' ∧ l' = (k, x') :: l''

end

mutual

/-- A value that is not changed: a double has at most 16 digits and is a double, integers up to 2³¹-1 are
signed and those above are unsigned. -/
def Short (rd : ℚ → Dbl) : V → Prop
  | .int z => z < 2 ^ 31
  | .uint n => 2 ^ 31 ≤ n
  | .real x => ∃ m k : ℤ, |m| < 10 ^ 16 ∧ x = .num (m * 10 ^ k) ∧ rd (m * 10 ^ k) = x
  | .arr l => ShortItems rd l
  | .obj ms => ShortMembers rd ms
  | _ => True

/-- The same of the items of an array. -/
def ShortItems (rd : ℚ → Dbl) : List V → Prop
  | [] => True
  | x :: l => Short rd x ∧ ShortItems rd l

/-- The same of the members of an object. -/
def ShortMembers (rd : ℚ → Dbl) : List (Text × V) → Prop
  | [] => True
  | (_, x) :: l => Short rd x ∧ ShortMembers rd l

end

mutual

/-- In all objects of the value the members are in the order of their names, which occur once and have no
byte 0. -/
def Ordered : V → Prop
  | .arr l => OrderedItems l
  | .obj ms => OrderedMembers ms ∧ ms.Pairwise fun p q => p.1 < q.1
  | _ => True

/-- The same of the items of an array. -/
def OrderedItems : List V → Prop
  | [] => True
  | x :: l => Ordered x ∧ OrderedItems l

/-- The same of the members of an object. -/
def OrderedMembers : List (Text × V) → Prop
  | [] => True
  | (k, x) :: l => Char.ofNat 0 ∉ k ∧ Ordered x ∧ OrderedMembers l

end

end Cyclus.JsonText
