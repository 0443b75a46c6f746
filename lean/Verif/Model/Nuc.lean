import Verif.Model.Convert

/-!
# Model of the identifiers of nuclides

Models the part of `pyne::nucname` that Cyclus uses: `/repo/src/pyne.cc:2305-2439` (symbols),
`2671-2711` (`isnuclide`), `2716-2897` (`id`), `2940-2978` (`name`), `3028-3061` (`zzaaam`), `3102-3192`
(`zzllaaam`) and the functions on strings of `139-141`, `216-242`, `261-316`.

* The result of a function is `none` if a signed addition or multiplication overflows, which is undefined.
* Warnings are not modelled.  The values inside of exceptions, some of them uninitialised, are not either.
* Strings are lists of characters; `toupper` and `tolower` are those of the "C" locale.
-/

namespace Cyclus.Nuc

/-- The exceptions: `NotANuclide`, `IndeterminateNuclideForm` and `std::out_of_range`. -/
inductive Bad
  | notNuclide
  | indeterminate
  | range
  deriving DecidableEq, Repr

/-- The result of a function. -/
abbrev Res := Option (Except Bad ℤ)

/-- `get_name_zz` (`pyne.cc:2306-2426`). -/
def symbols : List (List Char × ℤ) := [
  (['B', 'e'], 4), (['B', 'a'], 56), (['B', 'h'], 107), (['B', 'i'], 83), (['B', 'k'], 97),
  (['B', 'r'], 35), (['R', 'u'], 44), (['R', 'e'], 75), (['R', 'f'], 104), (['R', 'g'], 111),
  (['R', 'a'], 88), (['R', 'b'], 37), (['R', 'n'], 86), (['R', 'h'], 45), (['T', 'm'], 69),
  (['H'], 1), (['P'], 15), (['G', 'e'], 32), (['G', 'd'], 64), (['G', 'a'], 31), (['O', 's'], 76),
  (['H', 's'], 108), (['Z', 'n'], 30), (['H', 'o'], 67), (['H', 'f'], 72), (['H', 'g'], 80),
  (['H', 'e'], 2), (['P', 'r'], 59), (['P', 't'], 78), (['P', 'u'], 94), (['P', 'b'], 82),
  (['P', 'a'], 91), (['P', 'd'], 46), (['P', 'o'], 84), (['P', 'm'], 61), (['C'], 6), (['K'], 19),
  (['O'], 8), (['S'], 16), (['W'], 74), (['E', 'u'], 63), (['E', 's'], 99), (['E', 'r'], 68),
  (['M', 'd'], 101), (['M', 'g'], 12), (['M', 'o'], 42), (['M', 'n'], 25), (['M', 't'], 109),
  (['U'], 92), (['F', 'r'], 87), (['F', 'e'], 26), (['F', 'm'], 100), (['N', 'i'], 28),
  (['N', 'o'], 102), (['N', 'a'], 11), (['N', 'b'], 41), (['N', 'd'], 60), (['N', 'e'], 10),
  (['Z', 'r'], 40), (['N', 'p'], 93), (['B'], 5), (['C', 'o'], 27), (['C', 'm'], 96), (['F'], 9),
  (['C', 'a'], 20), (['C', 'f'], 98), (['C', 'e'], 58), (['C', 'd'], 48), (['V'], 23),
  (['C', 's'], 55), (['C', 'r'], 24), (['C', 'u'], 29), (['S', 'r'], 38), (['K', 'r'], 36),
  (['S', 'i'], 14), (['S', 'n'], 50), (['S', 'm'], 62), (['S', 'c'], 21), (['S', 'b'], 51),
  (['S', 'g'], 106), (['S', 'e'], 34), (['Y', 'b'], 70), (['D', 'b'], 105), (['D', 'y'], 66),
  (['D', 's'], 110), (['L', 'a'], 57), (['C', 'l'], 17), (['L', 'i'], 3), (['T', 'l'], 81),
  (['L', 'u'], 71), (['L', 'r'], 103), (['T', 'h'], 90), (['T', 'i'], 22), (['T', 'e'], 52),
  (['T', 'b'], 65), (['T', 'c'], 43), (['T', 'a'], 73), (['A', 'c'], 89), (['A', 'g'], 47),
  (['I'], 53), (['I', 'r'], 77), (['A', 'm'], 95), (['A', 'l'], 13), (['A', 's'], 33),
  (['A', 'r'], 18), (['A', 'u'], 79), (['A', 't'], 85), (['I', 'n'], 49), (['Y'], 39), (['N'], 7),
  (['X', 'e'], 54), (['C', 'n'], 112), (['F', 'l'], 114), (['L', 'v'], 116)]

/-- `name_zz.count(name)` and `name_zz[name]` (`pyne.cc:2426`). -/
def zOf (name : List Char) : Option ℤ := (symbols.find? (·.1 = name)).map Prod.snd

/-- `zz_name.count(z)` and `zz_name[z]` (`pyne.cc:2430-2439`). -/
def nameOf (z : ℤ) : Option (List Char) := (symbols.find? (·.2 = z)).map Prod.fst

/-- `0 < zz_name.count(z)`. -/
def known (z : ℤ) : Bool := (nameOf z).isSome

/-- The result of signed arithmetic. -/
def int32 (z : ℤ) : Res := if -2 ^ 31 ≤ z ∧ z < 2 ^ 31 then some (.ok z) else none

/-- `3.0 < float(a) / float(z)` of small integers: division by zero gives an infinity or no number. -/
def steep (a z : ℤ) : Bool := if z = 0 then 0 < a else if 0 < z then 3 * z < a else a < 3 * z

/-- The loop of `pyne.cc:2787-2788`, for at most `fuel` turns.  An `int` that is not negative becomes
negative after fewer than 2200 turns, which ends the loop. -/
def unstack : ℕ → ℤ → Res
  | 0, _ => none
  | fuel + 1, nuc =>
    if steep ((nuc.tdiv 10000).tmod 1000) (nuc.tdiv 10000000) then unstack fuel (nuc - 999999)
    else some (.ok nuc)

/-- The part of `id(int)` for numbers without a state (`pyne.cc:2771-2801`). -/
def idMcnp (nuc : ℤ) : Res :=
  let zzz := nuc / 1000
  let aaa := nuc % 1000
  if zzz ≤ aaa then
    if aaa - 400 < 0 then
      if nuc = 95242 then int32 (nuc * 10000 + 1) else int32 (nuc * 10000)
    else if nuc = 95642 then int32 ((95642 - 400) * 10000)
    else
      match int32 ((nuc - 400) * 10000 + 1) with
      | none => none
      | some _ => unstack 2200 ((nuc - 400) * 10000 + 1)
  else if aaa = 0 ∧ known zzz = true then int32 (zzz * 10000000)
  else if known nuc = true then int32 (nuc * 10000000)
  else some (.error .indeterminate)

/-- The part of `id(int)` from line 2740 on (`pyne.cc:2740-2801`). -/
def idShort (nuc : ℤ) : Res :=
  let zzz := nuc / 10000
  let aaassss := nuc % 10000
  let aaa := aaassss / 10
  if zzz ≤ aaa ∧ aaa ≤ zzz * 7 then int32 (zzz * 10000000 + aaa * 10000 + nuc % 10)
  else if aaa ≤ zzz ∧ zzz ≤ aaa * 7 ∧ known aaa = true then
    int32 (aaa * 10000000 + zzz * 10000 + nuc % 10)
  else if aaassss = 0 ∧ known zzz = true then int32 (zzz * 10000000)
  else if 1000000 ≤ nuc then some (.error .indeterminate)
  else idMcnp nuc

/-- `id(int)` (`pyne.cc:2716-2802`). -/
def idInt (nuc : ℤ) : Res :=
  if nuc < 0 then some (.error .notNuclide)
  else
    let zzz := nuc / 10000000
    let aaassss := nuc % 10000000
    let aaa := aaassss / 10000
    if 0 < zzz ∧ zzz ≤ aaa ∧ aaa ≤ zzz * 7 then some (.ok nuc)
    else if aaassss = 0 ∧ known zzz = true then some (.ok nuc)
    else if nuc < 1000 ∧ known nuc = true then some (.ok (nuc * 10000000))
    else idShort nuc

/-- `isnuclide(int)` (`pyne.cc:2689-2711`); `none` if the behaviour is undefined. -/
def isNuclide (nuc : ℤ) : Option Bool :=
  match idInt nuc with
  | none => none
  | some (.error _) => some false
  | some (.ok n) =>
    if n ≤ 10000000 then some false
    else
      let zzz := n / 10000000
      let aaa := n % 10000000 / 10000
      some (if aaa = 0 then false else if aaa < zzz then false else true)

/-! ## Strings -/

/-- `toupper`. -/
def upper (c : Char) : Char := if 'a' ≤ c ∧ c ≤ 'z' then Char.ofNat (c.toNat - 32) else c

/-- `capitalize` (`pyne.cc:231-242`). -/
def capitalize : List Char → List Char
  | [] => []
  | c :: cs => upper c :: cs.map Infile.lower

/-- `pyne::digits` (`pyne.h:124`). -/
def isDigit (c : Char) : Bool := '0' ≤ c ∧ c ≤ '9'

/-- `pyne::alphabet` (`pyne.h:126`). -/
def isLetter (c : Char) : Bool := 'A' ≤ c ∧ c ≤ 'Z'

/-- `remove_characters` (`pyne.cc:272-278`) and `remove_substring` of one character. -/
def remove (p : Char → Bool) (s : List Char) : List Char := s.filter fun c => !p c

/-- `atoi` (`pyne.cc:139-141`). -/
def toInt (s : List Char) : ℤ := Info.castLong (Info.strtol s)

/-- Erases the first occurrence of a text, if there is one. -/
def eraseFirst (w : List Char) : List Char → Option (List Char)
  | [] => none
  | c :: cs => if w.isPrefixOf (c :: cs) then some ((c :: cs).drop w.length)
    else (eraseFirst w cs).map (c :: ·)

/-- `remove_substring` (`pyne.cc:261-269`): at most `fuel` occurrences. -/
def removeSub (w : List Char) : ℕ → List Char → List Char
  | 0, s => s
  | fuel + 1, s =>
    match eraseFirst w s with
    | none => s
    | some s' => removeSub w fuel s'

/-- The end of `id(string)` and of `zzllaaam_to_id` (`pyne.cc:2876-2891`, `3174-3191`): the state from the
last character, and the element. -/
def withState (s : List Char) (anum : ℤ) : Res :=
  match s.getLast? with
  | none => some (.error .range)
  | some e =>
    if e = 'M' ∨ isDigit e = true then
      match int32 (10000 * anum), int32 (10000 * anum + (if e = 'M' then 1 else 0)) with
      | some _, some (.ok n) =>
        match zOf (capitalize (remove isDigit s.dropLast)) with
        | none => some (.error .notNuclide)
        | some z => int32 (10000000 * z + n)
      | _, _ => none
    else some (.error .notNuclide)

/-- The case of a letter at the start (`pyne.cc:2859-2891`). -/
def idName (s : List Char) : Res :=
  let anum := remove isLetter s
  match (if anum.isEmpty then zOf (capitalize s) else none) with
  | some z => int32 (10000000 * z)
  | none => if toInt anum < 0 then some (.error .notNuclide) else withState s (toInt anum)

/-- The case of a digit at the start (`pyne.cc:2839-2858`). -/
def idNist (s : List Char) : Res :=
  match s.getLast? with
  | none => some (.error .range)
  | some e =>
    if isDigit e then idInt (toInt s)
    else
      match int32 (toInt (remove isLetter s) * 10000) with
      | some (.ok n) =>
        match zOf (capitalize (remove isDigit s)) with
        | none => some (.error .notNuclide)
        | some z => int32 (10000000 * z + n)
      | _ => none

/-- `id(string)` from line 2834 on, for the text in capitals without dashes (`pyne.cc:2834-2897`).  The
empty text is found in the digits (`pyne.cc:311-315`). -/
def idPlain (s : List Char) : Res :=
  match s with
  | [] => idNist []
  | c :: _ => if isDigit c then idNist s else if isLetter c then idName s else some (.error .notNuclide)

/-- "NAT". -/
def nat : List Char := ['N', 'A', 'T']

/-- `contains_substring(s, "NAT")`. -/
def hasNat (s : List Char) : Bool := (eraseFirst nat s).isSome

/-- `zzllaaam_to_id` (`pyne.cc:3147-3192`). -/
def zzllaaamToId (nuc : List Char) : Res :=
  if nuc.isEmpty then some (.error .notNuclide)
  else
    let s := remove (· = '-') ((nuc.map upper).drop 2)
    let anum := remove isLetter s
    match (if anum.isEmpty || hasNat s then zOf (capitalize (removeSub nat s.length s)) else none) with
    | some z => int32 (10000000 * z)
    | none => withState s (toInt anum)

/-- The positions of the first two dashes (`pyne.cc:2815-2820`). -/
def dashes (s : List Char) : Option (ℕ × ℕ) :=
  match s.findIdx? (· = '-') with
  | none => none
  | some d =>
    match (s.drop (d + 1)).findIdx? (· = '-') with
    | none => none
    | some e => some (d, d + 1 + e)

/-- `id(string)` (`pyne.cc:2809-2897`), with at most `fuel` nested calls; the nested argument is shorter.
The second argument of `substr` in line 2826 is a length. -/
def idFuel : ℕ → List Char → Res
  | 0, _ => none
  | fuel + 1, nuc =>
    if nuc.isEmpty then some (.error .notNuclide)
    else
      match (if 5 ≤ nuc.length then dashes nuc else none) with
      | some (d, e) =>
        match idFuel fuel ((nuc.drop (d + 1)).take e) with
        | none => none
        | some (.error b) => some (.error b)
        | some (.ok n) =>
          if n.tdiv 10000000 = toInt (nuc.take d) then zzllaaamToId nuc else some (.error .notNuclide)
      | none => idPlain (remove (· = '-') (nuc.map upper))

/-- `id(string)`. -/
def idStr (nuc : List Char) : Res := idFuel (nuc.length + 1) nuc

/-- `isnuclide(string)` (`pyne.cc:2671-2683`): `std::out_of_range` is not caught. -/
def isNuclideStr (nuc : List Char) : Option (Except Bad Bool) :=
  match idStr nuc with
  | none => none
  | some (.error .range) => some (.error .range)
  | some (.error _) => some (.ok false)
  | some (.ok n) => (isNuclide n).map .ok

/-! ## Output -/

/-- `name(int)` (`pyne.cc:2940-2965`). -/
def name (nuc : ℤ) : Option (Except Bad (List Char)) :=
  match idInt nuc with
  | none => none
  | some (.error e) => some (.error e)
  | some (.ok n) =>
    match nameOf (n.tdiv 10000000) with
    | none => some (.error .notNuclide)
    | some ll =>
      let aaa := (n.tmod 10000000).tdiv 10000
      some (.ok (ll ++ (if 0 < aaa then Convert.showInt aaa else []) ++
        (if 0 < n.tmod 10000 then ['M'] else [])))

/-- `zzaaam(int)` (`pyne.cc:3028-3035`). -/
def zzaaam (nuc : ℤ) : Res :=
  match idInt nuc with
  | none => none
  | some (.error e) => some (.error e)
  | some (.ok n) =>
    let ssss := n.tmod 10000
    int32 (n.tdiv 10000 * 10 + if 10 ≤ ssss then 9 else ssss)

/-- `zzllaaam(int)` (`pyne.cc:3102-3128`). -/
def zzllaaam (nuc : ℤ) : Option (Except Bad (List Char)) :=
  match idInt nuc with
  | none => none
  | some (.error e) => some (.error e)
  | some (.ok n) =>
    match nameOf (n.tdiv 10000000) with
    | none => some (.error .notNuclide)
    | some ll =>
      let aaassss := n.tmod 10000000
      some (.ok (Convert.showInt (n.tdiv 10000000) ++ ['-'] ++ ll ++ ['-'] ++
        (if 0 < aaassss then Convert.showInt (aaassss.tdiv 10000) else []) ++
        (if 0 < n.tmod 10000 then ['m'] else [])))

end Cyclus.Nuc
