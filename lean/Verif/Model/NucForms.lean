import Verif.Model.NucTables

/-!
# Model of the forms in which other codes write nuclides

Models the conversions of `pyne::nucname` beside those of `Verif.Model.Nuc`: `/repo/src/pyne.cc:2440-2605`
(table of FLUKA), `2898-2935` (`iselement`), `3049-3097` (`ZZAAAM`, `ZZZAAA`), `3194-3290` (MCNP, FLUKA),
`3293-3396` (Serpent), `3399-3486` (NIST), `3489-3536` (CINDER), `3541-3629` (ALARA), `3633-3674` (SZA),
`3677-3725` (state ids) and `3734-3753` (ENSDF).

* As before, a result is `none` if the behaviour is undefined, and warnings are not modelled.
* The map of the state ids is a global variable; whether it has been loaded is an argument and, where it
  matters, a result.
-/

namespace Cyclus.Nuc

/-- The names and numbers are those of the nuclide that `id(int)` finds. -/
def onId {α : Type} (nuc : ℤ) (f : ℤ → Option (Except Bad α)) : Option (Except Bad α) :=
  match idInt nuc with
  | none => none
  | some (.error e) => some (.error e)
  | some (.ok n) => f n

/-- `znum(int)` and `anum(int)` (`pyne.cc:2983-3000`) are calls of `id` again; `iselement(int)`
(`pyne.cc:2919-2935`).  Only `NotANuclide` is caught. -/
def isElement (nuc : ℤ) : Option (Except Bad Bool) :=
  match idInt nuc with
  | none => none
  | some (.error .notNuclide) => some (.ok false)
  | some (.error e) => some (.error e)
  | some (.ok n) =>
    if n < 10000000 then some (.ok false)
    else
      onId n fun m => some (.ok (0 < m.tdiv 10000000 ∧ (m.tdiv 10000).tmod 1000 = 0))

/-- `iselement(string)` (`pyne.cc:2904-2913`). -/
def isElementStr (nuc : List Char) : Option (Except Bad Bool) :=
  match idStr nuc with
  | none => none
  | some (.error .notNuclide) => some (.ok false)
  | some (.error e) => some (.error e)
  | some (.ok n) => isElement n

/-! ## Numbers -/

/-- The sum of two products in `int`s. -/
def sum2 (x y : ℤ) : Res :=
  match int32 x, int32 y with
  | some _, some _ => int32 (x + y)
  | _, _ => none

/-- `zzaaam_to_id(int)` (`pyne.cc:3049-3051`). -/
def zzaaamToId (nuc : ℤ) : Res := sum2 (nuc.tdiv 10 * 10000) (nuc.tmod 10)

/-- `zzzaaa(int)` (`pyne.cc:3066-3071`). -/
def zzzaaa (nuc : ℤ) : Res := onId nuc fun n => some (.ok (n.tdiv 10000))

/-- `zzzaaa_to_id(int)` (`pyne.cc:3085-3087`). -/
def zzzaaaToId (nuc : ℤ) : Res := int32 (nuc * 10000)

/-- `mcnp(int)` (`pyne.cc:3197-3211`). -/
def mcnp (nuc : ℤ) : Res :=
  onId nuc fun n =>
    let newnuc := n.tdiv 10000
    let ssss := if newnuc = 95242 ∧ n.tmod 10000 < 2 then (n.tmod 10000 + 1).tmod 2 else n.tmod 10000
    some (.ok (if ssss ≠ 0 ∧ ssss < 10 then newnuc + (300 + ssss * 100) else newnuc))

/-- `mcnp_to_id(int)` (`pyne.cc:3229-3254`). -/
def mcnpToId (nuc : ℤ) : Res :=
  let zzz := nuc.tdiv 1000
  let aaa := nuc.tmod 1000
  if zzz = 0 then some (.error .notNuclide)
  else if zzz ≤ aaa then
    if aaa - 400 < 0 then
      if nuc = 95242 then sum2 (nuc * 10000) 1 else int32 (nuc * 10000)
    else if nuc = 95642 then some (.ok ((95642 - 400) * 10000))
    else
      match sum2 ((nuc - 400) * 10000) 1 with
      | none => none
      | some _ => unstack 2200 ((nuc - 400) * 10000 + 1)
  else if aaa = 0 then int32 (zzz * 10000000)
  else some (.error .indeterminate)

/-- `cinder(int)` (`pyne.cc:3492-3502`). -/
def cinder (nuc : ℤ) : Res :=
  onId nuc fun n =>
    let ssss := if 10 ≤ n.tmod 10000 then 9 else n.tmod 10000
    some (.ok ((n.tmod 10000000).tdiv 10000 * 10000 + n.tdiv 10000000 * 10 + ssss))

/-- `cinder_to_id(int)` (`pyne.cc:3520-3526`). -/
def cinderToId (nuc : ℤ) : Res :=
  let ssss := nuc.tmod 10
  let aaazzz := nuc.tdiv 10
  match sum2 (aaazzz.tmod 1000 * 10000000) (aaazzz.tdiv 1000 * 10000) with
  | none => none
  | some _ => int32 (aaazzz.tmod 1000 * 10000000 + aaazzz.tdiv 1000 * 10000 + ssss)

/-- `sza(int)` (`pyne.cc:3636-3641`). -/
def sza (nuc : ℤ) : Res := onId nuc fun n => sum2 (n.tmod 10000 * 1000000) (n.tdiv 10000)

/-- `sza_to_id(int)` (`pyne.cc:3655-3663`). -/
def szaToId (nuc : ℤ) : Res := sum2 (nuc.tmod 1000000 * 10000) (nuc.tdiv 1000000)

/-- The variants for texts (`pyne.cc:3059-3061`, `3095-3097`, `3261-3263`, `3534-3536`, `3672-3674`). -/
def ofText (f : ℤ → Res) (nuc : List Char) : Res := f (toInt nuc)

/-! ## Texts -/

/-- The symbol with a capital (`pyne.cc:3309-3314`, `3417-3422`). -/
def capital (ll : List Char) : List Char :=
  ((ll.map upper).head?.toList) ++ (ll.map Infile.lower).drop 1

/-- `serpent(int)` (`pyne.cc:3296-3331`). -/
def serpent (nuc : ℤ) : Option (Except Bad (List Char)) :=
  onId nuc fun n =>
    match nameOf (n.tdiv 10000000) with
    | none => some (.error .notNuclide)
    | some ll =>
      let aaassss := n.tmod 10000000
      some (.ok (capital ll ++ ['-'] ++
        (if 0 < aaassss then Convert.showInt (aaassss.tdiv 10000)
          else if 0 = aaassss then ['n', 'a', 't'] else []) ++
        (if 0 < n.tmod 10000 then ['m'] else [])))

/-- `serpent_to_id` (`pyne.cc:3357-3396`). -/
def serpentToId (nuc : List Char) : Res :=
  if nuc.isEmpty then some (.error .notNuclide)
  else
    let s := remove (· = '-') (nuc.map upper)
    let anum := remove isLetter s
    match (if anum.isEmpty || hasNat s then zOf (capitalize (removeSub nat s.length s)) else none) with
    | some z => int32 (10000000 * z)
    | none => withState s (toInt anum)

/-- `nist(int)` (`pyne.cc:3402-3431`). -/
def nist (nuc : ℤ) : Option (Except Bad (List Char)) :=
  onId nuc fun n =>
    match nameOf (n.tdiv 10000000) with
    | none => some (.error .notNuclide)
    | some ll =>
      let aaassss := n.tmod 10000000
      some (.ok ((if 0 < aaassss then Convert.showInt (aaassss.tdiv 10000) else []) ++ capital ll))

/-- The part of `nist_to_id` and `alara_to_id` behind the normalisation (`pyne.cc:3467-3486`, `3609-3628`). -/
def massAndSymbol (s : List Char) : Res :=
  let anum := remove isLetter s
  match (if anum.isEmpty then zOf (capitalize s) else none) with
  | some z => int32 (10000000 * z)
  | none =>
    match int32 (toInt anum * 10000) with
    | some (.ok n) =>
      match zOf (capitalize (remove isDigit s)) with
      | none => some (.error .notNuclide)
      | some z => int32 (10000000 * z + n)
    | _ => none

/-- `nist_to_id` (`pyne.cc:3459-3486`). -/
def nistToId (nuc : List Char) : Res :=
  if nuc.isEmpty then some (.error .notNuclide) else massAndSymbol (nuc.map upper)

/-- `alara(int)` (`pyne.cc:3544-3574`). -/
def alara (nuc : ℤ) : Option (Except Bad (List Char)) :=
  onId nuc fun n =>
    match nameOf (n.tdiv 10000000) with
    | none => some (.error .notNuclide)
    | some ll =>
      let aaassss := n.tmod 10000000
      some (.ok (ll.map Infile.lower ++
        (if 0 < aaassss then ':' :: Convert.showInt (aaassss.tdiv 10000) else [])))

/-- `alara_to_id` (`pyne.cc:3601-3628`). -/
def alaraToId (nuc : List Char) : Res :=
  if nuc.isEmpty then some (.error .notNuclide)
  else massAndSymbol ((remove (· = ':') nuc).map upper)

/-- `fluka(int)` (`pyne.cc:3269-3275`) with the table turned round (`pyne.cc:2596-2605`). -/
def fluka (nuc : ℤ) : Option (Except Bad (List Char)) :=
  onId nuc fun n =>
    match flukaTable.find? (·.2 = n) with
    | none => some (.error .notNuclide)
    | some e => some (.ok e.1)

/-- `fluka_to_id` (`pyne.cc:3281-3286`). -/
def flukaToId (name : List Char) : Res :=
  match flukaTable.find? (·.1 = name) with
  | none => some (.error .notNuclide)
  | some e => some (.ok e.2)

/-- `ensdf_to_id` (`pyne.cc:3738-3753`). -/
def ensdfToId (nuc : List Char) : Res :=
  match nuc with
  | a :: b :: c :: d :: r =>
    if isDigit d then
      sum2 (10000 * toInt [a, b, c]) (10000000 * (toInt (d :: r.take 1) + 100))
    else idStr nuc
  | _ => idStr nuc

/-! ## State ids -/

/-- The map: empty or loaded (`pyne.cc:3677-3681`). -/
def stateMap (loaded : Bool) : List (ℤ × ℤ) := if loaded then stateTable else []

/-- `state_id_to_id(int)` (`pyne.cc:3683-3701`), with the map loaded or not before, and whether it is loaded
afterwards.  The call of itself finds a map that is not empty. -/
def stateIdToId (loaded : Bool) (state : ℤ) : Res × Bool :=
  if state.tmod 10000 = 0 then (some (.ok state), loaded)
  else
    (match stateTable.find? (·.1 = state) with
      | some e => int32 (state.tdiv 10000 * 10000 + e.2)
      | none => some (.error .indeterminate), true)

/-- `id_to_state_id(int)` (`pyne.cc:3704-3725`).  Behind the loop the iterator of `lower_bound` is
dereferenced, which is undefined if there is no greater key; so the map is never loaded here. -/
def idToStateId (loaded : Bool) (nuc : ℤ) : Res :=
  if nuc.tmod 10000 = 0 then some (.ok nuc)
  else
    match int32 (nuc + 10000) with
    | none => none
    | some _ =>
      match (stateMap loaded).find?
          fun e => nuc ≤ e.1 ∧ e.1 ≤ nuc + 10000 ∧ e.2 = nuc.tmod 10000 with
      | some e => some (.ok e.1)
      | none =>
        if (stateMap loaded).any fun e => nuc ≤ e.1 then some (.error .indeterminate) else none

end Cyclus.Nuc
