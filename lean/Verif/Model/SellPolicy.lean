import Verif.Model.ResBuf
import Verif.Model.Package

/-!
# Model of the sell policy

Models `/repo/src/toolkit/matl_sell_policy.{h,cc}` on the models of `ResBuf`, `Package` and
`TransportUnit`.

* Package names are natural numbers, `0` is `Package::unpackaged_name()`.
* Compositions are dropped: `Transmute` (`matl_sell_policy.cc:286-288`) does not change quantities.
* The random numbers drawn for the `i`-th call of `GetFillMass` are the stream `raw i`.
* `none` is undefined behaviour, or a loop that does not finish within `fuel` iterations.
* Conversions of `double` to `int` are those of `Package.divFloor`.
* Names, logs and assertions (not compiled into releases) are dropped.
-/

namespace Cyclus.Sell

/-- The members of `MatlSellPolicy` (`matl_sell_policy.h:133-140`) that quantities depend on. -/
structure Pol where
  quantize : ℚ
  throughput : ℚ
  pkg : Package.Pkg
  pkgName : ℕ
  tu : TransportUnit.TU
  deriving DecidableEq, Repr

/-- `Excl` (`matl_sell_policy.h:114`). -/
def Pol.excl (p : Pol) : Bool := decide (0 < p.quantize)

/-- `Limit` (`matl_sell_policy.cc:170-175`) for a buffer that holds `q`. -/
def Pol.limit (p : Pol) (q : ℚ) : ℚ :=
  min p.throughput
    (if p.excl then p.quantize * (Package.divFloor q p.quantize : ℚ) else q)

/-- The quantities bid on one request of quantity `req` (`matl_sell_policy.cc:211-228`).  A negative
number of full bids is converted to an unsigned number, for which there is no memory:
`std::length_error` (`bids.assign`), written `Err.generic`. -/
def Pol.bidsFor (eps : ℚ) (fuel : ℕ) (raw : ℕ → ℚ) (p : Pol) (limit req : ℚ) :
    Option (Except Err (List ℚ)) :=
  let qty := min req limit
  let bids : Option (Except Err (List ℚ)) :=
    if p.excl then
      let n := Package.divFloor qty p.quantize
      some (if n < 0 then .error .generic else .ok (List.replicate n.toNat p.quantize))
    else Package.getFillMass p.pkg eps raw fuel qty
  match bids with
  | none => none
  | some (.error e) => some (.error e)
  | some (.ok bids) =>
    match TransportUnit.maxShippable p.tu fuel (Package.toInt bids.length) with
    | none => none
    | some n => some (.ok (if n < bids.length then bids.take n.toNat else bids))

/-- The loop over the requests for the commodities of the policy
(`matl_sell_policy.cc:201-241`). -/
def Pol.bidsLoop (eps : ℚ) (fuel : ℕ) (raw : ℕ → ℕ → ℚ) (p : Pol) (limit : ℚ) :
    ℕ → List ℚ → Option (Except Err (List (List ℚ)))
  | _, [] => some (.ok [])
  | i, r :: rs =>
    match p.bidsFor eps fuel (raw i) limit r with
    | none => none
    | some (.error e) => some (.error e)
    | some (.ok b) =>
      match Pol.bidsLoop eps fuel raw p limit (i + 1) rs with
      | none => none
      | some (.error e) => some (.error e)
      | some (.ok bs) => some (.ok (b :: bs))

/-- `GetMatlBids` (`matl_sell_policy.cc:177-243`) for a buffer that holds `q` and the quantities of
the requests for the commodities of the policy: no portfolio, or the capacity of its constraint and
the bids for each request.  `eps` is `eps()` at line 184 and `eps_rsrc()` in `GetFillMass`; both are
one parameter. -/
def Pol.getBids (eps : ℚ) (fuel : ℕ) (raw : ℕ → ℕ → ℚ) (p : Pol) (empty : Bool) (q : ℚ)
    (reqs : List ℚ) : Option (Except Err (Option (ℚ × List (List ℚ)))) :=
  let limit := p.limit q
  if empty || decide (q < eps) || decide (limit < eps) then some (.ok none)
  else
    match p.bidsLoop eps fuel raw limit 0 reqs with
    | none => none
    | some (.error e) => some (.error e)
    | some (.ok bs) => some (.ok (some (limit, bs)))

/-- The buffer, and the package name of each object. -/
structure St where
  buf : ResBuf.St
  pkg : ℕ → ℕ

/-- The packages of `Resource::Package` (`resource.h:139-156`), made by `Material::PackageExtract`
(`material.cc:143-162`) from object `a`. -/
def packLoop (eps : ℚ) (name a : ℕ) : St → List ℚ → Outcome St (List ℕ)
  | s, [] => (s, .ok [])
  | s, f :: fs =>
    let b := s.buf
    if f - (b.heap a).qty > eps then (s, .error .value)
    else
      let n := b.next
      let h1 := ResBuf.setQty b.heap a ((b.heap a).qty - f)
      let s1 : St := ⟨{ b with heap := fun i => if i = n then { b.heap a with qty := f } else h1 i,
                               next := n + 1 },
                      fun i => if i = n then name else s.pkg i⟩
      match packLoop eps name a s1 fs with
      | (s2, .error e) => (s2, .error e)
      | (s2, .ok ids) => (s2, .ok (n :: ids))

/-- One trade of amount `q` (`matl_sell_policy.cc:257-284`): the object sent and whether the number
of shippable packages is reduced.  A material that is split off by `Pop` is unpackaged
(`material.cc:90`), one that is popped whole keeps its package.  The untracked empty material for
failed packaging is a new object (line 280). -/
def trade (eps : ℚ) (fuel : ℕ) (raw : ℕ → ℚ) (p : Pol) (s : St) (q : ℚ) :
    Option (Outcome St (ℕ × Bool)) :=
  match ResBuf.popEps .material s.buf q eps with
  | (b, .error e) => some (⟨b, s.pkg⟩, .error e)
  | (b, .ok a) =>
    let pkg := fun i => if s.buf.next ≤ i then 0 else s.pkg i
    let s1 : St := ⟨b, pkg⟩
    if p.pkgName = pkg a then some (s1, .ok (a, false))
    else
      match Package.getFillMass p.pkg eps raw fuel (b.heap a).qty with
      | none => none
      | some (.error e) => some (s1, .error e)
      | some (.ok fills) =>
        match packLoop eps p.pkgName a s1 fills with
        | (s2, .error e) => some (s2, .error e)
        | (s2, .ok ids) =>
          let back : Outcome ResBuf.St Unit :=
            if (s2.buf.heap a).qty > eps then ResBuf.push .material eps s2.buf a
            else (s2.buf, .ok ())
          match back with
          | (b3, .error e) => some (⟨b3, s2.pkg⟩, .error e)
          | (b3, .ok ()) =>
            match ids with
            | i :: _ => some (⟨b3, s2.pkg⟩, .ok (i, true))
            | [] =>
              let n := b3.next
              some (⟨{ b3 with heap := fun i => if i = n then { b3.heap a with qty := 0 }
                                                else b3.heap i,
                               next := n + 1 },
                     fun i => if i = n then 0 else s2.pkg i⟩, .ok (n, false))

/-- The loop over the trades (`matl_sell_policy.cc:257-291`): `ship` is `shippable_pkgs`, the result
lists the number of the trade and the object sent. -/
def tradeLoop (eps : ℚ) (fuel : ℕ) (raw : ℕ → ℕ → ℚ) (p : Pol) :
    ℕ → ℤ → St → List ℚ → Option (Outcome St (List (ℕ × ℕ)))
  | _, _, s, [] => some (s, .ok [])
  | i, ship, s, q :: qs =>
    if 0 < ship then
      match trade eps fuel (raw i) p s q with
      | none => none
      | some (s1, .error e) => some (s1, .error e)
      | some (s1, .ok (a, dec)) =>
        match tradeLoop eps fuel raw p (i + 1) (if dec then ship - 1 else ship) s1 qs with
        | none => none
        | some (s2, .error e) => some (s2, .error e)
        | some (s2, .ok rs) => some (s2, .ok ((i, a) :: rs))
    else tradeLoop eps fuel raw p (i + 1) ship s qs

/-- `GetMatlTrades` (`matl_sell_policy.cc:245-293`). -/
def getTrades (eps : ℚ) (fuel : ℕ) (raw : ℕ → ℕ → ℚ) (p : Pol) (s : St) (qs : List ℚ) :
    Option (Outcome St (List (ℕ × ℕ))) :=
  match TransportUnit.maxShippable p.tu fuel (Package.toInt qs.length) with
  | none => none
  | some ship => tradeLoop eps fuel raw p 0 ship s qs

/-- `set_package` (`matl_sell_policy.cc:46-68`) with a manager.  `none` includes `fill.front()` of
an empty vector.  The remainder `fmod(f, q)` of positive numbers is `f - q * floor (f / q)`. -/
def Pol.setPackage (eps : ℚ) (fuel : ℕ) (raw : ℕ → ℚ) (p : Pol) (pkg : Package.Pkg) (name : ℕ) :
    Option (Outcome Pol Unit) :=
  if 0 < p.quantize ∧ name ≠ 0 then
    if pkg.strategy = .first ∨ pkg.strategy = .equal then
      match Package.getFillMass pkg eps raw fuel p.quantize with
      | none => none
      | some (.error e) => some (p, .error e)
      | some (.ok []) => none
      | some (.ok (f :: fs)) =>
        if fs ≠ [] ∨ 0 < f - p.quantize * (⌊f / p.quantize⌋ : ℚ) then some (p, .error .value)
        else some ({ p with pkg := pkg, pkgName := name }, .ok ())
    else some (p, .error .value)
  else some ({ p with pkg := pkg, pkgName := name }, .ok ())

/-- `set_transport_unit` (`matl_sell_policy.cc:70-91`) with a manager. -/
def Pol.setTransport (eps : ℚ) (fuel : ℕ) (raw : ℕ → ℚ) (p : Pol) (tu : TransportUnit.TU) :
    Option (Outcome Pol Unit) :=
  if 0 < p.quantize ∧ tu.unrestricted = false then
    match Package.getFillMass p.pkg eps raw fuel p.quantize with
    | none => none
    | some (.error e) => some (p, .error e)
    | some (.ok fill) =>
      match TransportUnit.maxShippable tu fuel (Package.toInt fill.length) with
      | none => none
      | some n =>
        if n ≠ Package.toInt fill.length then some (p, .error .value)
        else some ({ p with tu := tu }, .ok ())
  else some ({ p with tu := tu }, .ok ())

end Cyclus.Sell
