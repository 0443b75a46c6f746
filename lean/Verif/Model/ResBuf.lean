import Verif.Model.Basic
import Mathlib.Algebra.BigOperators.Group.List.Basic

/-!
# Model of `cyclus::toolkit::ResBuf<T>`

Models `/repo/src/toolkit/res_buf.h` and `/repo/src/toolkit/res_manip.cc:7-32`.

Resource objects live in a heap and are referred to by identity (the C++ shared pointers), so
that aliasing (the same object pushed twice) is visible.  Of an object only its quantity, its
quality (what `Product::Absorb` compares) and whether the dynamic cast to `T` succeeds are kept.
Simplifications: package names, tracking and decay do not influence any of the modelled fields
and are dropped; `Material::Absorb` is assumed not to throw (its compositions are modelled in
`Model/Resource.lean`); `INFINITY` as capacity is `none`.
-/

namespace Cyclus.ResBuf

/-- Template argument of `ResBuf`: decides when `Absorb` accepts the other object.
Models `/repo/src/product.cc:49-51` (a Product only absorbs equal quality) and
`/repo/src/material.cc:101-125` (a Material absorbs every Material). -/
inductive Kind where
  | material
  | product
  deriving DecidableEq, Repr

/-- One resource object.  Models the fields `quantity_`/`qty_`, `quality_` of
`/repo/src/product.h` and `/repo/src/material.h`; `isT` says whether
`boost::dynamic_pointer_cast<T>` succeeds on it (`/repo/src/toolkit/res_buf.h:273`). -/
structure Obj where
  qty : ℚ
  qual : Nat
  isT : Bool := true
  deriving DecidableEq, Repr

/-- The heap of resource objects and the members of one `ResBuf`.
Models `/repo/src/toolkit/res_buf.h:370-383`; `cap = none` is `INFINITY` (line 65).
`next` is the first identity not yet allocated. -/
structure St where
  heap : Nat → Obj
  next : Nat
  rs : List Nat
  present : List Nat
  qty : ℚ
  cap : Option ℚ
  bulk : Bool

/-- Writing the quantity of one object. -/
def setQty (h : Nat → Obj) (r : Nat) (q : ℚ) : Nat → Obj :=
  fun i => if i = r then { h r with qty := q } else h i

/-- A freshly constructed buffer over a heap.  Models `/repo/src/toolkit/res_buf.h:64-67`. -/
def init (bulk : Bool) : St :=
  { heap := fun _ => { qty := 0, qual := 0 }, next := 0, rs := [], present := [],
    qty := 0, cap := none, bulk := bulk }

/-- `space()`.  Models `/repo/src/toolkit/res_buf.h:116`; `none` is infinite space. -/
def space (s : St) : Option ℚ := s.cap.map fun c => max 0 (c - s.qty)

/-- The comparison `q - space() > eps_rsrc()` of `/repo/src/toolkit/res_buf.h:276` and `:327`. -/
def exceeds (eps q : ℚ) : Option ℚ → Bool
  | none => false
  | some x => decide (q - x > eps)

/-- `UpdateQty()`.  Models `/repo/src/toolkit/res_buf.h:361-368`. -/
def updateQty (s : St) : St :=
  match s.rs with
  | [] => { s with qty := 0 }
  | [r] => { s with qty := (s.heap r).qty }
  | _ => s

/-- Whether `a->Absorb(b)` accepts.  Models `/repo/src/product.cc:49-51` and the absence of a
check in `/repo/src/material.cc:101-125`. -/
def absorbOk (k : Kind) (a b : Obj) : Bool :=
  match k with
  | .material => true
  | .product => b.qual == a.qual

/-- `a->Absorb(b)`: throws before changing anything, else moves the quantity.
Models `/repo/src/product.cc:48-56` and `/repo/src/material.cc:122-123`; the two assignments
are kept in order so that absorbing oneself behaves as in the code. -/
def absorb (k : Kind) (h : Nat → Obj) (a b : Nat) : Except Err (Nat → Obj) :=
  if absorbOk k (h a) (h b) then
    let h1 := setQty h a ((h a).qty + (h b).qty)
    .ok (setQty h1 b 0)
  else .error .value

/-- `std::set::insert`. -/
def insertPresent (p : List Nat) (r : Nat) : List Nat := if r ∈ p then p else r :: p

/-- `capacity(double)`.  Models `/repo/src/toolkit/res_buf.h:81-93`. -/
def setCap (eps : ℚ) (s : St) (c : Option ℚ) : Outcome St Unit :=
  match c with
  | none => ({ s with cap := none }, .ok ())
  | some x =>
    if x < 0 then (s, .error .value)
    else if s.qty - x > eps then (s, .error .value)
    else ({ s with cap := some x }, .ok ())

/-- `Push(Resource::Ptr)`.  Models `/repo/src/toolkit/res_buf.h:272-297`.  Note line 295 reads
`r->quantity()` after a bulk absorb has set it to zero. -/
def push (k : Kind) (eps : ℚ) (s : St) (r : Nat) : Outcome St Unit :=
  if !(s.heap r).isT then (s, .error .cast)
  else if exceeds eps (s.heap r).qty (space s) then (s, .error .value)
  else if r ∈ s.present then (s, .error .key)
  else
    match s.bulk, s.rs with
    | true, f :: _ =>
      match absorb k s.heap f r with
      | .error e => (s, .error e)
      | .ok h => (updateQty { s with heap := h, qty := s.qty + (h r).qty }, .ok ())
    | _, _ =>
      (updateQty { s with rs := s.rs ++ [r], present := insertPresent s.present r,
                          qty := s.qty + (s.heap r).qty }, .ok ())

/-- The storing loop of the vector `Push`.  Models `/repo/src/toolkit/res_buf.h:337-347`; an
exception from `Absorb` leaves the loop with what has been stored so far. -/
def pushLoop (k : Kind) : St → List Nat → Outcome St Unit
  | s, [] => (s, .ok ())
  | s, r :: rest =>
    match s.bulk, s.rs with
    | true, f :: _ =>
      match absorb k s.heap f r with
      | .error e => (s, .error e)
      | .ok h => pushLoop k { s with heap := h } rest
    | _, _ =>
      pushLoop k { s with rs := s.rs ++ [r], present := insertPresent s.present r } rest

/-- `tot_qty` of `/repo/src/toolkit/res_buf.h:323-326`. -/
def totQty (h : Nat → Obj) (rs : List Nat) : ℚ := (rs.map fun r => (h r).qty).sum

/-- `Push(std::vector<B>)`.  Models `/repo/src/toolkit/res_buf.h:311-349`. -/
def pushVec (k : Kind) (eps : ℚ) (s : St) (rs : List Nat) : Outcome St Unit :=
  if rs.any (fun r => !(s.heap r).isT) then (s, .error .cast)
  else if exceeds eps (totQty s.heap rs) (space s) then (s, .error .value)
  else if rs.any (fun r => decide (r ∈ s.present)) then (s, .error .key)
  else
    match pushLoop k s rs with
    | (s', .error e) => (s', .error e)
    | (s', .ok _) => ({ s' with qty := s'.qty + totQty s.heap rs }, .ok ())

/-- `Pop()`.  Models `/repo/src/toolkit/res_buf.h:235-246`. -/
def pop (s : St) : Outcome St Nat :=
  match s.rs with
  | [] => (s, .error .value)
  | r :: rest =>
    (updateQty { s with rs := rest, present := s.present.erase r,
                        qty := s.qty - (s.heap r).qty }, .ok r)

/-- `PopBack()`.  Models `/repo/src/toolkit/res_buf.h:249-260`. -/
def popBack (s : St) : Outcome St Nat :=
  match s.rs.getLast? with
  | none => (s, .error .value)
  | some r =>
    (updateQty { s with rs := s.rs.dropLast, present := s.present.erase r,
                        qty := s.qty - (s.heap r).qty }, .ok r)

/-- The loop of `PopN`.  Models `/repo/src/toolkit/res_buf.h:206-212`.  (`PopN` has checked that
the buffer holds at least `n` objects, so the empty case is not reached with `n > 0`.) -/
def popNLoop : Nat → St → List Nat → St × List Nat
  | 0, s, acc => (s, acc)
  | n + 1, s, acc =>
    match s.rs with
    | [] => (s, acc)
    | r :: rest =>
      popNLoop n { s with rs := rest, present := s.present.erase r,
                          qty := s.qty - (s.heap r).qty } (acc ++ [r])

/-- `PopN(int)`.  Models `/repo/src/toolkit/res_buf.h:198-216`. -/
def popN (s : St) (n : Int) : Outcome St (List Nat) :=
  if (s.rs.length : Int) < n ∨ n < 0 then (s, .error .value)
  else
    let (s', out) := popNLoop n.toNat s []
    (updateQty s', .ok out)

/-- The loop of `PopVector`, run on the list of held objects.
Models `/repo/src/toolkit/res_buf.h:142-158`.  The split branch extracts `left` from the front
object (a new object, `/repo/src/product.cc:59-69`), puts the front object back and sets `left`
to a negative number, so the loop stops there. -/
def popLoop : List Nat → St → ℚ → List Nat → St × List Nat
  | [], s, _, acc => (s, acc)
  | r :: rest, s, left, acc =>
    if left ≤ 0 then (s, acc)
    else
      let q := (s.heap r).qty
      if q > left then
        let n := s.next
        let h1 := setQty s.heap r (q - left)
        let h2 : Nat → Obj := fun i => if i = n then { s.heap r with qty := left } else h1 i
        ({ s with heap := h2, next := n + 1, qty := s.qty - left }, acc ++ [n])
      else
        popLoop rest { s with rs := rest, present := s.present.erase r, qty := s.qty - q }
          (left - q) (acc ++ [r])

/-- `PopVector(double)`.  Models `/repo/src/toolkit/res_buf.h:129-163`. -/
def popVec (s : St) (q : ℚ) : Outcome St (List Nat) :=
  if q > s.qty then (s, .error .value)
  else
    let (s', out) := popLoop s.rs s q []
    (updateQty s', .ok out)

/-- The absorbing loop of `Squash`.  Models `/repo/src/toolkit/res_manip.cc:12-15`. -/
def squashLoop (k : Kind) (a : Nat) : (Nat → Obj) → List Nat → Outcome (Nat → Obj) Nat
  | h, [] => (h, .ok a)
  | h, b :: rest =>
    match absorb k h a b with
    | .error e => (h, .error e)
    | .ok h' => squashLoop k a h' rest

/-- `Squash`.  Models `/repo/src/toolkit/res_manip.cc:7-32`. -/
def squash (k : Kind) (h : Nat → Obj) : List Nat → Outcome (Nat → Obj) Nat
  | [] => (h, .error .generic)
  | a :: rest => squashLoop k a h rest

/-- Squashing the popped objects of a call that removed them from the buffer. -/
def squashOut (k : Kind) : Outcome St (List Nat) → Outcome St Nat
  | (s, .error e) => (s, .error e)
  | (s, .ok out) =>
    match squash k s.heap out with
    | (h, .error e) => ({ s with heap := h }, .error e)
    | (h, .ok a) => ({ s with heap := h }, .ok a)

/-- `Pop(double)`.  Models `/repo/src/toolkit/res_buf.h:171-173`. -/
def popQty (k : Kind) (s : St) (q : ℚ) : Outcome St Nat := squashOut k (popVec s q)

/-- `Pop(double, double)`.  Models `/repo/src/toolkit/res_buf.h:178-190`. -/
def popEps (k : Kind) (s : St) (q e : ℚ) : Outcome St Nat :=
  if q > s.qty + e then (s, .error .value)
  else if q ≥ s.qty then squashOut k (popN s s.rs.length)
  else popQty k s q

/-- A call by a client of the buffer.  `create` makes a new resource object outside the buffer;
the others are the public methods of `ResBuf` that change it. -/
inductive Op where
  | create (o : Obj)
  | setCap (c : Option ℚ)
  | push (r : Nat)
  | pushVec (rs : List Nat)
  | pop
  | popBack
  | popN (n : Int)
  | popVec (q : ℚ)
  | popQty (q : ℚ)
  | popEps (q e : ℚ)

/-- Forget the value returned, keep the list of objects handed out. -/
def toList {α : Type} (f : α → List Nat) : Outcome St α → Outcome St (List Nat)
  | (s, .ok a) => (s, .ok (f a))
  | (s, .error e) => (s, .error e)

/-- One client call: dispatch to the methods above (`create` is `Product::CreateUntracked` or
`Material::CreateUntracked`, `/repo/src/product.cc:32-37`). -/
def step (k : Kind) (eps : ℚ) (s : St) : Op → Outcome St (List Nat)
  | .create o =>
    ({ s with heap := fun i => if i = s.next then o else s.heap i, next := s.next + 1 },
      .ok [s.next])
  | .setCap c => toList (fun _ => []) (setCap eps s c)
  | .push r => toList (fun _ => []) (push k eps s r)
  | .pushVec rs => toList (fun _ => []) (pushVec k eps s rs)
  | .pop => toList (fun a => [a]) (pop s)
  | .popBack => toList (fun a => [a]) (popBack s)
  | .popN n => popN s n
  | .popVec q => popVec s q
  | .popQty q => toList (fun a => [a]) (popQty k s q)
  | .popEps q e => toList (fun a => [a]) (popEps k s q e)

/-- A client program: calls made one after another, whatever each call's outcome. -/
def run (k : Kind) (eps : ℚ) (s : St) (ops : List Op) : St :=
  ops.foldl (fun s op => (step k eps s op).1) s

end Cyclus.ResBuf
