import Verif.Model.CompMath

/-!
# Model of `toolkit::ResMap`

Models `/repo/src/toolkit/res_map.h`.

Keys and resources are numbers; `none` in the map is a null pointer.  A map is a list of entries with
distinct keys; their order (key order in the code) does not matter for the results modelled here.
The quantities of all resources are part of the state, since agents change them from outside.
A call that dereferences a null pointer has no result (`none`).
-/

namespace Cyclus.ResMap

/-- The members of a `ResMap` (`/repo/src/toolkit/res_map.h:235-245`) and the quantities of all
resources. -/
structure St where
  res : List (ℕ × Option ℕ)
  dirty : Bool
  qty : ℚ
  ids : List (ℕ × ℤ)
  heap : ℕ → ℚ

/-- An empty map.  Models `/repo/src/toolkit/res_map.h:43-46`. -/
def init (heap : ℕ → ℚ) : St := { res := [], dirty := true, qty := 0, ids := [], heap := heap }

/-- `std::map::find`. -/
def find {α : Type} (l : List (ℕ × α)) (k : ℕ) : Option α :=
  match l with
  | [] => none
  | (a, x) :: l => if a = k then some x else find l k

/-- Assignment to the entry of a key, which is created if missing. -/
def setKey {α : Type} (l : List (ℕ × α)) (k : ℕ) (x : α) : List (ℕ × α) :=
  match l with
  | [] => [(k, x)]
  | (a, y) :: l => if a = k then (a, x) :: l else (a, y) :: setKey l k x

/-- Removal of a key. -/
def remove {α : Type} (l : List (ℕ × α)) (k : ℕ) : List (ℕ × α) := l.filter fun e => e.1 ≠ k

/-- The quantities of all values, `none` if one is a null pointer.
Models the loop in `/repo/src/toolkit/res_map.h:224-229`. -/
def quantities (heap : ℕ → ℚ) : List (ℕ × Option ℕ) → Option (List ℚ)
  | [] => some []
  | (_, none) :: _ => none
  | (_, some r) :: l => (quantities heap l).map fun qs => heap r :: qs

/-- `UpdateQuantity`.  Models `/repo/src/toolkit/res_map.h:216-233`. -/
def updateQuantity (s : St) : Option St :=
  if s.res.length = 0 then some { s with qty := 0, dirty := false }
  else (quantities s.heap s.res).map fun qs =>
    { s with qty := CompMath.kahanSum qs, dirty := false }

/-- `quantity()`.  Models `/repo/src/toolkit/res_map.h:66-70`. -/
def quantity (s : St) : Option (St × ℚ) :=
  if s.dirty then (updateQuantity s).map fun t => (t, t.qty) else some (s, s.qty)

/-- `operator[]` on the way to reading the pointer.  Models `/repo/src/toolkit/res_map.h:94-103`. -/
def index (s : St) (k : ℕ) : St × Option ℕ :=
  match find s.res k with
  | some p => ({ s with dirty := true }, p)
  | none => ({ s with dirty := true, res := setKey s.res k none }, none)

/-- `map[k] = p`: the reference returned by `operator[]` is assigned. -/
def assign (s : St) (k : ℕ) (p : Option ℕ) : St :=
  { s with dirty := true, res := setKey s.res k p }

/-- Assignment through a reference or iterator that was obtained earlier: nothing of the class
runs. -/
def assignRef (s : St) (k : ℕ) (p : Option ℕ) : St := { s with res := setKey s.res k p }

/-- `begin()` and `end()`.  Models `/repo/src/toolkit/res_map.h:106-124`. -/
def iterate (s : St) : St := { s with dirty := true }

/-- `erase(k)`, with the number of removed entries.  Models `/repo/src/toolkit/res_map.h:136-140`;
`erase(position)` (130-133) is this for the key of the position. -/
def eraseKey (s : St) (k : ℕ) : Option (St × ℕ) :=
  (updateQuantity { s with res := remove s.res k }).map fun t =>
    (t, s.res.length - (remove s.res k).length)

/-- `clear()`.  Models `/repo/src/toolkit/res_map.h:149-153`. -/
def clear (s : St) : St := { s with res := [], ids := [], dirty := true }

/-- `Values()`.  Models `/repo/src/toolkit/res_map.h:160-171`. -/
def values (s : St) : List (Option ℕ) := s.res.map Prod.snd

/-- The object ids of all values, `none` if one is a null pointer. -/
def idsOf (oid : ℕ → ℤ) : List (ℕ × Option ℕ) → Option (List (ℕ × ℤ))
  | [] => some []
  | (_, none) :: _ => none
  | (k, some r) :: l => (idsOf oid l).map fun is => (k, oid r) :: is

/-- `obj_ids()`.  Models `/repo/src/toolkit/res_map.h:72-79`; `oid` gives the (constant) object id of
each resource. -/
def objIds (oid : ℕ → ℤ) (s : St) : Option (St × List (ℕ × ℤ)) :=
  (idsOf oid s.res).map fun is => ({ s with ids := is }, is)

/-- `obj_ids(oi)`.  Models `/repo/src/toolkit/res_map.h:81-84`. -/
def setObjIds (s : St) (is : List (ℕ × ℤ)) : St := { s with ids := is, dirty := true }

/-- The reverse map built in `/repo/src/toolkit/res_map.h:180-184`; ids without an entry read the
default key, here 0. -/
def reverseMap (is : List (ℕ × ℤ)) : ℤ → ℕ :=
  is.foldl (fun m e => fun o => if o = e.2 then e.1 else m o) fun _ => 0

/-- `Values(vals)`, for values that are not null.  Models `/repo/src/toolkit/res_map.h:179-191`. -/
def setValues (oid : ℕ → ℤ) (s : St) (vals : List ℕ) : St :=
  { s with
    res := vals.foldl (fun m r => setKey m (reverseMap s.ids (oid r)) (some r)) s.res
    dirty := true }

/-- `Pop(key)`.  Models `/repo/src/toolkit/res_map.h:201-212`. -/
def pop (s : St) (k : ℕ) : Outcome St (Option ℕ) :=
  match find s.res k with
  | none => (s, .error .key)
  | some p => ({ s with res := remove s.res k, dirty := true }, .ok p)

/-- What can happen to a map and to the resources in it. -/
inductive Op where
  | quantity
  | index (k : ℕ)
  | assign (k : ℕ) (p : Option ℕ)
  | assignRef (k : ℕ) (p : Option ℕ)
  | iterate
  | erase (k : ℕ)
  | clear
  | objIds
  | setObjIds (is : List (ℕ × ℤ))
  | setValues (vals : List ℕ)
  | pop (k : ℕ)
  /-- A resource is split or combined outside of the map. -/
  | change (r : ℕ) (q : ℚ)

/-- One operation; `none` if it crashes. -/
def step (oid : ℕ → ℤ) (s : St) : Op → Option St
  | .quantity => (quantity s).map Prod.fst
  | .index k => some (index s k).1
  | .assign k p => some (assign s k p)
  | .assignRef k p => some (assignRef s k p)
  | .iterate => some (iterate s)
  | .erase k => (eraseKey s k).map Prod.fst
  | .clear => some (clear s)
  | .objIds => (objIds oid s).map Prod.fst
  | .setObjIds is => some (setObjIds s is)
  | .setValues vals => some (setValues oid s vals)
  | .pop k => some (pop s k).1
  | .change r q => some { s with heap := fun i => if i = r then q else s.heap i }

end Cyclus.ResMap
