import Verif.Model.Resource

/-!
# Model of the tables of explicit inventories

Models `/repo/src/timer.cc:111-121, 132-179`: at the end of the Tock phase the inventories of all
agents in the simulation are written to the tables ExplicitInventory and ExplicitInventoryCompact.

Materials are those of `Model/Resource.lean`; in particular the decay mode is not "lazy" (if it is,
the clones are decayed up to the current time, and not the materials themselves).
Agents are visited in an arbitrary order (`std::set<Agent*>`, by address).
-/

namespace Cyclus.Inventory

open Cyclus.CompMath Cyclus.Material

/-- An object in an inventory: a material, or a resource of another type. -/
inductive Res where
  | mat (i : ℕ)
  | other
  deriving DecidableEq, Repr

/-- A row of ExplicitInventory (units dropped).  Models `/repo/src/timer.cc:156-163`. -/
structure Row where
  agent : ℕ
  time : ℤ
  name : ℕ
  nuc : ℕ
  qty : ℚ
  deriving DecidableEq, Repr

/-- A row of ExplicitInventoryCompact (units dropped).  Models `/repo/src/timer.cc:170-177`. -/
structure Compact where
  agent : ℕ
  time : ℤ
  name : ℕ
  qty : ℚ
  comp : CompMap
  deriving DecidableEq, Repr

/-- The settings `explicit_inventory` and `explicit_inventory_compact`, and the time. -/
structure Conf where
  explicit : Bool
  compact : Bool
  time : ℤ

/-- Materials and the two tables. -/
structure World where
  heap : St
  rows : List Row
  compacts : List Compact

/-- `Clone()` of a material: a new object with the same contents.
Models `/repo/src/material.cc:38-43`. -/
def clone (s : St) (i : ℕ) : St := alloc s (s.obj i)

/-- The loop that absorbs clones of all further objects.  `none`: a resource that is not a material
is cast to NULL and used.  Models `/repo/src/timer.cc:143-145`. -/
def mixLoop (isnuc : ℕ → Bool) (s : St) (m : ℕ) : List Res → Option (Outcome St Unit)
  | [] => some (s, .ok ())
  | .other :: _ => none
  | .mat j :: rest =>
    let s1 := clone s j
    match absorb isnuc s1 m s.n with
    | (s2, .error e) => some (s2, .error e)
    | (s2, .ok _) => mixLoop isnuc s2 m rest

/-- `RecordInventory`: the rows for the mixture `m`.  Models `/repo/src/timer.cc:150-179`. -/
def recordInventory (cf : Conf) (w : World) (a name m : ℕ) : World :=
  let mat := w.heap.obj m
  let mass := w.heap.comp mat.comp
  { w with
    rows := if cf.explicit then
        w.rows ++ (normalize mass mat.qty).map fun e => ⟨a, cf.time, name, e.1, e.2⟩
      else w.rows
    compacts := if cf.compact then
        w.compacts ++ [⟨a, cf.time, name, mat.qty, normalize mass 1⟩]
      else w.compacts }

/-- The body of the loop of `RecordInventories` for one inventory.
Models `/repo/src/timer.cc:136-146`. -/
def recordOne (isnuc : ℕ → Bool) (cf : Conf) (w : World) (a name : ℕ) :
    List Res → Option (Outcome World Unit)
  | [] => some (w, .ok ())
  | .other :: _ => some (w, .ok ())
  | .mat i :: rest =>
    let s1 := clone w.heap i
    match mixLoop isnuc s1 w.heap.n rest with
    | none => none
    | some (s2, .error e) => some ({ w with heap := s2 }, .error e)
    | some (s2, .ok _) => some (recordInventory cf { w with heap := s2 } a name w.heap.n, .ok ())

/-- An agent: its id, when it entered (`none` for -1) and what `SnapshotInv()` returns. -/
structure Ag where
  id : ℕ
  enter : Option ℤ
  invs : List (ℕ × List Res)

/-- `RecordInventories(a)`.  Models `/repo/src/timer.cc:132-148`. -/
def recordInventories (isnuc : ℕ → Bool) (cf : Conf) (a : ℕ) :
    World → List (ℕ × List Res) → Option (Outcome World Unit)
  | w, [] => some (w, .ok ())
  | w, (name, rs) :: invs =>
    match recordOne isnuc cf w a name rs with
    | none => none
    | some (w1, .error e) => some (w1, .error e)
    | some (w1, .ok _) => recordInventories isnuc cf a w1 invs

/-- The end of `DoTock`.  Models `/repo/src/timer.cc:111-121`. -/
def recordAll (isnuc : ℕ → Bool) (cf : Conf) : World → List Ag → Option (Outcome World Unit)
  | w, [] => some (w, .ok ())
  | w, a :: as =>
    if cf.explicit = false ∧ cf.compact = false then some (w, .ok ())
    else match a.enter with
      | none => recordAll isnuc cf w as
      | some _ =>
        match recordInventories isnuc cf a.id w a.invs with
        | none => none
        | some (w1, .error e) => some (w1, .error e)
        | some (w1, .ok _) => recordAll isnuc cf w1 as

end Cyclus.Inventory
