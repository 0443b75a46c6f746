import Verif.Model.Basic

/-!
# Model of the commodity recipe context

Models `/repo/src/toolkit/commodity_recipe_context.{h,cc}`.

* Strings are natural numbers, `0` is the empty string.  Resources are their object ids.
* A `std::set` is a sorted list, a `std::map` a list of entries sorted by key.
* The tables of a snapshot are lists of rows.  A table without rows does not exist: `Query` throws.
-/

namespace Cyclus.RecipeCtx

/-- `std::set::insert`. -/
def setInsert (x : ℕ) : List ℕ → List ℕ
  | [] => [x]
  | y :: ys => if x < y then x :: y :: ys else if x = y then y :: ys else y :: setInsert x ys

/-- `m[k] = v` of a `std::map`. -/
def mapSet (k v : ℕ) : List (ℕ × ℕ) → List (ℕ × ℕ)
  | [] => [(k, v)]
  | e :: es =>
    if k < e.1 then (k, v) :: e :: es else if k = e.1 then (k, v) :: es else e :: mapSet k v es

/-- Finding an entry. -/
def mapFind (k : ℕ) : List (ℕ × ℕ) → Option ℕ
  | [] => none
  | e :: es => if k = e.1 then some e.2 else mapFind k es

/-- `m[k]`: creates an entry for an unknown key. -/
def mapAt (k : ℕ) (m : List (ℕ × ℕ)) : List (ℕ × ℕ) × ℕ :=
  match mapFind k m with
  | some v => (m, v)
  | none => (mapSet k 0 m, 0)

/-- `m.erase(k)`. -/
def mapErase (k : ℕ) (m : List (ℕ × ℕ)) : List (ℕ × ℕ) := m.filter fun e => !decide (e.1 = k)

/-- `CommodityRecipeContext` (`commodity_recipe_context.h:92-97`). -/
structure Ctx where
  ins : List ℕ := []
  outs : List ℕ := []
  outOf : List (ℕ × ℕ) := []
  inRec : List (ℕ × ℕ) := []
  outRec : List (ℕ × ℕ) := []
  res : List (ℕ × ℕ) := []
  deriving DecidableEq, Repr

/-- `AddInCommod` (`commodity_recipe_context.cc:9-18`). -/
def Ctx.addIn (s : Ctx) (c r c' r' : ℕ) : Ctx :=
  { s with ins := setInsert c s.ins, outs := setInsert c' s.outs, outOf := mapSet c c' s.outOf,
           inRec := mapSet c r s.inRec, outRec := mapSet c r' s.outRec }

/-- `AddRsrc` and `UpdateRsrc` (`commodity_recipe_context.cc:21-23,31-33`), which are the same. -/
def Ctx.addRes (s : Ctx) (c i : ℕ) : Ctx := { s with res := mapSet i c s.res }

/-- `RemoveRsrc` (`commodity_recipe_context.cc:26-28`). -/
def Ctx.rmRes (s : Ctx) (i : ℕ) : Ctx := { s with res := mapErase i s.res }

/-- `UpdateInRec` (`commodity_recipe_context.cc:36-39`). -/
def Ctx.updateIn (s : Ctx) (c r : ℕ) : Ctx := { s with inRec := mapSet c r s.inRec }

/-- `out_commod` (`commodity_recipe_context.h:49-51`). -/
def Ctx.outCommod (s : Ctx) (c : ℕ) : Ctx × ℕ :=
  ({ s with outOf := (mapAt c s.outOf).1 }, (mapAt c s.outOf).2)

/-- `in_recipe` (`commodity_recipe_context.h:54-56`). -/
def Ctx.inRecipe (s : Ctx) (c : ℕ) : Ctx × ℕ :=
  ({ s with inRec := (mapAt c s.inRec).1 }, (mapAt c s.inRec).2)

/-- `out_recipe` (`commodity_recipe_context.h:59-61`). -/
def Ctx.outRecipe (s : Ctx) (c : ℕ) : Ctx × ℕ :=
  ({ s with outRec := (mapAt c s.outRec).1 }, (mapAt c s.outRec).2)

/-- `commod` (`commodity_recipe_context.h:65-67`). -/
def Ctx.commod (s : Ctx) (i : ℕ) : Ctx × ℕ :=
  ({ s with res := (mapAt i s.res).1 }, (mapAt i s.res).2)

/-- `operator==` (`commodity_recipe_context.h:69-76`): of the sets only the sizes are compared. -/
def Ctx.eq (s t : Ctx) : Bool :=
  decide (s.ins.length = t.ins.length) && decide (s.outs.length = t.outs.length) &&
    decide (s.outOf = t.outOf) && decide (s.inRec = t.inRec) && decide (s.outRec = t.outRec) &&
    decide (s.res = t.res)

/-- The tables `CommodityRecipeContext_inoutmap` and `CommodityRecipeContext_resmap`. -/
structure Db where
  inout : List (ℕ × ℕ × ℕ × ℕ)
  resmap : List (ℕ × ℕ)
  deriving DecidableEq, Repr

/-- The first loop of `Snapshot` (`commodity_recipe_context.cc:79-88`), which may create entries. -/
def snapLoop : Ctx → List ℕ → Ctx × List (ℕ × ℕ × ℕ × ℕ)
  | s, [] => (s, [])
  | s, c :: cs =>
    match s.inRecipe c with
    | (s, r) =>
      match s.outCommod c with
      | (s, c') =>
        match s.outRecipe c with
        | (s, r') =>
          match snapLoop s cs with
          | (s, rows) => (s, (c, r, c', r') :: rows)

/-- `Snapshot` (`commodity_recipe_context.cc:78-97`). -/
def Ctx.snapshot (s : Ctx) : Ctx × Db :=
  match snapLoop s s.ins with
  | (s, rows) => (s, ⟨rows, s.res⟩)

/-- `InitFrom` (`commodity_recipe_context.cc:58-76`).  That the second table does not exist is
handled, that the first one does not exist is not. -/
def Ctx.initFrom (s : Ctx) (d : Db) : Outcome Ctx Unit :=
  if d.inout = [] then (s, .error .io)
  else
    let s := d.inout.foldl (fun s r => s.addIn r.1 r.2.1 r.2.2.1 r.2.2.2) s
    ({ s with res := d.resmap.foldl (fun m e => mapSet e.1 e.2 m) s.res }, .ok ())

end Cyclus.RecipeCtx
