import Verif.Model.PyExec

/-!
# What the trades of agents written in Python should mean
-/

namespace Cyclus.PyExec.Spec

open Cyclus.Dre Cyclus.PyTrade Cyclus.PyExec

/-- The trades live at consecutive addresses from `a` on. -/
def Holds (mem : ℕ → Option Trade) (a : ℕ) (ts : List Trade) : Prop :=
  ∀ i tr, ts[i]? = some tr → mem (a + i) = some tr

/-- The object is a trade of kind `k` that still lives, and it is `tr`. -/
def Live (k : Kind) (mem : ℕ → Option Trade) (t : TradeObj) (tr : Trade) : Prop :=
  t.kind = k ∧ mem t.addr = some tr

/-- An entry that can be used: a living trade of kind `k` and a resource of kind `k`. -/
def Usable (k : Kind) (mem : ℕ → Option Trade) (e : Obj × Obj) : Prop :=
  ∃ t r tr, e = (.trade t, .res r) ∧ Live k mem t tr ∧ r.kind = k

/-- A mapping from trades to resources. -/
def mapping (l : List (TradeObj × Res)) : Ans := .map (l.map fun x => (.trade x.1, .res x.2))

/-- A list of pairs of trades and resources. -/
def pairs (l : List (TradeObj × Res)) : Ans := .seq (l.map fun x => .items [.trade x.1, .res x.2])

/-- The answer has every one of these trades once, with a resource of kind `k`. -/
def AnswersAll (k : Kind) (ws : List TradeObj) (v : Ans) : Prop :=
  ∃ l : List (TradeObj × Res), (v = mapping l ∨ v = pairs l) ∧ (l.map Prod.fst).Perm ws ∧
    ∀ x ∈ l, x.2.kind = k

/-- The elements in the order in which they appear first. -/
def firsts : List Obj → List Obj
  | [] => []
  | x :: l => x :: (firsts l).filter (· ≠ x)

end Cyclus.PyExec.Spec
