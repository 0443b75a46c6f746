import Verif.Model.PyAgent
import Verif.Spec.PyInfile

/-!
# What the state variables of agents written in Python should be

Vocabulary for C120.
-/

namespace Cyclus.PyAgent

open InfileGen (Str Ty Prim PyVal Val)

/-- Classes as in Python: the names of attributes of a class differ, a class comes first in its own order of
lookup, and after it come its ancestors with theirs. -/
structure Sane (P : Program) : Prop where
  dict : ∀ b, ((P.own b).map Prod.fst).Nodup
  self : ∀ c, ∃ r, P.mro c = c :: r
  linear : ∀ c, ∀ b ∈ (P.mro c).tail, ∀ x ∈ P.mro b, x ∈ (P.mro c).tail

/-- No variable is declared under two names. -/
def OneName (P : Program) (nm : ℕ → Str) : Prop := ∀ b n v, (n, some v) ∈ P.own b → n = nm v

/-- The class has the state variable under the name: it is the attribute of the first class that has one of
that name. -/
def Declares (P : Program) (c : ℕ) (n : Str) (v : ℕ) : Prop :=
  ∃ l b r, P.mro c = l ++ b :: r ∧ (∀ d ∈ l, ∀ x ∈ P.own d, x.1 ≠ n) ∧ (n, some v) ∈ P.own b

/-- Nothing was gathered yet. -/
def Fresh (W : World) : Prop := (∀ c, W.cache c = none) ∧ ∀ v, W.label v = none

/-- The value with which a variable starts: the given value, or else the default, or else the value of the
type. -/
def Starts (P : Program) (v : ℕ) (x : PyVal) : Prop :=
  (P.value v ≠ .none ∧ x = P.value v) ∨
  (P.value v = .none ∧ P.dflt v ≠ .none ∧ x = P.dflt v) ∨
  (P.value v = .none ∧ P.dflt v = .none ∧ x = newInst (P.ty v))

/-- Zero, the empty text, and the empty containers. -/
def Zero : Ty → Val → Prop
  | .prim .bool, v => v = .bool false
  | .prim .int, v => v = .int 0
  | .prim .float, v => v = .dbl 0
  | .prim .double, v => v = .dbl 0
  | .prim .string, v => v = .str []
  | .seq _ _, v => v = .seq []
  | .map _ _, v => v = .map []
  | _, _ => False

/-- The agent has the variables of its class, with whatever values. -/
structure Whole (P : Program) (a : Inst) : Prop where
  vars : ∀ n v, (∃ x, (n, v, x) ∈ a.vars) ↔ Declares P a.cls n v
  names : (a.vars.map Prod.fst).Nodup

end Cyclus.PyAgent
