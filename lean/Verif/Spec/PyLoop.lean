import Verif.Model.PyLoop

/-!
# What repeating actions and the interpreter should do
-/

namespace Cyclus.PyLoop

/-- The names that may be used for repeating actions. -/
def Known (n : Txt) : Prop :=
  n = "agent_annotations".toList ∨ n = "deregister_tables".toList ∨ n = "echo".toList ∨ n = "load".toList ∨ n = "pause".toList ∨
  n = "register_tables".toList ∨ n = "registry_request".toList ∨ n = "sleep".toList ∨ n = "table_data".toList ∨ n = "table_names_request".toList

/-- The function that an action stands for. -/
inductive Target {F P C : Type} (w : World F P C) : Act F P → F → Prop
  | fn (f : F) : Target w (.fn f) f
  | pair (f : F) (p : P) : Target w (.pair (.fn f) p) f
  | name (n : Txt) (p : P) : Known n → Target w (.pair (.name n) p) (w.event n)

/-- The parameters that an action brings. -/
def own {F P : Type} : Act F P → Option P
  | .pair _ p => some p
  | _ => none

/-- The parameters of the last action of a list that brings some. -/
def LastParams {F P : Type} (l : List (Act F P)) (p : P) : Prop :=
  ∃ (i : ℕ) (a : Act F P), l[i]? = some a ∧ own a = some p ∧ ∀ (j : ℕ) (b : Act F P), i < j → l[j]? = some b → own b = none

/-- The task that an action asks for: its function called with its own parameters, or with none. -/
def Task {F P C : Type} (w : World F P C) (empty : P) (a : Act F P) (c : C) : Prop :=
  ∃ f, Target w a f ∧ w.call f ((own a).getD empty) = .ok c

/-- How often a call occurs. -/
def starts (l : List Op) : ℕ := l.count .start
/-- How often a call occurs. -/
def stops (l : List Op) : ℕ := l.count .stop

/-- Never more stops than starts. -/
def Nested (l : List Op) : Prop := ∀ n, stops (l.take n) ≤ starts (l.take n)

end Cyclus.PyLoop
