import Verif.Model.MemBack

/-! Vocabulary for the properties of the Python memory backend. -/

namespace Cyclus.MemBack

open Cyclus.Cycpp (Str)

/-- What the comparison operators are written as. -/
inductive OpIs : Str → Op → Prop
  | eq : OpIs ['=', '='] .eq
  | ne : OpIs ['!', '='] .ne
  | lt : OpIs ['<'] .lt
  | le : OpIs ['<', '='] .le
  | gt : OpIs ['>'] .gt
  | ge : OpIs ['>', '='] .ge

variable {V : Type}

/-- The row meets the condition. -/
def Holds (env : Env V) (row : Str → V) (c : Cond V) : Prop :=
  ∃ o, OpIs c.op o ∧ env.cmp o (row c.field) c.val = some true

/-- The comparison of the row with the condition does not raise. -/
def Comparable (env : Env V) (row : Str → V) (c : Cond V) : Prop :=
  ∀ o, OpIs c.op o → env.cmp o (row c.field) c.val ≠ none

/-- The name of a field that cannot be mistaken for anything else: it is not empty, has none of
the characters of operators, is no name `val0`, `val1`, ..., not `__builtins__` and none of the
constants of Python. -/
structure PlainField (env : Env V) (f : Str) : Prop where
  nonempty : f ≠ []
  noOp : ∀ c ∈ f, c ≠ '=' ∧ c ≠ '!' ∧ c ≠ '<' ∧ c ≠ '>'
  notVal : ∀ i : ℕ, f ≠ 'v' :: 'a' :: 'l' :: Nat.toDigits 10 i
  notBuiltins : f ≠ "__builtins__".toList
  notReserved : env.reserved f = false

/-- A condition on a plain field with one of the six operators. -/
def PlainCond (env : Env V) (c : Cond V) : Prop :=
  PlainField env c.field ∧ ∃ o, OpIs c.op o

end Cyclus.MemBack

/-! ## Histories -/

namespace Cyclus.MemBack

open Cyclus.Cycpp (Str)

variable {V : Type}

/-- What is done to the backend. -/
inductive Ev (V : Type) where
  | notify (data : List (Datum V))
  | setRegistry (r : RegVal)
  | query (t : ℕ) (conds : Option (List (Cond V)))

/-- The row a datum stands for. -/
def Datum.row (nan : V) (d : Datum V) : Str → V := fun f =>
  match d.vals.find? fun p => p.1 = f with
  | some p => p.2
  | none => nan

/-- The rows that data hold for a table. -/
def rowsOf (nan : V) (data : List (Datum V)) (t : ℕ) : List (Str → V) :=
  (data.filter fun d => d.title = t).map (Datum.row nan)

/-- The backend after some events, with all rows recorded so far.  The fallback may depend on
what was recorded. -/
def after (env : Env V) (fb : (ℕ → List (Str → V)) → Option (Fallback V)) :
    St V × (ℕ → List (Str → V)) → List (Ev V) → St V × (ℕ → List (Str → V))
  | x, [] => x
  | (s, rec'), .notify data :: es =>
    after env fb (notify env s data, fun t => rec' t ++ rowsOf env.nan data t) es
  | (s, rec'), .setRegistry r :: es => after env fb (setRegistry s r, rec') es
  | (s, rec'), .query t conds :: es => after env fb ((query env (fb rec') s t conds).1, rec') es

/-- The data of a table all have the same fields. -/
def Uniform (flds : ℕ → List Str) (es : List (Ev V)) : Prop :=
  ∀ e ∈ es, ∀ data, e = .notify data → ∀ d ∈ data,
    d.vals.map Prod.fst = flds d.title ∧ (flds d.title).Nodup

/-- The conditions of all queries are plain. -/
def PlainQueries (env : Env V) (es : List (Ev V)) : Prop :=
  ∀ e ∈ es, ∀ t cs, e = .query t (some cs) → ∀ c ∈ cs, PlainCond env c

/-- The tables a setting of the registry asks for. -/
def RegVal.wants : RegVal → ℕ → Prop
  | .all, _ => True
  | .off, _ => False
  | .only l, t => t ∈ l

/-- The state of an ideal backend: what is asked for and what is held. -/
structure Ideal (V : Type) where
  setting : RegVal
  held : ℕ → List (Str → V)

open Classical in
/-- The ideal backend holds the rows recorded since their table was last asked for. -/
noncomputable def Ideal.step (nan : V) (i : Ideal V) : Ev V → Ideal V
  | .notify data =>
    { i with held := fun t =>
        if i.setting.wants t then i.held t ++ rowsOf nan data t else i.held t }
  | .setRegistry r =>
    ⟨r, fun t => if i.setting.wants t ∧ r.wants t then i.held t else []⟩
  | .query _ _ => i

noncomputable def Ideal.after (nan : V) (i : Ideal V) (es : List (Ev V)) : Ideal V :=
  es.foldl (Ideal.step nan) i

/-- The registry is never restricted to some tables while all are stored and others are
held. -/
def NoRestriction (nan : V) : Ideal V → List (Ev V) → Prop
  | _, [] => True
  | i, e :: es =>
    (∀ l, e = .setRegistry (.only l) → i.setting = .all → ∀ t, t ∉ l → i.held t = []) ∧
    NoRestriction nan (i.step nan e) es

/-- The table of some rows, or `None` without rows. -/
def tableOf (flds : ℕ → List Str) (held : ℕ → List (Str → V)) (t : ℕ) : Option (Frame V) :=
  if held t = [] then none else some ⟨flds t, held t⟩

end Cyclus.MemBack
