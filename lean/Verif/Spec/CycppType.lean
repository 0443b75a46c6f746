import Verif.Model.CycppType

/-!
# Types of state variables
-/

namespace Cyclus.CycppType

open Cycpp (Ty)
open CycppScan (isSpace isWord within)

/-- All leaves are supported, and all templates have names with the property. -/
inductive Canonical (heads : Str → Prop) : Ty → Prop
  | leaf (s : Str) : s ∈ supported → Canonical heads (.str s)
  | tmpl (n : Str) (args : List Ty) : heads n → (∀ a ∈ args, Canonical heads a) → Canonical heads (.tup n args)

/-- The name is that of a template of the preprocessor. -/
def Template (n : Str) : Prop := n ∈ templates

/-- All templates have arguments. -/
inductive Filled : Ty → Prop
  | leaf (s : Str) : Filled (.str s)
  | tmpl (n : Str) (args : List Ty) : args ≠ [] → (∀ a ∈ args, Filled a) → Filled (.tup n args)

mutual

/-- The text of a type in C++, without white space. -/
def text : Ty → Str
  | .str s => s
  | .tup n args => n ++ '<' :: texts args ++ ['>']

/-- The texts with commas between them. -/
def texts : List Ty → Str
  | [] => []
  | [a] => text a
  | a :: b :: r => text a ++ ',' :: texts (b :: r)

end

mutual

/-- How deep templates are nested. -/
def depth : Ty → ℕ
  | .str _ => 0
  | .tup _ args => 1 + depths args

def depths : List Ty → ℕ
  | [] => 0
  | a :: l => max (depth a) (depths l)

end

/-- The text without its white space. -/
def solid (s : Str) : Str := s.filter (fun c => !isSpace c)

/-- A name of one or more identifiers with colons between. -/
def Plain (s : Str) : Prop :=
  s ≠ [] ∧ (∀ c ∈ s, isWord c = true ∨ c = ':') ∧ s.head? ≠ some ':' ∧ s.getLast? ≠ some ':'

/-- One identifier. -/
def Ident (s : Str) : Prop := s ≠ [] ∧ ∀ c ∈ s, isWord c = true

/-- All names in the type are plain. -/
inductive PlainTy : Ty → Prop
  | leaf (s : Str) : Plain s → PlainTy (.str s)
  | tmpl (n : Str) (args : List Ty) : Plain n → (∀ a ∈ args, PlainTy a) → PlainTy (.tup n args)

end Cyclus.CycppType
