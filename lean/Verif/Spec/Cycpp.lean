import Verif.Model.Cycpp

/-! Vocabulary for the properties of the preprocessor helpers. -/

namespace Cyclus.Cycpp

/-- A name that can be read back: not empty and without brackets, commas and blanks. -/
def Clean (s : Str) : Prop :=
  s ≠ [] ∧ ∀ c ∈ s, c ≠ '<' ∧ c ≠ '>' ∧ c ≠ ',' ∧ c ≠ ' '

/-- Types built from leaf names accepted by `leaf` and templates with at least one argument;
no template in it satisfies `bad`. -/
inductive Built (leaf : Str → Prop) (bad : Ty → Prop) : Ty → Prop
  | str (s : Str) : leaf s → Built leaf bad (.str s)
  | tup (n : Str) (args : List Ty) : Clean n → args ≠ [] → ¬ bad (.tup n args) →
      (∀ a ∈ args, Built leaf bad a) → Built leaf bad (.tup n args)

mutual
/-- The number of positions of a type: one for the type itself and those of its
arguments. -/
def positions : Ty → Nat
  | .str _ => 1
  | .tup _ args => 1 + positionsL args
def positionsL : List Ty → Nat
  | [] => 0
  | a :: r => positions a + positionsL r
end

/-- Opening minus closing braces. -/
def depth (op cl : Char) (s : Str) : Int := s.count op - s.count cl

/-- The list joined with a separator. -/
def join (sep : Char) : List Str → Str
  | [] => []
  | [p] => p
  | p :: q :: r => p ++ sep :: join sep (q :: r)

/-- `P` is `s` cut at the separators outside all braces: the pieces joined give `s`, every
piece but the last is balanced, and no separator left inside a piece has a balanced text
before it in the piece. -/
structure IsCut (op cl sep : Char) (s : Str) (P : List Str) : Prop where
  ne : P ≠ []
  join : join sep P = s
  balanced : ∀ p ∈ P.dropLast, depth op cl p = 0
  inside : ∀ p ∈ P, ∀ a b, p = a ++ sep :: b → depth op cl a ≠ 0

/-- `p` is a parent of `c`. -/
def IsParent (d : PDict) (p c : Nat) : Prop := ∃ l, d c = some l ∧ p ∈ l

end Cyclus.Cycpp
