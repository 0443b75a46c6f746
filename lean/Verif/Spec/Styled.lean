import Verif.Model.JsonText

/-!
# Indented JSON

How a value looks in indented JSON, for C131.  It is written without the functions of the model; `sc` gives the text of a
value that is no array and no object, and `nm` that of a name.
-/

namespace Cyclus.Styled.Spec

open JsonText (Text V)

/-- Texts with commas between them. -/
def commas : List Text → Text
  | [] => []
  | [t] => t
  | t :: u :: l => t ++ ',' :: ' ' :: commas (u :: l)

/-- A value on one line: one with nothing in it. -/
def flat (sc : V → Text) : V → Text
  | .arr _ => ['[', ']']
  | .obj _ => ['{', '}']
  | v => sc v

/-- An array on one line. -/
def line (sc : V → Text) (l : List V) : Text := '[' :: ' ' :: commas (l.map (flat sc)) ++ [' ', ']']

/-- A value has nothing in it. -/
def Plain : V → Prop
  | .arr l => l = []
  | .obj ms => ms = []
  | _ => True

/-- An array is on one line if none of its items has anything in it, there are fewer than 25, and the line has fewer
than 74 characters. -/
def OneLine (sc : V → Text) (l : List V) : Prop :=
  (∀ x ∈ l, Plain x) ∧ l.length < 25 ∧ (line sc l).length < 74

open Classical in
mutual

/-- A value in lines that start with `ind`, from the second. -/
noncomputable def layout (sc : V → Text) (nm : Text → Text) : Text → V → Text
  | ind, .arr l =>
    if l.isEmpty then ['[', ']']
    else if OneLine sc l then line sc l
    else '[' :: layoutItems sc nm (ind ++ [' ', ' ', ' ']) l ++ '\n' :: ind ++ [']']
  | ind, .obj ms =>
    if ms.isEmpty then ['{', '}']
    else '{' :: layoutMembers sc nm (ind ++ [' ', ' ', ' ']) ms ++ '\n' :: ind ++ ['}']
  | _, .null => sc .null
  | _, .int z => sc (.int z)
  | _, .uint n => sc (.uint n)
  | _, .real x => sc (.real x)
  | _, .str s => sc (.str s)
  | _, .bool b => sc (.bool b)

/-- The items, each on lines of its own. -/
noncomputable def layoutItems (sc : V → Text) (nm : Text → Text) : Text → List V → Text
  | _, [] => []
  | ind, [x] => '\n' :: ind ++ layout sc nm ind x
  | ind, x :: y :: l => '\n' :: ind ++ layout sc nm ind x ++ ',' :: layoutItems sc nm ind (y :: l)

/-- The members, each on lines of its own. -/
noncomputable def layoutMembers (sc : V → Text) (nm : Text → Text) : Text → List (Text × V) → Text
  | _, [] => []
  | ind, [(k, x)] => '\n' :: ind ++ nm k ++ ' ' :: ':' :: ' ' :: layout sc nm ind x
  | ind, (k, x) :: y :: l =>
    '\n' :: ind ++ nm k ++ ' ' :: ':' :: ' ' :: layout sc nm ind x ++ ',' :: layoutMembers sc nm ind (y :: l)

end

end Cyclus.Styled.Spec
