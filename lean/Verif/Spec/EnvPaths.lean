import Verif.Model.EnvPaths

/-!
# What the environment should say
-/

namespace Cyclus.EnvPaths

/-- A name in a directory. -/
def Name (t : Txt) : Prop := t ≠ [] ∧ '/' ∉ t

/-- A directory, written without a slash at its end. -/
def Dir (t : Txt) : Prop := t ≠ [] ∧ t.getLast? ≠ some '/'

/-- Items written with a character between them. -/
def join (delim : Char) : List Txt → Txt
  | [] => []
  | [x] => x
  | x :: y :: r => x ++ delim :: join delim (y :: r)

/-- The values that switch something off, in any case. -/
def Off (v : Txt) : Prop := v.map Char.toLower = [] ∨ v.map Char.toLower = ['f'] ∨ v.map Char.toLower = ['f', 'a', 'l', 's', 'e'] ∨ v.map Char.toLower = ['0']

/-- The name of a schema. -/
def schemaName (flat : Bool) : Txt := if flat then "cyclus-flat.rng.in".toList else "cyclus.rng.in".toList

end Cyclus.EnvPaths
