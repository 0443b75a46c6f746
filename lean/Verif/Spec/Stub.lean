import Mathlib.Data.List.Basic

/-!
# Specification of specifications of archetypes and of the files of a project
-/

namespace Cyclus.Stub.Spec

/-- A specification with its colons. -/
def joined (path lib arch : List Char) : List Char := path ++ ':' :: (lib ++ ':' :: arch)

/-- Parts of a specification: without colons, and the first and last are not surrounded by white space. -/
structure Parts (path lib arch : List Char) : Prop where
  noPath : ':' ∉ path
  noLib : ':' ∉ lib
  noArch : ':' ∉ arch
  left : ∀ c, path.head? = some c → c.isWhitespace = false
  right : ∀ c, arch.getLast? = some c → c.isWhitespace = false

end Cyclus.Stub.Spec
