import Verif.Model.PyInfile
import Verif.Spec.InfileGen

/-!
# What agents written in Python should get from the input file

Vocabulary for C119; what elements say is as in C113.
-/

namespace Cyclus.PyInfile

open Infile (Node)
open InfileGen

/-- The types that the readers of Python can handle: primitive types other than blobs and UUIDs, containers
and maps of these, and pairs of all these, nested as wanted.  Only integers are nuclides. -/
def PyReadable : Ty → Ann → Prop
  | .prim p, ui => p ≠ .blob ∧ p ≠ .uuid ∧ (ui = .str sNuclide → p = .int)
  | .seq _ e, ui => (∃ p, e = .prim p) ∧ PyReadable e (ui.part 1)
  | .pair a b, ui => PyReadable a (ui.part 1) ∧ PyReadable b (ui.part 2)
  | .map k v, ui =>
    (∃ p, k = .prim p) ∧ (∃ p, v = .prim p) ∧ PyReadable k (ui.part 1) ∧ PyReadable v (ui.part 2)

/-- The value of Python denotes the value of C++: numbers, texts without null characters, and lists, pairs and
dictionaries of these. -/
def Denotes : Ty → PyVal → Val → Prop
  | .prim p, d, v =>
    match p with
    | .bool => ∃ b, d = .bool b ∧ v = .bool b
    | .int => ∃ z, d = .int z ∧ -2 ^ 31 ≤ z ∧ z < 2 ^ 31 ∧ v = .int z
    | .float => ∃ q, (d = .float q ∨ ∃ z : ℤ, d = .int z ∧ q = z) ∧ v = .dbl q
    | .double => ∃ q, (d = .float q ∨ ∃ z : ℤ, d = .int z ∧ q = z) ∧ v = .dbl q
    | .string => ∃ s, d = .str s ∧ Char.ofNat 0 ∉ s ∧ v = .str s
    | .blob => False
    | .uuid => False
  | .seq _ e, d, v => ∃ l vs, d = .list l ∧ List.Forall₂ (Denotes e) l vs ∧ v = .seq vs
  | .pair a b, d, v =>
    ∃ x y va vb, d = .list [x, y] ∧ Denotes a x va ∧ Denotes b y vb ∧ v = .pair va vb
  | .map k w, d, v =>
    ∃ l vs, d = .dict l ∧
      List.Forall₂ (fun (x y : _ × _) => Denotes k x.1 y.1 ∧ Denotes w x.2 y.2) l vs ∧ v = .map vs

/-- The value of a variable, given the children of the element of the agent: what the element with its name
says, or else what its default denotes.  Elements for internal variables do not count. -/
def PyGets (L : Lib) (cs : List Node) (v : Var) (val : Val) : Prop :=
  (v.internal = false ∧ ∃ x, named v.names.root cs = [x] ∧ Says L v.ty v.names v.ui x val) ∨
  ((v.internal = true ∨ named v.names.root cs = []) ∧ ∃ d, v.dflt = some d ∧ Denotes v.ty d val)

/-- The variables of a class that Python can handle: the names of elements are names, fitting the type, and
the types can be read, unless the variable is internal. -/
structure PySound (vs : List Var) : Prop where
  fit : ∀ v ∈ vs, v.internal = false → Fit v.ty v.names
  proper : ∀ v ∈ vs, v.internal = false → Proper' v.names
  readable : ∀ v ∈ vs, v.internal = false → PyReadable v.ty v.ui

/-- No part of the value is a container or a map. -/
inductive Hashes : Val → Prop
  | bool (b : Bool) : Hashes (.bool b)
  | int (z : ℤ) : Hashes (.int z)
  | dbl (q : ℚ) : Hashes (.dbl q)
  | str (s : Str) : Hashes (.str s)
  | blob (s : Str) : Hashes (.blob s)
  | uuid (s : Str) : Hashes (.uuid s)
  | tree (t : Infile.Tree) : Hashes (.tree t)
  | pair {a b : Val} : Hashes a → Hashes b → Hashes (.pair a b)

end Cyclus.PyInfile
