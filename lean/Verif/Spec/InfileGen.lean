import Verif.Model.InfileGen
import Verif.Props.Infile

/-!
# What input files say about state variables

Vocabulary for C113: RELAX NG, the elements that describe a value, and the value that an element
describes.
-/

namespace Cyclus.InfileGen

open Infile (Node Tree)

/-! ## RELAX NG -/

/-- White space of XML. -/
def XmlSpace (c : Char) : Bool := c = ' ' || c = '\t' || c = '\n' || c = '\r'

/-- Nodes that RELAX NG ignores between elements: comments and white space. -/
def ignored : Node → Bool
  | .comment _ => true
  | .text s => s.all XmlSpace
  | .cdata s => s.all XmlSpace
  | .element _ _ => false

/-- The children that a pattern sees. -/
def seen (cs : List Node) : List Node := cs.filter fun c => !ignored c

/-- The text of children without elements. -/
def textOf : List Node → Option Str
  | [] => some []
  | .text s :: r => (textOf r).map (s ++ ·)
  | .cdata s :: r => (textOf r).map (s ++ ·)
  | .comment _ :: r => textOf r
  | .element _ _ :: _ => none

/-- `l` consists of the elements of `a` and `b`, each in their order. -/
inductive Shuffle : List Node → List Node → List Node → Prop
  | nil : Shuffle [] [] []
  | left {a b l : List Node} (x : Node) (h : Shuffle a b l) : Shuffle (x :: a) b (x :: l)
  | right {a b l : List Node} (x : Node) (h : Shuffle a b l) : Shuffle a (x :: b) (x :: l)

/-- The pattern is a `data` pattern. -/
def IsData : Pat → Prop
  | .data _ => True
  | _ => False

/-- The nodes match the pattern, where `D` says which texts a data type has. -/
inductive Matches (D : Str → Str → Prop) : Pat → List Node → Prop
  | leaf {n d s : Str} {cs : List Node} (ht : textOf cs = some s) (hd : D d s) :
      Matches D (.element n (.data d)) [.element n cs]
  | element {n : Str} {p : Pat} {cs : List Node} (hp : ¬ IsData p) (h : Matches D p (seen cs)) :
      Matches D (.element n p) [.element n cs]
  | one {p : Pat} {l : List Node} (h : Matches D p l) : Matches D (.oneOrMore p) l
  | more {p : Pat} {l m : List Node} (h : Matches D p l) (hm : Matches D (.oneOrMore p) m) :
      Matches D (.oneOrMore p) (l ++ m)
  | nil : Matches D (.interleave []) []
  | cons {p : Pat} {ps : List Pat} {a b l : List Node} (ha : Matches D p a)
      (hb : Matches D (.interleave ps) b) (hl : Shuffle a b l) : Matches D (.interleave (p :: ps)) l
  | absent {p : Pat} : Matches D (.optional p) []
  | present {p : Pat} {l : List Node} (h : Matches D p l) : Matches D (.optional p) l
  | text {l : List Node} (h : ∀ c ∈ l, ¬ c.isElement) : Matches D .text l

/-- What the syntax of RELAX NG asks for, besides the nesting: an `interleave` has content. -/
inductive Proper : Pat → Prop
  | element {n : Str} {p : Pat} (h : Proper p) : Proper (.element n p)
  | data (d : Str) : Proper (.data d)
  | oneOrMore {p : Pat} (h : Proper p) : Proper (.oneOrMore p)
  | interleave {ps : List Pat} (hne : ps ≠ []) (h : ∀ p ∈ ps, Proper p) : Proper (.interleave ps)
  | optional {p : Pat} (h : Proper p) : Proper (.optional p)
  | text : Proper .text

/-! ## Elements for a value -/

/-- The names are those of a type. -/
def Fit : Ty → Names → Prop
  | .prim _, .prim _ => True
  | .seq _ e, .seq _ ne => Fit e ne
  | .pair a b, .pair _ na nb => Fit a na ∧ Fit b nb
  | .map k v, .map _ _ nk nv => Fit k nk ∧ Fit v nv
  | _, _ => False

/-- The names of the parts of a pair, and of an item of a map, differ, and all names are names. -/
def Proper' : Names → Prop
  | .prim n => isName n = true
  | .seq n e => isName n = true ∧ Proper' e
  | .pair n a b => isName n = true ∧ Proper' a ∧ Proper' b ∧ a.root ≠ b.root
  | .map n i k v => isName n = true ∧ isName i = true ∧ Proper' k ∧ Proper' v ∧ k.root ≠ v.root

/-- The node has the form for a value of the type: a primitive value is an element with a leaf; a
container is an element with an element for each value, at least one; a pair is an element with two
elements, in any order; a map has items that are like pairs. -/
def Form (leaf : Prim → Ann → Ann → List Node → Prop) :
    Ty → Names → Ann → Ann → Node → Prop
  | .prim p, nm, sch, ui, x => ∃ cs, x = .element nm.root cs ∧ leaf p sch ui cs
  | .seq _ e, .seq n ne, sch, ui, x =>
    ∃ cs, x = .element n cs ∧ seen cs ≠ [] ∧
      ∀ c ∈ seen cs, Form leaf e ne (sch.part 1) (ui.part 1) c
  | .pair a b, .pair n na nb, sch, ui, x =>
    ∃ cs, x = .element n cs ∧ ∃ y z, (seen cs = [y, z] ∨ seen cs = [z, y]) ∧
      Form leaf a na (sch.part 1) (ui.part 1) y ∧ Form leaf b nb (sch.part 2) (ui.part 2) z
  | .map k v, .map n item nk nv, sch, ui, x =>
    ∃ cs, x = .element n cs ∧ seen cs ≠ [] ∧
      ∀ c ∈ seen cs, ∃ ds, c = .element item ds ∧ ∃ y z, (seen ds = [y, z] ∨ seen ds = [z, y]) ∧
        Form leaf k nk (sch.part 1) (ui.part 1) y ∧ Form leaf v nv (sch.part 2) (ui.part 2) z
  | _, _, _, _, _ => False

/-- The types of XML Schema for the types of C++. -/
def schemaType (p : Prim) : Str :=
  (([(.bool, "boolean"), (.string, "string"), (.int, "int"), (.float, "float"), (.double, "double"), (.blob, "string"),
    (.uuid, "token")] : List (Prim × String)).lookup p).elim [] String.toList

/-- The type of XML Schema that describes a primitive value: the one the developer gives, as
`schematype` or `uitype`, or that of the C++ type. -/
def DataType (N : TypeNames) (p : Prim) (sch ui : Ann) (d : Str) : Prop :=
  let given := if sch.truth then sch else ui
  (given = .none ∧ d = schemaType p) ∨
  (∃ g, given = .str g ∧
    ((N.all g = true ∧ d = g) ∨ (N.all g = false ∧ N.dflt g = some (some d)) ∨
      (N.all g = false ∧ N.dflt g = some none ∧ d = schemaType p)))

/-- The leaves that the data types allow. -/
def Allowed (N : TypeNames) (D : Str → Str → Prop) (p : Prim) (sch ui : Ann) (cs : List Node) : Prop :=
  ∃ d s, DataType N p sch ui d ∧ textOf cs = some s ∧ D d s

/-! ## Values -/

/-- The children that are elements. -/
def elements (cs : List Node) : List Node := cs.filter Node.isElement

/-- The text, in an element for a value of the primitive type, means the value.  With the user interface
type `nuclide` it is a nuclide in any spelling. -/
def Means (L : Lib) (p : Prim) (ui : Ann) (s : Str) (v : Val) : Prop :=
  (ui = .str sNuclide ∧ ∃ z, L.nuc s = .ok z ∧ p = .int ∧ v = .int z) ∨
  (ui ≠ .str sNuclide ∧
    match p with
    | .string => v = .str s
    | .int => ∃ z, Infile.Numeral z s ∧ -2 ^ 31 ≤ z ∧ z < 2 ^ 31 ∧ v = .int z
    | .float => ∃ q, L.dbl (Infile.trim s) = some q ∧ v = .dbl q
    | .double => ∃ q, L.dbl (Infile.trim s) = some q ∧ v = .dbl q
    | .bool => ∃ b, lexicalBool s = some b ∧ v = .bool b
    | .blob => ∃ b, L.blob s = some b ∧ v = .blob b
    | .uuid => ∃ u, L.uuid s = some u ∧ v = .uuid u)

/-- The element describes the value. -/
def Says (L : Lib) : Ty → Names → Ann → Node → Val → Prop
  | .prim p, nm, ui, x, v => ∃ s, x = .element nm.root [.text s] ∧ Means L p ui s v
  | .seq _ e, .seq n ne, ui, x, v =>
    ∃ cs vs, x = .element n cs ∧ (elements cs).length < 2 ^ 31 ∧
      List.Forall₂ (Says L e ne (ui.part 1)) (elements cs) vs ∧ v = .seq vs
  | .pair a b, .pair n na nb, ui, x, v =>
    ∃ cs y z va vb, x = .element n cs ∧ (elements cs = [y, z] ∨ elements cs = [z, y]) ∧
      Says L a na (ui.part 1) y va ∧ Says L b nb (ui.part 2) z vb ∧ v = .pair va vb
  | .map k w, .map n item nk nw, ui, x, v =>
    ∃ cs vs, x = .element n cs ∧ (elements cs).length < 2 ^ 31 ∧
      List.Forall₂ (fun c (kw : Val × Val) => ∃ ds y z, c = .element item ds ∧
        (elements ds = [y, z] ∨ elements ds = [z, y]) ∧
        Says L k nk (ui.part 1) y kw.1 ∧ Says L w nw (ui.part 2) z kw.2) (elements cs) vs ∧
      v = .map vs
  | _, _, _, _, _ => False

/-- Leaves have one text, not empty, without comments and CDATA sections; the numbers of elements are in
the range of `int`. -/
inductive Plain : Node → Prop
  | leaf (n : Str) {s : Str} (h : s ≠ []) : Plain (.element n [.text s])
  | inner (n : Str) {cs : List Node} (hne : elements cs ≠ []) (hfew : (elements cs).length < 2 ^ 31)
      (h : ∀ c ∈ elements cs, Plain c) : Plain (.element n cs)

/-- Every text that the data types of a variable allow, unless empty, means a value. -/
def Converts (L : Lib) (N : TypeNames) (D : Str → Str → Prop) : Ty → Ann → Ann → Prop
  | .prim p, sch, ui => ∀ d s, DataType N p sch ui d → D d s → s ≠ [] → ∃ v, Means L p ui s v
  | .seq _ e, sch, ui => Converts L N D e (sch.part 1) (ui.part 1)
  | .pair a b, sch, ui =>
    Converts L N D a (sch.part 1) (ui.part 1) ∧ Converts L N D b (sch.part 2) (ui.part 2)
  | .map k v, sch, ui =>
    Converts L N D k (sch.part 1) (ui.part 1) ∧ Converts L N D v (sch.part 2) (ui.part 2)

/-- The nodes that are elements with the name. -/
def named (n : Str) (l : List Node) : List Node := l.filter fun c =>
  match c with
  | .element m _ => m = n
  | _ => false

/-- The children of the element of an agent: each variable that is not internal has one element, with its
name and of its form; one with a default may have none; there are no others. -/
def ClassForm (N : TypeNames) (D : Str → Str → Prop) (vs : List Var) (l : List Node) : Prop :=
  (∀ c ∈ l, ∃ v ∈ vs, v.internal = false ∧ ∃ ds, c = .element v.names.root ds) ∧
  ∀ v ∈ vs, v.internal = false →
    (∃ x, named v.names.root l = [x] ∧ Form (Allowed N D) v.ty v.names v.schema v.ui x) ∨
    (v.dflt ≠ none ∧ named v.names.root l = [])

/-- The value that a default stands for.  The texts are free of characters that mean something in a
string literal of C++. -/
def Stands (L : Lib) : Ty → Ann → PyVal → Val → Prop
  | .prim p, ui, d, v =>
    (p = .int ∧ ui = .str sNuclide ∧
      ((∃ s z, d = .str s ∧ (∀ c ∈ s, c ≠ '"' ∧ c ≠ '\\' ∧ c ≠ '\n') ∧ L.nuc s = .ok z ∧ v = .int z) ∨
        (∃ y z, d = .int y ∧ L.nucInt y = .ok z ∧ v = .int z))) ∨
    (¬ (p = .int ∧ ui = .str sNuclide) ∧
      match p with
      | .bool => ∃ b, d = .bool b ∧ v = .bool b
      | .int => ∃ z, d = .int z ∧ -2 ^ 31 ≤ z ∧ z < 2 ^ 31 ∧ v = .int z
      | .float => ∃ q, (d = .float q ∨ ∃ z : ℤ, d = .int z ∧ q = z ∧ -2 ^ 31 ≤ z ∧ z < 2 ^ 31) ∧ v = .dbl q
      | .double => ∃ q, (d = .float q ∨ ∃ z : ℤ, d = .int z ∧ q = z ∧ -2 ^ 31 ≤ z ∧ z < 2 ^ 31) ∧ v = .dbl q
      | .string => ∃ s, d = .str s ∧ (∀ c ∈ s, c ≠ '"' ∧ c ≠ '\\' ∧ c ≠ '\n') ∧ v = .str s
      | .blob => ∃ s, d = .str s ∧ (∀ c ∈ s, c ≠ '"' ∧ c ≠ '\\' ∧ c ≠ '\n') ∧ v = .blob s
      | .uuid => False)
  | .seq _ e, ui, d, v =>
    ∃ l vs, d = .list l ∧ l.length < 2 ^ 31 ∧ List.Forall₂ (Stands L e (ui.part 1)) l vs ∧ v = .seq vs
  | .pair a b, ui, d, v =>
    ∃ x y va vb, d = .list [x, y] ∧ Stands L a (ui.part 1) x va ∧ Stands L b (ui.part 2) y vb ∧
      v = .pair va vb
  | .map k w, ui, d, v =>
    ∃ l vs, d = .dict l ∧
      List.Forall₂ (fun (x y : _ × _) => Stands L k (ui.part 1) x.1 y.1 ∧ Stands L w (ui.part 2) x.2 y.2)
        l vs ∧ v = .map vs

/-! ## Types that the generated code can handle -/

/-- The type of a part is a pair. -/
def Ty.isPair : Ty → Bool
  | .pair _ _ => true
  | _ => false

/-- The type of an element is a map. -/
def Ty.isMap : Ty → Bool
  | .map _ _ => true
  | _ => false

/-- No container but a map has maps as elements, and no pair has a pair as a part unless the outer one is an
element of a container (`z`: it is not). -/
def Readable : Bool → Ty → Prop
  | _, .prim _ => True
  | _, .seq _ e => e.isMap = false ∧ Readable false e
  | z, .pair a b => (z = true → a.isPair = false ∧ b.isPair = false) ∧ Readable true a ∧ Readable true b
  | _, .map k v => Readable false k ∧ Readable false v

/-- The kinds of types: vectors, sets and lists are one. -/
def Ty.kind : Ty → ℕ
  | .prim _ => 0
  | .seq _ _ => 1
  | .pair _ _ => 2
  | .map _ _ => 3

/-- No default of a container, pair or map is directly inside one of the same kind. -/
def Unnested : Ty → Prop
  | .prim _ => True
  | .seq _ e => e.kind ≠ 1 ∧ Unnested e
  | .pair a b => a.kind ≠ 2 ∧ b.kind ≠ 2 ∧ Unnested a ∧ Unnested b
  | .map k v => k.kind ≠ 3 ∧ v.kind ≠ 3 ∧ Unnested k ∧ Unnested v

/-- The value of a variable, given the children of the element of the agent: what the element with its name
says, or else its default.  Elements for internal variables do not count. -/
def Gets (L : Lib) (cs : List Node) (v : Var) (val : Val) : Prop :=
  (v.internal = false ∧ ∃ x, named v.names.root cs = [x] ∧ Says L v.ty v.names v.ui x val) ∨
  ((v.internal = true ∨ named v.names.root cs = []) ∧ ∃ d, v.dflt = some d ∧ Stands L v.ty v.ui d val)

/-- The names that the function uses itself, in the scopes where it assigns to the variables. -/
def own : List Str :=
  [sTree, sDi, sSub, sI, sN, sBub, ['n', '1'], ['f', 'i', 'r', 's', 't', '0'], ['s', 'e', 'c', 'o', 'n', 'd', '0']]

/-- The variables of a class that the generated code can handle: their names are different, not those the
function uses itself, and not those of the defaults of internal variables; the names of elements are names,
fitting the type; the types can be read, and those with a default also be written. -/
structure Sound (vs : List Var) : Prop where
  distinct : vs.Pairwise fun v w => v.name ≠ w.name
  free : ∀ v ∈ vs, v.name ∉ own
  temp : ∀ v ∈ vs, v.internal = true → ∀ w ∈ vs, w.name ≠ v.name ++ sTmp
  fit : ∀ v ∈ vs, Fit v.ty v.names
  proper : ∀ v ∈ vs, Proper' v.names
  readable : ∀ v ∈ vs, Readable true v.ty
  unnested : ∀ v ∈ vs, v.dflt ≠ none → Unnested v.ty
  /-- what lines 1584-1589 ask for -/
  given : ∀ v ∈ vs, v.internal = true → v.dflt ≠ none

end Cyclus.InfileGen
