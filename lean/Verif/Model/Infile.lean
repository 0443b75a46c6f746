import Verif.Model.SimInfo

/-!
# Model of queries of the input file

Models `/repo/src/infile_tree.cc:22-146`, the templates of `/repo/src/infile_tree.h:76-176` and
`ReadRecipe` (`/repo/src/xml_file_loader.cc:130-158`).

* The document is the tree that libxml++ holds after parsing: elements, text, CDATA sections and
  comments.  Attributes, processing instructions and namespaces are dropped.
* XPath queries are those that Cyclus uses: steps to children, by name or `*`, from the current node or
  (a leading `/`) from the document.
* Text is a list of characters.
* `float` is treated like `double`, and both are read by an arbitrary function `dbl` of the trimmed text
  (`none`: `boost::bad_lexical_cast`).
* The wrappers of nodes that `SubTree` allocates are owned by their parent and are not modelled.
-/

namespace Cyclus.Infile

/-- A node of the document. -/
inductive Node where
  | element (name : List Char) (children : List Node)
  | text (s : List Char)
  | cdata (s : List Char)
  | comment (s : List Char)

/-- `get_children`. -/
def Node.children : Node → List Node
  | .element _ cs => cs
  | _ => []

/-- A step of a query. -/
inductive Step where
  | named (name : List Char)
  | any
  deriving DecidableEq

/-- The step selects the child. -/
def Step.selects : Step → Node → Bool
  | .named n, .element m _ => n = m
  | .any, .element _ _ => true
  | _, _ => false

/-- A query; `absolute` is a leading `/`.  No steps is `.`. -/
structure Query where
  absolute : Bool
  steps : List Step
  deriving DecidableEq

/-- The query for children with a name. -/
def Query.child (name : List Char) : Query := ⟨false, [.named name]⟩

/-- The nodes reached from a node, in document order. -/
def descend : List Step → Node → List Node
  | [], n => [n]
  | s :: ss, n => (n.children.filter s.selects).flatMap (descend ss)

/-- `InfileTree`: the root of the document and the current node (`infile_tree.h:73`). -/
structure Tree where
  root : Node
  cur : Node

/-- `InfileTree::InfileTree(XMLParser&)` (`infile_tree.cc:22-24`). -/
def Tree.new (root : Node) : Tree := ⟨root, root⟩

/-- `current_node_->find(query)`.  The document is a node whose only child is the root. -/
def Tree.find (t : Tree) (q : Query) : List Node :=
  descend q.steps (if q.absolute then .element [] [t.root] else t.cur)

/-- Errors of this module: those of Cyclus, `boost::bad_lexical_cast` and `std::out_of_range`. -/
inductive Fail where
  | err (e : Err)
  | lexical
  | range
  deriving DecidableEq

/-- `dynamic_cast<const Element*>`. -/
def Node.isElement : Node → Bool
  | .element _ _ => true
  | _ => false

/-- `NElements` (`infile_tree.cc:42-54`). -/
def Tree.nElements (t : Tree) : ℕ := (t.cur.children.filter Node.isElement).length

/-- `NMatches` (`infile_tree.cc:57-59`). -/
def Tree.nMatches (t : Tree) (q : Query) : ℕ := (t.find q).length

/-- `size() < index + 1`, where the right side is converted to a 64 bit unsigned number
(`infile_tree.cc:71`, `109`, `122`). -/
def tooFew (size : ℕ) (index : ℤ) : Bool := size < ((index + 1) % 2 ^ 64).toNat

/-- `at(index)` of a vector. -/
def at' (ns : List Node) (index : ℤ) : Except Fail Node :=
  if index < 0 then .error .range
  else match ns[index.toNat]? with
    | none => .error .range
    | some n => .ok n

/-- `GetString` from line 76 on: the text of a node (`infile_tree.cc:76-97`). -/
def content : Node → Except Fail (List Char)
  | .element _ [.text s] => .ok s
  | .element _ [_] => .error (.err .cast)
  | .element _ _ => .error (.err .value)
  | _ => .error (.err .cast)

/-- The check of an index and the access with it (`infile_tree.cc:71-77`, `109-114`, `122-131`). -/
def pick {α : Type} (ns : List Node) (index : ℤ) (f : Node → Except Fail α) : Except Fail α :=
  if tooFew ns.length index then .error (.err .value)
  else match at' ns index with
    | .error e => .error e
    | .ok n => f n

/-- `GetString` (`infile_tree.cc:62-97`). -/
def Tree.getString (t : Tree) (q : Query) (index : ℤ) : Except Fail (List Char) :=
  if (t.find q).isEmpty then .error (.err .key) else pick (t.find q) index content

/-- `get_name` of an element. -/
def elementName : Node → Except Fail (List Char)
  | .element n _ => .ok n
  | _ => .error (.err .cast)

/-- `GetElementName` (`infile_tree.cc:100-115`). -/
def Tree.getElementName (t : Tree) (index : ℤ) : Except Fail (List Char) :=
  pick (t.cur.children.filter Node.isElement) index elementName

/-- The end of `GetEngineFromQuery` (`infile_tree.cc:126-133`). -/
def asTree (root : Node) : Node → Except Fail Tree
  | .element n cs => .ok ⟨root, .element n cs⟩
  | _ => .error (.err .cast)

/-- `SubTree` and `GetEngineFromQuery` (`infile_tree.cc:118-143`). -/
def Tree.subTree (t : Tree) (q : Query) (index : ℤ) : Except Fail Tree :=
  pick (t.find q) index (asTree t.root)

/-- `boost::trim` with the white space of the "C" locale. -/
def trim (s : List Char) : List Char :=
  ((s.dropWhile Info.isSpace).reverse.dropWhile Info.isSpace).reverse

/-- Reads a text that consists of digits. -/
def digits : List Char → ℕ → Option ℕ
  | [], acc => some acc
  | c :: cs, acc =>
    match Info.digit c with
    | none => none
    | some d => digits cs (10 * acc + d)

/-- One or more digits. -/
def unsigned (s : List Char) : Option ℕ := if s.isEmpty then none else digits s 0

/-- An optional sign and digits. -/
def signed : List Char → Option ℤ
  | '-' :: cs => (unsigned cs).map fun n : ℕ => -(n : ℤ)
  | '+' :: cs => (unsigned cs).map fun n : ℕ => (n : ℤ)
  | cs => (unsigned cs).map fun n : ℕ => (n : ℤ)

/-- `boost::lexical_cast<int>`: an optional sign and decimal digits, in the range of `int`. -/
def lexicalInt (s : List Char) : Option ℤ :=
  (signed s).bind fun z => if -2 ^ 31 ≤ z ∧ z < 2 ^ 31 then some z else none

/-- The result of `lexical_cast`. -/
def lexical {α : Type} : Option α → Except Fail α
  | none => .error .lexical
  | some a => .ok a

/-- `Query<int>` (`infile_tree.h:92-97`). -/
def queryInt (t : Tree) (q : Query) (index : ℤ) : Except Fail ℤ :=
  match t.getString q index with
  | .error e => .error e
  | .ok s => lexical (lexicalInt (trim s))

/-- `Query<double>` and `Query<float>` (`infile_tree.h:99-111`). -/
def queryDouble (dbl : List Char → Option ℚ) (t : Tree) (q : Query) (index : ℤ) : Except Fail ℚ :=
  match t.getString q index with
  | .error e => .error e
  | .ok s => lexical (dbl (trim s))

/-- `OptionalQuery<int>` (`infile_tree.h:127-137`). -/
def optionalInt (t : Tree) (q : Query) (dflt : ℤ) : Except Fail ℤ :=
  if t.nMatches q = 1 then
    match t.getString q 0 with
    | .error e => .error e
    | .ok s => lexical (lexicalInt (trim s))
  else .ok dflt

/-- `OptionalQuery<double>` and `OptionalQuery<float>` (`infile_tree.h:152-174`). -/
def optionalDouble (dbl : List Char → Option ℚ) (t : Tree) (q : Query) (dflt : ℚ) : Except Fail ℚ :=
  if t.nMatches q = 1 then
    match t.getString q 0 with
    | .error e => .error e
    | .ok s => lexical (dbl (trim s))
  else .ok dflt

/-- `OptionalQuery<std::string>` (`infile_tree.h:118-125`): the conversion of a text to
`std::string` changes nothing. -/
def optionalString (t : Tree) (q : Query) (dflt : List Char) : Except Fail (List Char) :=
  if t.nMatches q = 1 then t.getString q 0 else .ok dflt

/-- `::tolower` of the "C" locale. -/
def lower (c : Char) : Char := if 'A' ≤ c ∧ c ≤ 'Z' then Char.ofNat (c.toNat + 32) else c

/-- `OptionalQuery<bool>` (`infile_tree.h:139-150`). -/
def optionalBool (t : Tree) (q : Query) (dflt : Bool) : Except Fail Bool :=
  if t.nMatches q = 0 then .ok dflt
  else
    match t.getString q 0 with
    | .error e => .error e
    | .ok s =>
      let w := (trim s).map lower
      .ok (w = ['t', 'r', 'u', 'e'] ∨ w = ['t'] ∨ w = ['1'])

/-! ## Recipes -/

/-- `v[key] = value` of a map, kept as a list with one entry for each key. -/
def put (m : List (ℤ × ℚ)) (k : ℤ) (v : ℚ) : List (ℤ × ℚ) := (k, v) :: m.filter (·.1 ≠ k)

/-- One turn of the loop of `ReadRecipe` (`xml_file_loader.cc:145-150`).  `nuc` is
`pyne::nucname::id`, `num` is `strtod`. -/
def nuclide (nuc : List Char → Except Fail ℤ) (num : List Char → ℚ) (t : Tree) (v : List (ℤ × ℚ))
    (i : ℕ) : Except Fail (List (ℤ × ℚ)) :=
  match t.subTree (.child ['n', 'u', 'c', 'l', 'i', 'd', 'e']) i with
  | .error e => .error e
  | .ok n =>
    match n.getString (.child ['i', 'd']) 0 with
    | .error e => .error e
    | .ok id =>
      match nuc id with
      | .error e => .error e
      | .ok key =>
        match n.getString (.child ['c', 'o', 'm', 'p']) 0 with
        | .error e => .error e
        | .ok c => .ok (put v key (num c))

/-- `ReadRecipe` (`xml_file_loader.cc:130-158`): whether the basis is atoms, and the map given to
`CreateFromAtom` or `CreateFromMass`. -/
def readRecipe (nuc : List Char → Except Fail ℤ) (num : List Char → ℚ) (t : Tree) :
    Except Fail (Bool × List (ℤ × ℚ)) :=
  match t.getString (.child ['b', 'a', 's', 'i', 's']) 0 with
  | .error e => .error e
  | .ok b =>
    if b = ['a', 't', 'o', 'm'] ∨ b = ['m', 'a', 's', 's'] then
      match (List.range (t.nMatches (.child ['n', 'u', 'c', 'l', 'i', 'd', 'e']))).foldlM
          (nuclide nuc num t) [] with
      | .error e => .error e
      | .ok v => .ok (b = ['a', 't', 'o', 'm'], v)
    else .error (.err .io)

end Cyclus.Infile
