import Verif.Model.Infile
import Verif.Model.Cycpp

/-!
# Model of the code that the preprocessor generates to read the input file, and of the schema

Models `VarDeclarationFilter._canonize_ann` and `canonize_alias` (`/repo/cli/cycpp.py:542-586`),
`InfileToDbFilter` (1152-1640) and `SchemaFilter` (1642-1824), together with what the generated C++
means.

* Types are those that the readers of lines 1163-1174 know.  Buffers are skipped by both filters
  (1578, 1802) and are left out.
* The generated C++ is a list of statements.  Its meaning follows the scopes of C++: a block opens a
  scope, a declaration shadows outer variables, a name means the innermost variable.  `rejected` stands
  for what no compiler accepts, and for what is not modelled.
* Indices, numbers of turns and indentation are not part of the statements.
* Own code of the developer (`read`, `write`, `schema`, `derived_init`), the calls of the parents'
  `InfileToDb` (1557-1560) and the shapes (1561, 998-1012) are left out.
* `float` is treated like `double`.  A `std::set` is kept as the list of the values inserted and a
  `std::map` as the list of the assignments made, the last one to a key being the valid one.
-/

namespace Cyclus.InfileGen

open Infile (Node Tree Query)

abbrev Str := List Char

/-- The primitive types with a reader (`cli/cycpp.py:1163-1169`). -/
inductive Prim where
  | bool | int | float | double | string | blob | uuid
  deriving DecidableEq

/-- The containers read in a loop (`cli/cycpp.py:1170-1172`). -/
inductive Seq where
  | vector | set | list
  deriving DecidableEq

/-- Canonical types (`cli/cycpp.py:1163-1174`). -/
inductive Ty where
  | prim (p : Prim)
  | seq (k : Seq) (e : Ty)
  | pair (a b : Ty)
  | map (k v : Ty)
  deriving DecidableEq

/-- The value of an annotation: `None`, a string or a list. -/
inductive Ann where
  | none
  | str (s : Str)
  | list (l : List Ann)

/-- `len(t)`. -/
def Ty.len : Ty → ℕ
  | .prim _ => 0
  | .seq _ _ => 2
  | .pair _ _ => 3
  | .map _ _ => 3

/-- Element `i` of `prepare_type(t, a)` (`cli/cycpp.py:138-151`): a string becomes the first element,
what is missing is `None`. -/
def Ann.part : Ann → ℕ → Ann
  | .none, _ => .none
  | .str s, i => if i = 0 then .str s else .none
  | .list l, i => l.getD i .none

/-! ## Names of elements -/

/-- `a or b` for a string `b`. -/
def Ann.orStr (a : Ann) (b : Str) : Ann :=
  match a with
  | .none => .str b
  | .str [] => .str b
  | .str s => .str s
  | .list [] => .str b
  | .list l => .list l

/-- `'val'`, and the other default names (`cli/cycpp.py:574-580`). -/
def sVal : Str := ['v', 'a', 'l']
def sKey : Str := ['k', 'e', 'y']
def sItem : Str := ['i', 't', 'e', 'm']
def sFirst : Str := ['f', 'i', 'r', 's', 't']
def sSecond : Str := ['s', 'e', 'c', 'o', 'n', 'd']

/-- The expanded `ann` (`cli/cycpp.py:549-555`), as its elements. -/
def expand (n : ℕ) : Ann → List Ann
  | .none => List.replicate n .none
  | .str s => .str s :: List.replicate (n - 1) .none
  | .list l => l ++ List.replicate (n - l.length) .none

/-- `_canonize_ann` with the default aliases (`cli/cycpp.py:542-572`).  Only a map has a list as the
first element of its template, `(None, 'item')`. -/
def canonize : Ty → Str → Ann → Ann
  | .prim _, name, ann => ann.orStr name
  | .seq _ e, name, ann =>
    let l := expand 2 ann
    .list [(l.getD 0 .none).orStr name, canonize e sVal (l.getD 1 .none)]
  | .pair a b, name, ann =>
    let l := expand 3 ann
    .list [(l.getD 0 .none).orStr name, canonize a sFirst (l.getD 1 .none),
      canonize b sSecond (l.getD 2 .none)]
  | .map k v, name, ann =>
    let l := expand 3 ann
    let l0 := expand 2 (l.getD 0 .none)
    .list [.list [(l0.getD 0 .none).orStr name, (l0.getD 1 .none).orStr sItem],
      canonize k sKey (l.getD 1 .none), canonize v sVal (l.getD 2 .none)]

/-- A canonical alias: a name wherever the type has an element.  Lines 510-511 make the alias of every
variable canonical, so that the branches of the readers for `None` (1393-1395, 1428-1430,
1460-1462, 1492-1495, 1515-1522) are not taken. -/
inductive Names where
  | prim (n : Str)
  | seq (n : Str) (e : Names)
  | pair (n : Str) (a b : Names)
  | map (n item : Str) (k v : Names)

/-- The structure that Python holds. -/
def Names.toAnn : Names → Ann
  | .prim n => .str n
  | .seq n e => .list [.str n, e.toAnn]
  | .pair n a b => .list [.str n, a.toAnn, b.toAnn]
  | .map n i k v => .list [.list [.str n, .str i], k.toAnn, v.toAnn]

/-- The first string (`cli/cycpp.py:1598-1600`). -/
def Names.root : Names → Str
  | .prim n => n
  | .seq n _ => n
  | .pair n _ _ => n
  | .map n _ _ _ => n

/-- `'val'` as `'{0}'.format` writes `alias[1]` or `alias[1][0]` (`cli/cycpp.py:1396-1399`, 1410-1411): for a
map the latter is a list, of which `format` writes the representation. -/
def Names.head : Names → Str
  | .prim n => n
  | .seq n _ => n
  | .pair n _ _ => n
  | .map n i _ _ => ['[', '\''] ++ n ++ ['\'', ',', ' ', '\''] ++ i ++ ['\'', ']']

/-! ## The generated C++ -/

/-- Types of variables: a value, `InfileTree*` or `DbInit`. -/
inductive CTy where
  | val (t : Ty)
  | tree
  | dbInit
  deriving DecidableEq

/-- Values of variables. -/
inductive Val where
  | bool (b : Bool)
  | int (z : ℤ)
  | dbl (q : ℚ)
  | str (s : Str)
  | blob (s : Str)
  | uuid (u : Str)
  | seq (l : List Val)
  | pair (a b : Val)
  | map (l : List (Val × Val))
  | tree (t : Tree)

/-- The index given to a query: none, `0` or a variable. -/
inductive Idx where
  | dflt
  | zero
  | var (x : Str)

/-- `idx or '0'` as text. -/
def Idx.text : Idx → Str
  | .dflt => ['0']
  | .zero => ['0']
  | .var x => x

/-- Expressions. -/
inductive Expr where
  | var (x : Str)
  | bool (b : Bool)
  | int (z : ℤ)
  | dbl (q : ℚ)
  /-- `std::string("raw")` -/
  | str (raw : Str)
  /-- `cyclus::Blob("raw")` -/
  | blob (raw : Str)
  /-- `pyne::nucname::id("raw")` -/
  | nucStr (raw : Str)
  /-- `pyne::nucname::id(z)` -/
  | nucInt (z : ℤ)
  /-- `cyclus::Query<p>(tree, "path", idx)` -/
  | query (p : Prim) (tree path : Str) (idx : Idx)
  /-- `pyne::nucname::id(cyclus::Query<std::string>(tree, "path", idx))` -/
  | nucQuery (tree path : Str) (idx : Idx)
  /-- `tree->SubTree("path", idx)` -/
  | subTree (tree path : Str) (idx : Idx)
  /-- `tree->NMatches("path")` -/
  | nMatches (tree path : Str)
  /-- the arguments of the constructor of a pair -/
  | mkPair (x y : Str)

/-- Statements. -/
inductive Stmt where
  /-- `T x;` or `T x = e;` -/
  | decl (t : CTy) (x : Str) (e : Option Expr)
  /-- `x = e;` -/
  | assign (x : Str) (e : Expr)
  /-- `x.resize(e);` -/
  | resize (x : Str) (e : Expr)
  /-- `x[e] = y;` of a vector -/
  | setAt (x : Str) (e : Expr) (y : Str)
  /-- `x.insert(y);` -/
  | insert (x y : Str)
  /-- `x.push_back(y);` -/
  | pushBack (x y : Str)
  /-- `x[k] = y;` of a map -/
  | setKey (x k y : Str)
  /-- `x.first = y;` -/
  | setFirst (x y : Str)
  /-- `x.second = y;` -/
  | setSecond (x y : Str)
  | block (ss : List Stmt)
  /-- `for (int i = 0; i < n; ++i) { ss }` -/
  | loop (i n : Str) (ss : List Stmt)
  /-- `if (tree->NMatches("path") > 0) { a } else { b }` -/
  | ifMatch (tree path : Str) (a b : List Stmt)
  /-- text that is not modelled or no C++ -/
  | other

/-- Names of variables in the generated code. -/
def sSub : Str := ['s', 'u', 'b']
def sBub : Str := ['b', 'u', 'b']
def sTree : Str := ['t', 'r', 'e', 'e']
def sDi : Str := ['d', 'i']
def sElem : Str := ['e', 'l', 'e', 'm']
def sN : Str := ['n']
def sI : Str := ['i']
def sIn : Str := ['_', 'i', 'n']
def sTmp : Str := ['_', 't', 'm', 'p']
def sUVal : Str := ['_', 'v', 'a', 'l']

/-- The decimal digits of a number. -/
def decimal (n : ℕ) : Str := Nat.toDigits 10 n

/-- `'n{lev}'`. -/
def nName (lev : ℕ) : Str := 'n' :: decimal lev

/-- `'i{lev}'`. -/
def iName (lev : ℕ) : Str := 'i' :: decimal lev

def int' : CTy := .val (.prim .int)

/-- `'nuclide'`. -/
def sNuclide : Str := ['n', 'u', 'c', 'l', 'i', 'd', 'e']

/-- `uitype == 'nuclide'`. -/
def Ann.isNuclide : Ann → Bool
  | .str s => s = sNuclide
  | _ => false

/-- `_query` (`cli/cycpp.py:1349-1364`), on the variable `sub`. -/
def queryOf (p : Prim) (ui : Ann) (path : Str) (idx : Idx) : Expr :=
  if ui.isNuclide then .nucQuery sSub path idx else .query p sSub path idx

/-- `read_member` around a reader (`cli/cycpp.py:1366-1381`). -/
def readMember (m : Str) (t : Ty) (reader : Str → List Stmt) : List Stmt :=
  [.decl (.val t) m none, .block (reader (m ++ sIn) ++ [.assign m (.var (m ++ sIn))])]

/-- The line that stores an element (`cli/cycpp.py:1419-1420`, 1452, 1484). -/
def store (k : Seq) (m i : Str) : Stmt :=
  match k with
  | .vector => .setAt m (.var i) sElem
  | .set => .insert m sElem
  | .list => .pushBack m sElem

/-- The line that makes room (`cli/cycpp.py:1413`, in `read_vector` only). -/
def room (k : Seq) (m n : Str) : List Stmt :=
  match k with
  | .vector => [.resize m (.var n)]
  | _ => []

/-- The readers `read_primitive` to `read_map` (`cli/cycpp.py:1383-1547`).  `m` is the variable that gets
the value, `lev` is `_idx_lev`.  Names that do not fit the type read nothing. -/
def reader : Ty → Names → Ann → Str → Idx → Str → ℕ → List Stmt
  | .prim p, .prim n, ui, m, idx, path, _ =>
    [.decl (.val (.prim p)) m (some (queryOf p ui (path ++ n) idx))]
  | .seq k e, .seq n ne, ui, m, idx, path, lev =>
    [.decl .tree sBub (some (.subTree sSub (path ++ n) idx)),
      .decl .tree sSub (some (.var sBub)),
      .decl int' (nName (lev + 1)) (some (.nMatches sSub ne.head)),
      .decl (.val (.seq k e)) m none] ++
    room k m (nName (lev + 1)) ++
    [.loop (iName (lev + 1)) (nName (lev + 1))
      (readMember sElem e (fun m' => reader e ne (ui.part 1) m' (.var (iName (lev + 1))) [] (lev + 1)) ++
        [store k m (iName (lev + 1))])]
  | .pair a b, .pair n na nb, ui, m, idx, path, lev =>
    [.decl .tree sBub (some (.subTree sSub (path ++ n) idx)),
      .decl .tree sSub (some (.var sBub))] ++
    readMember (sFirst ++ idx.text) a (fun m' => reader a na (ui.part 1) m' .zero [] lev) ++
    readMember (sSecond ++ idx.text) b (fun m' => reader b nb (ui.part 2) m' .zero [] lev) ++
    [.decl (.val (.pair a b)) m (some (.mkPair (sFirst ++ idx.text) (sSecond ++ idx.text)))]
  | .map k v, .map n item nk nv, ui, m, idx, path, lev =>
    [.decl .tree sBub (some (.subTree sSub (path ++ n) idx)),
      .decl .tree sSub (some (.var sBub)),
      .decl int' (nName (lev + 1)) (some (.nMatches sSub item)),
      .decl (.val (.map k v)) m none,
      .loop (iName (lev + 1)) (nName (lev + 1))
        (readMember sKey k (fun m' =>
            reader k nk (ui.part 1) m' (.var (iName (lev + 1))) (item ++ ['/']) (lev + 1)) ++
          readMember sVal v (fun m' =>
            reader v nv (ui.part 2) m' (.var (iName (lev + 1))) (item ++ ['/']) (lev + 1)) ++
          [.setKey m sKey sVal])]
  | _, _, _, _, _, _, _ => []

/-! ## Defaults -/

/-- A Python value given as a default. -/
inductive PyVal where
  | none
  | bool (b : Bool)
  | int (z : ℤ)
  | float (q : ℚ)
  | str (s : Str)
  | list (l : List PyVal)
  | dict (l : List (PyVal × PyVal))

/-- `if val`. -/
def PyVal.truth : PyVal → Bool
  | .none => false
  | .bool b => b
  | .int z => z ≠ 0
  | .float q => q ≠ 0
  | .str s => !s.isEmpty
  | .list l => !l.isEmpty
  | .dict l => !l.isEmpty

/-- The elements of a list; the default for `None` is empty (`cli/cycpp.py:1250`, 1271, 1291). -/
def PyVal.elems : PyVal → Option (List PyVal)
  | .none => some []
  | .list l => some l
  | _ => Option.none

/-- A default nuclide (`cli/cycpp.py:1221-1224`). -/
def nucExpr : PyVal → Option Expr
  | .none => some (.nucInt 0)
  | .int z => some (.nucInt z)
  | .str s => some (.nucStr s)
  | _ => Option.none

/-- A default integer (`cli/cycpp.py:1226`). -/
def intExpr : PyVal → Option Expr
  | .none => some (.int 0)
  | .int z => some (.int z)
  | .float q => some (.dbl q)
  | _ => Option.none

/-- `x` of a primitive type as an expression (`cli/cycpp.py:1217-1248`).  What Python would write as other
text, and a UUID (see `Cycpp.uuidLiteral`), are not modelled. -/
def primExpr : Prim → Ann → PyVal → Option Expr
  | .bool, _, v => some (.bool v.truth)
  | .int, ui, v => if ui.isNuclide then nucExpr v else intExpr v
  | .float, _, v | .double, _, v =>
    match v with
    | .none => some (.dbl 0)
    | .int z => some (.int z)
    | .float q => some (.dbl q)
    | _ => Option.none
  | .string, _, v =>
    match v with
    | .none => some (.str [])
    | .str s => some (.str s)
    | _ => Option.none
  | .blob, _, v =>
    match v with
    | .none => some (.blob [])
    | .str s => some (.blob s)
    | _ => Option.none
  | .uuid, _, _ => Option.none

/-- The type that `_val` declares: `float` becomes `double` (`cli/cycpp.py:1229-1230`). -/
def declTy : Prim → Prim
  | .float => .double
  | p => p

/-- The line that stores an element of a default (`cli/cycpp.py:1263`, 1283, 1303). -/
def storeVal (k : Seq) (name : Str) (i : ℕ) : Stmt :=
  match k with
  | .vector => .setAt name (.int i) sElem
  | .set => .insert name sElem
  | .list => .pushBack name sElem

/-- Line 1255, for a vector only. -/
def roomVal (k : Seq) (name : Str) (n : ℕ) : List Stmt :=
  match k with
  | .vector => [.resize name (.int n)]
  | _ => []

/-- `_val` (`cli/cycpp.py:1205-1347`): declares `name` with the value. -/
def valCode : Ty → Ann → PyVal → Str → List Stmt
  | .prim p, ui, v, name =>
    match primExpr p ui v with
    | some e => [.decl (.val (.prim (declTy p))) name (some e)]
    | none => [.other]
  | .seq k e, ui, v, name =>
    match v.elems with
    | some l =>
      [.decl (.val (.seq k e)) name none] ++ roomVal k name l.length ++
        [.block (l.zipIdx.map fun x =>
          .block (valCode e (ui.part 1) x.1 sElem ++ [storeVal k name x.2]))]
    | none => [.other]
  | .pair a b, ui, v, name =>
    match v with
    | .list (x :: y :: _) =>
      [.decl (.val (.pair a b)) name none,
        .block (valCode a (ui.part 1) x sFirst ++ valCode b (ui.part 2) y sSecond ++
          [.setFirst name sFirst, .setSecond name sSecond])]
    | .none =>
      [.decl (.val (.pair a b)) name none,
        .block (valCode a (ui.part 1) .none sFirst ++ valCode b (ui.part 2) .none sSecond ++
          [.setFirst name sFirst, .setSecond name sSecond])]
    | _ => [.other]
  | .map k w, ui, v, name =>
    match v with
    | .dict l =>
      [.decl (.val (.map k w)) name none,
        .block (l.map fun x =>
          .block (valCode k (ui.part 1) x.1 sKey ++ valCode w (ui.part 2) x.2 sVal ++
            [.setKey name sKey sVal]))]
    | _ => [.other]

/-! ## The function -/

/-- The annotations of a state variable that the two filters read (`cli/cycpp.py:1575-1600`,
1782-1806).  A default that is `None` counts as none. -/
structure Var where
  name : Str
  ty : Ty
  names : Names
  ui : Ann
  schema : Ann
  dflt : Option PyVal
  internal : Bool

/-- Errors of the preprocessor: `RuntimeError`, `TypeError`. -/
inductive GenErr where
  | runtime
  | type
  deriving DecidableEq

/-- The code for a default: the value in a variable of its own, and the assignment
(`cli/cycpp.py:1585-1587`, 1615-1617). -/
def dfltCode (v : Var) (d : PyVal) : List Stmt :=
  valCode v.ty v.ui d (v.name ++ sTmp) ++ [.assign v.name (.var (v.name ++ sTmp))]

/-- The code that reads a variable (`cli/cycpp.py:1604-1608`). -/
def readCode (v : Var) : Stmt :=
  .block (reader v.ty v.names v.ui (v.name ++ sUVal) .dflt [] 0 ++
    [.assign v.name (.var (v.name ++ sUVal))])

/-- One turn of the loop (`cli/cycpp.py:1575-1619`). -/
def varCode (v : Var) : Except GenErr (List Stmt) :=
  if v.internal then
    match v.dflt with
    | some d => .ok (dfltCode v d)
    | none => .error .runtime
  else
    match v.dflt with
    | some d => .ok [.ifMatch sSub v.names.root [readCode v] (dfltCode v d)]
    | none => .ok [readCode v]

/-- The loop over the variables (`cli/cycpp.py:1567-1623`). -/
def varsCode : List Var → Except GenErr (List Stmt)
  | [] => .ok []
  | v :: vs =>
    match varCode v with
    | .error e => .error e
    | .ok c =>
      match varsCode vs with
      | .error e => .error e
      | .ok cs => .ok (c ++ cs)

/-- `"config/*"`. -/
def sConfig : Str := ['c', 'o', 'n', 'f', 'i', 'g', '/', '*']

/-- `impl` up to the record (`cli/cycpp.py:1564-1623`). -/
def infileToDb (vs : List Var) : Except GenErr (List Stmt) :=
  match varsCode vs with
  | .error e => .error e
  | .ok cs =>
    .ok ([.decl .tree sSub (some (.subTree sTree sConfig .dflt)), .decl int' sI none,
      .decl int' sN none] ++ cs)

/-! ## What the C++ means -/

/-- Exceptions of the generated code. -/
inductive Fault where
  /-- of the tree, or `boost::bad_lexical_cast` -/
  | infile (f : Infile.Fail)
  /-- `xmlpp::exception`, for text that is no XPath expression -/
  | xpath
  deriving DecidableEq

/-- The outcome of a run. -/
inductive Res (α : Type) where
  | ok (a : α)
  | throws (f : Fault)
  | rejected

/-- Sequence. -/
def Res.bind {α β : Type} (r : Res α) (f : α → Res β) : Res β :=
  match r with
  | .ok a => f a
  | .throws e => .throws e
  | .rejected => .rejected

/-- What an accepting compiler requires. -/
def Res.ofOption {α : Type} : Option α → Res α
  | some a => .ok a
  | none => .rejected

/-- A call that may throw. -/
def Res.ofExcept {α : Type} : Except Infile.Fail α → Res α
  | .ok a => .ok a
  | .error e => .throws (.infile e)

/-- Functions of the libraries: `lexical_cast` to `double`, `Blob` and `uuid`, and
`pyne::nucname::id` of a text and of a number. -/
structure Lib where
  dbl : Str → Option ℚ
  blob : Str → Option Str
  uuid : Str → Option Str
  nuc : Str → Except Infile.Fail ℤ
  nucInt : ℤ → Except Infile.Fail ℤ

/-- `boost::lexical_cast<bool>`: a sign and zeros are skipped, then `0` or `1` is the last character; a
minus is not taken before `1`. -/
def lexicalBool (s : Str) : Option Bool :=
  match s.getLast? with
  | none => none
  | some c =>
    if c = '0' ∨ c = '1' then
      let body := match s.dropLast with
        | '+' :: r => r
        | '-' :: r => if c = '0' then r else '-' :: r
        | r => r
      if body.all (· = '0') then some (c = '1') else none
    else none

/-- `Query<p>` (`infile_tree.h:83-112`).  The template of lines 83-86 serves `bool`, `Blob` and `uuid`:
nothing is trimmed. -/
def Lib.query (L : Lib) (p : Prim) (t : Tree) (q : Query) (i : ℤ) : Except Infile.Fail Val :=
  match p with
  | .string => (t.getString q i).map .str
  | .int => (Infile.queryInt t q i).map .int
  | .float => (Infile.queryDouble L.dbl t q i).map .dbl
  | .double => (Infile.queryDouble L.dbl t q i).map .dbl
  | .bool => (t.getString q i).bind fun s => (Infile.lexical (lexicalBool s)).map .bool
  | .blob => (t.getString q i).bind fun s => (Infile.lexical (L.blob s)).map .blob
  | .uuid => (t.getString q i).bind fun s => (Infile.lexical (L.uuid s)).map .uuid

/-- Characters of names of elements. -/
def isNameChar (c : Char) : Bool := c.isAlphanum || c = '_' || c = '-' || c = '.'

/-- Names of elements: ASCII, not beginning with a digit, a hyphen or a dot. -/
def isName : Str → Bool
  | [] => false
  | c :: cs => (c.isAlpha || c = '_') && cs.all isNameChar

/-- A step of a query text. -/
def stepOf (s : Str) : Option Infile.Step :=
  if s = ['*'] then some .any else if isName s then some (.named s) else none

/-- The steps of a query text. -/
def stepsOf : List Str → Option (List Infile.Step)
  | [] => some []
  | s :: ss =>
    match stepOf s with
    | none => none
    | some a =>
      match stepsOf ss with
      | none => none
      | some as => some (a :: as)

/-- A query text as XPath: names separated by `/`.  A text that begins with `[` is no XPath expression,
for which `find` throws; other texts are not modelled. -/
def parsePath (s : Str) : Res Query :=
  match s with
  | '[' :: _ => .throws .xpath
  | _ =>
    match stepsOf (Cycpp.pySplit '/' s) with
    | some ss => .ok ⟨false, ss⟩
    | none => .rejected

/-- A variable: its type and its value, if it has one. -/
structure Bind where
  ty : CTy
  val : Option Val

abbrev Scope := List (Str × Bind)

/-- Scopes, innermost first. -/
abbrev Env := List Scope

/-- The variable that a name means. -/
def lookup (x : Str) : Env → Option Bind
  | [] => none
  | s :: ρ =>
    match s.lookup x with
    | some b => some b
    | none => lookup x ρ

/-- Puts a value into a variable of a scope. -/
def Scope.set (x : Str) (v : Val) : Scope → Scope
  | [] => []
  | p :: s => if p.1 = x then (x, ⟨p.2.ty, some v⟩) :: s else p :: Scope.set x v s

/-- Puts a value into the variable that a name means. -/
def update (x : Str) (v : Val) : Env → Option Env
  | [] => none
  | s :: ρ =>
    match s.lookup x with
    | some _ => some (s.set x v :: ρ)
    | none =>
      match update x v ρ with
      | some ρ' => some (s :: ρ')
      | none => none

/-- The value of a variable with a value. -/
def valueOf (x : Str) (ρ : Env) : Option (CTy × Val) :=
  match lookup x ρ with
  | some ⟨t, some v⟩ => some (t, v)
  | _ => none

/-- Rounding towards zero. -/
def trunc (q : ℚ) : ℤ := if 0 ≤ q then ⌊q⌋ else ⌈q⌉

/-- The implicit conversions between arithmetic types.  A `double` beyond the range of `int` is undefined. -/
def convert : Prim → Val → Option Val
  | .bool, .bool b => some (.bool b)
  | .bool, .int z => some (.bool (z ≠ 0))
  | .bool, .dbl q => some (.bool (q ≠ 0))
  | .int, .bool b => some (.int (if b then 1 else 0))
  | .int, .int z => some (.int z)
  | .int, .dbl q => if -2 ^ 31 ≤ trunc q ∧ trunc q < 2 ^ 31 then some (.int (trunc q)) else none
  | .float, .bool b => some (.dbl (if b then 1 else 0))
  | .float, .int z => some (.dbl z)
  | .float, .dbl q => some (.dbl q)
  | .double, .bool b => some (.dbl (if b then 1 else 0))
  | .double, .int z => some (.dbl z)
  | .double, .dbl q => some (.dbl q)
  | _, _ => none

/-- A value of a type where another type is wanted. -/
def coerce (want have' : CTy) (v : Val) : Option Val :=
  if want = have' then some v
  else
    match want, have' with
    | .val (.prim p), .val (.prim _) => convert p v
    | _, _ => none

/-- A string literal with the text between the quotes: the simple escapes of C++.  A quote or the end of
the line ends the literal; other escapes are not modelled. -/
def cLit : Str → Option Str
  | [] => some []
  | '"' :: _ => none
  | '\n' :: _ => none
  | '\\' :: c :: cs =>
    let r (d : Char) : Option Str := (cLit cs).map (d :: ·)
    if c = 'n' then r '\n'
    else if c = 't' then r '\t'
    else if c = 'r' then r '\r'
    else if c = '\\' then r '\\'
    else if c = '"' then r '"'
    else if c = '\'' then r '\''
    else none
  | '\\' :: [] => none
  | c :: cs => (cLit cs).map (c :: ·)

/-- The index of a query. -/
def Idx.eval (ρ : Env) : Idx → Option ℤ
  | .dflt => some 0
  | .zero => some 0
  | .var x =>
    match valueOf x ρ with
    | some (_, .int z) => some z
    | _ => none

/-- A variable of type `InfileTree*`. -/
def treeOf (x : Str) (ρ : Env) : Option Tree :=
  match valueOf x ρ with
  | some (.tree, .tree t) => some t
  | _ => none

/-- An `int` literal; larger numbers are not modelled. -/
def intLit (z : ℤ) : Res (CTy × Val) :=
  if -2 ^ 31 ≤ z ∧ z < 2 ^ 31 then .ok (int', .int z) else .rejected

/-- The type and the value of an expression. -/
def eval (L : Lib) (ρ : Env) : Expr → Res (CTy × Val)
  | .var x => .ofOption (valueOf x ρ)
  | .bool b => .ok (.val (.prim .bool), .bool b)
  | .int z => intLit z
  | .dbl q => .ok (.val (.prim .double), .dbl q)
  | .str raw => (Res.ofOption (cLit raw)).bind fun s => .ok (.val (.prim .string), .str s)
  | .blob raw => (Res.ofOption (cLit raw)).bind fun s => .ok (.val (.prim .blob), .blob s)
  | .nucStr raw =>
    (Res.ofOption (cLit raw)).bind fun s => (Res.ofExcept (L.nuc s)).bind fun z => .ok (int', .int z)
  | .nucInt z => (Res.ofExcept (L.nucInt z)).bind fun z => .ok (int', .int z)
  | .query p tree path idx =>
    (Res.ofOption (treeOf tree ρ)).bind fun t =>
      (Res.ofOption (idx.eval ρ)).bind fun i =>
        (parsePath path).bind fun q =>
          (Res.ofExcept (L.query p t q i)).bind fun v => .ok (.val (.prim p), v)
  | .nucQuery tree path idx =>
    (Res.ofOption (treeOf tree ρ)).bind fun t =>
      (Res.ofOption (idx.eval ρ)).bind fun i =>
        (parsePath path).bind fun q =>
          (Res.ofExcept (t.getString q i)).bind fun s =>
            (Res.ofExcept (L.nuc s)).bind fun z => .ok (int', .int z)
  | .subTree tree path idx =>
    (Res.ofOption (treeOf tree ρ)).bind fun t =>
      (Res.ofOption (idx.eval ρ)).bind fun i =>
        (parsePath path).bind fun q =>
          (Res.ofExcept (t.subTree q i)).bind fun t' => .ok (.tree, .tree t')
  | .nMatches tree path =>
    (Res.ofOption (treeOf tree ρ)).bind fun t =>
      (parsePath path).bind fun q => .ok (int', .int (t.nMatches q))
  | .mkPair x y =>
    match valueOf x ρ, valueOf y ρ with
    | some (.val a, v), some (.val b, w) => .ok (.val (.pair a b), .pair v w)
    | _, _ => .rejected

/-- The value of a new element of a container, or of the parts of a new pair. -/
def Ty.zero : Ty → Val
  | .prim .bool => .bool false
  | .prim .int => .int 0
  | .prim .float => .dbl 0
  | .prim .double => .dbl 0
  | .prim .string => .str []
  | .prim .blob => .blob []
  | .prim .uuid => .uuid []
  | .seq _ _ => .seq []
  | .pair a b => .pair a.zero b.zero
  | .map _ _ => .map []

/-- The value of a variable that is declared without one; primitive variables have none. -/
def initial : CTy → Option Val
  | .val (.prim _) => none
  | .val t => some t.zero
  | _ => none

/-- Declares a variable in the innermost scope, where its name must be new. -/
def declare (x : Str) (b : Bind) : Env → Option Env
  | [] => none
  | s :: ρ =>
    match s.lookup x with
    | some _ => none
    | none => some (((x, b) :: s) :: ρ)

/-- Changes the value of a variable. -/
def modify (x : Str) (f : CTy → Val → Option Val) (ρ : Env) : Res Env :=
  match valueOf x ρ with
  | some (t, v) =>
    match f t v with
    | some w => .ofOption (update x w ρ)
    | none => .rejected
  | none => .rejected

/-- `v.resize(n)`. -/
def resizeTo (e : Ty) (n : ℕ) (l : List Val) : List Val :=
  l.take n ++ List.replicate (n - l.length) e.zero

/-- The turns of a loop: `n` of them, from `i` on. -/
def turns (f : ℕ → Env → Res Env) : ℕ → ℕ → Env → Res Env
  | 0, _, ρ => .ok ρ
  | n + 1, i, ρ => (f i ρ).bind (turns f n (i + 1))

/-- Leaves a scope. -/
def leave (r : Res Env) : Res Env := r.bind fun ρ => .ok ρ.tail

/-- Statements that change one variable with the value of another. -/
def withVar (x y : Str) (f : CTy → Val → CTy → Val → Option Val) (ρ : Env) : Res Env :=
  match valueOf y ρ with
  | some (t, v) => modify x (fun tx vx => f tx vx t v) ρ
  | none => .rejected

mutual

/-- Runs a statement. -/
def exec (L : Lib) : Stmt → Env → Res Env
  | .decl t x none, ρ => .ofOption (declare x ⟨t, initial t⟩ ρ)
  | .decl t x (some e), ρ =>
    (eval L ρ e).bind fun tv =>
      (Res.ofOption (coerce t tv.1 tv.2)).bind fun v => .ofOption (declare x ⟨t, some v⟩ ρ)
  | .assign x e, ρ =>
    (eval L ρ e).bind fun tv =>
      match lookup x ρ with
      | some b =>
        (Res.ofOption (coerce b.ty tv.1 tv.2)).bind fun v => .ofOption (update x v ρ)
      | none => .rejected
  | .resize x e, ρ =>
    (eval L ρ e).bind fun tv =>
      modify x (fun t v =>
        match t, v, tv.2 with
        | .val (.seq .vector e), .seq l, .int n => some (.seq (resizeTo e n.toNat l))
        | _, _, _ => none) ρ
  | .setAt x e y, ρ =>
    (eval L ρ e).bind fun tv =>
      withVar x y (fun tx vx ty vy =>
        match tx, vx, tv.2 with
        | .val (.seq .vector t), .seq l, .int i =>
          if i.toNat < l.length then (coerce (.val t) ty vy).map fun v => .seq (l.set i.toNat v) else none
        | _, _, _ => none) ρ
  | .insert x y, ρ =>
    withVar x y (fun tx vx ty vy =>
      match tx, vx with
      | .val (.seq .set t), .seq l => (coerce (.val t) ty vy).map fun v => .seq (l ++ [v])
      | _, _ => none) ρ
  | .pushBack x y, ρ =>
    withVar x y (fun tx vx ty vy =>
      match tx, vx with
      | .val (.seq .list t), .seq l => (coerce (.val t) ty vy).map fun v => .seq (l ++ [v])
      | _, _ => none) ρ
  | .setKey x k y, ρ =>
    match valueOf k ρ with
    | some (tk, vk) =>
      withVar x y (fun tx vx ty vy =>
        match tx, vx with
        | .val (.map a b), .map l =>
          (coerce (.val a) tk vk).bind fun key =>
            (coerce (.val b) ty vy).map fun v => .map (l ++ [(key, v)])
        | _, _ => none) ρ
    | none => .rejected
  | .setFirst x y, ρ =>
    withVar x y (fun tx vx ty vy =>
      match tx, vx with
      | .val (.pair a _), .pair _ w => (coerce (.val a) ty vy).map fun v => .pair v w
      | _, _ => none) ρ
  | .setSecond x y, ρ =>
    withVar x y (fun tx vx ty vy =>
      match tx, vx with
      | .val (.pair _ b), .pair u _ => (coerce (.val b) ty vy).map fun v => .pair u v
      | _, _ => none) ρ
  | .block ss, ρ => leave (execs L ss ([] :: ρ))
  | .loop i n ss, ρ =>
    match valueOf n ρ with
    | some (_, .int z) =>
      turns (fun k ρ => leave (leave (execs L ss ([] :: [(i, ⟨int', some (.int k)⟩)] :: ρ)))) z.toNat 0 ρ
    | _ => .rejected
  | .ifMatch tree path a b, ρ =>
    (eval L ρ (.nMatches tree path)).bind fun tv =>
      match tv.2 with
      | .int z => if 0 < z then leave (execs L a ([] :: ρ)) else leave (execs L b ([] :: ρ))
      | _ => .rejected
  | .other, _ => .rejected

/-- Runs statements one after the other. -/
def execs (L : Lib) : List Stmt → Env → Res Env
  | [], ρ => .ok ρ
  | s :: ss, ρ => (exec L s ρ).bind (execs L ss)

end

/-- The members of the object, before the call. -/
def members (vs : List Var) : Scope := vs.map fun v => (v.name, ⟨.val v.ty, initial (.val v.ty)⟩)

/-- The parameters (`cli/cycpp.py:1198-1199`). -/
def params (t : Tree) : Scope := [(sTree, ⟨.tree, some (.tree t)⟩), (sDi, ⟨.dbInit, none⟩)]

/-- The scopes when the body starts: the parameters, around them the members. -/
def start (vs : List Var) (t : Tree) : Env := [params t, members vs]

/-- `->AddVal("x", x)` for all variables (`cli/cycpp.py:1625-1639`). -/
def record : List Var → Env → Res (List (Str × CTy × Val))
  | [], _ => .ok []
  | v :: vs, ρ =>
    (Res.ofOption (valueOf v.name ρ)).bind fun b => (record vs ρ).bind fun r => .ok ((v.name, b) :: r)

/-- A call of the generated `InfileToDb` on a tree: the recorded row of the table `Info`. -/
def run (L : Lib) (vs : List Var) (t : Tree) : Except GenErr (Res (List (Str × CTy × Val))) :=
  match infileToDb vs with
  | .error e => .error e
  | .ok ss => .ok ((execs L ss ([] :: start vs t)).bind (record vs))

/-! ## The schema -/

/-- Patterns of RELAX NG, as far as they are generated. -/
inductive Pat where
  | element (n : Str) (p : Pat)
  | data (t : Str)
  | oneOrMore (p : Pat)
  | interleave (ps : List Pat)
  | optional (p : Pat)
  | text

/-- The types of XML Schema for the primitive types (`cli/cycpp.py:1664-1670`). -/
def xsdOf : Prim → Str
  | .bool => ['b', 'o', 'o', 'l', 'e', 'a', 'n']
  | .string => ['s', 't', 'r', 'i', 'n', 'g']
  | .int => ['i', 'n', 't']
  | .float => ['f', 'l', 'o', 'a', 't']
  | .double => ['d', 'o', 'u', 'b', 'l', 'e']
  | .blob => ['s', 't', 'r', 'i', 'n', 'g']
  | .uuid => ['t', 'o', 'k', 'e', 'n']

/-- What the names of types mean to `_type`: a type of XML Schema (`alltypes`, lines 1650-1659), a key of
`default_types` with or without a type (1662-1692), or neither. -/
structure TypeNames where
  all : Str → Bool
  dflt : Str → Option (Option Str)

/-- `_type` (`cli/cycpp.py:1694-1705`).  A list is not hashable. -/
def typeOf (N : TypeNames) (p : Prim) : Ann → Except GenErr Str
  | .none => .ok (xsdOf p)
  | .str g =>
    if N.all g then .ok g
    else match N.dflt g with
      | some (some t) => .ok t
      | some none => .ok (xsdOf p)
      | none => .error .type
  | .list _ => .error .type

/-- `bool(a)`. -/
def Ann.truth : Ann → Bool
  | .none => false
  | .str s => !s.isEmpty
  | .list l => !l.isEmpty

/-- `_buildschema` (`cli/cycpp.py:1707-1774`), for canonical names. -/
def buildSchema (N : TypeNames) : Ty → Names → Ann → Ann → Except GenErr Pat
  | .prim p, .prim n, sch, ui =>
    match typeOf N p (if sch.truth then sch else ui) with
    | .error e => .error e
    | .ok d => .ok (.element n (.data d))
  | .seq _ e, .seq n ne, sch, ui =>
    match buildSchema N e ne (sch.part 1) (ui.part 1) with
    | .error e => .error e
    | .ok p => .ok (.element n (.oneOrMore p))
  | .map k v, .map n item nk nv, sch, ui =>
    match buildSchema N k nk (sch.part 1) (ui.part 1) with
    | .error e => .error e
    | .ok pk =>
      match buildSchema N v nv (sch.part 2) (ui.part 2) with
      | .error e => .error e
      | .ok pv => .ok (.element n (.oneOrMore (.element item (.interleave [pk, pv]))))
  | .pair a b, .pair n na nb, sch, ui =>
    match buildSchema N a na (sch.part 1) (ui.part 1) with
    | .error e => .error e
    | .ok pa =>
      match buildSchema N b nb (sch.part 2) (ui.part 2) with
      | .error e => .error e
      | .ok pb => .ok (.element n (.interleave [pa, pb]))
  | _, _, _, _ => .error .runtime

/-- The patterns of the variables (`cli/cycpp.py:1782-1815`). -/
def varPats (N : TypeNames) : List Var → Except GenErr (List Pat)
  | [] => .ok []
  | v :: vs =>
    if v.internal then varPats N vs
    else
      match buildSchema N v.ty v.names v.schema v.ui with
      | .error e => .error e
      | .ok p =>
        match varPats N vs with
        | .error e => .error e
        | .ok ps => .ok ((if v.dflt.isSome then .optional p else p) :: ps)

/-- `xml_from_ctx` (`cli/cycpp.py:1776-1817`). -/
def schema (N : TypeNames) (vs : List Var) : Except GenErr Pat :=
  if vs.isEmpty then .ok .text
  else
    match varPats N vs with
    | .error e => .error e
    | .ok ps => .ok (.interleave ps)

end Cyclus.InfileGen
