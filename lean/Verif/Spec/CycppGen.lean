import Verif.Model.CycppGen
import Verif.Spec.CycppText

/-!
# The text that the third pass should make
-/

namespace Cyclus.CycppGen

open CycppScan (isSpace join)
open CycppText (Str Token Blank)

/-- A place in a file: the namespaces and the classes around it, outermost first, and the number of blocks around it
that are not namespaces. -/
structure Place where
  nss : List Str
  classes : List Str
  inner : ℕ

def Place.top : Place := ⟨[], [], 0⟩

/-- The name of the class around, or of the namespace. -/
def Place.name (pl : Place) : Str := join (pl.nss ++ pl.classes)

/-- A kind of block. -/
inductive Block where
  | ns (n : Str)
  | cls (n : Str)
  | plain

/-- The place in a block. -/
def Place.enter (pl : Place) : Block → Place
  | .ns n => { pl with nss := pl.nss ++ [n] }
  | .cls n => { pl with classes := pl.classes ++ [n], inner := pl.inner + 1 }
  | .plain => { pl with inner := pl.inner + 1 }

/-- A name without the scopes that are around anyway; the last part is kept. -/
def relative : List Str → List Str → List Str
  | s :: ss, c :: d :: cs => if s = c then relative ss (d :: cs) else c :: d :: cs
  | _, cs => cs

/-- The declaration of a method: its type, its name and its arguments (`src/agent.h`). -/
def signature (cn : Str) : Kind → Str × Str × Str
  | .initFromCopy => ("void".toList, "InitFrom".toList, cn ++ "* m".toList)
  | .initFromDb => ("void".toList, "InitFrom".toList, "cyclus::QueryableBackend* b".toList)
  | .infileToDb => ("void".toList, "InfileToDb".toList, "cyclus::InfileTree* tree, cyclus::DbInit di".toList)
  | .clone => ("cyclus::Agent*".toList, "Clone".toList, [])
  | .schema => ("std::string".toList, "schema".toList, [])
  | .annotations => ("Json::Value".toList, "annotations".toList, [])
  | .initInv => ("void".toList, "InitInv".toList, "cyclus::Inventories& inv".toList)
  | .snapshotInv => ("cyclus::Inventories".toList, "SnapshotInv".toList, [])
  | .snapshot => ("void".toList, "Snapshot".toList, "cyclus::DbInit di".toList)

/-- White space for so many blocks. -/
def indent (n : ℕ) : Str := List.replicate (2 * n) ' '

/-- The place is in the class itself. -/
def Place.within (pl : Place) (cn : Str) : Prop := pl.classes ≠ [] ∧ pl.name = cn

instance (pl : Place) (cn : Str) : Decidable (pl.within cn) := by unfold Place.within; infer_instance

/-- The head of a method: virtual in the class, and with the name of the class outside of it. -/
def header (pl : Place) (k : Kind) (cn : Str) : Str :=
  let (rtn, name, args) := signature cn k
  let owner := if pl.within cn then [] else
    join (relative (pl.nss ++ pl.classes.dropLast) (colonSplit cn)) ++ [':', ':']
  indent pl.inner ++ ((if pl.within cn then "virtual ".toList else []) ++ (rtn ++ ' ' :: (owner ++ (name ++ '(' ::
    (args ++ [')'])))))

/-- A text with a line break at its end, if it is not empty. -/
def lined (s : Str) : Str := if s = [] ∨ s.getLast? = some '\n' then s else s ++ ['\n']

/-- The code for a method at a place: its declaration, its definition, or only its body. -/
def method (cfg : Cfg) (pl : Place) (k : Kind) (m : Mode) (cn : Str) : Option Str :=
  if cfg.known cn then
    match m with
    | .decl => some ('\n' :: (header pl k cn ++ [';', '\n']))
    | .def_ => (cfg.body k cn (indent (pl.inner + 1))).map fun b =>
        '\n' :: (header pl k cn ++ ([' ', '{', '\n'] ++ (lined b ++ (indent pl.inner ++ ['}', ';', '\n']))))
    | .impl => (cfg.body k cn (indent (pl.inner + 1))).map lined
  else none

/-- All methods, one after the other. -/
def methods (cfg : Cfg) (pl : Place) (m : Mode) : List Kind → Option Str
  | [] => some []
  | k :: ks =>
    match method cfg pl k m pl.name, methods cfg pl m ks with
    | some a, some b => some (a ++ b)
    | _, _ => none

/-- What is written for a statement at a place, if it is not an error, and whether a declaration of a state variable
is awaited after it.  `wait` tells whether one is awaited before. -/
def written (cfg : Cfg) (pl : Place) (wait : Bool) (v : Seen) (t : Token) : Option (Str × Bool) :=
  match v with
  | .directive k m g => (method cfg pl k m (g.getD pl.name)).map fun o => (o, wait)
  | .all m => (methods cfg pl m kinds).map fun o => (o, wait)
  | .var => some (t.text ++ t.sep, true)
  | .decl x =>
    if wait = true ∧ cfg.shaped pl.name x = true then
      some (t.text ++ t.sep ++ ("\n  std::vector<int> cycpp_shape_".toList ++ (x ++ [';', '\n'])), false)
    else some (t.text ++ t.sep, false)
  | .bad => none
  | .cls _ => some (t.text ++ t.sep, wait)
  | .ns _ => some (t.text ++ t.sep, wait)
  | .other => some (t.text ++ t.sep, wait)

/-- The block that a head opens. -/
def opens : Seen → Option Block
  | .cls n => some (.cls n)
  | .ns (some n) => some (.ns n)
  | .ns none => none
  | _ => some .plain

/-- The statement is neither begin nor end of a block, and braces in a line with the word `pragma` are balanced. -/
def Steady (t : Token) : Prop :=
  t.sep ≠ ['{'] ∧ t.sep ≠ ['}'] ∧ (t.sep = ['\n'] → "pragma".toList <:+: t.text → t.text.count '{' = t.text.count '}')

/-- The statements of a file at a place, with balanced blocks, and what is written for them. -/
inductive Writes (cfg : Cfg) : Place → Bool → List Token → Str → Bool → Prop
  | nil (pl : Place) (a : Bool) : Writes cfg pl a [] [] a
  | one (pl : Place) (a a' a'' : Bool) (t : Token) (ts : List Token) (o o' : Str) : Steady t →
      written cfg pl a (see t.text) t = some (o, a') → Writes cfg pl a' ts o' a'' → Writes cfg pl a (t :: ts) (o ++ o') a''
  | block (pl : Place) (b : Block) (a a1 a2 a3 a4 : Bool) (h c : Token) (body rest : List Token) (o1 o2 o3 o4 : Str) :
      h.sep = ['{'] → opens (see h.text) = some b → written cfg pl a (see h.text) h = some (o1, a1) →
      Writes cfg (pl.enter b) a1 body o2 a2 →
      c.sep = ['}'] → (∀ n, see c.text ≠ .cls n) → (∀ n, see c.text ≠ .ns n) →
      written cfg (pl.enter b) a2 (see c.text) c = some (o3, a3) → Writes cfg pl a3 rest o4 a4 →
      Writes cfg pl a (h :: (body ++ c :: rest)) (o1 ++ (o2 ++ (o3 ++ o4))) a4

/-- The words of a directive before its method: `# pragma cyclus`, and a mode. -/
inductive Pre : Mode → Str → Prop
  | plain (w g sp sp' : Str) : Blank w → Blank g → sp ≠ [] ∧ Blank sp → Blank sp' →
      Pre .def_ (w ++ ('#' :: (g ++ ("pragma".toList ++ (sp ++ ("cyclus".toList ++ sp'))))))
  | mode (m : Mode) (w g sp sp' sp'' : Str) : Blank w → Blank g → sp ≠ [] ∧ Blank sp → sp' ≠ [] ∧ Blank sp' →
      sp'' ≠ [] ∧ Blank sp'' →
      Pre m (w ++ ('#' :: (g ++ ("pragma".toList ++ (sp ++ ("cyclus".toList ++ (sp' ++ (modeWord m ++ sp''))))))))

/-- What follows the name of a method: nothing, or white space and perhaps a class. -/
inductive Post : Option Str → Str → Prop
  | nothing : Post none []
  | cls (c : Char) (n r : Str) : isSpace c = true → (∀ d ∈ n, isClassChar d = true) →
      (∀ d, r.head? = some d → isClassChar d = false) →
      Post (some (n.flatMap fun c => if c = '.' then [':', ':'] else [c])) (c :: (n ++ r))

/-- The pragma for all methods. -/
inductive Bare : Mode → Str → Prop
  | plain (g sp sp' : Str) : Blank g → sp ≠ [] ∧ Blank sp → Blank sp' →
      Bare .def_ ('#' :: (g ++ ("pragma".toList ++ (sp ++ ("cyclus".toList ++ sp')))))
  | mode (m : Mode) (g sp sp' sp'' : Str) : Blank g → sp ≠ [] ∧ Blank sp → sp' ≠ [] ∧ Blank sp' → Blank sp'' →
      Bare m ('#' :: (g ++ ("pragma".toList ++ (sp ++ ("cyclus".toList ++ (sp' ++ (modeWord m ++ sp'')))))))

end Cyclus.CycppGen
