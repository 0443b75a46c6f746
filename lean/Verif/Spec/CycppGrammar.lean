import Verif.Spec.CycppText
import Verif.Props.CycppScan

/-!
# How the statements of a file are written
-/

namespace Cyclus.CycppText

open CycppScan (isSpace isWord Stmt Sep Pragma Base headText tmplText)

variable {α : Type}

/-- The words that begin the statements with a meaning of their own. -/
def keywords : List Str :=
  [['c', 'l', 'a', 's', 's'], ['s', 't', 'r', 'u', 'c', 't'], ['t', 'e', 'm', 'p', 'l', 'a', 't', 'e'],
   ['p', 'u', 'b', 'l', 'i', 'c'], ['p', 'r', 'i', 'v', 'a', 't', 'e'],
   ['p', 'r', 'o', 't', 'e', 'c', 't', 'e', 'd'], ['u', 's', 'i', 'n', 'g'],
   ['n', 'a', 'm', 'e', 's', 'p', 'a', 'c', 'e'], ['t', 'y', 'p', 'e', 'd', 'e', 'f']]

/-- The text begins with none of the words, and not with `#`. -/
def Ordinary (s : Str) : Prop := (∀ k ∈ keywords, ¬ k <+: s) ∧ ¬ ['#'] <+: s

/-- A line `# n "file" …`, as the C preprocessor writes it. -/
def Marker (s : Str) : Prop :=
  ∃ g n h f r, g ≠ [] ∧ Blank g ∧ n ≠ [] ∧ (∀ c ∈ n, c.isDigit = true) ∧ h ≠ [] ∧ Blank h ∧
    s = '#' :: (g ++ (n ++ (h ++ '"' :: (f ++ '"' :: r))))

/-- A statement without a meaning for the second pass: nothing, an access specifier, an ordinary text, or a
directive that is no pragma of Cyclus. -/
def Quiet (s : Str) : Prop :=
  s = [] ∨ s ∈ accessWords ∨ (Trim s ∧ Ordinary s) ∨
    ∃ r, s = '#' :: r ∧ ∀ g h x, Blank g → Blank h → r ≠ g ++ (kwPragma ++ (h ++ (kwCyclus ++ x)))

/-- `, name` for each of the names, with white space around them. -/
def moreNames : List (Str × Str × Str) → Str
  | [] => []
  | (a, n, b) :: l => ',' :: (a ++ n ++ b ++ moreNames l)

/-- A word in a type: no white space, comma or parenthesis. -/
def TypeWord (w : Str) : Prop := w ≠ [] ∧ ∀ c ∈ w, isSpace c = false ∧ c ≠ ',' ∧ c ≠ '(' ∧ c ≠ ')'

/-- How a statement is written, without white space at its ends.  `ev` evaluates the text of a pragma. -/
inductive Says (ev : Str → Option (Pragma α)) : Stmt α → Str → Prop
  | cls (t : Option (Str × Str)) (lead kw sp name gap : Str) (bs : List Base) :
      (∀ x ∈ t, Blank x.1 ∧ ∀ c ∈ x.2, isSpace c = true ∨ isWord c = true ∨ c = ',') →
      Blank lead → (kw = ['c', 'l', 'a', 's', 's'] ∨ kw = ['s', 't', 'r', 'u', 'c', 't']) →
      sp ≠ [] ∧ Blank sp → name ≠ [] ∧ (∀ c ∈ name, isWord c = true) → Blank gap → (∀ b ∈ bs, b.Fine) →
      (∀ b ∈ bs.head?, b.pre ≠ []) →
      Says ev (.cls name (bs.map (·.name)))
        ((match t with | none => [] | some x => tmplText [] x.1 x.2) ++ headText lead kw sp name gap bs)
  | usingNs (sp sp' n : Str) : sp ≠ [] ∧ Blank sp → sp' ≠ [] ∧ Blank sp' → (∀ c ∈ n, isNameChar c = true) →
      Says ev (.usingNs n) (kwUsing ++ (sp ++ (kwNamespace ++ (sp' ++ n))))
  | nsAlias (sp a g g' n : Str) : sp ≠ [] ∧ Blank sp → a ≠ [] ∧ (∀ c ∈ a, isWord c = true) → Blank g → Blank g' →
      n ≠ [] ∧ (∀ c ∈ n, isNameChar c = true) →
      Says ev (.nsAlias a n) (kwNamespace ++ (sp ++ (a ++ (g ++ '=' :: (g' ++ n)))))
  | ns (sp n : Str) : sp ≠ [] ∧ Blank sp → n ≠ [] ∧ (∀ c ∈ n, isWord c = true) →
      Says ev (.ns (some n)) (kwNamespace ++ (sp ++ n))
  | typedef (sp : Str) (ws : List Str) (n : Str) (ns : List (Str × Str × Str)) : sp ≠ [] ∧ Blank sp → ws ≠ [] →
      (∀ w ∈ ws, TypeWord w) → TypeWord n →
      (∀ x ∈ ns, Blank x.1 ∧ '\n' ∉ x.1 ∧ TypeWord x.2.1 ∧ Blank x.2.2 ∧ '\n' ∉ x.2.2) →
      Says ev (.typedef (unwords ws) (n :: ns.map (·.2.1)))
        (kwTypedef ++ (sp ++ (unwords (ws ++ [n]) ++ moreNames ns)))
  | usingName (sp n : Str) : sp ≠ [] ∧ Blank sp → n ≠ [] ∧ (∀ c ∈ n, isNameChar c = true) →
      Says ev (.usingName n) (kwUsing ++ (sp ++ n))
  | var (a : Pragma α) (g sp sp' sp'' raw : Str) : Blank g → sp ≠ [] ∧ Blank sp → sp' ≠ [] ∧ Blank sp' →
      sp'' ≠ [] ∧ Blank sp'' → (∀ c, raw.head? = some c → isSpace c = false) → '\n' ∉ raw → ev raw = some a →
      Says ev (.var a) ('#' :: (g ++ (kwPragma ++ (sp ++ (kwCyclus ++ (sp' ++ (kwVar ++ (sp'' ++ raw))))))))
  | decl (t sp x : Str) : Trim t → '\n' ∉ t → (∃ c ∈ t, isWord c = true) → sp ≠ [] ∧ Blank sp →
      x ≠ [] ∧ (∀ c ∈ x, isWord c = true) → Ordinary (t ++ (sp ++ x)) → Says ev (.decl t x) (t ++ (sp ++ x))
  | quiet (s : Str) : s = [] ∨ s ∈ accessWords ∨ (Ordinary s ∧ ∀ c ∈ s, isSpace c = false) → Says ev .other s

/-- The pragma of a state variable. -/
def isVar : Stmt α → Bool
  | .var _ => true
  | _ => false

/-- The statements are written by the pieces, in their order.  With `pending`, the pragma of a state variable comes
before them, and its declaration must be next, except for the lines that the C preprocessor adds.  Elsewhere there
can be comments, and other statements for which nothing is said. -/
inductive Reads (ev : Str → Option (Pragma α)) : Bool → List (Stmt α × Sep) → List Piece → Prop
  | done : Reads ev false [] []
  | marker (pending : Bool) (l : List (Stmt α × Sep)) (w t w' : Str) (ps : List Piece) : Marker t →
      Reads ev pending l ps → Reads ev pending l (.hash w t w' :: ps)
  | remark (l : List (Stmt α × Sep)) (p : Piece) (ps : List Piece) : p.stmt = none → Reads ev false l ps →
      Reads ev false l (p :: ps)
  | quiet (l : List (Stmt α × Sep)) (p : Piece) (s : Str) (ps : List Piece) : p.stmt = some s → Quiet s →
      Reads ev false l ps → Reads ev false ((.other, sepOf p.ending) :: l) (p :: ps)
  | stmt (pending : Bool) (st : Stmt α) (l : List (Stmt α × Sep)) (p : Piece) (s : Str) (ps : List Piece) :
      p.stmt = some s → Says ev st s → (pending = true → ∃ t x, st = .decl t x) → Reads ev (isVar st) l ps →
      Reads ev pending ((st, sepOf p.ending) :: l) (p :: ps)

end Cyclus.CycppText
