import Verif.Model.CycppText

/-!
# The text of a file as pieces
-/

namespace Cyclus.CycppText

open CycppScan (isSpace isWord)

/-- All characters are white space. -/
def Blank (s : Str) : Prop := ∀ c ∈ s, isSpace c = true

/-- No white space at the ends. -/
def Trim (s : Str) : Prop :=
  (∀ c, s.head? = some c → isSpace c = false) ∧ ∀ c, s.getLast? = some c → isSpace c = false

/-- A piece of a file, with the white space around it. -/
inductive Piece where
  /-- a statement, or the head of a block, or nothing, up to `{`, `}` or `;` -/
  | code (lead text trail : Str) (stop : Char)
  /-- a line that begins with `#` -/
  | hash (lead text trail : Str)
  /-- a line that begins with `//` -/
  | slashes (lead text : Str)
  /-- a comment between `/*` and `*/` -/
  | comment (lead text : Str)
  /-- `public:`, `private:` or `protected:` -/
  | access (lead word gap : Str)

/-- How the piece is written. -/
def Piece.render : Piece → Str
  | .code l t w c => l ++ t ++ w ++ [c]
  | .hash l t w => l ++ t ++ w ++ ['\n']
  | .slashes l t => l ++ ['/', '/'] ++ t ++ ['\n']
  | .comment l t => l ++ ['/', '*'] ++ t ++ ['*', '/']
  | .access l k g => l ++ k ++ g ++ [':']

/-- The text is a word for access after white space, and nothing else follows but white space and a text that
begins as told. -/
def AccessThen (s : Str) (next : Str → Prop) : Prop :=
  ∃ w k g r, w ≠ [] ∧ Blank w ∧ k ∈ accessWords ∧ Blank g ∧ next r ∧ s = w ++ k ++ g ++ r

/-- The piece is what it says. -/
def Piece.Fine : Piece → Prop
  | .code l t w c => Blank l ∧ Blank w ∧ Trim t ∧ (∀ d ∈ t, isStop d = false) ∧ isStop c = true ∧
      ¬ ['#'] <+: t ∧ ¬ ['/', '/'] <+: t ∧ ¬ ['/', '*'] <+: t ∧ ¬ AccessThen (l ++ t) (fun r => [':'] <+: r)
  | .hash l t w => Blank l ∧ Blank w ∧ Trim t ∧ '\n' ∉ t ∧ '\n' ∉ w ∧
      ∃ t', t = '#' :: t' ∧ (∃ c ∈ t', isSpace c = false) ∧ ¬ AccessThen (t' ++ w) (fun r => r = [])
  | .slashes l t => Blank l ∧ '\n' ∉ t ∧ (∃ c ∈ t, isSpace c = false) ∧ ¬ AccessThen t (fun r => r = [])
  | .comment l t => Blank l ∧ ∀ a b, t ≠ a ++ '*' :: '/' :: b
  | .access l k g => l ≠ [] ∧ Blank l ∧ k ∈ accessWords ∧ Blank g

/-- The statement of the piece, without white space around it, if it is not a comment. -/
def Piece.stmt : Piece → Option Str
  | .code _ t _ _ => some t
  | .hash _ t _ => some t
  | .slashes _ _ => none
  | .comment _ _ => none
  | .access _ k _ => some k

/-- What ends the piece. -/
def Piece.ending : Piece → Str
  | .code _ _ _ c => [c]
  | .hash _ _ _ => ['\n']
  | .slashes _ _ => ['\n']
  | .comment _ _ => ['*', '/']
  | .access _ _ _ => [':']

/-- The match for the piece. -/
def Piece.token : Piece → Token
  | .code l t w c => ⟨[], l ++ t ++ w, [c]⟩
  | .hash l t w => ⟨[], l ++ t ++ w, ['\n']⟩
  | .slashes l t => ⟨[], l ++ ['/', '/'] ++ t, ['\n']⟩
  | .comment l t => ⟨l, ['/', '*'] ++ t, ['*', '/']⟩
  | .access l k g => ⟨[], l ++ k ++ g, [':']⟩

/-- The text of a match. -/
def Token.all (t : Token) : Str := t.blank ++ t.text ++ t.sep

/-- The matches are cut out of the text one after the other.  Text is passed over, or left at the end, only
where none of `{`, `}` and `;` follows. -/
inductive Cuts : Str → List Token → Prop
  | done (s : Str) : (∀ c ∈ s, isStop c = false) → Cuts s []
  | next (k : Str) (t : Token) (r : Str) (ts : List Token) : Cuts r ts → t.sep ≠ [] →
      (k = [] ∨ ∀ c ∈ k ++ t.all ++ r, isStop c = false) → Cuts (k ++ t.all ++ r) (t :: ts)

end Cyclus.CycppText
