import Verif.Model.PostCython

/-!
# What the post-processor for Cython output should do

Only texts; none of the functions of the model.
-/

namespace Cyclus.PostCython.Spec

open Cyclus.PostCython (Str)

/-- A character of a word. -/
def WordChar (c : Char) : Prop := c.isAlphanum = true ∨ c = '_'

/-- A word. -/
def Word (w : Str) : Prop := w ≠ [] ∧ ∀ c ∈ w, WordChar c

/-- White space. -/
def Blank (c : Char) : Prop := c ∈ [' ', '\t', '\n', '\r', Char.ofNat 11, Char.ofNat 12]

/-- Text with templates: characters and groups in brackets. -/
inductive Tmpl where
  | nil
  | chr (c : Char) (t : Tmpl)
  | grp (i t : Tmpl)

/-- The text. -/
def Tmpl.flat (o c : Char) : Tmpl → Str
  | .nil => []
  | .chr x t => x :: t.flat o c
  | .grp i t => o :: (i.flat o c ++ c :: t.flat o c)

/-- The text without the groups. -/
def Tmpl.top : Tmpl → Str
  | .nil => []
  | .chr x t => x :: t.top
  | .grp _ t => t.top

/-- Brackets are only around groups, and there is something in each group besides other groups. -/
def Tmpl.Good (o c : Char) : Tmpl → Prop
  | .nil => True
  | .chr x t => x ≠ o ∧ x ≠ c ∧ t.Good o c
  | .grp i t => i.Good o c ∧ i.top ≠ [] ∧ t.Good o c

/-- The declaration of an argument: what is before the name, the name, what is after it. -/
structure Decl where
  pre : Str
  name : Str
  post : Str

def Decl.text (d : Decl) : Str := d.pre ++ d.name ++ d.post

def Decl.Good (d : Decl) : Prop :=
  Word d.name ∧ ',' ∉ d.pre ∧ ',' ∉ d.post ∧ '\n' ∉ d.pre ∧
  (∀ c, d.pre.getLast? = some c → ¬ WordChar c) ∧ ∀ c ∈ d.post, ¬ WordChar c

/-- The arguments of a signature, with templates, and their names. -/
structure Args where
  tmpl : Tmpl
  decls : List Decl

def Args.names (a : Args) : List Str := a.decls.map Decl.name

def Args.Good (o c : Char) (a : Args) : Prop :=
  a.tmpl.Good o c ∧ a.decls ≠ [] ∧ (∀ d ∈ a.decls, d.Good) ∧
  a.tmpl.top = [','].intercalate (a.decls.map Decl.text) ∧ ')' ∉ a.tmpl.flat o c

/-- Words and other characters. -/
inductive Tok where
  | word (w : Str)
  | other (c : Char)

/-- The text. -/
def text : List Tok → Str
  | [] => []
  | .word w :: l => w ++ text l
  | .other c :: l => c :: text l

/-- Words are as long as can be. -/
def Proper : List Tok → Prop
  | [] => True
  | .other c :: l => ¬ WordChar c ∧ Proper l
  | .word w :: l => Word w ∧ (∀ v l', l ≠ .word v :: l') ∧ Proper l

/-- A word that is an argument becomes the name of the argument in C++. -/
def rename (ren : List (Str × Str)) : Tok → Tok
  | .word w => .word ((ren.lookup w).getD w)
  | .other c => .other c

/-- No argument is a part of another word, or of the name in C++ of an argument before it. -/
def Clear (ren : List (Str × Str)) (l : List Tok) : Prop :=
  (∀ e ∈ ren, ∀ w, .word w ∈ l → e.1 <:+: w → w = e.1) ∧
  ren.Pairwise fun e e' => ¬ e'.1 <:+: e.2

/-- The part of the text of a constructor in C++ before its arguments: with `void` and the name of
the class before its colons, or otherwise. -/
inductive Head where
  | void (u name v : Str)
  | plain (s : Str)

def Head.before : Head → Str
  | .void u name v => u ++ ['v', 'o', 'i', 'd', ' '] ++ name ++ [':'] ++ v
  | .plain s => s

def Head.after : Head → Str
  | .void u name _ => u ++ name ++ [':', ':'] ++ name
  | .plain s => s

def Head.Good : Head → Prop
  | .void u name v => ¬ ['v', 'o', 'i', 'd', ' '] <:+: u ∧ (∀ c ∈ name, ¬ Blank c ∧ c ≠ ':') ∧
      '(' ∉ u ∧ '(' ∉ name ∧ '(' ∉ v
  | .plain s => ¬ ['v', 'o', 'i', 'd', ' '] <:+: s ∧ '(' ∉ s

/-- A marked constructor in a file that Cython wrote: the line of the source, in a comment, with the
arguments in Cython and the calls of the constructors of the bases; the rest of the comment; the
constructor in C++ up to the end of its arguments. -/
structure Ctor where
  line : Str
  cyargs : Args
  between : Str
  sp : Str
  base : Str
  toks : List Tok
  sp' : Str
  tail : Str
  mid : Str
  head : Head
  cppargs : Args

/-- The text before the mark. -/
def Ctor.lead (k : Ctor) : Str :=
  '\n' :: (k.line ++ '(' :: (k.cyargs.tmpl.flat '[' ']' ++ ')' :: k.between))

/-- The text from the mark to the end of the comment. -/
def Ctor.comment (k : Ctor) : Str :=
  ['C', '+', '+', 'B', 'A', 'S', 'E', 'S'] ++ k.sp ++ k.base ++ '(' :: (text k.toks ++ ')' :: (k.sp' ++
    '#' :: (k.tail ++ '\n' :: (k.mid ++ ['*', '/']))))

/-- The arguments in C++. -/
def Ctor.args (k : Ctor) : Str := '(' :: (k.cppargs.tmpl.flat '<' '>' ++ [')'])

/-- The text that Cython wrote. -/
def Ctor.before (k : Ctor) : Str := k.lead ++ k.comment ++ k.head.before ++ k.args

/-- Names in Cython with those in C++. -/
def Ctor.ren (k : Ctor) : List (Str × Str) := k.cyargs.names.zip k.cppargs.names

/-- The text that a C++ compiler should see: the constructor is called by its name and calls the
constructors of the bases with the arguments. -/
def Ctor.after (k : Ctor) : Str :=
  k.lead ++ k.comment ++ k.head.after ++ k.args ++ [' ', ':', ' '] ++ k.base ++
    '(' :: (text (k.toks.map (rename k.ren)) ++ [')'])

/-- There are no more closing than opening brackets up to any place. -/
def Balanced (s : Str) : Prop := ∀ p, p <+: s → p.count ')' ≤ p.count '('

/-- A constructor as Cython writes them, with any names. -/
def Ctor.Shape (k : Ctor) : Prop :=
  '\n' ∉ k.line ∧ '(' ∉ k.line ∧ k.cyargs.Good '[' ']' ∧ '\n' ∉ k.cyargs.tmpl.flat '[' ']' ∧
  '\n' ∉ k.between ∧
  (∀ c ∈ k.sp, Blank c ∧ c ≠ '\n') ∧ (∀ c ∈ k.sp', Blank c ∧ c ≠ '\n') ∧
  (∀ c, k.base.head? = some c → ¬ Blank c) ∧ k.base ≠ [] ∧ '(' ∉ k.base ∧ '\n' ∉ k.base ∧
  '\n' ∉ text k.toks ∧ Proper k.toks ∧
  Balanced (k.base ++ '(' :: (text k.toks ++ [')'])) ∧
  '\n' ∉ k.tail ∧ '#' ∉ k.tail ∧ ¬ ['*', '/'] <:+: k.mid ∧ k.head.Good ∧ k.cppargs.Good '<' '>'

/-- No name is a part of another one. -/
def Ctor.Good (k : Ctor) : Prop := k.Shape ∧ Clear k.ren k.toks

/-- A text that neither begins nor ends with white space. -/
def Tight (s : Str) : Prop :=
  s ≠ [] ∧ (∀ c, s.head? = some c → ¬ Blank c) ∧ ∀ c, s.getLast? = some c → ¬ Blank c

/-- Declarations with semicolons and white space between them. -/
def decls : Str → List (Str × Str × Str) → Str
  | d, [] => d
  | d, (sp, sp', d') :: l => d ++ (sp ++ ';' :: (sp' ++ decls d' l))

/-- A marked class in a file that Cython wrote, from the mark: the declarations, in a comment; the rest
of the comment and of its last line. -/
structure Cls where
  sp : Str
  first : Str
  more : List (Str × Str × Str)
  sp' : Str
  tail : Str
  mid : Str
  rest : Str

/-- The text that Cython wrote. -/
def Cls.before (k : Cls) : Str :=
  ['C', '+', '+', 'C', 'O', 'N', 'S', 'T', 'R', 'U', 'C', 'T', 'O', 'R', 'S'] ++ (k.sp ++
    (decls k.first k.more ++ (k.sp' ++ '#' :: (k.tail ++ '\n' :: (k.mid ++ '*' :: '/' :: (k.rest ++ ['\n']))))))

/-- The text that a C++ compiler should see: the declarations follow, each in its line. -/
def Cls.after (k : Cls) : Str :=
  k.before ++ ((k.first :: k.more.map fun e => e.2.2).map fun d => ' ' :: ' ' :: (d ++ [';', '\n'])).flatten

def Cls.Good (k : Cls) : Prop :=
  (∀ c ∈ k.sp, Blank c ∧ c ≠ '\n') ∧ (∀ c ∈ k.sp', Blank c ∧ c ≠ '\n') ∧
  Tight k.first ∧ ';' ∉ k.first ∧ '\n' ∉ k.first ∧
  (∀ e ∈ k.more, (∀ c ∈ e.1, Blank c ∧ c ≠ '\n') ∧ (∀ c ∈ e.2.1, Blank c ∧ c ≠ '\n') ∧
    Tight e.2.2 ∧ ';' ∉ e.2.2 ∧ '\n' ∉ e.2.2) ∧
  '\n' ∉ k.tail ∧ '#' ∉ k.tail ∧ ¬ ['*', '/'] <:+: k.mid ∧ '\n' ∉ k.rest

/-- What is marked. -/
inductive Item where
  | ctor (k : Ctor)
  | cls (k : Cls)

def Item.before : Item → Str
  | .ctor k => k.before
  | .cls k => k.before

def Item.after : Item → Str
  | .ctor k => k.after
  | .cls k => k.after

/-- What is marked is as it should be, and there are no other marks in it or in the text before it. -/
def Item.Good (s : Str) : Item → Prop
  | .ctor k => k.Good ∧ ¬ ['C', '+', '+', 'B', 'A', 'S', 'E', 'S'] <:+: s ++ k.lead ∧
      ¬ ['C', '+', '+', 'C', 'O', 'N', 'S', 'T', 'R', 'U', 'C', 'T', 'O', 'R', 'S'] <:+: s ++ k.after
  | .cls k => k.Good ∧ ¬ ['C', '+', '+', 'B', 'A', 'S', 'E', 'S'] <:+: s ++ k.before ∧
      ¬ ['C', '+', '+', 'C', 'O', 'N', 'S', 'T', 'R', 'U', 'C', 'T', 'O', 'R', 'S'] <:+: s

/-- A file: pieces of text, each with what is marked after it, and the end. -/
def file {I : Type} (f : I → Str) : List (Str × I) → Str → Str
  | [], e => e
  | (s, k) :: l, e => s ++ (f k ++ file f l e)

/-- There is a version in the first line. -/
def Versioned (s : Str) : Prop :=
  ∃ p a b r, s = p ++ a :: '.' :: b :: r ∧ '\n' ∉ p ∧ a.isDigit = true ∧ b.isDigit = true

end Cyclus.PostCython.Spec
