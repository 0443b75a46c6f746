import Verif.Model.CycppScan

/-!
# Model of the text that the passes of the preprocessor read

Models the regular expression `RE_STATEMENT` that cuts a file into statements (`/repo/cli/cycpp.py:82-92`), the
loop over its matches (903-916, 2157-2169) and, for the second pass, the regular expressions by which filters
recognise statements (263-394, 396-412, 475, 488, 617, 634).

* Characters are those of ASCII (`isSpace` for `\s`, `isWord` for `\w`).
* The evaluation of the dictionary of a pragma is an arbitrary function of its text.
* `exec` and `note` pragmas are outside of the model: `recognise` gives `none` for them, and for exceptions.
-/

namespace Cyclus.CycppText

open CycppScan (isSpace isWord dropPrefix Stmt Sep Pragma)

abbrev Str := List Char

/-- `public`, `private`, `protected`. -/
def accessWords : List Str :=
  [['p', 'u', 'b', 'l', 'i', 'c'], ['p', 'r', 'i', 'v', 'a', 't', 'e'],
   ['p', 'r', 'o', 't', 'e', 'c', 't', 'e', 'd']]

/-- The first of the words that the text begins with, and the rest. -/
def firstWord (s : Str) : List Str → Option (Str × Str)
  | [] => none
  | w :: ws =>
    match dropPrefix w s with
    | some r => some (w, r)
    | none => firstWord s ws

/-- `\s+(public|private|protected)`, and the rest (`cli/cycpp.py:86`). -/
def accessAt (s : Str) : Option (Str × Str) :=
  match s.takeWhile isSpace with
  | [] => none
  | w =>
    match firstWord (s.dropWhile isSpace) accessWords with
    | none => none
    | some (k, r) => some (w ++ k, r)

/-- The text before the first character of a kind, that character, and the rest. -/
def upTo (p : Char → Bool) : Str → Option (Str × Char × Str)
  | [] => none
  | c :: s =>
    if p c then some ([], c, s)
    else
      match upTo p s with
      | none => none
      | some (a, d, r) => some (c :: a, d, r)

/-- The text before the first end of a comment, and the rest. -/
def upToEnd : Str → Option (Str × Str)
  | [] => none
  | c :: s =>
    match dropPrefix ['*', '/'] (c :: s) with
    | some r => some ([], r)
    | none =>
      match upToEnd s with
      | none => none
      | some (a, r) => some (c :: a, r)

/-- The parts before and after the last line break, if there is one. -/
def lastBreak (s : Str) : Option (Str × Str) :=
  match upTo (· = '\n') s.reverse with
  | none => none
  | some (a, _, r) => some (r.reverse, a.reverse)

/-- `{`, `}` or `;`. -/
def isStop (c : Char) : Bool := c = '{' || c = '}' || c = ';'

/-- A match: white space that is in no group, the statement with its prefix, and the separator. -/
structure Token where
  blank : Str
  text : Str
  sep : Str

/-- The rest of a line that begins with `#` or `//` (`cli/cycpp.py:84-91`, group 1 set). -/
def lineRest (pre s : Str) : Option (Token × Str) :=
  let plain :=
    match upTo (· = '\n') s with
    | none => none
    | some (a, _, r) => some (⟨[], pre ++ a, ['\n']⟩, r)
  match accessAt s with
  | none => plain
  | some (a, r) =>
    match lastBreak (r.takeWhile isSpace) with
    | none => plain
    | some (v, v') => some (⟨[], pre ++ a ++ v, ['\n']⟩, v' ++ r.dropWhile isSpace)

/-- The rest of a comment (`cli/cycpp.py:84-91`, group 2 set). -/
def commentRest (w s : Str) : Option (Token × Str) :=
  let plain :=
    match upToEnd s with
    | none => none
    | some (a, r) => some (⟨w, ['/', '*'] ++ a, ['*', '/']⟩, r)
  match accessAt s with
  | none => plain
  | some (a, r) =>
    match dropPrefix ['*', '/'] (r.dropWhile isSpace) with
    | none => plain
    | some r' => some (⟨w, ['/', '*'] ++ a ++ r.takeWhile isSpace, ['*', '/']⟩, r')

/-- A statement without a prefix (`cli/cycpp.py:84-91`, no group set). -/
def codeRest (s : Str) : Option (Token × Str) :=
  let plain :=
    match upTo isStop s with
    | none => none
    | some (a, c, r) => some (⟨[], a, [c]⟩, r)
  match accessAt s with
  | none => plain
  | some (a, r) =>
    match r.dropWhile isSpace with
    | ':' :: r' => some (⟨[], a ++ r.takeWhile isSpace, [':']⟩, r')
    | _ => plain

/-- The prefix `(?:(\s*#|\s*//)|\s*(/\*))?` and what follows (`cli/cycpp.py:84`). -/
def matchAt (s : Str) : Option (Token × Str) :=
  let w := s.takeWhile isSpace
  match s.dropWhile isSpace with
  | '#' :: r =>
    match lineRest (w ++ ['#']) r with
    | some x => some x
    | none => codeRest s
  | '/' :: '/' :: r =>
    match lineRest (w ++ ['/', '/']) r with
    | some x => some x
    | none => codeRest s
  | '/' :: '*' :: r =>
    match commentRest w r with
    | some x => some x
    | none => codeRest s
  | _ => codeRest s

/-- The search for a match: the text passed over, the match, and the rest. -/
def search : Str → Option (Str × Token × Str)
  | [] => none
  | c :: s =>
    match matchAt (c :: s) with
    | some (t, r) => some ([], t, r)
    | none =>
      match search s with
      | none => none
      | some (k, t, r) => some (c :: k, t, r)

/-- `RE_STATEMENT.finditer`, at most so many matches. -/
def tokens : ℕ → Str → List Token
  | 0, _ => []
  | n + 1, s =>
    match search s with
    | none => []
    | some (_, t, r) => t :: tokens n r

/-- All matches of a file. -/
def split (s : Str) : List Token := tokens s.length s

/-! ## Recognition of statements -/

/-- What follows the word and white space, if there is some of it. -/
def afterWord (w s : Str) : Option Str :=
  match dropPrefix w s with
  | some (c :: r) => if isSpace c then some (r.dropWhile isSpace) else none
  | _ => none

/-- `[\w:]`. -/
def isNameChar (c : Char) : Bool := isWord c || c = ':'

def kwUsing : Str := ['u', 's', 'i', 'n', 'g']
def kwNamespace : Str := ['n', 'a', 'm', 'e', 's', 'p', 'a', 'c', 'e']
def kwTypedef : Str := ['t', 'y', 'p', 'e', 'd', 'e', 'f']
def kwPragma : Str := ['p', 'r', 'a', 'g', 'm', 'a']
def kwCyclus : Str := ['c', 'y', 'c', 'l', 'u', 's']
def kwVar : Str := ['v', 'a', 'r']
def kwExec : Str := ['e', 'x', 'e', 'c']
def kwNote : Str := ['n', 'o', 't', 'e']

/-- `\s*(public|private|protected)\s*` (`cli/cycpp.py:390`). -/
def isAccess (s : Str) : Bool := (firstWord (s.dropWhile isSpace) accessWords).isSome

/-- `#\s*pragma\s+cyclus\s+word\s+`, and the rest (`cli/cycpp.py:475`, 617, 634). -/
def afterPragma (word s : Str) : Option Str :=
  match s.dropWhile isSpace with
  | '#' :: r =>
    match afterWord kwPragma (r.dropWhile isSpace) with
    | none => none
    | some r =>
      match afterWord kwCyclus r with
      | none => none
      | some r => afterWord word r
  | _ => none

/-- `\s*using\s+namespace\s+([\w:]*)\s*` (`cli/cycpp.py:322`). -/
def usingNsName (s : Str) : Option Str :=
  match afterWord kwUsing (s.dropWhile isSpace) with
  | none => none
  | some r =>
    match afterWord kwNamespace r with
    | none => none
    | some r => some (r.takeWhile isNameChar)

/-- `\s*namespace\s+(\w+)\s*=\s*([\w:]+)\s*` (`cli/cycpp.py:341`). -/
def nsAliasNames (s : Str) : Option (Str × Str) :=
  match afterWord kwNamespace (s.dropWhile isSpace) with
  | none => none
  | some r =>
    match r.takeWhile isWord, (r.dropWhile isWord).dropWhile isSpace with
    | [], _ => none
    | a, '=' :: r =>
      match (r.dropWhile isSpace).takeWhile isNameChar with
      | [] => none
      | n => some (a, n)
    | _, _ => none

/-- `\s*typedef\s+(.*?\s+.*)\s*$` (`cli/cycpp.py:279`) on a statement without white space at its end: the group. -/
def typedefText (s : Str) : Option Str :=
  match dropPrefix kwTypedef (s.dropWhile isSpace) with
  | some (c :: r) =>
    if isSpace c then
      let t := r.dropWhile isSpace
      if t.any isSpace then
        if (t.dropWhile (· ≠ '\n')).dropWhile isSpace |>.contains '\n' then none else some t
      else if r.takeWhile isSpace = [] then none
      else some (' ' :: t)
    else none
  | _ => none

/-- `" ".join(l)`. -/
def unwords : List Str → Str
  | [] => []
  | [a] => a
  | a :: b :: r => a ++ ' ' :: unwords (b :: r)

/-- `TypedefFilter.transform` (`cli/cycpp.py:281-288`). -/
def typedefStmt {α : Type} (g : Str) : Option (Stmt α) :=
  match Cycpp.outterSplit isSpace '(' ')' ',' g with
  | [] => none
  | g0 :: gs =>
    let ws := CycppScan.words g0
    some (.typedef (unwords ws.dropLast) (ws.getLast?.toList ++ gs))

/-- `\s*using\s+(?!namespace\s+)([\w:]+)\s*` (`cli/cycpp.py:292`), for statements that are not
`using namespace` (322). -/
def usingText (s : Str) : Option Str :=
  match afterWord kwUsing (s.dropWhile isSpace) with
  | none => none
  | some r =>
    match r.takeWhile isNameChar with
    | [] => none
    | n => some n

/-- `\s*#\s+(\d+)\s+"(.*?)"(\s+\d+)*?` (`cli/cycpp.py:245`). -/
def isMarker (s : Str) : Bool :=
  match s.dropWhile isSpace with
  | '#' :: c :: r =>
    isSpace c &&
      match (r.dropWhile isSpace).takeWhile Char.isDigit, (r.dropWhile isSpace).dropWhile Char.isDigit with
      | [], _ => false
      | _, c :: r =>
        isSpace c &&
          match r.dropWhile isSpace with
          | '"' :: r => r.contains '"'
          | _ => false
      | _, [] => false
  | _ => false

/-- `.*?\s+(\w+)`: what the lazy part takes, and the word. -/
def lazyName : Str → Option (Str × Str)
  | [] => none
  | c :: s =>
    match (if isSpace c then (s.dropWhile isSpace).takeWhile isWord else []) with
    | n@(_ :: _) => some ([], n)
    | [] =>
      if c = '\n' then none
      else
        match lazyName s with
        | none => none
        | some (a, n) => some (c :: a, n)

/-- `(.*\w+.*?)\s+(\w+)` (`cli/cycpp.py:488`): its groups.  The first part is as long as it can be. -/
def declNames : Str → Option (Str × Str)
  | [] => none
  | c :: s =>
    if c = '\n' then none
    else
      match declNames s with
      | some (t, n) => some (c :: t, n)
      | none =>
        if isWord c then
          match lazyName (s.dropWhile isWord) with
          | none => none
          | some (a, n) => some (c :: s.takeWhile isWord ++ a, n)
        else none

/-- The first filter of the second pass that matches (`cli/cycpp.py:681-688`, 722-725). -/
def recognise {α : Type} (ev : Str → Option (Pragma α)) (s : Str) : Option (Stmt α) :=
  if s = [] then some .other
  else if (CycppScan.classHead s).isSome then CycppScan.classStmt s
  else if isAccess s then some .other
  else if (afterPragma kwExec s).isSome then none
  else
    match usingNsName s with
    | some n => some (.usingNs n)
    | none =>
    match nsAliasNames s with
    | some (a, n) => some (.nsAlias a n)
    | none =>
    match CycppScan.nsStmt s with
    | some st => some st
    | none =>
    match typedefText s with
    | some g => typedefStmt g
    | none =>
    match usingText s with
    | some n => some (.usingName n)
    | none =>
    if isMarker s then some .other
    else if (afterPragma kwNote s).isSome then none
    else
      match afterPragma kwVar s with
      | some r => (ev (r.takeWhile (· ≠ '\n'))).map .var
      | none =>
        match declNames s with
        | some (t, n) => some (.decl t n)
        | none => some .other

/-- The separator, as far as it matters (`cli/cycpp.py:728-731`). -/
def sepOf (s : Str) : Sep :=
  if s = ['{'] then .opened else if s = ['}'] then .closed else .other

/-- What the second pass sees in a file (`cli/cycpp.py:908-915`). -/
def statements {α : Type} (ev : Str → Option (Pragma α)) (s : Str) : Option (List (Stmt α × Sep)) :=
  (split s).mapM fun t => (recognise ev (Cycpp.strip isSpace t.text)).map fun st => (st, sepOf t.sep)

end Cyclus.CycppText
