import Mathlib.Data.List.Basic
import Mathlib.Data.Int.Notation
import Mathlib.Order.Lattice

/-!
# Model of the post-processor for Cython output

Models `/repo/cli/post-process-cython.py`, which the build runs on every C++ file that Cython wrote
(`/repo/cmake/UseCython.cmake:233-246`): `cppbases` adds calls of base class constructors, and
`cppconstructors` adds declarations of constructors.

* Text is a list of characters.  `\w` and white space are those of ASCII.
* `find`, `rfind` and slices follow Python: a text that is not found is at -1, negative positions count
  from the end, positions outside of the text are moved to its ends.
* `str.replace` is modelled for texts to be replaced that are not empty, which words are not.
* The loops over the file have a bound on the number of turns; the theorems hold for every bound that is
  large enough.  The only exception is `AttributeError`, raised when a regular expression does not match.
-/

namespace Cyclus.PostCython

abbrev Str := List Char

inductive Err where
  | attribute
  | fuel
  deriving DecidableEq, Repr

/-- `\w`. -/
def isWord (c : Char) : Bool := c.isAlphanum || c = '_'

/-- White space. -/
def isSpace (c : Char) : Bool :=
  c = ' ' || c = '\t' || c = '\n' || c = '\r' || c = Char.ofNat 11 || c = Char.ofNat 12

/-- A position in a text of length `n`. -/
def idx (n : ℕ) (i : ℤ) : ℕ := if i < 0 then (n + i).toNat else min i.toNat n

/-- `s[i:j]`. -/
def slice (s : Str) (i j : ℤ) : Str := (s.take (idx s.length j)).drop (idx s.length i)

/-- The first place of a text in another one. -/
def occ (pat : Str) : Str → Option ℕ
  | [] => if pat = [] then some 0 else none
  | c :: s => if pat.isPrefixOf (c :: s) then some 0 else (occ pat s).map (· + 1)

/-- `s.find(pat, i)`. -/
def find (pat s : Str) (i : ℤ) : ℤ :=
  match occ pat (s.drop (idx s.length i)) with
  | some k => (idx s.length i : ℤ) + k
  | none => -1

/-- `s.rfind(c, 0, j)` for a character. -/
def rfind (c : Char) (s : Str) (j : ℤ) : ℤ :=
  match occ [c] (s.take (idx s.length j)).reverse with
  | some k => ((s.take (idx s.length j)).length : ℤ) - 1 - k
  | none => -1

/-- The first part of `s.rpartition(c)`. -/
def beforeLast (c : Char) (s : Str) : Str :=
  match occ [c] s.reverse with
  | some k => s.take (s.length - 1 - k)
  | none => []

/-- `s.strip()`. -/
def strip (s : Str) : Str := ((s.dropWhile isSpace).reverse.dropWhile isSpace).reverse

/-- `s.replace(a, b)`; the number counts characters that were matched already. -/
def repl (a b : Str) : ℕ → Str → Str
  | _, [] => []
  | k + 1, _ :: s => repl a b k s
  | 0, c :: s => if a.isPrefixOf (c :: s) then b ++ repl a b (a.length - 1) s else c :: repl a b 0 s

/-- What follows an opening bracket in a match of `RE_SQUARE_BRACKETS` or `RE_ANGLE_BRACKETS`
(`post-process-cython.py:6-7`), after the first character: the number of characters to the closing
bracket, with it. -/
def inner (o c : Char) : Str → Option ℕ
  | [] => none
  | x :: s => if x = c then some 1 else if x = o then none else (inner o c s).map (· + 1)

/-- The number of characters of a match after the opening bracket: at least one that is not a
bracket, and a closing bracket. -/
def matchLen (o c : Char) : Str → Option ℕ
  | [] => none
  | x :: s => if x = o ∨ x = c then none else (inner o c s).map (· + 1)

/-- `RE.sub('', s)`. -/
def subOnce (o c : Char) : ℕ → Str → Str
  | _, [] => []
  | k + 1, _ :: s => subOnce o c k s
  | 0, x :: s =>
    if x = o then
      match matchLen o c s with
      | some n => subOnce o c n s
      | none => x :: subOnce o c 0 s
    else x :: subOnce o c 0 s

/-- The loop of `remove_cython_templates` and `remove_cpp_templates`
(`post-process-cython.py:23-36`). -/
def removeLoop (o c : Char) : ℕ → Str → Str
  | 0, s => s
  | n + 1, s => if subOnce o c 0 s = s then s else removeLoop o c n (subOnce o c 0 s)

/-- `remove_cython_templates` and `remove_cpp_templates`: each turn but the last makes the text
shorter, so that its length bounds the number of turns. -/
def removeTemplates (o c : Char) (s : Str) : Str := removeLoop o c s.length s

/-- `RE_LAST_WORD.match(x).group(1)` (`post-process-cython.py:5`): the last word, if all before it is in
one line. -/
def lastWord (x : Str) : Except Err Str :=
  let r := x.reverse.dropWhile (fun c => !isWord c)
  let w := (r.takeWhile isWord).reverse
  let p := r.dropWhile isWord
  if w = [] ∨ '\n' ∈ p then .error .attribute else .ok w

/-- `[RE_LAST_WORD.match(x).group(1) for x in l]`. -/
def lastWords : List Str → Except Err (List Str)
  | [] => .ok []
  | x :: l =>
    match lastWord x with
    | .error e => .error e
    | .ok w =>
      match lastWords l with
      | .error e => .error e
      | .ok ws => .ok (w :: ws)

/-- `for cyarg, cpparg in zip(cyargs, cppargs): part = part.replace(cyarg, cpparg)`
(`post-process-cython.py:70-71`). -/
def replAll (l : List (Str × Str)) (part : Str) : Str :=
  l.foldl (fun p e => repl e.1 e.2 0 p) part

/-- The loop over the parts of the bases (`post-process-cython.py:66-73`). -/
def partsLoop (l : List (Str × Str)) : ℕ → ℕ → List Str → List Str
  | _, _, [] => []
  | i, nclose, part :: parts =>
    if i = nclose then part :: partsLoop l (i + 1) nclose parts
    else replAll l part :: partsLoop l (i + 1) (nclose + (replAll l part).count ')') parts

/-- The bases with the names of C++ (`post-process-cython.py:64-74`). -/
def renameBases (l : List (Str × Str)) (bases : Str) : Str :=
  match bases.splitOn '(' with
  | [] => []
  | p :: parts => ['('].intercalate (p :: partsLoop l 1 (p.count ')') parts)

/-- The mark of constructors. -/
def markBases : Str := "C++BASES".toList

/-- The mark of classes. -/
def markCons : Str := "C++CONSTRUCTORS".toList

/-- Models `cppbases_replace_one` (`post-process-cython.py:39-87`). -/
def basesOne (src : Str) (start : ℤ) : Except Err (Str × ℤ) :=
  let prevNl := rfind '\n' src start
  let openSig := find ['('] src prevNl
  let closeSig := find [')'] src openSig
  match lastWords ((removeTemplates '[' ']' (slice src (openSig + 1) closeSig)).splitOn ',') with
  | .error e => .error e
  | .ok cyargs =>
    let nextNl := find ['\n'] src start
    let basesStr := strip (beforeLast '#' (slice src (start + 8) nextNl))
    let commentEnd := find ['*', '/'] src nextNl
    let openSig := find ['('] src commentEnd
    let closeSig := find [')'] src openSig
    match lastWords ((removeTemplates '<' '>' (slice src (openSig + 1) closeSig)).splitOn ',') with
    | .error e => .error e
    | .ok cppargs =>
      let bases := renameBases (cyargs.zip cppargs) basesStr
      let src' := slice src 0 (closeSig + 1) ++ [' ', ':', ' '] ++ bases ++
        src.drop (idx src.length (closeSig + 1))
      let stop := closeSig + 3 + bases.length
      let voidSpace := find "void ".toList (src'.take (idx src'.length openSig)) commentEnd
      if 0 ≤ voidSpace then
        let name := strip (((slice src' (voidSpace + 5) openSig).splitOn ':').headD [])
        let new := name ++ [':', ':'] ++ name
        .ok (slice src' 0 voidSpace ++ new ++ src'.drop (idx src'.length openSig),
          stop + (new.length - (openSig - voidSpace)))
      else .ok (src', stop)

/-- The loop of `cppbases` and `cppconstructors` (`post-process-cython.py:108-112,147-151`). -/
def loop (mark : Str) (one : Str → ℤ → Except Err (Str × ℤ)) : ℕ → Str → ℤ → Except Err Str
  | 0, _, _ => .error .fuel
  | n + 1, src, i =>
    if find mark src i = -1 then .ok src
    else
      match one src (find mark src i) with
      | .error e => .error e
      | .ok (src', stop) => loop mark one n src' stop

/-- Models `cppbases` (`post-process-cython.py:90-112`). -/
def cppbases (n : ℕ) (src : Str) : Except Err Str := loop markBases basesOne n src 0

/-- Models `cppconstructors_replace_one` (`post-process-cython.py:115-129`). -/
def consOne (src : Str) (start : ℤ) : Except Err (Str × ℤ) :=
  let nextNl := find ['\n'] src start
  let conStr := strip (beforeLast '#' (slice src (start + 15) nextNl))
  let cons := [';', '\n', ' ', ' '].intercalate ((conStr.splitOn ';').map strip)
  let commentEnd := find ['*', '/'] src nextNl
  let nextNl := find ['\n'] src commentEnd + 1
  .ok (slice src 0 nextNl ++ [' ', ' '] ++ cons ++ [';', '\n'] ++ src.drop (idx src.length nextNl),
    nextNl + 4 + cons.length)

/-- Models `cppconstructors` (`post-process-cython.py:132-151`). -/
def cppconstructors (n : ℕ) (src : Str) : Except Err Str := loop markCons consOne n src 0

/-- Digits, a point and a digit. -/
def versionAt : Str → Bool → Bool
  | [], _ => false
  | c :: s, seen =>
    if c.isDigit then versionAt s true
    else if c = '.' ∧ seen then (match s with | d :: _ => d.isDigit | [] => false)
    else false

/-- `RE_VERSION.match(src)` (`post-process-cython.py:8,11-20`): a version in the first line. -/
def hasVersion : Str → Bool
  | [] => false
  | c :: s => versionAt (c :: s) false || (if c = '\n' then false else hasVersion s)

/-- Models `main` (`post-process-cython.py:155-164`): what is in the file afterwards. -/
def process (n : ℕ) (src : Str) : Except Err Str :=
  if hasVersion src then
    match cppbases n src with
    | .error e => .error e
    | .ok src' => cppconstructors n src'
  else .error .attribute

end Cyclus.PostCython
