import Verif.Model.Basic
import Mathlib.Data.List.Basic

/-!
# Model of the discovery of archetypes and of the search for files

Models `/repo/src/discovery.cc:23-46, 80-128` and `/repo/src/env.cc.in:98-162, 179-200`, on a system
where libraries end in `.so`.  Text is a list of characters.  The file system is an arbitrary predicate
(which paths exist) or a tree of entries; reading from it never fails.  Loading of libraries
(`DynamicModule::Exists`) is not modelled.
-/

namespace Cyclus.Discovery

/-- The characters of `words`, `/repo/src/discovery.cc:29-30`. -/
def isWord (c : Char) : Bool := c.isAlphanum || c == '_'

/-- `/repo/src/discovery.cc:31`. -/
def construct : List Char := ['C', 'o', 'n', 's', 't', 'r', 'u', 'c', 't']

/-- The loop of `DiscoverArchetypes` over the text that follows character `prev`; the first `skip`
characters are jumped over by the assignments to `offset` in lines 39 and 43.
The names found are collected in order of their occurrence.
Models `/repo/src/discovery.cc:35-44`.  (If `end_offset` is `npos` the rest of the text consists of
word characters and all of it is jumped over; the comparison with `offset+lenconstruct` in line 37 is
then false even if no character follows.) -/
def scan : ℕ → Char → List Char → List (List Char)
  | _, _, [] => []
  | skip + 1, _, c :: cs => scan skip c cs
  | 0, prev, c :: cs =>
    if construct.isPrefixOf (c :: cs) then
      let t := (c :: cs).drop construct.length
      let w := t.takeWhile isWord
      if isWord prev || (w.isEmpty && !t.isEmpty) then scan (construct.length - 1) c cs
      else w :: scan (construct.length - 1 + w.length) c cs
    else scan 0 c cs

/-- `DiscoverArchetypes`: the names in order of occurrence.  Models `/repo/src/discovery.cc:23-46`.
`none`: the text starts with the searched word and `s[offset-1]` reads outside of it.  (Otherwise the
first character is never the start of a match, and no character precedes it.) -/
def discover : List Char → Option (List (List Char))
  | [] => some []
  | c :: cs => if construct.isPrefixOf (c :: cs) then none else some (scan 0 c cs)

/-- A directory tree: names of files and of directories. -/
inductive Entry where
  | file (name : List Char)
  | dir (name : List Char) (entries : List Entry)

/-- The files that `DiscoverSpecsInDir` looks at.  Models `/repo/src/discovery.cc:90-112`.
For a directory `is_regular_file` is false and recursion into it is disabled (102-103), so that the
iterator stays at depth 0. -/
def visited (suffix : List Char) : List Entry → List (List Char)
  | [] => []
  | .file n :: rest => if suffix.isSuffixOf n then n :: visited suffix rest else visited suffix rest
  | .dir _ _ :: rest => visited suffix rest

/-- `boost::split` by a delimiter. -/
def split (d : Char) : List Char → List (List Char)
  | [] => [[]]
  | c :: cs =>
    if c = d then [] :: split d cs
    else match split d cs with
      | [] => [[c]]
      | p :: ps => (c :: p) :: ps

/-- `Env::cyclus_path`.  Models `/repo/src/env.cc.in:155-162`; `env` is the value of `CYCLUS_PATH`, or
empty if it is not set (74-80), `inst` and `build` are the install and build path. -/
def cyclusPath (env inst build : List Char) : List (List Char) :=
  split ':' env ++ [inst ++ "/lib/cyclus".toList, build ++ "/lib/cyclus".toList]

/-- The loop of `FindModule`.  Models `/repo/src/env.cc.in:187-192`; `join` is `operator/` of paths. -/
def findIn (ex : List Char → Bool) (join : List Char → List Char → List Char) (path : List Char) :
    List (List Char) → Option (List Char)
  | [] => none
  | d :: ds => if ex (join d path) then some (join d path) else findIn ex join path ds

/-- `Env::FindModule`.  Models `/repo/src/env.cc.in:179-200`; `py` is `PyFindModule`. -/
def findModule (ex : List Char → Bool) (join : List Char → List Char → List Char)
    (py : List Char → List Char) (dirs : List (List Char)) (path lib : List Char) :
    Except Err (List Char) :=
  match findIn ex join path dirs with
  | some p => .ok p
  | none =>
    if !lib.isEmpty && !(py lib).isEmpty then .ok (py lib) else .error .io

/-- `Env::nuc_data` and `Env::rng_schema`: a file named by an environment variable, or `name` below
`/share/cyclus` in the install or build path.  Models `/repo/src/env.cc.in:98-153`. -/
def dataFile (ex : List Char → Bool) (env inst build name : List Char) : Except Err (List Char) :=
  if env ≠ [] ∧ ex env then .ok env
  else if ex (inst ++ "/share/cyclus/".toList ++ name) then
    .ok (inst ++ "/share/cyclus/".toList ++ name)
  else if ex (build ++ "/share/cyclus/".toList ++ name) then
    .ok (build ++ "/share/cyclus/".toList ++ name)
  else .error .io

end Cyclus.Discovery
