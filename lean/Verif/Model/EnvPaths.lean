import Mathlib.Data.List.Basic

/-!
# Model of the environment: the directory of the installation, switches and lists of paths

Models `Env` (`/repo/src/env.cc.in:25-80,120-153,164-174`, `/repo/src/env.h:30-49,98-107`); the order in which modules are searched is C84.

Simplifications.
* What `which cyclus` prints, which files exist, the variables of the environment and the directories that are fixed when Cyclus is built are arbitrary; the
  output of `which` has no character 0.  That `popen` fails is left out.
* `parent_path` of boost is modelled for paths that do not begin with two slashes.
* `tolower` is that of the locale "C".
-/

namespace Cyclus.EnvPaths

/-- Texts. -/
abbrev Txt := List Char

/-- What the system says. -/
structure World where
  /-- The output of `which cyclus`. -/
  which : Txt
  /-- `fs::exists`. -/
  «exists» : Txt → Bool
  /-- `@cyclus_install_dir@` and `@cyclus_build_dir@`. -/
  installDir : Txt
  buildDir : Txt
  /-- `getenv`. -/
  env : Txt → Option Txt
  /-- `@default_allow_milps@`. -/
  milps : Bool
  /-- `nuc_data` (C84), `none` if it throws. -/
  nucData : Option Txt

/-- `PathBase` (`env.cc.in:25-32`): the text before the last slash; without a slash, the index is -1 and `substr` gives all. -/
def pathBase (p : Txt) : Txt :=
  match p.reverse.dropWhile (· != '/') with
  | [] => p
  | _ :: b => b.reverse

/-- `fs::path(p).parent_path()`. -/
def parent (p : Txt) : Txt :=
  match p.reverse.dropWhile (· != '/') with
  | [] => []
  | _ :: b =>
    match b.dropWhile (· == '/') with
    | [] => if p.reverse.takeWhile (· != '/') = [] then [] else ['/']
    | c :: r => (c :: r).reverse

/-- `resize(strlen(c_str()))` (lines 52-57 and 64-70). -/
def cut (t : Txt) : Txt := t.takeWhile (· != Char.ofNat 0)

/-- `GetInstallPath` (`env.cc.in:34-60`) with the value of `instdir_`: the result and the new value. -/
def getInstallPath (w : World) (instdir : Txt) : Txt × Txt :=
  if instdir ≠ [] then (instdir, instdir)
  else
    let found := if w.which = [] then w.installDir else parent (parent w.which)
    let found := if w.exists found then found else w.installDir
    (cut found, cut found)

/-- `GetEnv` (`env.cc.in:74-80`). -/
def getEnv (w : World) (name : Txt) : Txt :=
  match w.env name with
  | none => []
  | some v => v

/-- `rng_schema` (`env.cc.in:120-153`): the file, or the beginning of the message. -/
def rngSchema (w : World) (install : Txt) (flat : Bool) : Except Txt Txt :=
  let p := getEnv w "CYCLUS_RNG_SCHEMA".toList
  if p ≠ [] ∧ w.exists p = true then .ok p
  else if flat then
    if w.exists (install ++ "/share/cyclus/cyclus-flat.rng.in".toList) then .ok (install ++ "/share/cyclus/cyclus-flat.rng.in".toList)
    else if w.exists (cut w.buildDir ++ "/share/cyclus/cyclus-flat.rng.in".toList) then
      .ok (cut w.buildDir ++ "/share/cyclus/cyclus-flat.rng.in".toList)
    else .error "cyclus.rng.in not found".toList
  else
    if w.exists (install ++ "/share/cyclus/cyclus.rng.in".toList) then .ok (install ++ "/share/cyclus/cyclus.rng.in".toList)
    else if w.exists (cut w.buildDir ++ "/share/cyclus/cyclus.rng.in".toList) then
      .ok (cut w.buildDir ++ "/share/cyclus/cyclus.rng.in".toList)
    else .error "cyclus-flat.rng.in not found".toList

/-- `allow_milps` (`env.cc.in:164-174`). -/
def allowMilps (w : World) : Bool :=
  match w.env "ALLOW_MILPS".toList with
  | none => w.milps
  | some v =>
    let s := v.map Char.toLower
    !(s == [] || s == "f".toList || s == "false".toList || s == "0".toList)

/-- The items that `getline` reads, after the characters `cur` of the present one. -/
def lines (delim : Char) (cur : Txt) : Txt → List Txt
  | [] => if cur = [] then [] else [cur]
  | c :: r => if c = delim then cur :: lines delim [] r else lines delim (cur ++ [c]) r

/-- `SplitPath` (`env.h:30-49`). -/
def splitPath (s : Txt) (delim : Char) : List Txt := lines delim [] s

/-- `SetNucDataPath()` (`env.h:98-100`): the new value of `NUC_DATA_PATH`, and whether it throws. -/
def setDefault (w : World) (path : Txt) : Txt × Bool :=
  match w.nucData with
  | none => (path, true)
  | some p => (p, false)

/-- `SetNucDataPath(p)` (`env.h:103-107`). -/
def setNucData (w : World) (_path p : Txt) : Txt × Bool := (p, !w.exists p)

end Cyclus.EnvPaths
