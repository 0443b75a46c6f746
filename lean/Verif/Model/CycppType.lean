import Verif.Model.Cycpp
import Verif.Model.CycppScan

/-!
# Model of the canonical form of the type of a state variable

Models `canonize_type` and `_canonize_targs` (`/repo/cli/cycpp.py:745-828`) on the types of `Cycpp.Ty`.

* `split()` and `strip()` know white space of ASCII only (`CycppScan.isSpace`).
* The sets of namespaces used and of aliases are those of the accumulator, with depths; where Python sorts
  them, by depth and then by name, the model sorts them.
* Messages are left out.
-/

namespace Cyclus.CycppType

open Cycpp (Ty)
open CycppScan (isSpace words within)

abbrev Str := List Char

/-- What a call gives: a type, a `TypeError`, or no result within the calls allowed. -/
inductive Res where
  | ok (t : Ty)
  | type
  | deep

/-- `known_templates` (`cli/cycpp.py:750-758`). -/
def templates : List Str :=
  [['s', 't', 'd', ':', ':', 'v', 'e', 'c', 't', 'o', 'r'],
   ['s', 't', 'd', ':', ':', 's', 'e', 't'],
   ['s', 't', 'd', ':', ':', 'l', 'i', 's', 't'],
   ['s', 't', 'd', ':', ':', 'p', 'a', 'i', 'r'],
   ['s', 't', 'd', ':', ':', 'm', 'a', 'p'],
   ['c', 'y', 'c', 'l', 'u', 's', ':', ':', 't', 'o', 'o', 'l', 'k', 'i', 't', ':', ':', 'R', 'e', 's', 'B', 'u', 'f'],
   ['c', 'y', 'c', 'l', 'u', 's', ':', ':', 't', 'o', 'o', 'l', 'k', 'i', 't', ':', ':', 'R', 'e', 's', 'M', 'a', 'p']]

/-- The strings in `supported_types` (`cli/cycpp.py:96-106`, 745-749). -/
def supported : List Str :=
  [['b', 'o', 'o', 'l'], ['i', 'n', 't'], ['f', 'l', 'o', 'a', 't'], ['d', 'o', 'u', 'b', 'l', 'e'],
   ['s', 't', 'd', ':', ':', 's', 't', 'r', 'i', 'n', 'g'],
   ['c', 'y', 'c', 'l', 'u', 's', ':', ':', 'B', 'l', 'o', 'b'],
   ['b', 'o', 'o', 's', 't', ':', ':', 'u', 'u', 'i', 'd', 's', ':', ':', 'u', 'u', 'i', 'd'],
   ['c', 'y', 'c', 'l', 'u', 's', ':', ':', 't', 'o', 'o', 'l', 'k', 'i', 't', ':', ':', 'R', 'e', 's', 'B', 'u', 'f'],
   ['c', 'y', 'c', 'l', 'u', 's', ':', ':', 't', 'o', 'o', 'l', 'k', 'i', 't', ':', ':', 'R', 'e', 's', 'M', 'a', 'p'],
   ['c', 'y', 'c', 'l', 'u', 's', ':', ':', 't', 'o', 'o', 'l', 'k', 'i', 't', ':', ':', 'T', 'o', 't', 'a', 'l', 'I',
    'n', 'v', 'T', 'r', 'a', 'c', 'k', 'e', 'r'],
   ['c', 'y', 'c', 'l', 'u', 's', ':', ':', 'R', 'e', 's', 'o', 'u', 'r', 'c', 'e'],
   ['c', 'y', 'c', 'l', 'u', 's', ':', ':', 'M', 'a', 't', 'e', 'r', 'i', 'a', 'l'],
   ['c', 'y', 'c', 'l', 'u', 's', ':', ':', 'P', 'r', 'o', 'd', 'u', 'c', 't']]

/-- `" ".join(l)`. -/
def unwords : List Str → Str
  | [] => []
  | [a] => a
  | a :: b :: r => a ++ ' ' :: unwords (b :: r)

/-- `" ".join(t.strip().strip(scopz).split())` (`cli/cycpp.py:795`, 799). -/
def norm (t : Str) : Str := unwords (words (Cycpp.strip (· = ':') (Cycpp.strip isSpace t)))

/-- `len(t.split("::"))`. -/
def parts : Str → ℕ
  | [] => 1
  | ':' :: ':' :: s => 1 + parts s
  | _ :: s => parts s

/-- The order of strings. -/
def strLe : Str → Str → Bool
  | [], _ => true
  | _ :: _, [] => false
  | c :: s, d :: t => c.toNat < d.toNat || (c.toNat = d.toNat && strLe s t)

/-- The order of pairs of a depth and a string. -/
def pairLe (a b : ℤ × Str) : Bool := a.1 < b.1 || (a.1 = b.1 && strLe a.2 b.2)

/-- Inserts into a list in descending order. -/
def insertDesc (x : ℤ × Str) : List (ℤ × Str) → List (ℤ × Str)
  | [] => [x]
  | y :: l => if pairLe y x then x :: y :: l else y :: insertDesc x l

/-- `sorted(l, reverse=True)` (`cli/cycpp.py:776`, 808). -/
def sortDesc (l : List (ℤ × Str)) : List (ℤ × Str) := l.foldr insertDesc []

/-- The alias that is last in the order, if there is one (`cli/cycpp.py:771-774`, 803-806). -/
def pick (aliases : List (ℤ × Str × Str)) (t : Str) : Option Str :=
  ((sortDesc ((aliases.filter (fun x => x.2.2 = t)).map fun x => (x.1, x.2.1))).head?).map (·.2)

/-- The arguments one after the other (`cli/cycpp.py:827`). -/
def each (f : Ty → Res) : List Ty → Except Res (List Ty)
  | [] => .ok []
  | a :: l =>
    match f a with
    | .ok t =>
      match each f l with
      | .ok ts => .ok (t :: ts)
      | .error e => .error e
    | e => .error e

/-- `_canonize_targs` (`cli/cycpp.py:825-828`). -/
def targs (f : Ty → Res) (n : Str) (args : List Ty) : Res :=
  match each f args with
  | .ok ts => .ok (.tup n ts)
  | .error e => e

/-- The loop over the namespaces used (`cli/cycpp.py:776-790`, 808-822): a `TypeError` is caught. -/
def usingLoop (f : Str → Res) (t : Str) : List (ℤ × Str) → Res
  | [] => .type
  | u :: l =>
    if parts u.2 < parts t then usingLoop f t l
    else
      match f (within u.2 t) with
      | .type => usingLoop f t l
      | r => r

/-- `canonize_type` (`cli/cycpp.py:762-823`), in at most so many nested calls. -/
def canonize (usings : List (ℤ × Str)) (aliases : List (ℤ × Str × Str)) : ℕ → Ty → Res
  | 0, _ => .deep
  | n + 1, .tup name args =>
    if templates.contains name then targs (canonize usings aliases n) name args
    else
      match pick aliases name with
      | some a => targs (canonize usings aliases n) a args
      | none => usingLoop (fun m => canonize usings aliases n (.tup m args)) name (sortDesc usings)
  | n + 1, .str t =>
    if t.contains '<' then
      match Cycpp.parseTemplate ((norm t).length + 1) (norm t) with
      | none => .deep
      | some ty => canonize usings aliases n ty
    else if supported.contains (norm t) then .ok (.str (norm t))
    else
      match pick aliases (norm t) with
      | some a => canonize usings aliases n (.str a)
      | none => usingLoop (fun m => canonize usings aliases n (.str m)) (norm t) (sortDesc usings)

/-- The function for the accumulator. -/
def canonType (fuel : ℕ) (usings : List (ℤ × Str)) (aliases : List (ℤ × Str × Str)) (t : Str) : Except CycppScan.Err Ty :=
  match canonize usings aliases fuel (.str t) with
  | .ok ty => .ok ty
  | .type => .error .type
  | .deep => .error .recursion

end Cyclus.CycppType
