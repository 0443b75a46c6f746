import Verif.Model.JsonText

/-!
# Model of the writer of indented JSON

Models `StyledWriter` (`/repo/src/pyne.cc:16324-16512`), which `str()` of a JSON value in Python calls
(`/repo/cyclus/jsoncpp.pyx:248-255`, 548-580).  Values, their texts and the quoting of strings are those of the model of
C112.

* Values have no comments: the functions that write them do nothing.
* Sizes are not limited to the range of `int`.
* `value[name]` is the member with that name (names with a byte 0 are left out by the theorems).
-/

namespace Cyclus.Styled

open JsonText (Text V scalar quoted)

/-- The members of `StyledWriter` (`pyne.cc:16324-16328`): `document_`, `indentString_`, `childValues_`,
`addChildValues_`.  The constants `rightMargin_` and `indentSize_` are 74 and 3. -/
structure W where
  doc : Text
  ind : Text
  child : List Text
  add : Bool

/-- `document_ += t`. -/
def W.app (w : W) (t : Text) : W := { w with doc := w.doc ++ t }

/-- `pushValue` (`pyne.cc:16470-16476`). -/
def push (t : Text) (w : W) : W := if w.add then { w with child := w.child ++ [t] } else w.app t

/-- `writeIndent` (`pyne.cc:16479-16490`). -/
def writeIndent (w : W) : W :=
  match w.doc.getLast? with
  | none => w.app w.ind
  | some c => if c = ' ' then w else if c ≠ '\n' then w.app ('\n' :: w.ind) else w.app w.ind

/-- `writeWithIndent` (`pyne.cc:16493-16497`). -/
def withIndent (t : Text) (w : W) : W := (writeIndent w).app t

/-- `indent` (`pyne.cc:16500-16503`). -/
def indent (w : W) : W := { w with ind := w.ind ++ [' ', ' ', ' '] }

/-- `unindent` (`pyne.cc:16506-16510`). -/
def unindent (w : W) : W := { w with ind := w.ind.take (w.ind.length - 3) }

/-- An array or object with something in it (`pyne.cc:16451-16453`). -/
def full : V → Bool
  | .arr l => !l.isEmpty
  | .obj ms => !ms.isEmpty
  | _ => false

/-- `childValues_[index]` for all the indices of an array of `n` items. -/
def texts (n : ℕ) (w : W) : List Text := (List.range n).map fun i => w.child.getD i []

/-- The loop with `hasChildValue` (`pyne.cc:16410-16426`). -/
def childLoop : List Text → W → W
  | [], w => w
  | [t], w => withIndent t w
  | t :: u :: l, w => childLoop (u :: l) ((withIndent t w).app [','])

/-- The loop for one line (`pyne.cc:16433-16437`), from the second item if `later`. -/
def lineLoop (later : Bool) : List Text → W → W
  | [], w => w
  | t :: l, w => lineLoop true l ((if later then w.app [',', ' '] else w).app t)

/-- `lineLength` (`pyne.cc:16458-16461`). -/
def lineLength (n : ℕ) (w : W) : ℕ := 4 + (n - 1) * 2 + ((texts n w).map List.length).sum

mutual

/-- `writeValue`, `writeArrayValue` and `isMultineArray` (`pyne.cc:16343-16467`). -/
def writeValue : V → W → W
  | .arr l, w =>
    if l.isEmpty then push ['[', ']'] w
    else
      let w := { w with child := [] }
      if 74 ≤ l.length * 3 ∨ l.any full then
        withIndent [']'] (unindent (itemsLoop l (indent (withIndent ['['] w))))
      else
        let w := { pushItems l { w with add := true } with add := false }
        if 74 ≤ lineLength l.length w then
          let w := indent (withIndent ['['] w)
          withIndent [']'] (unindent
            (if w.child.isEmpty then itemsLoop l w else childLoop (texts l.length w) w))
        else (lineLoop false (texts l.length w) (w.app ['[', ' '])).app [' ', ']']
  | .obj ms, w =>
    if ms.isEmpty then push ['{', '}'] w
    else withIndent ['}'] (unindent (membersLoop ms (indent (withIndent ['{'] w))))
  | .null, w => push (scalar .null) w
  | .int z, w => push (scalar (.int z)) w
  | .uint n, w => push (scalar (.uint n)) w
  | .real x, w => push (scalar (.real x)) w
  | .str s, w => push (scalar (.str s)) w
  | .bool b, w => push (scalar (.bool b)) w

/-- The loop without `hasChildValue` (`pyne.cc:16410-16426`). -/
def itemsLoop : List V → W → W
  | [], w => w
  | [x], w => writeValue x (writeIndent w)
  | x :: y :: l, w => itemsLoop (y :: l) ((writeValue x (writeIndent w)).app [','])

/-- The loop over the members (`pyne.cc:16376-16391`). -/
def membersLoop : List (Text × V) → W → W
  | [], w => w
  | [(k, x)], w => writeValue x ((withIndent (quoted k) w).app [' ', ':', ' '])
  | (k, x) :: y :: l, w =>
    membersLoop (y :: l) ((writeValue x ((withIndent (quoted k) w).app [' ', ':', ' '])).app [','])

/-- The loop that collects the texts of the items (`pyne.cc:16459-16463`). -/
def pushItems : List V → W → W
  | [], w => w
  | x :: l, w => pushItems l (writeValue x w)

end

/-- `write` (`pyne.cc:16330-16340`) of a writer that may have been used before. -/
def write (w : W) (v : V) : Text :=
  ((writeValue v { w with doc := [], add := false, ind := [] }).app ['\n']).doc

/-- `str()` (`jsoncpp.pyx:248-255`) of a value with a new writer, before it is decoded. -/
def str (v : V) : Text :=
  let t := write ⟨[], [], [], false⟩ v
  match v with
  | .str _ => (t.drop 1).take (t.length - 3)
  | _ => t.dropLast

end Cyclus.Styled
