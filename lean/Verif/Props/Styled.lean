import Verif.Lemmas.Styled
import Verif.Props.JsonText

/-!
# C131: indented JSON
-/

namespace Cyclus.Styled.Props

open Cyclus.Styled Spec JsonText
open Kahan (Dbl)

/-- **C131.**  `StyledWriter` writes every value in the layout of the specification, and a line feed: objects on a line for
each member, arrays on one line if it is short and has only plain items, and each level of depth indented by three spaces.
It does not matter what the writer was used for before. -/
theorem C131_layout (w : W) (v : V) (h : Writable v) : write w v = layout scalar quoted [] v ++ ['\n'] :=
  write_eq w h

/-- A value with an array on one line, a nested array and empty containers. -/
def demo : V :=
  .obj [(['a'], .arr [.int 1, .bool true, .arr []]), (['b'], .arr [.arr [.int 2], .obj []])]

/-- Its text.  The writer has some remains from before. -/
example : write ⟨['x'], [' '], [['y']], true⟩ demo =
    "{\n   \"a\" : [ 1, true, [] ],\n   \"b\" : [\n      [ 2 ],\n      {}\n   ]\n}\n".toList := by
  decide +kernel

/-- A long array is not on one line. -/
example : write ⟨[], [], [], false⟩ (.arr [.str (List.replicate 40 'a'), .str (List.replicate 40 'b')]) =
    "[\n   \"aaaaaaaaaaaaaaaaaaaaaaaaaaaaaaaaaaaaaaaa\",\n   \"bbbbbbbbbbbbbbbbbbbbbbbbbbbbbbbbbbbbbbbb\"\n]\n".toList := by
  decide +kernel

example : Writable sample := sample_writable

/-- What is written is read back, with the doubles rounded to 16 digits and the type of an integer chosen by its size.  The
full statement is that it is the same value; see `C131_fails_real`. -/
theorem C131_reads_partial (rd : ℚ → Dbl) (w : W) (v : V) (h : Writable v) :
    ∃ v', parse rd (write w v) = .ok v' ['\n'] ∧ Back rd v v' := by
  refine ⟨meaning (rounded rd v), ?_, rounded_back rd v h⟩
  obtain ⟨f, hf⟩ := read_value True rd _ _ [] ['\n'] white_nil (layout_text rd v h [] white_nil) (rounded_fits rd v h)
    (stop_cons (by decide) [])
  rw [write_eq w h]
  exact parse_of hf

/-- It is the same value if the doubles have at most 16 digits, integers up to 2³¹-1 are signed and those above
unsigned. -/
theorem C131_same_partial (rd : ℚ → Dbl) (w : W) (v : V) (h : Writable v) (hs : Short rd v) :
    parse rd (write w v) = .ok v ['\n'] := by
  obtain ⟨v', h1, h2⟩ := C131_reads_partial rd w v h
  rw [h1, back_short rd v v' hs h2]

example : Writable demo ∧ Short .num demo := by
  refine ⟨?_, ?_⟩
  · simp only [demo, Writable, WritableItems, WritableMembers]
    refine ⟨⟨by decide, ⟨by norm_num, trivial, trivial, trivial⟩, by decide,
      ⟨⟨by norm_num, trivial⟩, ⟨trivial, List.Pairwise.nil⟩, trivial⟩, trivial⟩, ?_⟩
    exact List.pairwise_cons.mpr ⟨fun q hq => by
      rw [List.mem_singleton] at hq; rw [hq]; decide, List.pairwise_singleton _ _⟩
  · simp only [demo, Short, ShortItems, ShortMembers]
    norm_num

/-- `str()` of a value that is no string is its layout, without the line feed; reading it gives the value back. -/
theorem C131_str_partial (rd : ℚ → Dbl) (v : V) (h : Writable v) (hn : ∀ s, v ≠ .str s) :
    str v = layout scalar quoted [] v ∧ ∃ v', parse rd (str v ++ ['\n']) = .ok v' ['\n'] ∧ Back rd v v' := by
  have e : str v = layout scalar quoted [] v := by
    have : str v = (write ⟨[], [], [], false⟩ v).dropLast := by
      cases v with
      | str s => exact absurd rfl (hn s)
      | _ => rfl
    rw [this, write_eq _ h, List.dropLast_concat]
  refine ⟨e, ?_⟩
  rw [e, ← write_eq ⟨[], [], [], false⟩ h]
  exact C131_reads_partial rd _ v h

example : ∀ s, demo ≠ .str s := by intro s h; cases h

/-- `str()` of a string is the text between the quotes: it stands for the string, with its escapes. -/
theorem C131_text (s : Text) (h : Char.ofNat 0 ∉ s) : Lit s (str (.str s)) := by
  obtain ⟨l, hl, e⟩ := quoted_lit h
  have : str (.str s) = l := by
    have hw : write ⟨[], [], [], false⟩ (.str s) = '"' :: l ++ ['"'] ++ ['\n'] := by
      rw [write_eq _ (by rw [Writable]; exact h), layout, scalar, e]
    have hs : str (.str s) = ((write ⟨[], [], [], false⟩ (.str s)).drop 1).take
      ((write ⟨[], [], [], false⟩ (.str s)).length - 3) := rfl
    rw [hs, hw]
    simp
  rw [this]
  exact hl

/-- So it is not the string if that has a quote in it. -/
theorem C131_fails_str : str (.str ['a', '"']) = ['a', '\\', '"'] := by decide +kernel

/-- Two doubles are written in the same way, so that one of them is not read back. -/
theorem C131_fails_real (w : W) : ∃ x y : ℚ, x ≠ y ∧ write w (.real (.num x)) = write w (.real (.num y)) := by
  obtain ⟨x, y, hx, hy, h1, h2⟩ := C112_fails_real
  refine ⟨x, y, by rw [hx, hy]; norm_num, ?_⟩
  have : ∀ z : ℚ, write w (.real (.num z)) = fast (.real (.num z)) := by
    intro z
    rw [write, writeValue, fast, fastValue]
    simp [push, W.app]
  rw [this, this, h1, h2]

end Cyclus.Styled.Props
