import Verif.Model.Stub
import Verif.Spec.Stub
import Mathlib.Data.List.Induction
import Mathlib.Data.List.Infix

/-! # Lemmas on specifications of archetypes -/

namespace Cyclus.Stub

open Spec

theorem splitC_none {a : Txt} (h : ':' ∉ a) : splitC a = [a] := by
  induction a with
  | nil => rfl
  | cons c a ih =>
    simp only [List.mem_cons, not_or] at h
    rw [splitC, if_neg (Ne.symm h.1), ih h.2]; rfl

theorem splitC_append {a : Txt} (h : ':' ∉ a) (l : Txt) : splitC (a ++ ':' :: l) = a :: splitC l := by
  induction a with
  | nil => simp [splitC]
  | cons c a ih =>
    simp only [List.mem_cons, not_or] at h
    rw [List.cons_append, splitC, if_neg (Ne.symm h.1), ih h.2]; rfl

theorem splitC_joined {path lib arch : Txt} (h : Parts path lib arch) : splitC (joined path lib arch) = [path, lib, arch] := by
  rw [joined, splitC_append h.noPath, splitC_append h.noLib, splitC_none h.noArch]

theorem splitCC_none {a : Txt} (h : ':' ∉ a) : splitCC a = [a] := by
  induction a with
  | nil => simp [splitCC]
  | cons c a ih =>
    simp only [List.mem_cons, not_or] at h
    rw [splitCC, if_neg (fun x => h.1 x.1.symm), ih h.2]; rfl

theorem splitCC_two {a : Txt} (h : ':' ∉ a) (l : Txt) : splitCC (a ++ ':' :: ':' :: l) = a :: splitCC l := by
  induction a with
  | nil => rw [List.nil_append, splitCC, if_pos ⟨rfl, rfl⟩]; rfl
  | cons c a ih =>
    simp only [List.mem_cons, not_or] at h
    rw [List.cons_append, splitCC, if_neg (fun x => h.1 x.1.symm), ih h.2]; rfl

theorem splitCC_one {a : Txt} (h : ':' ∉ a) {l t : Txt} (hl : l.head? ≠ some ':') (ht : splitCC l = [t]) :
    splitCC (a ++ ':' :: l) = [a ++ ':' :: t] := by
  induction a with
  | nil => rw [List.nil_append, splitCC, if_neg (fun x => hl x.2), ht]; rfl
  | cons c a ih =>
    simp only [List.mem_cons, not_or] at h
    rw [List.cons_append, splitCC, if_neg (fun x => h.1 x.1.symm), ih h.2]; rfl

theorem dropWhile_head {p : Char → Bool} {l : Txt} (h : ∀ c, l.head? = some c → p c = false) : l.dropWhile p = l := by
  cases l with
  | nil => rfl
  | cons c l => rw [List.dropWhile_cons, h c rfl]; rfl

theorem strip_id {l : Txt} (h1 : ∀ c, l.head? = some c → c.isWhitespace = false)
    (h2 : ∀ c, l.getLast? = some c → c.isWhitespace = false) : strip l = l := by
  rw [strip, dropWhile_head h1, dropWhile_head, List.reverse_reverse]
  intro c hc
  rw [List.head?_reverse] at hc
  exact h2 c hc

theorem strip_pad {l : Txt} (hn : l ≠ []) (h1 : ∀ c, l.head? = some c → c.isWhitespace = false)
    (h2 : ∀ c, l.getLast? = some c → c.isWhitespace = false) : strip (' ' :: (l ++ ['\n'])) = l := by
  have e1 : (' ' :: (l ++ ['\n'])).dropWhile Char.isWhitespace = l ++ ['\n'] := by
    rw [List.dropWhile_cons, if_pos (by decide)]
    apply dropWhile_head
    intro c hc
    apply h1 c
    cases l with
    | nil => exact absurd rfl hn
    | cons d l => exact hc
  rw [strip, e1, List.reverse_append]
  show (List.dropWhile Char.isWhitespace ('\n' :: l.reverse)).reverse = l
  rw [List.dropWhile_cons, if_pos (by decide), dropWhile_head, List.reverse_reverse]
  intro c hc
  rw [List.head?_reverse] at hc
  exact h2 c hc

theorem joined_ne (path lib arch : Txt) : joined path lib arch ≠ [] := by
  intro h
  have := congrArg List.length h
  simp [joined] at this

theorem joined_head {path lib arch : Txt} (h : Parts path lib arch) (c : Char) (hc : (joined path lib arch).head? = some c) :
    c.isWhitespace = false := by
  cases hp : path with
  | nil =>
    rw [hp] at hc
    have : ':' = c := by simpa [joined] using hc
    subst this; decide
  | cons d p =>
    apply h.left c
    rw [hp] at hc ⊢
    exact hc

theorem joined_last {path lib arch : Txt} (h : Parts path lib arch) (c : Char) (hc : (joined path lib arch).getLast? = some c) :
    c.isWhitespace = false := by
  cases ha : arch using List.reverseRecOn with
  | nil =>
    rw [ha] at hc
    have e : joined path lib [] = (path ++ ':' :: lib) ++ [':'] := by simp [joined]
    rw [e, List.getLast?_concat] at hc
    have : ':' = c := by simpa using hc
    subst this; decide
  | append_singleton l d =>
    apply h.right c
    rw [ha] at hc ⊢
    have e : joined path lib (l ++ [d]) = (path ++ ':' :: (lib ++ ':' :: l)) ++ [d] := by simp [joined]
    rw [e, List.getLast?_concat] at hc
    rw [List.getLast?_concat]; exact hc

theorem parse_joined {path lib arch : Txt} (h : Parts path lib arch) : parseSpec (joined path lib arch) = [path, lib, arch] := by
  rw [parseSpec, strip_id (joined_head h) (joined_last h), splitC_joined h]

theorem firstLine_eq (path lib arch : Txt) :
    firstLine path lib arch = "# DO NOT DELETE THIS LINE".toList ++ ':' :: ':' :: (' ' :: (joined path lib arch ++ ['\n'])) := by
  have e1 : "::".toList = [':', ':'] := by decide
  have e2 : " ".toList = [' '] := by decide
  have e3 : ":".toList = [':'] := by decide
  have e4 : "\n".toList = ['\n'] := by decide
  unfold firstLine joined
  rw [e1, e2, e3, e4]
  generalize "# DO NOT DELETE THIS LINE".toList = z
  simp

theorem read_first {path lib arch : Txt} (h : Parts path lib arch) (hl : lib ≠ []) :
    readSpec (firstLine path lib arch) = some (path, lib, arch) := by
  have e : splitCC (' ' :: (joined path lib arch ++ ['\n'])) = [' ' :: (joined path lib arch ++ ['\n'])] := by
    have h3 : splitCC (arch ++ ['\n']) = [arch ++ ['\n']] := by
      apply splitCC_none
      simp [h.noArch]
    have h2 := splitCC_one h.noLib (l := arch ++ ['\n']) (t := arch ++ ['\n']) (by
      cases ha : arch with
      | nil => decide
      | cons c a =>
        intro x
        have hx : c = ':' := by simpa using x
        apply h.noArch
        rw [ha, hx]; exact List.mem_cons_self) h3
    have h1 := splitCC_one (a := ' ' :: path) (by simp [h.noPath]) (l := lib ++ ':' :: (arch ++ ['\n'])) (by
      cases hb : lib with
      | nil => exact absurd hb hl
      | cons c a =>
        intro x
        have hx : c = ':' := by simpa using x
        apply h.noLib
        rw [hb, hx]; exact List.mem_cons_self) h2
    simpa [joined] using h1
  have hs : strip (' ' :: (joined path lib arch ++ ['\n'])) = joined path lib arch :=
    strip_pad (joined_ne _ _ _) (joined_head h) (joined_last h)
  rw [readSpec, firstLine_eq, splitCC_two (by decide), e]
  dsimp only
  rw [hs, parse_joined h]; rfl

theorem insert_first {t x : Txt} {a b : List Txt} {m : Txt} (ha : ∀ l ∈ a, within t l = false) (hm : within t m = true) :
    insertLine t x (a ++ m :: b) = some (a ++ m :: x :: b) := by
  induction a with
  | nil => rw [List.nil_append, insertLine, if_pos hm]; rfl
  | cons c a ih =>
    rw [List.cons_append, insertLine, if_neg (by rw [ha c List.mem_cons_self]; decide),
      ih (fun l hl => ha l (List.mem_cons_of_mem _ hl))]; rfl

theorem insert_none {t x : Txt} {a : List Txt} (ha : ∀ l ∈ a, within t l = false) : insertLine t x a = none := by
  induction a with
  | nil => rfl
  | cons c a ih =>
    rw [insertLine, if_neg (by rw [ha c List.mem_cons_self]; decide), ih (fun l hl => ha l (List.mem_cons_of_mem _ hl))]; rfl

theorem within_iff {t l : Txt} : within t l = true ↔ t <:+: l := by
  rw [within, List.any_eq_true, List.infix_iff_prefix_suffix]
  constructor
  · rintro ⟨s, h1, h2⟩
    exact ⟨s, List.isPrefixOf_iff_prefix.1 h2, (List.mem_tails _ _).1 h1⟩
  · rintro ⟨s, h1, h2⟩
    exact ⟨s, (List.mem_tails _ _).2 h2, List.isPrefixOf_iff_prefix.2 h1⟩

theorem not_within {t l : Txt} (h : ¬ t <:+: l) : within t l = false := by
  cases e : within t l with
  | false => rfl
  | true => exact absurd (within_iff.1 e) h

theorem within_here : within marker here = true := by decide +kernel

end Cyclus.Stub
