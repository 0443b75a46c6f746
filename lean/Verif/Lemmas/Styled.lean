import Verif.Model.Styled
import Verif.Spec.Styled
import Verif.Lemmas.JsonWrite

/-!
# Lemmas for indented JSON (C131)
-/

namespace Cyclus.Styled

open JsonText Spec
open Kahan (Dbl)

/-! ## The last character -/

/-- A text that ends with something to be seen. -/
def Ends (t : Text) : Prop := ∃ r c, t = r ++ [c] ∧ c ≠ ' ' ∧ c ≠ '\n'

theorem Ends.append {t : Text} (h : Ends t) (s : Text) : Ends (s ++ t) := by
  obtain ⟨r, c, rfl, hc⟩ := h
  exact ⟨s ++ r, c, by simp, hc⟩

theorem Ends.cons {t : Text} (h : Ends t) (a : Char) : Ends (a :: t) := h.append [a]

theorem ends_snoc (t : Text) {c : Char} (h : c ≠ ' ' ∧ c ≠ '\n') : Ends (t ++ [c]) := ⟨t, c, rfl, h⟩

theorem isNum_seen {c : Char} (h : isNum c = true) : c ≠ ' ' ∧ c ≠ '\n' := by
  constructor <;> rintro rfl <;> revert h <;> decide

theorem shape_ends {t : Text} (h : ∃ c l, t = c :: l ∧ (isDig c = true ∨ c = '-') ∧ ∀ x ∈ l, isNum x = true) :
    Ends t := by
  obtain ⟨c, l, rfl, hc, hl⟩ := h
  have hc' : isNum c = true := by
    rcases hc with hc | rfl
    · exact isNum_dig hc
    · decide
  refine ⟨(c :: l).dropLast, (c :: l).getLast (by simp), (List.dropLast_append_getLast _).symm, isNum_seen ?_⟩
  have := List.getLast_mem (l := c :: l) (by simp)
  rcases List.mem_cons.1 this with e | hm
  · rw [e]; exact hc'
  · exact hl _ hm

theorem text_ends {rd : ℚ → Dbl} {v : V} {t : Text} (h : IsText (Number True rd) v t) : Ends t := by
  cases v with
  | null => rw [IsText] at h; subst h; exact ⟨"nul".toList, 'l', rfl, by decide, by decide⟩
  | bool b =>
    rw [IsText] at h
    subst h
    cases b
    · exact ⟨"fals".toList, 'e', rfl, by decide, by decide⟩
    · exact ⟨"tru".toList, 'e', rfl, by decide, by decide⟩
  | int z => rw [IsText] at h; exact shape_ends h.shape
  | uint z => rw [IsText] at h; exact shape_ends h.shape
  | real x =>
    rw [IsText] at h
    obtain ⟨q, hq, -⟩ := h
    exact shape_ends hq.shape
  | str s =>
    rw [IsText] at h
    obtain ⟨l, -, rfl⟩ := h
    exact ends_snoc _ (by decide)
  | arr l =>
    rw [IsText] at h
    obtain ⟨l, -, rfl⟩ := h
    exact ends_snoc _ (by decide)
  | obj l =>
    rw [IsText] at h
    obtain ⟨l, -, rfl⟩ := h
    exact ends_snoc _ (by decide)

theorem quoted_ends (s : Text) : Ends (quoted s) := by
  unfold quoted
  simp only
  split <;> exact ends_snoc _ (by decide)

theorem scalar_ends {v : V} (h : Writable v) (ha : ∀ l, v ≠ .arr l) (ho : ∀ l, v ≠ .obj l) : Ends (scalar v) :=
  text_ends (scalar_text .num h ha ho)

theorem flat_ends {v : V} (h : Writable v) : Ends (flat scalar v) := by
  cases v with
  | arr l => exact ⟨['['], ']', rfl, by decide, by decide⟩
  | obj l => exact ⟨['{'], '}', rfl, by decide, by decide⟩
  | null => exact scalar_ends h (by simp) (by simp)
  | bool _ => exact scalar_ends h (by simp) (by simp)
  | int _ => exact scalar_ends h (by simp) (by simp)
  | uint _ => exact scalar_ends h (by simp) (by simp)
  | real _ => exact scalar_ends h (by simp) (by simp)
  | str _ => exact scalar_ends h (by simp) (by simp)

theorem layout_ends {v : V} (h : Writable v) (ind : Text) : Ends (layout scalar quoted ind v) := by
  cases v with
  | arr l =>
    rw [layout]
    split
    · exact ⟨['['], ']', rfl, by decide, by decide⟩
    split
    · exact ⟨'[' :: ' ' :: commas (l.map (flat scalar)) ++ [' '], ']', by simp [line], by decide, by decide⟩
    · exact ends_snoc _ (by decide)
  | obj l =>
    rw [layout]
    split
    · exact ⟨['{'], '}', rfl, by decide, by decide⟩
    · exact ends_snoc _ (by decide)
  | null => rw [layout]; exact scalar_ends h (by simp) (by simp)
  | bool _ => rw [layout]; exact scalar_ends h (by simp) (by simp)
  | int _ => rw [layout]; exact scalar_ends h (by simp) (by simp)
  | uint _ => rw [layout]; exact scalar_ends h (by simp) (by simp)
  | real _ => rw [layout]; exact scalar_ends h (by simp) (by simp)
  | str _ => rw [layout]; exact scalar_ends h (by simp) (by simp)

theorem layoutItems_ends : (l : List V) → l ≠ [] → WritableItems l → ∀ ind,
    Ends (layoutItems scalar quoted ind l)
  | [], h, _, _ => absurd rfl h
  | [x], _, h, ind => by
    rw [WritableItems] at h
    rw [layoutItems]
    exact (layout_ends h.1 ind).append _
  | x :: y :: l, _, h, ind => by
    rw [WritableItems] at h
    rw [layoutItems]
    exact ((layoutItems_ends (y :: l) (by simp) h.2 ind).cons _).append _

theorem layoutMembers_ends : (l : List (Text × V)) → l ≠ [] → WritableMembers l → ∀ ind,
    Ends (layoutMembers scalar quoted ind l)
  | [], h, _, _ => absurd rfl h
  | [(k, x)], _, h, ind => by
    rw [WritableMembers] at h
    rw [layoutMembers]
    exact ((((layout_ends h.2.1 ind).cons _).cons _).cons _).append _
  | (k, x) :: y :: l, _, h, ind => by
    rw [WritableMembers] at h
    rw [layoutMembers]
    exact ((layoutMembers_ends (y :: l) (by simp) h.2.2 ind).cons _).append _

/-! ## Indentation -/

theorem writeIndent_seen {w : W} (h : Ends w.doc) : writeIndent w = w.app ('\n' :: w.ind) := by
  obtain ⟨r, c, e, h1, h2⟩ := h
  unfold writeIndent
  rw [e, List.getLast?_append]
  simp [h1, h2]

/-- A document that is empty or ends with a space is not broken. -/
def Open (t : Text) : Prop := t = [] ∨ ∃ r, t = r ++ [' ']

theorem writeIndent_open {w : W} (h : Open w.doc) (hi : w.doc = [] → w.ind = []) : writeIndent w = w := by
  rcases h with h | ⟨r, e⟩
  · unfold writeIndent
    rw [h, List.getLast?_nil]
    simp only [W.app, hi h, List.append_nil]
    rw [← hi h]
  · unfold writeIndent
    rw [e, List.getLast?_append]
    simp

theorem unindent_eq (d i : Text) (c : List Text) (b : Bool) :
    unindent ⟨d, i ++ [' ', ' ', ' '], c, b⟩ = ⟨d, i, c, b⟩ := by
  simp [unindent]

theorem open_space (t i : Text) : Open (t ++ '\n' :: (i ++ [' ', ' ', ' '])) :=
  .inr ⟨t ++ '\n' :: (i ++ [' ', ' ']), by simp⟩

/-! ## Items on one line -/

theorem full_iff (v : V) : full v = false ↔ Plain v := by
  cases v with
  | arr l => cases l <;> simp [full, Plain]
  | obj l => cases l <;> simp [full, Plain]
  | _ => simp [full, Plain]

theorem writeValue_push {v : V} (h : Plain v) {w : W} (hw : w.add = true) :
    writeValue v w = { w with child := w.child ++ [flat scalar v] } := by
  cases v with
  | arr l =>
    rw [Plain] at h
    subst h
    rw [writeValue, if_pos (by rfl), push, if_pos hw]
    rfl
  | obj l =>
    rw [Plain] at h
    subst h
    rw [writeValue, if_pos (by rfl), push, if_pos hw]
    rfl
  | _ => rw [writeValue, push, if_pos hw]; rfl

theorem pushItems_eq (l : List V) : ∀ {w : W}, (∀ x ∈ l, Plain x) → w.add = true →
    pushItems l w = { w with child := w.child ++ l.map (flat scalar) } := by
  induction l with
  | nil => intro w _ _; rw [pushItems]; simp
  | cons x l ih =>
    intro w h hw
    rw [pushItems, writeValue_push (h x List.mem_cons_self) hw,
      ih (w := { w with child := w.child ++ [flat scalar x] }) (fun y hy => h y (List.mem_cons_of_mem _ hy)) hw]
    simp

theorem texts_eq (d i : Text) (c : List Text) (b : Bool) : texts c.length ⟨d, i, c, b⟩ = c := by
  unfold texts
  refine List.ext_getElem (by simp) ?_
  intro n h1 h2
  simp [List.getElem?_eq_getElem h2]

theorem lineLoop_true (l : List Text) : ∀ w : W, (lineLoop true l w).doc = w.doc ++ l.flatMap (fun t => ',' :: ' ' :: t) ∧
    (lineLoop true l w).ind = w.ind ∧ (lineLoop true l w).child = w.child ∧ (lineLoop true l w).add = w.add := by
  induction l with
  | nil => intro w; simp [lineLoop]
  | cons t l ih =>
    intro w
    rw [lineLoop, if_pos rfl]
    obtain ⟨h1, h2, h3, h4⟩ := ih ((w.app [',', ' ']).app t)
    refine ⟨?_, h2, h3, h4⟩
    rw [h1]
    simp [W.app]

theorem commas_eq (t : Text) (l : List Text) : commas (t :: l) = t ++ l.flatMap (fun t => ',' :: ' ' :: t) := by
  induction l generalizing t with
  | nil => simp [commas]
  | cons u l ih => rw [commas, ih]; simp

theorem lineLoop_eq {l : List Text} (h : l ≠ []) (w : W) :
    lineLoop false l w = w.app (commas l) := by
  cases l with
  | nil => exact absurd rfl h
  | cons t l =>
    rw [lineLoop]
    simp only [Bool.false_eq_true, if_false]
    obtain ⟨h1, h2, h3, h4⟩ := lineLoop_true l (w.app t)
    rw [commas_eq]
    have : lineLoop true l (w.app t) = ⟨_, _, _, _⟩ := rfl
    rw [this, h1, h2, h3, h4]
    simp [W.app]

theorem commas_length (l : List Text) (h : l ≠ []) :
    (commas l).length = (l.length - 1) * 2 + (l.map List.length).sum := by
  cases l with
  | nil => exact absurd rfl h
  | cons t l =>
    rw [commas_eq]
    clear h
    have : (l.flatMap fun t => ',' :: ' ' :: t).length = l.length * 2 + (l.map List.length).sum := by
      induction l with
      | nil => rfl
      | cons u l ih => simp only [List.flatMap_cons, List.length_append, List.length_cons, ih, List.map_cons,
          List.sum_cons]; omega
    simp only [List.length_append, this, List.length_cons, List.map_cons, List.sum_cons]
    omega

theorem line_length (l : List V) (h : l ≠ []) : (line scalar l).length =
    4 + (l.length - 1) * 2 + ((l.map (flat scalar)).map List.length).sum := by
  unfold line
  have := commas_length (l.map (flat scalar)) (by simpa using h)
  simp only [List.length_append, List.length_cons, List.length_nil, this, List.length_map]
  omega

/-! ## Plain items on lines of their own -/

theorem layout_plain {v : V} (h : Plain v) (ind : Text) : layout scalar quoted ind v = flat scalar v := by
  cases v with
  | arr l => rw [Plain] at h; subst h; rw [layout, if_pos (by rfl)]; rfl
  | obj l => rw [Plain] at h; subst h; rw [layout, if_pos (by rfl)]; rfl
  | _ => rw [layout]; rfl

theorem app_ends {w : W} {t : Text} (h : Ends t) : Ends (w.app t).doc := h.append _

theorem childLoop_eq : (l : List V) → l ≠ [] → (∀ x ∈ l, Plain x) → ∀ w : W, Ends w.doc →
    childLoop (l.map (flat scalar)) w = w.app (layoutItems scalar quoted w.ind l)
  | [], h, _, _, _ => absurd rfl h
  | [x], _, h, w, hw => by
    simp only [List.map_cons, List.map_nil]
    rw [childLoop, withIndent, writeIndent_seen hw, layoutItems, layout_plain (h x List.mem_cons_self)]
    simp [W.app]
  | x :: y :: l, _, h, w, hw => by
    simp only [List.map_cons]
    have ih := childLoop_eq (y :: l) (by simp) (fun z hz => h z (List.mem_cons_of_mem _ hz))
      ((withIndent (flat scalar x) w).app [',']) (app_ends ⟨[], ',', rfl, by decide, by decide⟩)
    simp only [List.map_cons] at ih
    rw [childLoop, ih, withIndent, writeIndent_seen hw, layoutItems, layout_plain (h x List.mem_cons_self)]
    simp [W.app]

/-! ## All values -/

theorem oneLine_iff {l : List V} (hl : l ≠ []) (h3 : ¬ (74 ≤ l.length * 3 ∨ l.any full = true)) :
    OneLine scalar l ↔ ¬ 74 ≤ 4 + (l.length - 1) * 2 + ((l.map (flat scalar)).map List.length).sum := by
  rw [← line_length l hl]
  unfold OneLine
  simp only [not_or, not_le, List.any_eq_true, not_exists, not_and] at h3
  constructor
  · rintro ⟨_, _, h⟩; omega
  · intro h
    exact ⟨fun x hx => (full_iff x).1 (by simpa using h3.2 x hx), by omega, by omega⟩

theorem not_oneLine {l : List V} (h3 : 74 ≤ l.length * 3 ∨ l.any full = true) : ¬ OneLine scalar l := by
  rintro ⟨h1, h2, _⟩
  rcases h3 with h3 | h3
  · omega
  · obtain ⟨x, hx, hf⟩ := List.any_eq_true.1 h3
    rw [(full_iff x).2 (h1 x hx)] at hf
    cases hf

mutual

theorem writeValue_eq : (v : V) → Writable v → ∀ w : W, w.add = false → Open w.doc → (w.doc = [] → w.ind = []) →
    ∃ c, writeValue v w = ⟨w.doc ++ layout scalar quoted w.ind v, w.ind, c, false⟩
  | .null, _, w, ha, _, _ => ⟨w.child, by rw [writeValue, push, ha, layout]; simp [W.app, ha]⟩
  | .bool _, _, w, ha, _, _ => ⟨w.child, by rw [writeValue, push, ha, layout]; simp [W.app, ha]⟩
  | .int _, _, w, ha, _, _ => ⟨w.child, by rw [writeValue, push, ha, layout]; simp [W.app, ha]⟩
  | .uint _, _, w, ha, _, _ => ⟨w.child, by rw [writeValue, push, ha, layout]; simp [W.app, ha]⟩
  | .real _, _, w, ha, _, _ => ⟨w.child, by rw [writeValue, push, ha, layout]; simp [W.app, ha]⟩
  | .str _, _, w, ha, _, _ => ⟨w.child, by rw [writeValue, push, ha, layout]; simp [W.app, ha]⟩
  | .arr l, h, w, ha, ho, hi => by
    rw [Writable] at h
    rw [writeValue, layout]
    by_cases hl : l.isEmpty = true
    · rw [if_pos hl, if_pos hl, push, ha]
      exact ⟨w.child, by simp [W.app, ha]⟩
    have hne : l ≠ [] := by simpa using hl
    rw [if_neg hl, if_neg hl]
    simp only
    by_cases h3 : 74 ≤ l.length * 3 ∨ l.any full = true
    · rw [if_pos h3, if_neg (not_oneLine h3)]
      have hwi : writeIndent { w with child := [] } = { w with child := [] } := writeIndent_open ho hi
      rw [withIndent, withIndent, hwi]
      obtain ⟨c, hc⟩ := itemsLoop_eq l hne h ⟨w.doc ++ ['['], w.ind ++ [' ', ' ', ' '], [], false⟩ rfl
        (ends_snoc _ (by decide)) ⟨w.ind, rfl⟩
      have e : indent (W.app { w with child := [] } ['[']) = ⟨w.doc ++ ['['], w.ind ++ [' ', ' ', ' '], [], false⟩ := by
        simp [indent, W.app, ha]
      rw [e, hc, unindent_eq, writeIndent_seen (by
        exact (layoutItems_ends l hne h _).append _)]
      exact ⟨c, by simp [W.app]⟩
    · rw [if_neg h3]
      have hp : ∀ x ∈ l, Plain x := by
        simp only [not_or, not_le, List.any_eq_true, not_exists, not_and] at h3
        exact fun x hx => (full_iff x).1 (by simpa using h3.2 x hx)
      have e1 : ({ pushItems l { ({ w with child := [] } : W) with add := true } with add := false } : W) =
          ⟨w.doc, w.ind, l.map (flat scalar), false⟩ := by
        rw [pushItems_eq l hp rfl]
        simp
      rw [e1]
      have e2 : ∀ d i b, texts l.length ⟨d, i, l.map (flat scalar), b⟩ = l.map (flat scalar) := by
        intro d i b
        have := texts_eq d i (l.map (flat scalar)) b
        rwa [List.length_map] at this
      have e3 : lineLength l.length ⟨w.doc, w.ind, l.map (flat scalar), false⟩ =
          4 + (l.length - 1) * 2 + ((l.map (flat scalar)).map List.length).sum := by
        rw [lineLength, e2]
      rw [e3]
      by_cases h4 : 74 ≤ 4 + (l.length - 1) * 2 + ((l.map (flat scalar)).map List.length).sum
      · rw [if_pos h4, if_neg (fun h => (oneLine_iff hne h3).1 h h4)]
        have hwi : writeIndent (⟨w.doc, w.ind, l.map (flat scalar), false⟩ : W) =
          ⟨w.doc, w.ind, l.map (flat scalar), false⟩ := writeIndent_open ho hi
        rw [withIndent, withIndent, hwi]
        have e : indent (W.app (⟨w.doc, w.ind, l.map (flat scalar), false⟩ : W) ['[']) =
            ⟨w.doc ++ ['['], w.ind ++ [' ', ' ', ' '], l.map (flat scalar), false⟩ := rfl
        rw [e, e2, if_neg (by simpa using hne), childLoop_eq l hne hp _ (ends_snoc _ (by decide))]
        have e' : unindent (W.app (⟨w.doc ++ ['['], w.ind ++ [' ', ' ', ' '], l.map (flat scalar), false⟩ : W)
            (layoutItems scalar quoted (w.ind ++ [' ', ' ', ' ']) l)) = ⟨w.doc ++ ['['] ++
              layoutItems scalar quoted (w.ind ++ [' ', ' ', ' ']) l, w.ind, l.map (flat scalar), false⟩ :=
          unindent_eq _ _ _ _
        simp only
        rw [e', writeIndent_seen (by exact (layoutItems_ends l hne h _).append _)]
        exact ⟨l.map (flat scalar), by simp [W.app]⟩
      · rw [if_neg h4, if_pos ((oneLine_iff hne h3).2 h4), e2, lineLoop_eq (by simpa using hne)]
        exact ⟨l.map (flat scalar), by simp [W.app, line]⟩
  | .obj ms, h, w, ha, ho, hi => by
    rw [Writable] at h
    rw [writeValue, layout]
    by_cases hl : ms.isEmpty = true
    · rw [if_pos hl, if_pos hl, push, ha]
      exact ⟨w.child, by simp [W.app, ha]⟩
    have hne : ms ≠ [] := by simpa using hl
    rw [if_neg hl, if_neg hl, withIndent, withIndent, writeIndent_open ho hi]
    obtain ⟨c, hc⟩ := membersLoop_eq ms hne h.1 ⟨w.doc ++ ['{'], w.ind ++ [' ', ' ', ' '], w.child, false⟩ rfl
      (ends_snoc _ (by decide)) ⟨w.ind, rfl⟩
    have e : indent (W.app w ['{']) = ⟨w.doc ++ ['{'], w.ind ++ [' ', ' ', ' '], w.child, false⟩ := by
      simp [indent, W.app, ha]
    rw [e, hc, unindent_eq, writeIndent_seen (by exact (layoutMembers_ends ms hne h.1 _).append _)]
    exact ⟨c, by simp [W.app]⟩

theorem itemsLoop_eq : (l : List V) → l ≠ [] → WritableItems l → ∀ w : W, w.add = false → Ends w.doc →
    (∃ i, w.ind = i ++ [' ', ' ', ' ']) →
    ∃ c, itemsLoop l w = ⟨w.doc ++ layoutItems scalar quoted w.ind l, w.ind, c, false⟩
  | [], h, _, _, _, _, _ => absurd rfl h
  | [x], _, h, w, ha, hd, hi => by
    rw [WritableItems] at h
    obtain ⟨i, hi⟩ := hi
    rw [itemsLoop, writeIndent_seen hd, layoutItems]
    obtain ⟨c, hc⟩ := writeValue_eq x h.1 (w.app ('\n' :: w.ind)) ha (by rw [W.app, hi]; exact open_space _ _)
      (by simp [W.app])
    rw [hc]
    exact ⟨c, by simp [W.app]⟩
  | x :: y :: l, _, h, w, ha, hd, hi => by
    rw [WritableItems] at h
    obtain ⟨i, hi⟩ := hi
    rw [itemsLoop, writeIndent_seen hd, layoutItems]
    obtain ⟨c, hc⟩ := writeValue_eq x h.1 (w.app ('\n' :: w.ind)) ha (by rw [W.app, hi]; exact open_space _ _)
      (by simp [W.app])
    rw [hc]
    obtain ⟨c', hc'⟩ := itemsLoop_eq (y :: l) (by simp) h.2
      (W.app ⟨(w.app ('\n' :: w.ind)).doc ++ layout scalar quoted (w.app ('\n' :: w.ind)).ind x,
        (w.app ('\n' :: w.ind)).ind, c, false⟩ [',']) rfl (ends_snoc _ (by decide)) ⟨i, hi⟩
    rw [hc']
    exact ⟨c', by simp [W.app]⟩

theorem membersLoop_eq : (l : List (Text × V)) → l ≠ [] → WritableMembers l → ∀ w : W, w.add = false → Ends w.doc →
    (∃ i, w.ind = i ++ [' ', ' ', ' ']) →
    ∃ c, membersLoop l w = ⟨w.doc ++ layoutMembers scalar quoted w.ind l, w.ind, c, false⟩
  | [], h, _, _, _, _, _ => absurd rfl h
  | [(k, x)], _, h, w, ha, hd, hi => by
    rw [WritableMembers] at h
    rw [membersLoop, withIndent, writeIndent_seen hd, layoutMembers]
    obtain ⟨c, hc⟩ := writeValue_eq x h.2.1 (((w.app ('\n' :: w.ind)).app (quoted k)).app [' ', ':', ' ']) ha
      (.inr ⟨w.doc ++ ('\n' :: w.ind) ++ quoted k ++ [' ', ':'], by simp [W.app]⟩) (by simp [W.app])
    rw [hc]
    exact ⟨c, by simp [W.app]⟩
  | (k, x) :: y :: l, _, h, w, ha, hd, hi => by
    rw [WritableMembers] at h
    rw [membersLoop, withIndent, writeIndent_seen hd, layoutMembers]
    obtain ⟨c, hc⟩ := writeValue_eq x h.2.1 (((w.app ('\n' :: w.ind)).app (quoted k)).app [' ', ':', ' ']) ha
      (.inr ⟨w.doc ++ ('\n' :: w.ind) ++ quoted k ++ [' ', ':'], by simp [W.app]⟩) (by simp [W.app])
    rw [hc]
    obtain ⟨c', hc'⟩ := membersLoop_eq (y :: l) (by simp) h.2.2
      (W.app ⟨(((w.app ('\n' :: w.ind)).app (quoted k)).app [' ', ':', ' ']).doc ++ layout scalar quoted
        (((w.app ('\n' :: w.ind)).app (quoted k)).app [' ', ':', ' ']).ind x,
        (((w.app ('\n' :: w.ind)).app (quoted k)).app [' ', ':', ' ']).ind, c, false⟩ [',']) rfl
      (ends_snoc _ (by decide)) hi
    rw [hc']
    exact ⟨c', by simp [W.app]⟩

end

theorem write_eq (w : W) {v : V} (h : Writable v) : write w v = layout scalar quoted [] v ++ ['\n'] := by
  obtain ⟨c, hc⟩ := writeValue_eq v h { w with doc := [], add := false, ind := [] } rfl (.inl rfl) (fun _ => rfl)
  rw [write, hc]
  rfl

/-! ## The layout is JSON -/

theorem white_space : White [' '] := by simp [White]

theorem white_spaces {ind : Text} (h : White ind) : White (ind ++ [' ', ' ', ' ']) :=
  white_append h (by simp [White])

theorem white_line {ind : Text} (h : White ind) : White ('\n' :: ind) := white_break true h

theorem flat_text (rd : ℚ → Dbl) {v : V} (h : Writable v) (hp : Plain v) :
    IsText (Number True rd) (rounded rd v) (flat scalar v) := by
  cases v with
  | arr l =>
    rw [Plain] at hp
    subst hp
    rw [rounded, roundedItems, IsText]
    exact ⟨[], by rw [ItemsText]; exact white_nil, rfl⟩
  | obj l =>
    rw [Plain] at hp
    subst hp
    rw [rounded, roundedMembers, IsText]
    exact ⟨[], by rw [MembersText]; exact white_nil, rfl⟩
  | null => exact scalar_text rd h (by simp) (by simp)
  | bool _ => exact scalar_text rd h (by simp) (by simp)
  | int _ => exact scalar_text rd h (by simp) (by simp)
  | uint _ => exact scalar_text rd h (by simp) (by simp)
  | real _ => exact scalar_text rd h (by simp) (by simp)
  | str _ => exact scalar_text rd h (by simp) (by simp)

theorem commas_text (rd : ℚ → Dbl) : (l : List V) → WritableItems l → (∀ x ∈ l, Plain x) →
    ItemsText (Number True rd) (roundedItems rd l) (commas (l.map (flat scalar)))
  | [], _, _ => by rw [roundedItems, List.map_nil, commas, ItemsText]; exact white_nil
  | [x], h, hp => by
    rw [WritableItems] at h
    rw [roundedItems, roundedItems, List.map_cons, List.map_nil, commas, ItemsText]
    exact ⟨[], _, [], white_nil, flat_text rd h.1 (hp x List.mem_cons_self), white_nil, by simp⟩
  | x :: y :: l, h, hp => by
    rw [WritableItems] at h
    have ih := commas_text rd (y :: l) h.2 (fun z hz => hp z (List.mem_cons_of_mem _ hz))
    have ih := items_pad white_nil _ [' '] _ white_space ih
    rw [roundedItems] at ih
    rw [roundedItems, roundedItems, List.map_cons, List.map_cons, commas, ItemsText]
    refine ⟨[], _, [], _, white_nil, flat_text rd h.1 (hp x List.mem_cons_self), white_nil, ih, ?_⟩
    simp

mutual

theorem layout_text (rd : ℚ → Dbl) : (v : V) → Writable v → ∀ ind, White ind →
    IsText (Number True rd) (rounded rd v) (layout scalar quoted ind v)
  | .null, h, _, _ => by rw [layout]; exact scalar_text rd h (by simp) (by simp)
  | .bool _, h, _, _ => by rw [layout]; exact scalar_text rd h (by simp) (by simp)
  | .int _, h, _, _ => by rw [layout]; exact scalar_text rd h (by simp) (by simp)
  | .uint _, h, _, _ => by rw [layout]; exact scalar_text rd h (by simp) (by simp)
  | .real _, h, _, _ => by rw [layout]; exact scalar_text rd h (by simp) (by simp)
  | .str _, h, _, _ => by rw [layout]; exact scalar_text rd h (by simp) (by simp)
  | .arr l, h, ind, hi => by
    rw [Writable] at h
    rw [layout, rounded, IsText]
    split
    · rename_i he
      have : l = [] := by simpa using he
      subst this
      exact ⟨[], by rw [roundedItems, ItemsText]; exact white_nil, rfl⟩
    split
    · rename_i ho
      exact ⟨_, items_pad white_space _ [' '] _ white_space (commas_text rd l h ho.1), by simp [line]⟩
    · exact ⟨_, items_pad (white_line hi) _ [] _ white_nil (layoutItems_text rd l h _ (white_spaces hi)), by simp⟩
  | .obj ms, h, ind, hi => by
    rw [Writable] at h
    rw [layout, rounded, IsText]
    split
    · rename_i he
      have : ms = [] := by simpa using he
      subst this
      exact ⟨[], by rw [roundedMembers, MembersText]; exact white_nil, rfl⟩
    · exact ⟨_, members_pad (white_line hi) _ [] _ white_nil (layoutMembers_text rd ms h.1 _ (white_spaces hi)),
        by simp⟩

theorem layoutItems_text (rd : ℚ → Dbl) : (l : List V) → WritableItems l → ∀ ind, White ind →
    ItemsText (Number True rd) (roundedItems rd l) (layoutItems scalar quoted ind l)
  | [], _, _, _ => by rw [roundedItems, layoutItems, ItemsText]; exact white_nil
  | [x], h, ind, hi => by
    rw [WritableItems] at h
    rw [roundedItems, roundedItems, layoutItems, ItemsText]
    exact ⟨_, _, [], white_line hi, layout_text rd x h.1 ind hi, white_nil, by simp⟩
  | x :: y :: l, h, ind, hi => by
    rw [WritableItems] at h
    have ih := layoutItems_text rd (y :: l) h.2 ind hi
    rw [roundedItems] at ih
    rw [roundedItems, roundedItems, layoutItems, ItemsText]
    exact ⟨_, _, [], _, white_line hi, layout_text rd x h.1 ind hi, white_nil, ih, by simp⟩

theorem layoutMembers_text (rd : ℚ → Dbl) : (l : List (Text × V)) → WritableMembers l → ∀ ind, White ind →
    MembersText (Number True rd) (roundedMembers rd l) (layoutMembers scalar quoted ind l)
  | [], _, _, _ => by rw [roundedMembers, layoutMembers, MembersText]; exact white_nil
  | [(k, x)], h, ind, hi => by
    rw [WritableMembers] at h
    obtain ⟨l, hl, hq⟩ := quoted_lit h.1
    rw [roundedMembers, roundedMembers, layoutMembers, MembersText, hq]
    exact ⟨_, l, [' '], [' '], _, [], white_line hi, hl, white_space, white_space, layout_text rd x h.2.1 ind hi,
      white_nil, by simp⟩
  | (k, x) :: (k', y) :: ms, h, ind, hi => by
    rw [WritableMembers] at h
    obtain ⟨l, hl, hq⟩ := quoted_lit h.1
    have ih := layoutMembers_text rd ((k', y) :: ms) h.2.2 ind hi
    rw [roundedMembers] at ih
    rw [roundedMembers, roundedMembers, layoutMembers, MembersText, hq]
    exact ⟨_, l, [' '], [' '], _, [], _, white_line hi, hl, white_space, white_space, layout_text rd x h.2.1 ind hi,
      white_nil, ih, by simp⟩

end

end Cyclus.Styled
