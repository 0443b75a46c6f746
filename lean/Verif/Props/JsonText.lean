import Verif.Lemmas.JsonWrite
import Verif.Lemmas.JsonSame

/-!
# C112: JSON text is read as what it means, and what is written is read back

The specification is in `Verif.Spec.JsonText`: the grammar of RFC 8259 with the value of each text, and
what may become of a value that is written and read.
-/

namespace Cyclus.JsonText

open Kahan (Dbl)

/-! ## Reading -/

/-- C112 (end).  The reader comes to an end on every text, and what it leaves is shorter than the text. -/
theorem C112_terminates (rd : ℚ → Dbl) (s : Text) :
    parse rd s = .bad ∨ ∃ v r, parse rd s = .ok v r ∧ r.length < s.length := by
  have h := (read_enough rd (2 * s.length + 2)).1 s
  cases hp : parse rd s with
  | bad => exact Or.inl rfl
  | out => exact absurd hp (h.2 (by omega))
  | ok v r => exact Or.inr ⟨v, r, rfl, h.1 v r hp⟩

/-- A case of `C112_terminates`: a text without an end. -/
example : parse .num "[1,[2".toList = .bad := of_isBad (by decide +kernel)

/-- C112 (reading).  Every JSON document whose integers fit 64 bits and whose names have no byte 0 is read
as what it means, and white space is left.  The full statement is without these conditions, and no other
text is read; see `C112_fails_big`, `C112_fails_name`, `C112_fails_lax`, `C112_fails_tail`. -/
theorem C112_reads_partial (rd : ℚ → Dbl) (v : V) (t : Text) (h : IsDocument (Number False rd) v t)
    (hf : Fits v) : ∃ w, White w ∧ parse rd t = .ok (meaning v) w := by
  obtain ⟨w, s, w', hw, hs, hw', rfl⟩ := h
  have hst : Stop w' := by
    have := stop_white hw' (rest := []) (by intro c hc; simp at hc)
    simpa using this
  obtain ⟨f, hr⟩ := read_value False rd v s w w' hw hs hf hst
  exact ⟨w', hw', parse_of hr⟩

/-- A case of `C112_reads_partial`: the document `{"b":[1.5e1,"é\n"],"a":4000000000,"b":-2}` with white
space. -/
example : IsDocument (Number False .num)
      (.obj [(['b'], .arr [.real (.num 15), .str [Char.ofNat 195, Char.ofNat 169, '\n']]),
        (['a'], .int 4000000000), (['b'], .int (-2))])
      " {\"b\" : [1.5e1,\"\\u00e9\\n\"],\n\"a\":4000000000,\"b\":-2}".toList ∧
    parse .num " {\"b\" : [1.5e1,\"\\u00e9\\n\"],\n\"a\":4000000000,\"b\":-2}".toList =
      .ok (.obj [(['a'], .uint 4000000000), (['b'], .int (-2))]) [] := by
  refine ⟨⟨[' '], "{\"b\" : [1.5e1,\"\\u00e9\\n\"],\n\"a\":4000000000,\"b\":-2}".toList, [],
    by simp [White], ?_, by simp [White], by decide +kernel⟩, of_isOk (by decide +kernel)⟩
  rw [IsText]
  refine ⟨"\"b\" : [1.5e1,\"\\u00e9\\n\"],\n\"a\":4000000000,\"b\":-2".toList, ?_, rfl⟩
  have lit1 : ∀ c : Char, 32 ≤ c.toNat → c ≠ '"' → c ≠ '\\' → Lit [c] [c] :=
    fun c h1 h2 h3 => .plain h1 h2 h3 .nil
  rw [MembersText]
  refine ⟨[], ['b'], [' '], [' '], "[1.5e1,\"\\u00e9\\n\"]".toList, [],
    "\n\"a\":4000000000,\"b\":-2".toList, by simp [White], lit1 _ (by decide) (by decide) (by decide),
    by simp [White], by simp [White], ?_, by simp [White], ?_, rfl⟩
  · rw [IsText]
    refine ⟨"1.5e1,\"\\u00e9\\n\"".toList, ?_, rfl⟩
    rw [ItemsText]
    refine ⟨[], "1.5e1".toList, [], "\"\\u00e9\\n\"".toList, by simp [White], ?_, by simp [White], ?_,
      rfl⟩
    · rw [IsText]
      refine ⟨15, ⟨1, ['1'], ['5'], ['.', '5'], ['e', '1'], 1, ?_, ?_, ?_, by simp, Or.inl ⟨?_, rfl⟩⟩,
        rfl⟩
      · exact ⟨⟨by simp, by decide⟩, by simp, by decide⟩
      · exact Or.inr ⟨Or.inl ⟨by simp, by decide⟩, rfl⟩
      · exact Or.inr ⟨'e', ['1'], Or.inl rfl, ⟨by simp, by decide⟩, Or.inl ⟨by decide, Or.inl rfl⟩⟩
      · rw [show decValue (['1'] ++ ['5']) = 15 by decide]; norm_num
    · rw [ItemsText]
      refine ⟨[], "\"\\u00e9\\n\"".toList, [], by simp [White], ?_, by simp [White], rfl⟩
      rw [IsText]
      refine ⟨"\\u00e9\\n".toList, ?_, rfl⟩
      refine Lit.code (u := 233) (h := ['0', '0', 'e', '9']) (s := ['\n']) (l := ['\\', 'n'])
        ⟨0, 0, 14, 9, _, _, _, _, ?_, ?_, ?_, ?_, rfl, rfl⟩ (by decide) (.esc (by decide) .nil) <;>
      unfold IsHex <;> decide
  · rw [MembersText]
    refine ⟨['\n'], ['a'], [], [], "4000000000".toList, [], "\"b\":-2".toList, by simp [White],
      lit1 _ (by decide) (by decide) (by decide), by simp [White], by simp [White], ?_, by simp [White],
      ?_, rfl⟩
    · rw [IsText]
      exact ⟨_, ⟨⟨by decide, by decide⟩, by decide, by decide⟩, Or.inl ⟨by decide, rfl⟩⟩
    · rw [MembersText]
      refine ⟨[], ['b'], [], [], "-2".toList, [], by simp [White],
        lit1 _ (by decide) (by decide) (by decide), by simp [White], by simp [White], ?_,
        by simp [White], rfl⟩
      rw [IsText]
      exact ⟨['2'], ⟨⟨by decide, by decide⟩, by decide, by decide⟩, Or.inr ⟨by decide, rfl⟩⟩

/-- The value of the first member of a name. -/
def lookup (ms : List (Text × V)) (k : Text) : Option V := (ms.find? fun p => p.1 = k).map Prod.snd

theorem lookup_put {ms : List (Text × V)} (k : Text) (v : V) (k' : Text) :
    lookup (put ms k v) k' = if k' = k then some v else lookup ms k' := by
  unfold lookup put
  rw [List.find?_append]
  by_cases h : k' = k
  · subst h
    rw [if_pos rfl, List.find?_eq_none.mpr (by
      intro p hp
      have := (List.mem_filter.mp hp).2
      simp only [decide_eq_true_eq] at this ⊢
      exact this.ne)]
    simp
  · rw [if_neg h]
    have e : List.find? (fun p => decide (p.1 = k')) ((k, v) :: ms.filter fun p => k < p.1) =
        (ms.filter fun p => k < p.1).find? fun p => decide (p.1 = k') := by
      rw [List.find?_cons_of_neg (by simpa using Ne.symm h)]
    rw [e, List.find?_filter, List.find?_filter]
    congr 1
    rcases lt_or_gt_of_ne h with hlt | hgt
    · have h1 : (fun p : Text × V => decide (decide (p.1 < k) = true ∧ decide (p.1 = k') = true)) =
          fun p => decide (p.1 = k') := by
        funext p
        by_cases hp : p.1 = k'
        · simp [hp, hlt]
        · simp [hp]
      have h2 : (fun p : Text × V => decide (decide (k < p.1) = true ∧ decide (p.1 = k') = true)) = fun _ => false := by
        funext p
        by_cases hp : p.1 = k'
        · simp [hp, hlt.le]
        · simp [hp]
      rw [h1, h2]
      rw [List.find?_eq_none (p := fun _ => false) |>.mpr (by simp)]
      simp
    · have h1 : (fun p : Text × V => decide (decide (k < p.1) = true ∧ decide (p.1 = k') = true)) =
          fun p => decide (p.1 = k') := by
        funext p
        by_cases hp : p.1 = k'
        · simp [hp, hgt]
        · simp [hp]
      have h2 : (fun p : Text × V => decide (decide (p.1 < k) = true ∧ decide (p.1 = k') = true)) = fun _ => false := by
        funext p
        by_cases hp : p.1 = k'
        · simp [hp, hgt.le]
        · simp [hp]
      rw [h1, h2]
      rw [List.find?_eq_none (p := fun _ => false) |>.mpr (by simp)]
      simp

theorem lookup_meaning (ms : List (Text × V)) (k : Text) : ∀ acc : List (Text × V),
    lookup (meaningMembers acc ms) k =
      ((ms.reverse.find? fun p => p.1 = k).map fun p => meaning p.2).or (lookup acc k) := by
  induction ms with
  | nil => intro acc; simp [meaningMembers]
  | cons p ms ih =>
    intro acc
    obtain ⟨k', v⟩ := p
    rw [meaningMembers, ih, lookup_put, List.reverse_cons, List.find?_append]
    cases ms.reverse.find? fun p => p.1 = k with
    | some q => simp
    | none =>
      by_cases h : k = k'
      · simp [h]
      · have h' : ¬ k' = k := fun e => h e.symm
        simp [h, h']

/-- C112 (members).  In what an object means, the value under a name is that of the last member of this
name, and there is none if there is no such member. -/
theorem C112_last (ms : List (Text × V)) (k : Text) :
    lookup (meaningMembers [] ms) k = (ms.reverse.find? fun p => p.1 = k).map fun p => meaning p.2 := by
  rw [lookup_meaning]
  simp [lookup]

/-- A case of `C112_last`: of two members the second one counts. -/
example : lookup (meaningMembers [] [(['a'], .int 1), (['b'], .null), (['a'], .int 2)]) ['a'] =
    some (.int 2) := rfl

theorem ordered_filter (p : Text × V → Bool) (ms : List (Text × V)) (h : OrderedMembers ms) :
    OrderedMembers (ms.filter p) := by
  induction ms with
  | nil => trivial
  | cons q ms ih =>
    obtain ⟨k, x⟩ := q
    rw [OrderedMembers] at h
    rw [List.filter_cons]
    split
    · rw [OrderedMembers]; exact ⟨h.1, h.2.1, ih h.2.2⟩
    · exact ih h.2.2

theorem ordered_append {a b : List (Text × V)} (ha : OrderedMembers a) (hb : OrderedMembers b) :
    OrderedMembers (a ++ b) := by
  induction a with
  | nil => exact hb
  | cons q a ih =>
    obtain ⟨k, x⟩ := q
    rw [OrderedMembers] at ha
    rw [List.cons_append, OrderedMembers]
    exact ⟨ha.1, ha.2.1, ih ha.2.2⟩

theorem orderedItems_append {a b : List V} (ha : OrderedItems a) (hb : OrderedItems b) :
    OrderedItems (a ++ b) := by
  induction a with
  | nil => exact hb
  | cons q a ih =>
    rw [OrderedItems] at ha
    rw [List.cons_append, OrderedItems]
    exact ⟨ha.1, ih ha.2⟩

theorem cstr_nul (s : Text) : Char.ofNat 0 ∉ cstr s := by
  intro h
  have := List.mem_takeWhile_imp h
  simp [nul] at this

theorem ordered_set {ms : List (Text × V)} (h : OrderedMembers ms) (hs : Sorted ms) (s : Text) {v : V}
    (hv : Ordered v) : OrderedMembers (setMember ms (cstr s) v) ∧ Sorted (setMember ms (cstr s) v) := by
  rw [setMember_eq _ _ _ hs]
  refine ⟨?_, put_sorted hs _ _⟩
  unfold put
  refine ordered_append (ordered_filter _ _ h) ?_
  rw [OrderedMembers]
  exact ⟨cstr_nul s, hv, ordered_filter _ _ h⟩

theorem number_ordered {rd : ℚ → Dbl} {t : Text} {v : V} (h : decodeNumber rd t = some v) : Ordered v := by
  cases v <;> first | trivial | skip
  all_goals
    exfalso
    unfold decodeNumber decodeDouble at h
    revert h
    simp only
    repeat' split
    all_goals simp

theorem read_ordered (rd : ℚ → Dbl) (f : ℕ) :
    (∀ s v r, readValue rd f s = .ok v r → Ordered v) ∧
    (∀ a s v r, OrderedItems a → readItems rd f a s = .ok v r → Ordered v) ∧
    (∀ a u s v r, OrderedMembers a → Sorted a → readMembers rd f a u s = .ok v r → Ordered v) := by
  induction f with
  | zero =>
    refine ⟨fun s v r h => ?_, fun a s v r _ h => ?_, fun a u s v r _ _ h => ?_⟩
    · simp [readValue] at h
    · simp [readItems] at h
    · simp [readMembers] at h
  | succ f ih =>
    obtain ⟨ih1, ih2, ih3⟩ := ih
    refine ⟨fun s v r h => ?_, fun a s v r ha h => ?_, fun a u s v r ha hs h => ?_⟩
    · rw [readValue] at h
      generalize nextTok s = p at h
      obtain ⟨t, r'⟩ := p
      cases t <;> simp only at h
      case objectBegin => exact ih3 [] true r' v r trivial (by simp [Sorted]) h
      case arrayBegin =>
        split at h
        · injection h with h _; subst h; trivial
        · exact ih2 [] _ v r trivial h
      case number =>
        split at h
        · rename_i hd
          injection h with h _; subst h
          exact number_ordered hd
        · simp at h
      case string =>
        split at h
        · injection h with h _; subst h; trivial
        · simp at h
      case tru => injection h with h _; subst h; trivial
      case fls => injection h with h _; subst h; trivial
      case null => injection h with h _; subst h; trivial
      all_goals simp at h
    · rw [readItems] at h
      cases hv : readValue rd f s with
      | bad => rw [hv] at h; simp at h
      | out => rw [hv] at h; simp at h
      | ok x r' =>
        rw [hv] at h
        simp only at h
        have hx := ih1 s x r' hv
        have ha' : OrderedItems (a ++ [x]) := orderedItems_append ha (by
          rw [OrderedItems]; exact ⟨hx, trivial⟩)
        generalize nextTok r' = p at h
        obtain ⟨t, r''⟩ := p
        cases t <;> simp only at h
        case comma => exact ih2 _ _ v r ha' h
        case arrayEnd =>
          injection h with h _; subst h
          rw [Ordered]; exact ha'
        all_goals simp at h
    · rw [readMembers] at h
      generalize nextTok s = p at h
      obtain ⟨t, r'⟩ := p
      cases t <;> simp only at h
      case objectEnd =>
        split at h
        · injection h with h _; subst h
          rw [Ordered]; exact ⟨ha, hs⟩
        · simp at h
      case string raw =>
        split at h
        · simp at h
        · rename_i name _
          generalize readToken r' = p at h
          obtain ⟨t, r'⟩ := p
          cases t <;> simp only at h
          case colon =>
            cases hv : readValue rd f r' with
            | bad => rw [hv] at h; simp at h
            | out => rw [hv] at h; simp at h
            | ok x r2 =>
              rw [hv] at h
              simp only at h
              obtain ⟨ha', hs'⟩ := ordered_set ha hs name (ih1 _ x r2 hv)
              generalize readToken r2 = p at h
              obtain ⟨t, r3⟩ := p
              cases t <;> simp only at h
              case objectEnd =>
                injection h with h _; subst h
                rw [Ordered]; exact ⟨ha', hs'⟩
              case comma => exact ih3 _ _ _ v r ha' hs' h
              case comment =>
                generalize nextTok r3 = p at h
                obtain ⟨t, r4⟩ := p
                cases t <;> simp only at h
                case objectEnd =>
                  injection h with h _; subst h
                  rw [Ordered]; exact ⟨ha', hs'⟩
                all_goals exact ih3 _ _ _ v r ha' hs' h
              all_goals simp at h
          all_goals simp at h
      all_goals simp at h

/-- C112 (order).  Whatever text is read, in all objects of the value the members are in the order of their
names, which occur once and have no byte 0. -/
theorem C112_ordered (rd : ℚ → Dbl) (s : Text) (v : V) (r : Text) (h : parse rd s = .ok v r) : Ordered v :=
  (read_ordered rd _).1 s v r h

/-- A case of `C112_ordered`. -/
example : parse .num "[{\"b\":1,\"a\":{\"d\":2,\"c\":3}}]".toList =
    .ok (.arr [.obj [(['a'], .obj [(['c'], .int 3), (['d'], .int 2)]), (['b'], .int 1)]]) [] :=
  of_isOk (by decide +kernel)

/-! ## Writing -/

/-- C112 (`FastWriter`).  A value whose strings have no byte 0 and whose doubles are finite is read back
from what `FastWriter` writes, with the doubles rounded to 16 digits and the type of an integer chosen by
its size.  The full statement is without these conditions and with the same value; see `C112_fails_real`,
`C112_fails_type`, `C112_fails_nul`, `C112_fails_inf`. -/
theorem C112_fast_partial (rd : ℚ → Dbl) (v : V) (h : Writable v) :
    ∃ v', parse rd (fast v) = .ok v' ['\n'] ∧ Back rd v v' := by
  refine ⟨meaning (rounded rd v), ?_, rounded_back rd v h⟩
  obtain ⟨f, hf⟩ := read_value True rd _ _ [] ['\n'] white_nil (fast_text rd v h) (rounded_fits rd v h)
    (stop_cons (by decide) [])
  exact parse_of hf

/-- A value with an array, an object and a double. -/
def sample : V :=
  .obj [(['a'], .arr [.int (-7), .uint 3000000000, .str ['"', Char.ofNat 1], .arr []]),
    (['b'], .obj [(['c'], .real (.num (3 / 2))), (['d'], .bool true)])]

/-- A case of `C112_fast_partial`. -/
theorem sample_writable : Writable sample := by
  simp only [sample, Writable, WritableItems, WritableMembers]
  refine ⟨⟨by decide, ⟨by norm_num, by norm_num, by decide, trivial, trivial⟩, by decide,
    ⟨⟨by decide, ⟨_, rfl⟩, by decide, trivial, trivial⟩, ?_⟩, trivial⟩, ?_⟩
  · exact List.pairwise_cons.mpr ⟨fun q hq => by
      rw [List.mem_singleton] at hq; rw [hq]; decide, List.pairwise_singleton _ _⟩
  · exact List.pairwise_cons.mpr ⟨fun q hq => by
      rw [List.mem_singleton] at hq; rw [hq]; decide, List.pairwise_singleton _ _⟩

example : Writable sample := sample_writable

/-- C112 (`CustomWriter`).  The same of `CustomWriter`, whatever its width, if its brackets, its colon and
its comma are those of JSON with white space around them and the indentation is white space. -/
theorem C112_custom_partial (rd : ℚ → Dbl) (st : Style) (hst : Spaced st) (v : V) (h : Writable v) :
    ∃ v' w, White w ∧ parse rd (custom st v) = .ok v' w ∧ Back rd v v' := by
  obtain ⟨w, t, w', hw, hw', ht, e⟩ := custom_text rd hst v h [] false white_nil
  have hend : White (w' ++ ['\n']) := white_append hw' (by simp [White])
  refine ⟨meaning (rounded rd v), w' ++ ['\n'], hend, ?_, rounded_back rd v h⟩
  obtain ⟨f, hf⟩ := read_value True rd _ t w (w' ++ ['\n']) hw ht (rounded_fits rd v h)
    (stop_white hw' (stop_cons (by decide) []))
  unfold custom
  rw [e, List.append_assoc]
  exact parse_of hf

/-- The style that `CustomWriter` has by default, with another width. -/
def narrow : Style := ⟨['{'], ['}'], ['['], [']'], [':', ' '], [',', ' '], [' '], 12⟩

theorem narrow_spaced : Spaced narrow where
  opencurly := ⟨[], [], by simp [White], by simp [White], rfl⟩
  closecurly := ⟨[], [], by simp [White], by simp [White], rfl⟩
  opensquare := ⟨[], [], by simp [White], by simp [White], rfl⟩
  closesquare := ⟨[], [], by simp [White], by simp [White], rfl⟩
  colon := ⟨[], [' '], by simp [White], by simp [White], rfl⟩
  comma := ⟨[], [' '], by simp [White], by simp [White], rfl⟩
  indent := by simp [White, narrow]

/-- A case of `C112_custom_partial`: the text has more than one line. -/
example : Spaced narrow ∧ Writable sample ∧
    custom narrow (.obj [(['a'], .arr [.int 1, .int 2]), (['b'], .null)]) =
      "{\n \"a\": [1, 2], \n \"b\": null\n}\n".toList :=
  ⟨narrow_spaced, sample_writable, by decide +kernel⟩

mutual

theorem back_short (rd : ℚ → Dbl) : (v v' : V) → Short rd v → Back rd v v' → v' = v
  | .null, _, _, h => h
  | .bool _, _, _, h => h
  | .str _, _, _, h => h
  | .int z, v', hs, h => by
    rw [Short] at hs
    rw [Back, if_pos hs] at h
    exact h
  | .uint n, v', hs, h => by
    rw [Short] at hs
    rw [Back, if_neg (by omega)] at h
    exact h
  | .real x, v', hs, h => by
    rw [Short] at hs
    rw [Back] at h
    obtain ⟨m, k, hm, rfl, hr⟩ := hs
    obtain ⟨q, y, hq, hy, rfl⟩ := h
    injection hq with hq
    have := sixteen_exact hy (m := m) (k := k) (by
      rw [Int.abs_eq_natAbs] at hm; omega) hq.symm
    rw [this, ← hq, hr]
  | .arr l, v', hs, h => by
    rw [Short] at hs
    rw [Back] at h
    obtain ⟨l', hl, rfl⟩ := h
    rw [backItems_short rd l l' hs hl]
  | .obj ms, v', hs, h => by
    rw [Short] at hs
    rw [Back] at h
    obtain ⟨l', hl, rfl⟩ := h
    rw [backMembers_short rd ms l' hs hl]

theorem backItems_short (rd : ℚ → Dbl) : (l l' : List V) → ShortItems rd l → BackItems rd l l' → l' = l
  | [], _, _, h => h
  | x :: l, l', hs, h => by
    rw [ShortItems] at hs
    rw [BackItems] at h
    obtain ⟨x', l'', hx, hl, rfl⟩ := h
    rw [back_short rd x x' hs.1 hx, backItems_short rd l l'' hs.2 hl]

theorem backMembers_short (rd : ℚ → Dbl) : (l l' : List (Text × V)) → ShortMembers rd l →
    BackMembers rd l l' → l' = l
  | [], _, _, h => h
  | (k, x) :: l, l', hs, h => by
    rw [ShortMembers] at hs
    rw [BackMembers] at h
    obtain ⟨x', l'', hx, hl, rfl⟩ := h
    rw [back_short rd x x' hs.1 hx, backMembers_short rd l l'' hs.2 hl]

end

/-- C112 (the same value).  If moreover the doubles have at most 16 digits, integers up to 2³¹-1 are signed
and those above unsigned, then the value that is read is the one that was written. -/
theorem C112_same_partial (rd : ℚ → Dbl) (v : V) (h : Writable v) (hs : Short rd v) :
    parse rd (fast v) = .ok v ['\n'] ∧
    ∀ st, Spaced st → ∃ w, White w ∧ parse rd (custom st v) = .ok v w := by
  constructor
  · obtain ⟨v', h1, h2⟩ := C112_fast_partial rd v h
    rw [h1, back_short rd v v' hs h2]
  · intro st hst
    obtain ⟨v', w, hw, h1, h2⟩ := C112_custom_partial rd st hst v h
    exact ⟨w, hw, by rw [h1, back_short rd v v' hs h2]⟩

/-- A case of `C112_same_partial`. -/
example : Writable sample ∧ Short .num sample := by
  refine ⟨sample_writable, ?_⟩
  simp only [sample, Short, ShortItems, ShortMembers, and_true]
  exact ⟨⟨by norm_num, by norm_num⟩, ⟨15, -1, by norm_num, by norm_num, by norm_num⟩⟩

/-! ## What fails -/

theorem log_eq {a : ℚ} {e : ℤ} (h0 : 0 < a) (h1 : (10 : ℚ) ^ e ≤ a) (h2 : a < (10 : ℚ) ^ (e + 1)) :
    Int.log 10 a = e := by
  have g1 : e ≤ Int.log 10 a := (Int.zpow_le_iff_le_log (by norm_num) h0).mp (by exact_mod_cast h1)
  have g2 : Int.log 10 a < e + 1 := (Int.lt_zpow_iff_log_lt (by norm_num) h0).mp (by exact_mod_cast h2)
  omega

theorem dec16_eq {a : ℚ} {e : ℤ} {m : ℕ} (h0 : 0 < a) (h1 : (10 : ℚ) ^ e ≤ a) (h2 : a < (10 : ℚ) ^ (e + 1))
    (h3 : Random.lrint (a / 10 ^ (e - 15)) = m) (h4 : m ≠ 10 ^ 16) : dec16 a = (m, e) := by
  unfold dec16
  rw [log_eq h0 h1 h2]
  simp only
  rw [h3, Int.toNat_natCast, if_neg h4]

/-- C112 fails (precision).  Two neighbouring doubles, 5404319552844595/2⁵⁴ (which is 0.3) and the one above
it, are written the same way, so that at most one of them can be read back: 16 digits do not suffice. -/
theorem C112_fails_real :
    ∃ x y : ℚ, x = 5404319552844595 / 2 ^ 54 ∧ y = 5404319552844596 / 2 ^ 54 ∧
      fast (.real (.num x)) = "0.30\n".toList ∧ fast (.real (.num y)) = "0.30\n".toList := by
  have h : ∀ x : ℚ, 0 < x → (10 : ℚ) ^ (-1 : ℤ) ≤ x → x < (10 : ℚ) ^ ((-1 : ℤ) + 1) →
      Random.lrint (x / 10 ^ ((-1 : ℤ) - 15)) = (3000000000000000 : ℕ) →
      fast (.real (.num x)) = "0.30\n".toList := by
    intro x h0 h1 h2 h3
    have hd := dec16_eq h0 h1 h2 h3 (by norm_num)
    rw [fast, fastValue, scalar, realText, fmt, if_neg h0.ne', if_neg (not_lt.mpr h0.le), abs_of_pos h0, hd]
    decide +kernel
  refine ⟨_, _, rfl, rfl, h _ (by norm_num) (by norm_num) (by norm_num) ?_,
    h _ (by norm_num) (by norm_num) (by norm_num) ?_⟩ <;> decide +kernel

/-- C112 fails (types).  A signed 3000000000 is read as unsigned, and an unsigned 5 as signed. -/
theorem C112_fails_type :
    parse .num (fast (.int 3000000000)) = .ok (.uint 3000000000) ['\n'] ∧
    parse .num (fast (.uint 5)) = .ok (.int 5) ['\n'] :=
  ⟨of_isOk (by decide +kernel), of_isOk (by decide +kernel)⟩

/-- C112 fails (byte 0).  Of a string only what is before its first byte 0 is written. -/
theorem C112_fails_nul (a b : Text) (h : Char.ofNat 0 ∉ a) :
    fast (.str (a ++ Char.ofNat 0 :: b)) = fast (.str a) := by
  have : cstr (a ++ Char.ofNat 0 :: b) = cstr a := by
    unfold cstr
    rw [List.takeWhile_append_of_pos (by
      intro c hc
      simp only [bne_iff_ne, ne_eq, nul]
      rintro rfl
      exact h hc)]
    rw [List.takeWhile_cons_of_neg (by simp [nul]), List.append_nil]
    rw [List.takeWhile_eq_self_iff.mpr (by
      intro c hc
      simp only [bne_iff_ne, ne_eq, nul]
      rintro rfl
      exact h hc)]
  rw [fast, fast, fastValue, fastValue, scalar, scalar, quoted, quoted, this]

/-- A case of `C112_fails_nul`. -/
example : fast (.str ['a', Char.ofNat 0, 'b']) = "\"a\"\n".toList := by
  decide +kernel

/-- C112 fails (infinity).  A document that is -∞ is read as 0, and one that is +∞ or NaN is not read. -/
theorem C112_fails_inf :
    parse .num (fast (.real .ninf)) = .ok (.int 0) "inf\n".toList ∧
    parse .num (fast (.real .pinf)) = .bad ∧ parse .num (fast (.real .nan)) = .bad :=
  ⟨of_isOk (by decide +kernel), of_isBad (by decide +kernel), of_isBad (by decide +kernel)⟩

/-- The last character of a JSON text. -/
theorem text_last {rd : ℚ → Dbl} {v : V} {t : Text} (h : IsText (Number False rd) v t) :
    ∃ r c, t = r ++ [c] ∧ c ≠ '.' ∧ c ≠ '-' ∧ isSpace c = false := by
  have hd : ∀ ds : Text, IsDigits ds → ∃ r c, ds = r ++ [c] ∧ c ≠ '.' ∧ c ≠ '-' ∧ isSpace c = false := by
    intro ds h
    refine ⟨ds.dropLast, ds.getLast h.1, (List.dropLast_append_getLast h.1).symm, ?_⟩
    have hc := h.2 _ (List.getLast_mem h.1)
    have hg : isDig (ds.getLast h.1) = true := (isDig_iff _).mpr hc
    refine ⟨?_, ?_, space_not_num (Or.inl hg)⟩
    · intro e; rw [e] at hg; revert hg; decide
    · intro e; rw [e] at hg; revert hg; decide
  cases v with
  | null => exact ⟨"nul".toList, 'l', h, by decide, by decide, by decide⟩
  | bool b =>
    cases b
    · exact ⟨"fals".toList, 'e', h, by decide, by decide, by decide⟩
    · exact ⟨"tru".toList, 'e', h, by decide, by decide, by decide⟩
  | int z =>
    rw [IsText] at h
    obtain ⟨ds, hn, h⟩ := h
    obtain ⟨r, c, e, hc⟩ := hd ds hn.1
    rcases h with ⟨_, rfl⟩ | ⟨_, rfl⟩
    · exact ⟨r, c, e, hc⟩
    · exact ⟨'-' :: r, c, by rw [e]; rfl, hc⟩
  | uint z =>
    rw [IsText] at h
    obtain ⟨ds, hn, h⟩ := h
    obtain ⟨r, c, e, hc⟩ := hd ds hn.1
    rcases h with ⟨_, rfl⟩ | ⟨_, rfl⟩
    · exact ⟨r, c, e, hc⟩
    · exact ⟨'-' :: r, c, by rw [e]; rfl, hc⟩
  | real x =>
    rw [IsText] at h
    obtain ⟨q, ⟨n, ds, fs, frac, ex, e, hn, hf, he, hne, h⟩, _⟩ := h
    have key : ∃ r c, frac ++ ex = r ++ [c] ∧ c ≠ '.' ∧ c ≠ '-' ∧ isSpace c = false := by
      rcases he with ⟨_, rfl⟩ | ⟨c, es, hc, hes, he⟩
      · rcases hf with ⟨_, rfl⟩ | ⟨hfs | ⟨hfs, _⟩, rfl⟩
        · simp at hne
        · obtain ⟨r, c, e, hc⟩ := hd fs hfs
          exact ⟨'.' :: r, c, by rw [e]; simp, hc⟩
        · exact absurd hfs id
      · obtain ⟨r, d, e, hd'⟩ := hd es hes
        rcases he with ⟨_, rfl | rfl⟩ | ⟨_, rfl⟩
        · exact ⟨frac ++ c :: r, d, by rw [e]; simp, hd'⟩
        · exact ⟨frac ++ c :: '+' :: r, d, by rw [e]; simp, hd'⟩
        · exact ⟨frac ++ c :: '-' :: r, d, by rw [e]; simp, hd'⟩
    obtain ⟨r, c, e, hc⟩ := key
    rcases h with ⟨_, rfl⟩ | ⟨_, rfl⟩
    · exact ⟨ds ++ r, c, by rw [List.append_assoc, e]; simp, hc⟩
    · exact ⟨'-' :: ds ++ r, c, by rw [List.append_assoc, e]; simp, hc⟩
  | str s =>
    rw [IsText] at h
    obtain ⟨l, _, rfl⟩ := h
    exact ⟨'"' :: l, '"', rfl, by decide, by decide, by decide⟩
  | arr l =>
    rw [IsText] at h
    obtain ⟨b, _, rfl⟩ := h
    exact ⟨'[' :: b, ']', rfl, by decide, by decide, by decide⟩
  | obj l =>
    rw [IsText] at h
    obtain ⟨b, _, rfl⟩ := h
    exact ⟨'{' :: b, '}', rfl, by decide, by decide, by decide⟩

/-- A text that ends with a point or a minus sign is no JSON document. -/
theorem not_document {rd : ℚ → Dbl} {t : Text} {c : Char} (hc : c = '.' ∨ c = '-') (v : V) :
    ¬ IsDocument (Number False rd) v (t ++ [c]) := by
  rintro ⟨w, s, w', _, hs, hw', e⟩
  obtain ⟨r, d, rfl, h1, h2, h3⟩ := text_last hs
  have : (t ++ [c]).getLast? = (w ++ (r ++ [d]) ++ w').getLast? := by rw [e]
  rw [List.getLast?_append_cons, List.getLast?_singleton] at this
  cases hl : w'.getLast? with
  | none =>
    have : w' = [] := by simpa using hl
    subst this
    simp at this
    subst this
    rcases hc with h | h
    · exact h1 h
    · exact h2 h
  | some x =>
    have hx : x ∈ w' := List.mem_of_getLast? hl
    rw [List.getLast?_append, hl] at this
    simp at this
    subst this
    have := hw' c hx
    rcases hc with rfl | rfl <;> revert this <;> decide

/-- C112 fails (what is written is JSON).  The double 10¹⁵ is written with a point and no digit after it,
which is no JSON text, whatever its value. -/
theorem C112_fails_point : fast (.real (.num (10 ^ 15))) = "1000000000000000.\n".toList ∧
    ∀ (rd : ℚ → Dbl) (v : V), ¬ IsDocument (Number False rd) v "1000000000000000.".toList := by
  constructor
  · have hd : dec16 (10 ^ 15) = (1000000000000000, 15) :=
      dec16_eq (by norm_num) (by norm_num) (by norm_num) (by decide +kernel) (by norm_num)
    rw [fast, fastValue, scalar, realText, fmt, if_neg (by norm_num), if_neg (by norm_num),
      abs_of_pos (by norm_num), hd]
    decide +kernel
  · intro rd v
    exact not_document (t := "1000000000000000".toList) (Or.inl rfl) v

/-- C112 fails (no other text is read).  A minus sign alone is read as 0 although it is no JSON document.
So are texts with a comma before the end of an object after an empty name, with any token instead of a
comma after a comment, and numbers with more than one point or sign, of which the first part counts. -/
theorem C112_fails_lax :
    (parse .num ['-'] = .ok (.int 0) [] ∧ ∀ rd v, ¬ IsDocument (Number False rd) v ['-']) ∧
    parse .num "{\"\":1,}".toList = .ok (.obj [([], .int 1)]) [] ∧
    parse .num "{\"a\":1/**/5\"b\":2}".toList = .ok (.obj [(['a'], .int 1), (['b'], .int 2)]) [] ∧
    parse .num "{\"a\"/**/:1}".toList = .bad ∧
    parse .num "1-2".toList = .ok (.real (.num 1)) [] ∧
    parse .num "1.5.3".toList = .ok (.real (.num (3 / 2))) [] := by
  refine ⟨⟨of_isOk (by decide +kernel), fun rd v => not_document (t := []) (Or.inr rfl) v⟩,
    of_isOk (by decide +kernel), of_isOk (by decide +kernel), of_isBad (by decide +kernel),
    of_isOk (by decide +kernel), of_isOk (by decide +kernel)⟩

/-- C112 fails (the end).  After any JSON text, what follows a space is ignored. -/
theorem C112_fails_tail (rd : ℚ → Dbl) (v : V) (t : Text) (h : IsText (Number False rd) v t) (hf : Fits v)
    (junk : Text) : parse rd (t ++ ' ' :: junk) = .ok (meaning v) (' ' :: junk) := by
  obtain ⟨f, hr⟩ := read_value False rd v t [] (' ' :: junk) white_nil h hf (stop_cons (by decide) junk)
  exact parse_of hr

/-- A case of `C112_fails_tail`. -/
example : parse .num "{\"a\":1} }{ x".toList = .ok (.obj [(['a'], .int 1)]) " }{ x".toList :=
  of_isOk (by decide +kernel)

/-- C112 fails (large integers).  Integers of 64 bits and more are reduced modulo 2⁶⁴ unless the last digit
is the one that leads out of range; a negative one becomes positive. -/
theorem C112_fails_big :
    parse .num "20000000000000000000".toList = .ok (.uint 1553255926290448384) [] ∧
    parse .num "-9999999999999999990".toList = .ok (.int 8446744073709551626) [] :=
  ⟨of_isOk (by decide +kernel), of_isOk (by decide +kernel)⟩

/-- C112 fails (names).  Two names that agree up to a byte 0 are one. -/
theorem C112_fails_name :
    parse .num "{\"a\\u0000b\":1,\"a\\u0000c\":2}".toList = .ok (.obj [(['a'], .int 2)]) [] :=
  of_isOk (by decide +kernel)

/-! ## Integers out of range -/

/-- The loop over the digits of a number that is above the greatest one: it is noticed if there are more
digits, or if the last digit is above that of the greatest number. -/
theorem intLoop_double {max : ℕ} (h64 : max < 2 ^ 64) (l : Text) :
    ∀ v : ℕ, (∀ c ∈ l, isDig c = true) → v ≤ max → max < v * 10 ^ l.length + decValue l →
      (max % 10 < (v * 10 ^ l.length + decValue l) % 10 ∨ 10 * (max + 1) ≤ v * 10 ^ l.length + decValue l) →
      intLoop (max / 10) (max % 10) l v = .double := by
  induction l with
  | nil => intro v _ hv hm; simp [decValue] at hm; omega
  | cons c r ih =>
    intro v hd hv hm hn
    have hc := hd c (by simp)
    have hc' := (isDig_iff c).mp hc
    rw [decValue, List.length_cons, pow_succ] at hm hn
    have e : v * (10 ^ r.length * 10) + ((c.toNat - 48) * 10 ^ r.length + decValue r) =
        (v * 10 + (c.toNat - 48)) * 10 ^ r.length + decValue r := by ring
    rw [e] at hm hn
    rw [intLoop, if_neg (by simp [hc])]
    simp only
    split
    · rfl
    · rename_i hno
      have hdiv := Nat.div_add_mod max 10
      by_cases hr : r = []
      · subst hr
        simp only [List.length_nil, pow_zero, mul_one, decValue, Nat.add_zero] at hm hn
        by_cases hv' : max / 10 ≤ v
        · have : ¬ c.toNat - 48 > max % 10 := fun h => hno ⟨hv', .inr h⟩
          omega
        · omega
      · have hlt : v < max / 10 := by
          by_contra h
          exact hno ⟨by omega, .inl hr⟩
        rw [show (v * 10 + (c.toNat - 48)) % 2 ^ 64 = v * 10 + (c.toNat - 48) from Nat.mod_eq_of_lt (by omega)]
        exact ih _ (fun x hx => hd x (by simp [hx])) (by omega) hm hn

theorem scan_int {z : ℤ} {t : Text} (h : IntText z t) : scan t = some (z : ℚ) := by
  obtain ⟨ds, ⟨hd, _, hv⟩, ⟨hz, rfl⟩ | ⟨hz, rfl⟩⟩ := h
  · have hs := scanSign_digits hd []
    rw [List.append_nil] at hs
    have hdrop : t.dropWhile isDig = [] := by simpa using (takeWhile_append (rest := []) hd.all (by simp)).2
    unfold scan
    simp only [hs, takeWhile_digits hd.all, hdrop, hd.1, false_and, if_false, scanFrac, scanExp]
    simp only [List.head?_nil, reduceCtorEq, if_false, or_self, List.append_nil, digitsValue_eq, hv]
    simpa using hz
  · have hdrop : ds.dropWhile isDig = [] := by simpa using (takeWhile_append (rest := []) hd.all (by simp)).2
    unfold scan
    rw [scanSign_minus]
    simp only [takeWhile_digits hd.all, hdrop, hd.1, false_and, if_false, scanFrac, scanExp]
    simp only [List.head?_nil, reduceCtorEq, if_false, or_self, List.append_nil, digitsValue_eq, hv]
    simp
    rw [abs_of_nonpos (by exact_mod_cast hz), neg_neg]

/-- C112 (large integers).  An integer that does not fit 64 bits is read as the double next to it, if it has
a digit more than the greatest or least one, or a larger last digit.  The full statement is without this
condition; see `C112_fails_big`. -/
theorem C112_big_partial (rd : ℚ → Dbl) (z : ℤ) (t : Text) (h : IntText z t)
    (hz : 2 ^ 64 ≤ z ∧ (5 < z % 10 ∨ 10 * 2 ^ 64 ≤ z) ∨
      z < -2 ^ 63 ∧ (8 < -z % 10 ∨ 10 * (2 ^ 63 + 1) ≤ -z)) : parse rd t = .ok (.real (rd z)) [] := by
  have hdec : decodeNumber rd t = some (.real (rd z)) := by
    have hsc := scan_int h
    obtain ⟨ds, ⟨hd, _, hv⟩, ⟨hz', rfl⟩ | ⟨hz', rfl⟩⟩ := h
    · have ha := hd.all
      unfold decodeNumber
      have e1 : t.any (fun c => ['.', 'e', 'E', '+'].contains c) = false := any_false_of_digits ha dig_not_mark
      have e2 : t.tail.any (· == '-') = false :=
        any_false_of_digits (fun c hc => ha c (List.mem_of_mem_tail hc)) dig_not_minus
      rw [e1, e2]
      simp only [Bool.or_self, Bool.false_eq_true, if_false]
      have e3 : ¬ t.head? = some '-' := by
        intro e
        have := dig_not_minus '-' (ha '-' (List.mem_of_mem_head? e))
        simp at this
      have hl := intLoop_double (max := 2 ^ 64 - 1) (by norm_num) t 0 ha (by norm_num) (by
        rw [hv]; omega) (by rw [hv]; omega)
      simp only [e3, if_false]
      rw [hl, decodeDouble, hsc]
      rfl
    · have ha := hd.all
      unfold decodeNumber
      have e1 : ('-' :: ds).any (fun c => ['.', 'e', 'E', '+'].contains c) = false := by
        rw [List.any_cons, any_false_of_digits ha dig_not_mark]; decide
      have e2 : ('-' :: ds).tail.any (· == '-') = false := any_false_of_digits ha dig_not_minus
      rw [e1, e2]
      simp only [Bool.or_self, Bool.false_eq_true, if_false, List.head?_cons, if_true, List.tail_cons]
      have hl := intLoop_double (max := 2 ^ 63) (by norm_num) ds 0 ha (by norm_num) (by
        rw [hv]; omega) (by rw [hv]; omega)
      rw [hl, decodeDouble, hsc]
      rfl
  have hr := read_number rd (w := []) (rest := []) (by simp [White]) (by simp [Stop]) h.shape hdec
  have := parse_of hr
  simpa using this

/-- A case of `C112_big_partial`: 2^64, which ends with 6. -/
example : IntText 18446744073709551616 "18446744073709551616".toList ∧
    parse .num "18446744073709551616".toList = .ok (.real (.num 18446744073709551616)) [] := by
  have h : IntText 18446744073709551616 "18446744073709551616".toList :=
    ⟨_, ⟨⟨by decide, by decide +kernel⟩, by decide +kernel, by decide +kernel⟩, .inl ⟨by norm_num, rfl⟩⟩
  exact ⟨h, by simpa using C112_big_partial .num _ _ h (.inl ⟨by norm_num, .inl (by norm_num)⟩)⟩

/-- C112 fails (surrogates).  A low surrogate alone is taken as a character. -/
theorem C112_fails_lone :
    parse .num "\"\\udc00\"".toList = .ok (.str [Char.ofNat 0xED, Char.ofNat 0xB0, Char.ofNat 0x80]) [] :=
  of_isOk (by decide +kernel)

end Cyclus.JsonText
