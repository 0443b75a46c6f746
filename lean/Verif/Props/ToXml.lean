import Verif.Model.Convert
import Verif.Props.Random
import Verif.Props.Infile
import Mathlib.Tactic.FieldSimp

/-!
# C97: the XML made from JSON says the same
-/

namespace Cyclus.Convert

/-- An XML element: empty, with text, or with elements inside. -/
inductive X where
  | empty (name : List Char)
  | text (name s : List Char)
  | node (name : List Char) (children : List X)

/-- Text as it must be written in XML. -/
def escape (s : List Char) : List Char := s.flatMap fun c =>
  if c = '<' then ['&', 'l', 't', ';']
  else if c = '>' then ['&', 'g', 't', ';']
  else if c = '&' then ['&', 'a', 'm', 'p', ';']
  else [c]

mutual

/-- The text of an element: indented, each element on its own line. -/
def render (ind : List Char) : X → List Char
  | .empty n => ind ++ ['<'] ++ n ++ ['/', '>', '\n']
  | .text n s => ind ++ ['<'] ++ n ++ ['>'] ++ escape s ++ ['<', '/'] ++ n ++ ['>', '\n']
  | .node n xs => ind ++ ['<'] ++ n ++ ['>', '\n'] ++ renderAll (ind ++ [' ', ' ']) xs ++
      ind ++ ['<', '/'] ++ n ++ ['>', '\n']

/-- The text of several elements. -/
def renderAll (ind : List Char) : List X → List Char
  | [] => []
  | x :: xs => render ind x ++ renderAll ind xs

end

mutual

/-- The elements that a member of an object stands for: an array stands for one element for each of
its items. -/
def elements (shown : ℚ → List Char) (n : List Char) : J → List X
  | .null => [.empty n]
  | .bool b => [.text n (if b then ['1'] else ['0'])]
  | .int z => [.text n (showInt z)]
  | .real r => [.text n (shown r)]
  | .str s => [.text n s]
  | .arr xs => elementsItems shown n xs
  | .obj ms => [.node n (elementsMembers shown ms)]

/-- Those of all items. -/
def elementsItems (shown : ℚ → List Char) (n : List Char) : List J → List X
  | [] => []
  | x :: xs => elements shown n x ++ elementsItems shown n xs

/-- Those of all members. -/
def elementsMembers (shown : ℚ → List Char) : List (List Char × J) → List X
  | [] => []
  | (n, v) :: ms => elements shown n v ++ elementsMembers shown ms

end

/-- Text that needs no escaping. -/
def Plain (s : List Char) : Prop := '<' ∉ s ∧ '>' ∉ s ∧ '&' ∉ s

/-- Neither null nor object nor array. -/
def Scalar : J → Prop
  | .null => False
  | .arr _ => False
  | .obj _ => False
  | _ => True

mutual

/-- Values that are converted well: texts need no escaping, numbers have six digits, arrays are not
empty and consist of objects only or of scalars only. -/
def Regular (shown : ℚ → List Char) : J → Prop
  | .real r => round6 r = r ∧ Plain (shown r)
  | .str s => Plain s
  | .arr xs => xs ≠ [] ∧ ((∀ x ∈ xs, x.isObj = true) ∨ ∀ x ∈ xs, Scalar x) ∧ RegularItems shown xs
  | .obj ms => RegularMembers shown ms
  | _ => True

/-- All items are. -/
def RegularItems (shown : ℚ → List Char) : List J → Prop
  | [] => True
  | x :: xs => Regular shown x ∧ RegularItems shown xs

/-- All members are. -/
def RegularMembers (shown : ℚ → List Char) : List (List Char × J) → Prop
  | [] => True
  | (_, v) :: ms => Regular shown v ∧ RegularMembers shown ms

end

theorem escape_plain {s : List Char} (h : Plain s) : escape s = s := by
  unfold escape
  induction s with
  | nil => rfl
  | cons c cs ih =>
    obtain ⟨h1, h2, h3⟩ := h
    simp only [List.mem_cons, not_or] at h1 h2 h3
    rw [List.flatMap_cons, ih ⟨h1.2, h2.2, h3.2⟩, if_neg (Ne.symm h1.1), if_neg (Ne.symm h2.1),
      if_neg (Ne.symm h3.1)]
    rfl

theorem decimal_spec (n : ℕ) : ∃ ds, ds ≠ [] ∧ Info.Decimal ds (decimal n) ∧ Info.value ds = n := by
  unfold decimal
  by_cases h : n = 0
  · rw [if_pos h]
    exact ⟨[0], by simp, ⟨by simp, rfl⟩, by simp [Info.value, h]⟩
  · rw [if_neg h]
    refine ⟨(Nat.digits 10 n).reverse, ?_, ⟨?_, rfl⟩, ?_⟩
    · simpa using Nat.digits_ne_nil_iff_ne_zero.mpr h
    · intro d hd
      exact Nat.digits_lt_base (by omega) (List.mem_reverse.mp hd)
    · unfold Info.value
      rw [List.reverse_reverse, Nat.ofDigits_digits]

theorem plain_decimal (n : ℕ) : ∀ c ∈ decimal n, c ≠ '<' ∧ c ≠ '>' ∧ c ≠ '&' := by
  obtain ⟨ds, _, ⟨h, he⟩, _⟩ := decimal_spec n
  rw [he]
  intro c hc
  obtain ⟨d, hd, rfl⟩ := List.mem_map.mp hc
  have := h d hd
  interval_cases d <;> decide

theorem plain_showInt (z : ℤ) : Plain (showInt z) := by
  have hd := plain_decimal z.natAbs
  unfold showInt Plain
  split
  · refine ⟨?_, ?_, ?_⟩ <;> (rw [List.mem_cons]; rintro (h | h))
    · exact absurd h (by decide)
    · exact (hd _ h).1 rfl
    · exact absurd h (by decide)
    · exact (hd _ h).2.1 rfl
    · exact absurd h (by decide)
    · exact (hd _ h).2.2 rfl
  · exact ⟨fun h => (hd _ h).1 rfl, fun h => (hd _ h).2.1 rfl, fun h => (hd _ h).2.2 rfl⟩

theorem outdent_add (ind : List Char) : outdent (ind ++ [' ', ' ']) = ind := by
  unfold outdent
  rw [if_neg (by simp)]
  simp

variable (shown : ℚ → List Char)

/-- The text of a scalar. -/
theorem scalar_eq (x : J) (hs : Scalar x) (hr : Regular shown x) (n p ind ind' : List Char) :
    elements shown n x = [.text n (emit shown x p ind')] ∧
    render ind (.text n (emit shown x p ind')) =
      ind ++ openTag n ++ emit shown x p ind' ++ closeTag n := by
  have key : ∀ s, Plain s → render ind (.text n s) = ind ++ openTag n ++ s ++ closeTag n := by
    intro s h
    simp only [render, escape_plain h, openTag, closeTag]
    simp
  cases x with
  | null => exact absurd hs (by simp [Scalar])
  | arr => exact absurd hs (by simp [Scalar])
  | obj => exact absurd hs (by simp [Scalar])
  | bool b =>
    refine ⟨by simp [elements, emit], ?_⟩
    simp only [emit]
    exact key _ (by cases b <;> simp [Plain])
  | int z =>
    refine ⟨by simp [elements, emit], ?_⟩
    simp only [emit]
    exact key _ (plain_showInt z)
  | real r =>
    simp only [Regular] at hr
    refine ⟨by simp [elements, emit, hr.1], ?_⟩
    simp only [emit, hr.1]
    exact key _ hr.2
  | str s =>
    simp only [Regular] at hr
    refine ⟨by simp [elements, emit], ?_⟩
    simp only [emit]
    exact key _ hr

theorem emitItems_cons (x : J) (xs : List J) (first : Bool) (p ind : List Char)
    (h : x.isNull = false) :
    emitItems shown (x :: xs) first p ind =
      (if first then [] else outdent ind ++ openTag p ++ (if x.isObj || x.isArr then ['\n'] else [])) ++
        emit shown x p ind ++
        (if xs.isEmpty then [] else (if x.isObj || x.isArr then outdent ind else []) ++ closeTag p) ++
        emitItems shown xs false p ind := by
  cases x with
  | null => exact absurd h (by simp [J.isNull])
  | _ => simp only [emitItems]

theorem renderAll_append (ind : List Char) (xs ys : List X) :
    renderAll ind (xs ++ ys) = renderAll ind xs ++ renderAll ind ys := by
  induction xs with
  | nil => simp [renderAll]
  | cons x xs ih => simp [renderAll, ih]

theorem items_scalar (xs : List J) (hs : ∀ x ∈ xs, Scalar x) (hr : RegularItems shown xs)
    (hne : xs ≠ []) (n ind : List Char) :
    ind ++ openTag n ++ emitItems shown xs true n (ind ++ [' ', ' ']) ++ closeTag n =
      renderAll ind (elementsItems shown n xs) := by
  induction xs with
  | nil => exact absurd rfl hne
  | cons x xs ih =>
    simp only [RegularItems] at hr
    have hx := hs x (by simp)
    have hnn : x.isNull = false ∧ x.isObj = false ∧ x.isArr = false := by
      cases x <;> simp_all [Scalar, J.isNull, J.isObj, J.isArr]
    obtain ⟨h1, h2⟩ := scalar_eq shown x hx hr.1 n n ind (ind ++ [' ', ' '])
    rw [emitItems_cons shown _ _ _ _ _ hnn.1]
    simp only [elementsItems, renderAll_append, h1, renderAll, h2, hnn.2.1, hnn.2.2, Bool.or_self,
      Bool.false_eq_true, if_false, if_true, List.nil_append, List.append_nil]
    cases xs with
    | nil => simp [emitItems, elementsItems, renderAll]
    | cons y ys =>
      have hy := hs y (by simp)
      have hny : y.isNull = false ∧ y.isObj = false ∧ y.isArr = false := by
        cases y <;> simp_all [Scalar, J.isNull, J.isObj, J.isArr]
      have ih' := ih (fun z hz => hs z (by simp [hz])) hr.2 (by simp)
      rw [← ih']
      rw [emitItems_cons shown y ys false n _ hny.1, emitItems_cons shown y ys true n _ hny.1]
      simp only [hny.2.1, hny.2.2, outdent_add, Bool.or_self, Bool.false_eq_true, if_false, if_true,
        List.isEmpty_cons, List.append_assoc, List.nil_append, List.append_nil]

mutual

theorem value_eq : (v : J) → Regular shown v → ∀ (n ind : List Char) (ms : List (List Char × J)),
    emitMembers shown ((n, v) :: ms) ind =
      renderAll ind (elements shown n v) ++ emitMembers shown ms ind
  | .null, _ => by
    intro n ind ms
    simp [emitMembers, elements, renderAll, render, emptyTag]
  | .bool b, h => by
    intro n ind ms
    obtain ⟨h1, h2⟩ := scalar_eq shown (.bool b) trivial h n n ind (ind ++ [' ', ' '])
    simp only [h1, renderAll, h2, emitMembers, indentMember]
    simp
  | .int z, h => by
    intro n ind ms
    obtain ⟨h1, h2⟩ := scalar_eq shown (.int z) trivial h n n ind (ind ++ [' ', ' '])
    simp only [h1, renderAll, h2, emitMembers, indentMember]
    simp
  | .real r, h => by
    intro n ind ms
    obtain ⟨h1, h2⟩ := scalar_eq shown (.real r) trivial h n n ind (ind ++ [' ', ' '])
    simp only [h1, renderAll, h2, emitMembers, indentMember]
    simp
  | .str s, h => by
    intro n ind ms
    obtain ⟨h1, h2⟩ := scalar_eq shown (.str s) trivial h n n ind (ind ++ [' ', ' '])
    simp only [h1, renderAll, h2, emitMembers, indentMember]
    simp
  | .obj us, h => by
    intro n ind ms
    simp only [Regular] at h
    have ih := members_eq us h (ind ++ [' ', ' '])
    simp only [emitMembers, indentMember, emit, ih, elements, renderAll, render, openTag, closeTag]
    simp
  | .arr xs, h => by
    intro n ind ms
    simp only [Regular] at h
    obtain ⟨hne, hk, hr⟩ := h
    have ih : (∀ x ∈ xs, x.isObj = true) → _ := fun hk => items_obj xs hk hr hne n ind
    cases xs with
    | nil => exact absurd rfl hne
    | cons x xs =>
      simp only [emitMembers, emit, elements]
      rcases hk with hk | hk
      · have hx : indentMember (.arr (x :: xs)) = true := by
          simp [indentMember, hk x (by simp)]
        rw [hx, ← ih hk]
        simp
      · have hx : indentMember (.arr (x :: xs)) = false := by
          have := hk x (by simp)
          cases x <;> simp_all [Scalar, indentMember, J.isObj, J.isArr]
        rw [hx, ← items_scalar shown (x :: xs) hk hr hne n ind]
        simp

theorem members_eq : (ms : List (List Char × J)) → RegularMembers shown ms → ∀ ind,
    emitMembers shown ms ind = renderAll ind (elementsMembers shown ms)
  | [], _ => by
    intro ind
    simp [emitMembers, elementsMembers, renderAll]
  | (n, v) :: ms, h => by
    intro ind
    simp only [RegularMembers] at h
    rw [value_eq v h.1 n ind ms, members_eq ms h.2 ind]
    simp only [elementsMembers, renderAll_append]

theorem items_obj : (xs : List J) → (∀ x ∈ xs, x.isObj = true) → RegularItems shown xs → xs ≠ [] →
    ∀ n ind, ind ++ openTag n ++ ['\n'] ++ emitItems shown xs true n (ind ++ [' ', ' ']) ++ ind ++
      closeTag n = renderAll ind (elementsItems shown n xs)
  | [], _, _, hne => absurd rfl hne
  | .obj us :: xs, hk, hr, _ => by
    intro n ind
    simp only [RegularItems, Regular] at hr
    have ih := members_eq us hr.1 (ind ++ [' ', ' '])
    have ih2 := fun hne => items_obj xs (fun z hz => hk z (by simp [hz])) hr.2 hne n ind
    rw [emitItems_cons shown _ _ _ _ _ rfl]
    simp only [elementsItems, renderAll_append, elements, renderAll, render, emit, ih, J.isObj,
      Bool.true_or, if_true]
    cases xs with
    | nil => simp [emitItems, elementsItems, renderAll, openTag, closeTag]
    | cons y ys =>
      have hy := hk y (by simp)
      have hny : y.isNull = false := by cases y <;> simp_all [J.isObj, J.isNull]
      rw [← ih2 (by simp)]
      rw [emitItems_cons shown y ys false n _ hny, emitItems_cons shown y ys true n _ hny]
      simp only [hy, outdent_add, Bool.true_or, Bool.false_eq_true, if_false, if_true,
        List.isEmpty_cons, List.append_assoc, List.nil_append, List.append_nil, openTag, closeTag]
      simp
  | .null :: _, hk, _, _ => absurd (hk .null (by simp)) (by simp [J.isObj])
  | .bool b :: _, hk, _, _ => absurd (hk (.bool b) (by simp)) (by simp [J.isObj])
  | .int b :: _, hk, _, _ => absurd (hk (.int b) (by simp)) (by simp [J.isObj])
  | .real b :: _, hk, _, _ => absurd (hk (.real b) (by simp)) (by simp [J.isObj])
  | .str b :: _, hk, _, _ => absurd (hk (.str b) (by simp)) (by simp [J.isObj])
  | .arr b :: _, hk, _, _ => absurd (hk (.arr b) (by simp)) (by simp [J.isObj])

end

/-- C97 (conversion).  For every object whose texts need no escaping, whose numbers have at most six
digits, and whose arrays, at any depth, are not empty and consist of objects only or of scalars only:
the text is exactly that of the elements that the members stand for, one for each item of an array,
nested as the objects are.  The full statement has no conditions; see the disagreements below. -/
theorem C97_convert_partial (ms : List (List Char × J)) (h : RegularMembers shown ms) :
    toXml shown (.obj ms) = renderAll [] (elementsMembers shown ms) := by
  unfold toXml
  rw [emit]
  exact members_eq shown ms h []

/-- A case of `C97_convert_partial`: `{"a": [{"b": 1}, {"b": null}], "c": ["x", "y"]}`. -/
example : RegularMembers shown [(['a'], .arr [.obj [(['b'], .int 1)], .obj [(['b'], .null)]]),
    (['c'], .arr [.str ['x'], .str ['y']])] := by
  simp [RegularMembers, RegularItems, Regular, J.isObj, Scalar, Plain]

/-! ## Numbers -/

/-- C97 (numbers).  Integers are written as their decimal numerals, which `Query<int>` reads back.  A
floating point number is written exactly if and only if it has at most six significant digits; in
general the relative error is at most 5 in a million. -/
theorem C97_numbers (z : ℤ) (r : ℚ) :
    Infile.Numeral z (showInt z) ∧
    (round6 r = r ↔ ∃ m k : ℤ, |m| < 10 ^ 6 ∧ r = m * (10 : ℚ) ^ k) ∧
    |round6 r - r| ≤ |r| * (5 / 10 ^ 6) := by
  refine ⟨?_, ?_⟩
  · obtain ⟨ds, hne, hd, hv⟩ := decimal_spec z.natAbs
    unfold showInt
    by_cases h : z < 0
    · rw [if_pos h]
      refine ⟨[], [], decimal z.natAbs, ds, by simp [Infile.Blank], by simp [Infile.Blank], hne, hd,
        Or.inr (Or.inr ⟨by simp, ?_⟩)⟩
      rw [hv]; omega
    · rw [if_neg h]
      refine ⟨[], [], decimal z.natAbs, ds, by simp [Infile.Blank], by simp [Infile.Blank], hne, hd,
        Or.inl ⟨by simp, ?_⟩⟩
      rw [hv]; omega
  · by_cases h0 : r = 0
    · subst h0
      refine ⟨?_, by simp [round6]⟩
      simp only [round6, if_true, true_iff]
      exact ⟨0, 0, by norm_num, by simp⟩
    have hpos : 0 < |r| := abs_pos.mpr h0
    have hlo := Int.zpow_log_le_self (b := 10) (by norm_num) hpos
    have hhi := Int.lt_zpow_succ_log_self (b := 10) (by norm_num) |r|
    push_cast at hlo hhi
    have heq : round6 r = (Random.lrint (r / 10 ^ (Int.log 10 |r| - 5)) : ℚ) *
        10 ^ (Int.log 10 |r| - 5) := by
      unfold round6
      rw [if_neg h0]
    generalize Int.log 10 |r| = e at *
    have hu : (0 : ℚ) < 10 ^ (e - 5) := zpow_pos (by norm_num) _
    have hspec := (Random.lrint_spec (r / 10 ^ (e - 5))).1
    refine ⟨⟨fun h => ?_, fun h => ?_⟩, ?_⟩
    · rw [heq] at h
      refine ⟨_, e - 5, ?_, h.symm⟩
      have h1 : |(Random.lrint (r / 10 ^ (e - 5)) : ℚ)| * 10 ^ (e - 5) < 10 ^ (e + 1) := by
        rw [← abs_of_pos hu, ← abs_mul, abs_of_pos hu, h]
        exact hhi
      have h2 : (10 : ℚ) ^ (e + 1) = 10 ^ 6 * 10 ^ (e - 5) := by
        rw [← zpow_natCast, ← zpow_add₀ (by norm_num)]
        congr 1
        push_cast
        ring
      rw [h2] at h1
      have h3 := lt_of_mul_lt_mul_right h1 hu.le
      exact_mod_cast h3
    · obtain ⟨m, k, hm, hr⟩ := h
      have hm' : (|m| : ℚ) < 10 ^ 6 := by exact_mod_cast hm
      have hk : (0 : ℚ) < 10 ^ k := zpow_pos (by norm_num) _
      have h1 : (10 : ℚ) ^ e < 10 ^ (k + 6) := by
        calc (10 : ℚ) ^ e ≤ |r| := hlo
          _ = |(m : ℚ)| * 10 ^ k := by rw [hr, abs_mul, abs_of_pos hk]
          _ < 10 ^ 6 * 10 ^ k := by
            apply mul_lt_mul_of_pos_right _ hk
            exact hm'
          _ = 10 ^ (k + 6) := by
            rw [zpow_add₀ (by norm_num), mul_comm]
            rfl
      have h2 : e < k + 6 := (zpow_lt_zpow_iff_right₀ (by norm_num)).mp h1
      obtain ⟨j, hj⟩ : ∃ j : ℕ, k = (e - 5) + j := ⟨(k - (e - 5)).toNat, by omega⟩
      have h3 : r / 10 ^ (e - 5) = ((m * 10 ^ j : ℤ) : ℚ) := by
        rw [hr, hj, zpow_add₀ (by norm_num), zpow_natCast]
        push_cast
        field_simp
      have h4 : Random.lrint (r / 10 ^ (e - 5)) = m * 10 ^ j :=
        le_antisymm (Random.lrint_le h3.le) (Random.le_lrint h3.ge)
      rw [heq, h4, ← h3]
      field_simp
    · have h1 : round6 r - r =
          -((r / 10 ^ (e - 5) - Random.lrint (r / 10 ^ (e - 5))) * 10 ^ (e - 5)) := by
        rw [heq]
        field_simp
        ring
      rw [h1, abs_neg, abs_mul, abs_of_pos hu]
      have h2 : (10 : ℚ) ^ (e - 5) = 10 ^ e / 10 ^ 5 := by
        rw [zpow_sub₀ (by norm_num)]
        rfl
      calc _ ≤ 1 / 2 * (10 : ℚ) ^ (e - 5) := mul_le_mul_of_nonneg_right hspec hu.le
        _ = 10 ^ e * (5 / 10 ^ 6) := by rw [h2]; ring
        _ ≤ _ := by
          apply mul_le_mul_of_nonneg_right hlo
          norm_num

/-- A case of `C97_numbers`: 0.000123456 has six digits. -/
example : ∃ m k : ℤ, |m| < 10 ^ 6 ∧ (123456 / 10 ^ 9 : ℚ) = m * (10 : ℚ) ^ k :=
  ⟨123456, -9, by decide, by norm_num⟩

/-! ## Disagreements -/

/-- C97 disagreement: different numbers are written as the same text, whatever the text is:
1234567 and 1234570. -/
theorem C97_fails_precision (n : List Char) :
    toXml shown (.obj [(n, .real 1234567)]) = toXml shown (.obj [(n, .real 1234570)]) ∧
    round6 1234567 ≠ 1234567 := by
  have h6 : Nat.log 10 1234567 = 6 := by
    rw [Nat.log_eq_iff (by norm_num)]
    norm_num
  have h6' : Nat.log 10 1234570 = 6 := by
    rw [Nat.log_eq_iff (by norm_num)]
    norm_num
  have h1 : round6 1234567 = 1234570 := by
    unfold round6
    rw [if_neg (by norm_num), abs_of_pos (by norm_num), Int.log_ofNat, h6]
    norm_num [Random.lrint]
  have h2 : round6 1234570 = 1234570 := by
    unfold round6
    rw [if_neg (by norm_num), abs_of_pos (by norm_num), Int.log_ofNat, h6']
    norm_num [Random.lrint]
  refine ⟨?_, by rw [h1]; norm_num⟩
  simp [toXml, emit, emitMembers, indentMember, h1, h2]

/-- A case of `C97_fails_precision`: the numbers differ. -/
example : (1234567 : ℚ) ≠ 1234570 := by norm_num

theorem escape_length (s : List Char) : s.length ≤ (escape s).length ∧
    (¬ Plain s → s.length < (escape s).length) := by
  unfold escape
  induction s with
  | nil => exact ⟨le_rfl, fun h => absurd (by simp [Plain]) h⟩
  | cons c cs ih =>
    simp only [List.flatMap_cons, List.length_append, List.length_cons]
    by_cases h1 : c = '<'
    · subst h1; simp only [if_true, List.length_cons, List.length_nil]; omega
    · rw [if_neg h1]
      by_cases h2 : c = '>'
      · subst h2; simp only [if_true, List.length_cons, List.length_nil]; omega
      · rw [if_neg h2]
        by_cases h3 : c = '&'
        · subst h3; simp only [if_true, List.length_cons, List.length_nil]; omega
        · rw [if_neg h3]
          simp only [List.length_cons, List.length_nil]
          refine ⟨by omega, fun h => ?_⟩
          have : ¬ Plain cs := by
            intro hp
            apply h
            exact ⟨by simp [hp.1, Ne.symm h1], by simp [hp.2.1, Ne.symm h2], by simp [hp.2.2, Ne.symm h3]⟩
          have := ih.2 this
          omega

/-- C97 disagreement: no text with one of the characters `<`, `>` and `&` is written as XML demands;
`{"a": "<b/>"}` becomes an element inside of `a`. -/
theorem C97_fails_escape (n s : List Char) (h : ¬ Plain s) :
    toXml shown (.obj [(n, .str s)]) ≠ renderAll [] (elementsMembers shown [(n, .str s)]) ∧
    toXml shown (.obj [(['a'], .str ['<', 'b', '/', '>'])]) = ['<', 'a', '>', '<', 'b', '/', '>', '<', '/', 'a', '>', '\n'] := by
  constructor
  · intro he
    have hl := congrArg List.length he
    have h2 := (escape_length s).2 h
    simp [toXml, emit, emitMembers, elementsMembers, elements, renderAll, render, indentMember, openTag,
      closeTag] at hl
    omega
  · simp [toXml, emit, emitMembers, indentMember, openTag, closeTag]

/-- A case of `C97_fails_escape`. -/
example : ¬ Plain ['a', '&', 'b'] := by simp [Plain]

/-- C97 disagreement: a file that is not an object is not refused: `null` and `[]` give an empty text,
and a string is taken as XML itself. -/
theorem C97_fails_root (s : List Char) :
    toXml shown .null = [] ∧ toXml shown (.arr []) = [] ∧ toXml shown (.str s) = s := by
  simp [toXml, emit, emitItems]

/-- A case of `C97_fails_root`: the JSON text `"<a/>"`. -/
example : toXml shown (.str ['<', 'a', '/', '>']) = ['<', 'a', '/', '>'] := by simp [toXml, emit]

/-- C97 disagreement: an array with null and other items gives a start tag without end tag, or an end
tag too many, and an array of one null gives an element inside of itself. -/
theorem C97_fails_null :
    toXml shown (.obj [(['a'], .arr [.null, .str ['x']])]) = ['<', 'a', '>', '<', 'a', '/', '>', '\n', '<', 'a', '>', 'x', '<', '/', 'a', '>', '\n'] ∧
    toXml shown (.obj [(['a'], .arr [.str ['x'], .null])]) = ['<', 'a', '>', 'x', '<', '/', 'a', '>', '\n', '<', 'a', '/', '>', '\n', '<', '/', 'a', '>', '\n'] ∧
    toXml shown (.obj [(['a'], .arr [.null])]) = ['<', 'a', '>', '<', 'a', '/', '>', '\n', '<', '/', 'a', '>', '\n'] := by
  simp [toXml, emit, emitMembers, emitItems, indentMember, openTag, closeTag, emptyTag, J.isObj, J.isArr,
    outdent]

/-- A case of `C97_fails_null`: what should be written for the first. -/
example : renderAll [] (elementsMembers shown [(['a'], .arr [.null, .str ['x']])]) = ['<', 'a', '/', '>', '\n', '<', 'a', '>', 'x', '<', '/', 'a', '>', '\n'] := by
  simp [elementsMembers, elements, elementsItems, renderAll, render, escape]

/-- C97 disagreement: an empty array stands for no elements, but is written as an element that contains
another of the same name. -/
theorem C97_fails_empty (n : List Char) :
    elementsMembers shown [(n, .arr [])] = [] ∧
    toXml shown (.obj [(n, .arr [])]) = openTag n ++ emptyTag n ++ closeTag n := by
  simp [toXml, emit, emitMembers, elementsMembers, elements, elementsItems]

/-- A case of `C97_fails_empty`. -/
example : openTag ['a'] ++ emptyTag ['a'] ++ closeTag ['a'] = ['<', 'a', '>', '<', 'a', '/', '>', '\n', '<', '/', 'a', '>', '\n'] := rfl

/-- C97 disagreement: in an array of an object and a text, the white space of the indentation is
appended to the text; in an array of arrays a newline is put before the text. -/
theorem C97_fails_mixed :
    toXml shown (.obj [(['r'], .obj [(['a'], .arr [.obj [], .str ['x']])])]) = ['<', 'r', '>', '\n', ' ', ' ', '<', 'a', '>', '\n', ' ', ' ', '<', '/', 'a', '>', '\n', ' ', ' ', '<', 'a', '>', 'x', ' ', ' ', '<', '/', 'a', '>', '\n', '<', '/', 'r', '>', '\n'] ∧
    toXml shown (.obj [(['a'], .arr [.arr [.str ['x']]])]) = ['<', 'a', '>', '\n', 'x', '<', '/', 'a', '>', '\n'] := by
  simp [toXml, emit, emitMembers, emitItems, indentMember, openTag, closeTag, J.isObj, J.isArr, outdent]

/-- A case of `C97_fails_mixed`: what should be written for the first. -/
example : renderAll [] (elementsMembers shown [(['r'], .obj [(['a'], .arr [.obj [], .str ['x']])])]) =
    ['<', 'r', '>', '\n', ' ', ' ', '<', 'a', '>', '\n', ' ', ' ', '<', '/', 'a', '>', '\n', ' ', ' ', '<', 'a', '>', 'x', '<', '/', 'a', '>', '\n', '<', '/', 'r', '>', '\n'] := by
  simp [elementsMembers, elements, elementsItems, renderAll, render, escape]

end Cyclus.Convert
