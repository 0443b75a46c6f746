import Verif.Lemmas.JsonRead
import Verif.Props.Random
import Mathlib.Tactic.FieldSimp
import Mathlib.Tactic.Positivity
import Mathlib.Tactic.Linarith

/-! # Lemmas about the writers of JSON text: what they write is JSON text -/

namespace Cyclus.JsonText

open Kahan (Dbl)

/-! ## Integers -/

theorem decValue_append (a b : Text) : decValue (a ++ b) = decValue a * 10 ^ b.length + decValue b := by
  induction a with
  | nil => simp [decValue]
  | cons c a ih =>
    rw [List.cons_append, decValue, decValue, ih, List.length_append, pow_add]
    ring

theorem digit_toNat {d : ℕ} (h : d < 10) : (digit d).toNat = d + 48 := by
  unfold digit
  interval_cases d <;> rfl

theorem decValue_digit {d : ℕ} (h : d < 10) : decValue [digit d] = d := by
  simp [decValue, digit_toNat h]

theorem digit_mem {d : ℕ} (h : d < 10) : 48 ≤ (digit d).toNat ∧ (digit d).toNat ≤ 57 := by
  rw [digit_toNat h]; omega

theorem uintLoop_text (f : ℕ) : ∀ (n : ℕ) (cur : Text), n < 10 ^ (f + 1) →
    ∃ ds, uintLoop (f + 1) n cur = ds ++ cur ∧ NatText n ds := by
  induction f with
  | zero =>
    intro n cur h
    have hn : n < 10 := by simpa using h
    refine ⟨[digit (n % 10)], ?_, ⟨⟨by simp, ?_⟩, ?_, ?_⟩⟩
    · rw [uintLoop, if_pos (by omega)]; rfl
    · intro c hc
      rw [List.mem_singleton] at hc
      rw [hc]; exact digit_mem (Nat.mod_lt _ (by norm_num))
    · intro h0
      simp only [List.head?_cons, Option.some.injEq] at h0
      rw [h0]
    · rw [decValue_digit (Nat.mod_lt _ (by norm_num))]; omega
  | succ f ih =>
    intro n cur h
    rw [uintLoop]
    by_cases h0 : n / 10 = 0
    · rw [if_pos h0]
      refine ⟨[digit (n % 10)], rfl, ⟨⟨by simp, ?_⟩, ?_, ?_⟩⟩
      · intro c hc
        rw [List.mem_singleton] at hc
        rw [hc]; exact digit_mem (Nat.mod_lt _ (by norm_num))
      · intro h0
        simp only [List.head?_cons, Option.some.injEq] at h0
        rw [h0]
      · rw [decValue_digit (Nat.mod_lt _ (by norm_num))]; omega
    · rw [if_neg h0]
      obtain ⟨ds, e, ⟨hd, hz, hv⟩⟩ := ih (n / 10) (digit (n % 10) :: cur) (by
        rw [pow_succ] at h; omega)
      refine ⟨ds ++ [digit (n % 10)], by rw [e]; simp, ⟨⟨by simp, ?_⟩, ?_, ?_⟩⟩
      · intro c hc
        rw [List.mem_append, List.mem_singleton] at hc
        rcases hc with hc | rfl
        · exact hd.2 c hc
        · exact digit_mem (Nat.mod_lt _ (by norm_num))
      · intro hh
        rw [List.head?_append_of_ne_nil _ hd.1] at hh
        rw [hz hh] at hv
        exact absurd hv.symm (by simpa [decValue] using h0)
      · rw [decValue_append, decValue_digit (Nat.mod_lt _ (by norm_num)), hv]
        simp only [List.length_cons, List.length_nil, zero_add, pow_one]
        omega

theorem uintText_nat {n : ℕ} (h : n < 10 ^ 24) : NatText n (uintText n) := by
  obtain ⟨ds, e, hd⟩ := uintLoop_text 23 n [] h
  unfold uintText
  rw [e, List.append_nil]
  exact hd

theorem intText_int {z : ℤ} (h : z.natAbs < 10 ^ 24) : IntText z (intText z) := by
  unfold intText
  refine ⟨uintText z.natAbs, uintText_nat h, ?_⟩
  by_cases hz : z < 0
  · rw [if_pos hz]; exact Or.inr ⟨hz.le, rfl⟩
  · rw [if_neg hz]; exact Or.inl ⟨not_lt.mp hz, rfl⟩

/-! ## Strings -/

theorem hexDigit_hex {d : ℕ} (h : d < 16) : IsHex d (hexDigit d) := by
  unfold IsHex hexDigit
  interval_cases d <;> decide

theorem ofNat_toNat (c : Char) : Char.ofNat c.toNat = c := Char.ofNat_toNat c

theorem control_iff (c : Char) : isControl c = true ↔ 0 < c.toNat ∧ c.toNat ≤ 31 := by
  simp [isControl]

theorem escape_lit {c : Char} (h0 : c ≠ Char.ofNat 0) {s l : Text} (h : Lit s l) :
    Lit (c :: s) (escape c ++ l) := by
  unfold escape
  by_cases h1 : c = '"'
  · rw [if_pos h1, h1]; exact .esc (by decide) h
  rw [if_neg h1]
  by_cases h2 : c = '\\'
  · rw [if_pos h2, h2]; exact .esc (by decide) h
  rw [if_neg h2]
  by_cases h3 : c = Char.ofNat 8
  · rw [if_pos h3, h3]; exact .esc (by decide) h
  rw [if_neg h3]
  by_cases h4 : c = Char.ofNat 12
  · rw [if_pos h4, h4]; exact .esc (by decide) h
  rw [if_neg h4]
  by_cases h5 : c = '\n'
  · rw [if_pos h5, h5]; exact .esc (by decide) h
  rw [if_neg h5]
  by_cases h6 : c = '\r'
  · rw [if_pos h6, h6]; exact .esc (by decide) h
  rw [if_neg h6]
  by_cases h7 : c = '\t'
  · rw [if_pos h7, h7]; exact .esc (by decide) h
  rw [if_neg h7]
  by_cases h8 : isControl c = true
  · rw [if_pos h8]
    have hc := (control_iff c).mp h8
    have := Lit.code (u := c.toNat) (h := [hexDigit (c.toNat / 4096 % 16), hexDigit (c.toNat / 256 % 16),
      hexDigit (c.toNat / 16 % 16), hexDigit (c.toNat % 16)]) (s := s) (l := l)
      ⟨_, _, _, _, _, _, _, _, hexDigit_hex (Nat.mod_lt _ (by norm_num)),
        hexDigit_hex (Nat.mod_lt _ (by norm_num)), hexDigit_hex (Nat.mod_lt _ (by norm_num)),
        hexDigit_hex (Nat.mod_lt _ (by norm_num)), rfl, by omega⟩ (by omega) h
    rw [show encode c.toNat = [c] by
      unfold encode
      rw [if_pos (by omega), ofNat_toNat]] at this
    exact this
  · rw [if_neg h8]
    refine .plain ?_ h1 h2 h
    rw [control_iff] at h8
    by_contra hc
    apply h0
    have : c.toNat = 0 := by omega
    rw [← ofNat_toNat c, this]

theorem escapes_lit {s : Text} (h : Char.ofNat 0 ∉ s) : Lit s (s.flatMap escape) := by
  induction s with
  | nil => exact .nil
  | cons c s ih =>
    simp only [List.mem_cons, not_or] at h
    rw [List.flatMap_cons]
    exact escape_lit (Ne.symm h.1) (ih h.2)

theorem plain_lit {s : Text} (h : Char.ofNat 0 ∉ s)
    (hp : s.all (fun x => !special.contains x && !isControl x) = true) : Lit s s := by
  induction s with
  | nil => exact .nil
  | cons c s ih =>
    simp only [List.mem_cons, not_or] at h
    rw [List.all_cons, Bool.and_eq_true] at hp
    obtain ⟨h1, h2⟩ := hp
    simp only [Bool.and_eq_true, Bool.not_eq_true', List.contains_eq_mem,
      decide_eq_false_iff_not] at h1
    refine .plain ?_ ?_ ?_ (ih h.2 h2)
    · have h8 : ¬ isControl c = true := by simp [h1.2]
      rw [control_iff] at h8
      by_contra hc
      apply h.1
      have : c.toNat = 0 := by omega
      rw [← ofNat_toNat c, this]
    · rintro rfl; exact h1.1 (by decide)
    · rintro rfl; exact h1.1 (by decide)

theorem quoted_lit {s : Text} (h : Char.ofNat 0 ∉ s) : ∃ l, Lit s l ∧ quoted s = '"' :: l ++ ['"'] := by
  unfold quoted
  rw [cstr_eq h]
  simp only
  by_cases hp : s.all (fun x => !special.contains x && !isControl x) = true
  · rw [if_pos hp]; exact ⟨s, plain_lit h hp, rfl⟩
  · rw [if_neg hp]; exact ⟨_, escapes_lit h, rfl⟩

/-! ## Doubles -/

theorem digs_length (k : ℕ) : ∀ m, (digs k m).length = k := by
  induction k with
  | zero => intro m; rfl
  | succ k ih => intro m; simp [digs, ih]

theorem digs_dig (k : ℕ) : ∀ m, ∀ c ∈ digs k m, 48 ≤ c.toNat ∧ c.toNat ≤ 57 := by
  induction k with
  | zero => intro m c hc; simp [digs] at hc
  | succ k ih =>
    intro m c hc
    rw [digs, List.mem_append, List.mem_singleton] at hc
    rcases hc with hc | rfl
    · exact ih _ c hc
    · exact digit_mem (Nat.mod_lt _ (by norm_num))

theorem digs_value (k : ℕ) : ∀ m, m < 10 ^ k → decValue (digs k m) = m := by
  induction k with
  | zero => intro m h; simp at h; subst h; rfl
  | succ k ih =>
    intro m h
    rw [digs, decValue_append, decValue_digit (Nat.mod_lt _ (by norm_num)),
      ih _ (by rw [pow_succ] at h; omega)]
    simp only [List.length_cons, List.length_nil, zero_add, pow_one]
    omega

/-- The first digit of a number with `k + 1` digits is no zero. -/
theorem digs_head (k : ℕ) : ∀ m, 10 ^ k ≤ m → m < 10 ^ (k + 1) → ∃ c l, digs (k + 1) m = c :: l ∧ c ≠ '0' := by
  induction k with
  | zero =>
    intro m h1 h2
    simp at h1 h2
    refine ⟨digit (m % 10), [], rfl, ?_⟩
    intro h
    have := digit_toNat (d := m % 10) (Nat.mod_lt _ (by norm_num))
    rw [h] at this
    have h0 : '0'.toNat = 48 := rfl
    omega
  | succ k ih =>
    intro m h1 h2
    obtain ⟨c, l, e, hc⟩ := ih (m / 10) (by rw [pow_succ] at h1; omega) (by rw [pow_succ] at h2; omega)
    rw [digs, e]
    exact ⟨c, l ++ [digit (m % 10)], rfl, hc⟩

theorem natText_of_head {c : Char} {l : Text} (h : ∀ x ∈ c :: l, 48 ≤ x.toNat ∧ x.toNat ≤ 57)
    (hc : c ≠ '0') : NatText (decValue (c :: l)) (c :: l) :=
  ⟨⟨by simp, h⟩, fun e => absurd (by simpa using e) hc, rfl⟩

/-- The text of 16 digits and an exponent stands for the number. -/
theorem body_real {m : ℕ} {e : ℤ} (h1 : 10 ^ 15 ≤ m) (h2 : m < 10 ^ 16) :
    ∃ (n : ℕ) (ds fs frac ex : Text) (x : ℤ), NatText n ds ∧ FracText True fs frac ∧ ExpText x ex ∧
      (frac ≠ [] ∨ ex ≠ []) ∧
      (m : ℚ) * 10 ^ (e - 15) = (decValue (ds ++ fs) : ℚ) * 10 ^ (x - fs.length) ∧
      body m e = ds ++ frac ++ ex := by
  have hlen := digs_length 16 m
  have hdig := digs_dig 16 m
  have hval := digs_value 16 m h2
  obtain ⟨c, l, hcl, hc⟩ := digs_head 15 m h1 h2
  unfold body
  simp only
  rw [show (15 + 1 : ℕ) = 16 from rfl] at hcl
  generalize digs 16 m = D at hlen hdig hval hcl ⊢
  by_cases hr : -4 ≤ e ∧ e < 16
  · rw [if_pos hr]
    by_cases hn : e < 0
    · rw [if_pos hn]
      refine ⟨0, ['0'], List.replicate (-e - 1).toNat '0' ++ D,
        '.' :: (List.replicate (-e - 1).toNat '0' ++ D), [], 0, ?_, ?_, Or.inl ⟨rfl, rfl⟩,
        Or.inl (by simp), ?_, by simp⟩
      · exact ⟨⟨by simp, by simp⟩, fun _ => rfl, by decide⟩
      · refine Or.inr ⟨Or.inl ⟨?_, ?_⟩, rfl⟩
        · intro h
          have := congrArg List.length h
          simp [hlen] at this
        · intro x hx
          rw [List.mem_append] at hx
          rcases hx with hx | hx
          · rw [(List.mem_replicate.mp hx).2]; decide
          · exact hdig x hx
      · have hz : ∀ k, decValue (List.replicate k '0') = 0 := by
          intro k
          induction k with
          | zero => rfl
          | succ k ih => rw [List.replicate_succ, decValue, ih]; simp
        rw [show ['0'] ++ (List.replicate (-e - 1).toNat '0' ++ D) =
          List.replicate ((-e - 1).toNat + 1) '0' ++ D by
            rw [List.replicate_succ]; rfl]
        rw [decValue_append, hz, hval, zero_mul, zero_add]
        congr 2
        rw [List.length_append, List.length_replicate, hlen]
        push_cast
        omega
    · rw [if_neg hn]
      have hsplit := List.take_append_drop (e.toNat + 1) D
      refine ⟨decValue (D.take (e.toNat + 1)), D.take (e.toNat + 1), D.drop (e.toNat + 1),
        '.' :: D.drop (e.toNat + 1), [], 0, ?_, ?_, Or.inl ⟨rfl, rfl⟩, Or.inl (by simp), ?_,
        by simp⟩
      · rw [hcl, List.take_succ_cons]
        refine natText_of_head (fun x hx => hdig x ?_) hc
        rw [hcl]
        have : c :: l.take e.toNat = (c :: l).take (e.toNat + 1) := rfl
        rw [this] at hx
        exact List.mem_of_mem_take hx
      · refine Or.inr ⟨?_, rfl⟩
        by_cases he : D.drop (e.toNat + 1) = []
        · exact Or.inr ⟨trivial, he⟩
        · exact Or.inl ⟨he, fun x hx => hdig x (List.mem_of_mem_drop hx)⟩
      · rw [hsplit, hval, List.length_drop, hlen]
        congr 2
        omega
  · rw [if_neg hr]
    have hsplit := List.take_append_drop 1 D
    obtain ⟨xs, ex, hx⟩ := uintLoop_text e.natAbs e.natAbs [] (by
      have := Nat.lt_pow_self (n := e.natAbs) (a := 10) (by norm_num)
      rw [pow_succ]; omega)
    rw [List.append_nil] at ex
    rw [ex]
    have hes : IsDigits (if e.natAbs < 10 then '0' :: xs else xs) := by
      by_cases hh : e.natAbs < 10
      · rw [if_pos hh]
        refine ⟨by simp, ?_⟩
        intro x hx'
        rcases List.mem_cons.mp hx' with rfl | hx'
        · decide
        · exact hx.1.2 x hx'
      · rw [if_neg hh]; exact hx.1
    have hev : decValue (if e.natAbs < 10 then '0' :: xs else xs) = e.natAbs := by
      by_cases hh : e.natAbs < 10
      · rw [if_pos hh, decValue, hx.2.2]; simp
      · rw [if_neg hh]; exact hx.2.2
    generalize (if e.natAbs < 10 then '0' :: xs else xs) = es at hes hev ⊢
    refine ⟨decValue (D.take 1), D.take 1, D.drop 1,
      '.' :: D.drop 1, 'e' :: (if e < 0 then '-' else '+') :: es, e, ?_, ?_, ?_,
      Or.inl (by simp), ?_, by simp⟩
    · rw [hcl, List.take_succ_cons]
      refine natText_of_head (fun x hx' => hdig x ?_) hc
      rw [hcl]
      have : c :: l.take 0 = (c :: l).take 1 := rfl
      rw [this] at hx'
      exact List.mem_of_mem_take hx'
    · refine Or.inr ⟨Or.inl ⟨?_, fun x hx' => hdig x (List.mem_of_mem_drop hx')⟩, rfl⟩
      intro h
      have := congrArg List.length h
      simp [hlen] at this
    · refine Or.inr ⟨'e', es, Or.inl rfl, hes, ?_⟩
      by_cases he : e < 0
      · rw [if_pos he, hev]
        exact Or.inr ⟨by omega, rfl⟩
      · rw [if_neg he, hev]
        exact Or.inl ⟨by omega, Or.inr rfl⟩
    · rw [hsplit, hval, List.length_drop, hlen]
      norm_num

theorem ends_zero (fs : Text) : ∃ (g : Text) (k : ℕ), fs = g ++ List.replicate k '0' ∧
    ∀ c ∈ g.reverse.head?, (c == '0') = false := by
  refine ⟨(fs.reverse.dropWhile (· == '0')).reverse, (fs.reverse.takeWhile (· == '0')).length, ?_, ?_⟩
  · have h1 : fs.reverse.takeWhile (· == '0') =
        List.replicate (fs.reverse.takeWhile (· == '0')).length '0' := by
      rw [List.eq_replicate_iff]
      refine ⟨rfl, fun c hc => ?_⟩
      have := List.mem_takeWhile_imp hc
      simpa using this
    have h2 := List.takeWhile_append_dropWhile (p := (· == '0')) (l := fs.reverse)
    have h3 := congrArg List.reverse h2
    rw [List.reverse_append, List.reverse_reverse] at h3
    rw [← h3]
    congr 1
    · rw [h3]
    · rw [h3]
      conv_lhs => rw [h1, List.reverse_replicate]
  · intro c hc
    rw [List.reverse_reverse] at hc
    cases h : fs.reverse.dropWhile (· == '0') with
    | nil => rw [h] at hc; simp at hc
    | cons d r =>
      rw [h] at hc
      simp only [List.head?_cons, Option.mem_def, Option.some.injEq] at hc
      have := List.head_dropWhile_not (fun x => x == '0') (l := fs.reverse) (by rw [h]; simp)
      simp only [h, List.head_cons] at this
      rw [← hc]; exact this

theorem decValue_zeros (k : ℕ) : decValue (List.replicate k '0') = 0 := by
  induction k with
  | zero => rfl
  | succ k ih => rw [List.replicate_succ, decValue, ih]; simp

/-- The end of `valueToString( double )` keeps the value. -/
theorem trim_point {p g : Text} {k : ℕ} (hg : ∀ c ∈ g, isDig c = true)
    (h : ∀ c ∈ g.reverse.head?, (c == '0') = false) :
    trim (p ++ '.' :: (g ++ List.replicate (k + 1) '0')) = p ++ '.' :: (g ++ ['0']) := by
  unfold trim
  have e : (p ++ '.' :: (g ++ List.replicate (k + 1) '0')).reverse =
      List.replicate (k + 1) '0' ++ (g.reverse ++ '.' :: p.reverse) := by
    simp
  have e1 := (takeWhile_append (p := (· == '0')) (l := List.replicate (k + 1) '0')
    (rest := g.reverse ++ '.' :: p.reverse) (by
      intro c hc; simp [(List.mem_replicate.mp hc).2]) (by
      intro c hc
      cases hr : g.reverse with
      | nil => rw [hr] at hc; simp at hc; rw [← hc]; decide
      | cons d r => rw [hr] at hc h; exact h c (by simpa using hc))).2
  have e2 := (takeWhile_append (p := isDig) (l := g.reverse) (rest := '.' :: p.reverse) (by
      intro c hc; exact hg c (by simpa using hc)) (by
      intro c hc
      simp only [List.head?_cons, Option.mem_def, Option.some.injEq] at hc
      rw [← hc]; decide)).2
  simp only [e, e1, e2]
  rw [if_pos (by rw [List.replicate_succ]; rfl)]
  simp

theorem trim_other {t : Text} (h : t.reverse.head? ≠ some '0') : trim t = t := by
  unfold trim
  simp only
  rw [if_neg h]

/-- A text with an exponent is not cut. -/
theorem trim_exp {p es : Text} {c : Char} (hc : isDig c = false) (hp : c ≠ '.')
    (hd : ∀ x ∈ es, isDig x = true) : trim (p ++ c :: es) = p ++ c :: es := by
  unfold trim
  simp only
  split
  · have e : (p ++ c :: es).reverse = es.reverse ++ c :: p.reverse := by simp
    rw [e]
    have hc0 : (c == '0') = false := by
      simp only [beq_eq_false_iff_ne, ne_eq]
      rintro rfl
      revert hc; decide
    have : ∃ l', (es.reverse ++ c :: p.reverse).dropWhile (· == '0') = l' ++ c :: p.reverse ∧
        ∀ x ∈ l', isDig x = true := by
      have hd' : ∀ x ∈ es.reverse, isDig x = true := fun x hx => hd x (by simpa using hx)
      generalize es.reverse = l at hd'
      induction l with
      | nil => exact ⟨[], by simp [hc0], by simp⟩
      | cons x l ih =>
        by_cases hx : (x == '0') = true
        · obtain ⟨l', h1, h2⟩ := ih fun y hy => hd' y (by simp [hy])
          exact ⟨l', by rw [List.cons_append, List.dropWhile_cons_of_pos (by simpa using hx), h1], h2⟩
        · exact ⟨x :: l, by rw [List.cons_append, List.dropWhile_cons_of_neg (by simpa using hx)],
            hd'⟩
    obtain ⟨l', h1, h2⟩ := this
    have h3 := (takeWhile_append (p := isDig) (l := l') (rest := c :: p.reverse) h2 (by
      intro x hx
      simp only [List.head?_cons, Option.mem_def, Option.some.injEq] at hx
      rw [← hx]; exact hc)).2
    rw [h1, h3]
    split
    · rename_i heq
      injection heq with heq _
      exact absurd heq hp
    · rfl
  · rfl

theorem trim_real {q : ℚ} {t : Text} (h : RealText True q t) : RealText True q (trim t) := by
  obtain ⟨n, ds, fs, frac, ex, e, hn, hf, he, hne, h⟩ := h
  -- the sign
  obtain ⟨sg, hsg, ht⟩ : ∃ sg : Text, (q = (decValue (ds ++ fs) : ℚ) * 10 ^ (e - fs.length) ∧ sg = [] ∨
      q = -((decValue (ds ++ fs) : ℚ) * 10 ^ (e - fs.length)) ∧ sg = ['-']) ∧
      t = sg ++ ds ++ frac ++ ex := by
    rcases h with ⟨h1, h2⟩ | ⟨h1, h2⟩
    · exact ⟨[], Or.inl ⟨h1, rfl⟩, by simpa using h2⟩
    · exact ⟨['-'], Or.inr ⟨h1, rfl⟩, by simpa using h2⟩
  rcases he with ⟨rfl, rfl⟩ | ⟨c, es, hc, hes, he⟩
  · -- no exponent
    rcases hf with ⟨_, rfl⟩ | ⟨hfs, rfl⟩
    · simp at hne
    · have hfd : ∀ x ∈ fs, isDig x = true := by
        rcases hfs with h | ⟨_, rfl⟩
        · exact h.all
        · simp
      obtain ⟨g, k, rfl, hg⟩ := ends_zero fs
      have hgd : ∀ x ∈ g, isDig x = true := fun x hx => hfd x (by simp [hx])
      cases k with
      | zero =>
        have : trim t = t := by
          apply trim_other
          rw [ht]
          cases hr : g.reverse with
          | nil => simp_all
          | cons d r =>
            rw [hr] at hg
            have := hg d rfl
            simp [hr]
            rintro rfl
            simp at this
        rw [this, ht]
        refine ⟨n, ds, _, _, [], 0, hn, Or.inr ⟨hfs, rfl⟩, Or.inl ⟨rfl, rfl⟩, hne, ?_⟩
        rcases hsg with ⟨h1, rfl⟩ | ⟨h1, rfl⟩
        · exact Or.inl ⟨h1, by simp⟩
        · exact Or.inr ⟨h1, by simp⟩
      | succ k =>
        have e1 : trim t = sg ++ ds ++ '.' :: (g ++ ['0']) := by
          rw [ht, List.append_nil]
          exact trim_point (p := sg ++ ds) hgd hg
        rw [e1]
        have hval : (decValue (ds ++ (g ++ List.replicate (k + 1) '0')) : ℚ) *
            10 ^ ((0 : ℤ) - (g ++ List.replicate (k + 1) '0').length) =
            (decValue (ds ++ (g ++ ['0'])) : ℚ) * 10 ^ ((0 : ℤ) - (g ++ ['0']).length) := by
          rw [← List.append_assoc, ← List.append_assoc, decValue_append, decValue_append (ds ++ g),
            decValue_zeros, show decValue ['0'] = 0 from rfl]
          simp only [List.length_append, List.length_replicate, List.length_cons, List.length_nil,
            add_zero, zero_add, pow_one]
          push_cast
          rw [mul_assoc, mul_assoc, ← zpow_natCast, ← zpow_one_add₀ (by norm_num),
            ← zpow_add₀ (by norm_num)]
          congr 2
          push_cast
          ring
        rw [hval] at hsg
        refine ⟨n, ds, g ++ ['0'], '.' :: (g ++ ['0']), [], 0, hn, Or.inr ⟨Or.inl ⟨by simp, ?_⟩, rfl⟩,
          Or.inl ⟨rfl, rfl⟩, Or.inl (by simp), ?_⟩
        · intro x hx
          rw [List.mem_append, List.mem_singleton] at hx
          rcases hx with hx | rfl
          · exact (isDig_iff x).mp (hgd x hx)
          · decide
        · rcases hsg with ⟨h1, rfl⟩ | ⟨h1, rfl⟩
          · exact Or.inl ⟨h1, by simp⟩
          · exact Or.inr ⟨h1, by simp⟩
  · -- an exponent
    have htrim : trim t = t := by
      have hall := hes.all
      have : ∃ p c', t = p ++ c' :: es ∧ isDig c' = false ∧ c' ≠ '.' := by
        rw [ht]
        rcases he with ⟨_, rfl | rfl⟩ | ⟨_, rfl⟩
        · exact ⟨sg ++ ds ++ frac, c, rfl, by rcases hc with rfl | rfl <;> decide,
            by rcases hc with rfl | rfl <;> decide⟩
        · exact ⟨sg ++ ds ++ frac ++ [c], '+', by simp, by decide, by decide⟩
        · exact ⟨sg ++ ds ++ frac ++ [c], '-', by simp, by decide, by decide⟩
      obtain ⟨p, c', e, h1, h2⟩ := this
      rw [e]
      exact trim_exp h1 h2 hall
    rw [htrim]
    exact ⟨n, ds, fs, frac, ex, e, hn, hf, Or.inr ⟨c, es, hc, hes, he⟩, hne, h⟩

theorem ten_pos (k : ℤ) : (0 : ℚ) < 10 ^ k := zpow_pos (by norm_num) k

/-- What `dec16` gives: 16 digits of the number, the last one rounded half to even. -/
theorem dec16_spec {a : ℚ} (ha : 0 < a) :
    10 ^ 15 ≤ (dec16 a).1 ∧ (dec16 a).1 < 10 ^ 16 ∧
    ∃ (k : ℤ) (n : ℕ), 10 ^ (k + 15) ≤ a ∧ a < 10 ^ (k + 16) ∧
      ((dec16 a).1 : ℚ) * 10 ^ ((dec16 a).2 - 15) = n * 10 ^ k ∧ |a - n * 10 ^ k| ≤ 10 ^ k / 2 ∧
      (|a - n * 10 ^ k| = 10 ^ k / 2 → 2 ∣ n) := by
  have h1 : (10 : ℚ) ^ Int.log 10 a ≤ a := by
    have := Int.zpow_log_le_self (b := 10) (by norm_num) ha
    exact_mod_cast this
  have h2 : a < (10 : ℚ) ^ (Int.log 10 a + 1) := by
    have := Int.lt_zpow_succ_log_self (b := 10) (by norm_num) a
    exact_mod_cast this
  unfold dec16
  simp only
  generalize Int.log 10 a = e at h1 h2 ⊢
  have hk := ten_pos (e - 15)
  have hlo : (10 : ℚ) ^ 15 ≤ a / 10 ^ (e - 15) := by
    rw [le_div_iff₀ hk, ← zpow_natCast, ← zpow_add₀ (by norm_num)]
    norm_num
    exact h1
  have hhi : a / 10 ^ (e - 15) ≤ 10 ^ 16 := by
    rw [div_le_iff₀ hk, ← zpow_natCast, ← zpow_add₀ (by norm_num)]
    have : ((16 : ℕ) : ℤ) + (e - 15) = e + 1 := by push_cast; ring
    rw [this]
    exact h2.le
  have hl := Random.le_lrint (x := a / 10 ^ (e - 15)) (lo := 10 ^ 15) (by exact_mod_cast hlo)
  have hh := Random.lrint_le (x := a / 10 ^ (e - 15)) (hi := 10 ^ 16) (by exact_mod_cast hhi)
  obtain ⟨hs1, hs2⟩ := Random.lrint_spec (a / 10 ^ (e - 15))
  generalize Random.lrint (a / 10 ^ (e - 15)) = z at hl hh hs1 hs2 ⊢
  obtain ⟨n, rfl⟩ := Int.eq_ofNat_of_zero_le (le_trans (by norm_num) hl)
  have hl' : 10 ^ 15 ≤ n := by exact_mod_cast hl
  have hh' : n ≤ 10 ^ 16 := by exact_mod_cast hh
  have hdist : |a - n * 10 ^ (e - 15)| = |a / 10 ^ (e - 15) - ((n : ℤ) : ℚ)| * 10 ^ (e - 15) := by
    conv_rhs => rw [← abs_of_pos hk, ← abs_mul]
    rw [abs_of_pos hk]
    congr 1
    field_simp
    push_cast
    ring
  have main : (10 : ℚ) ^ (e - 15 + 15) ≤ a ∧ a < 10 ^ (e - 15 + 16) ∧
      |a - n * 10 ^ (e - 15)| ≤ 10 ^ (e - 15) / 2 ∧
      (|a - n * 10 ^ (e - 15)| = 10 ^ (e - 15) / 2 → 2 ∣ n) := by
    refine ⟨by rw [show e - 15 + 15 = e by ring]; exact h1,
      by rw [show e - 15 + 16 = e + 1 by ring]; exact h2, ?_, ?_⟩
    · rw [hdist]
      nlinarith [mul_le_mul_of_nonneg_right hs1 hk.le]
    · intro h
      rw [hdist] at h
      have : |a / 10 ^ (e - 15) - ((n : ℤ) : ℚ)| = 1 / 2 := by
        apply mul_right_cancel₀ hk.ne'
        rw [h]; ring
      have := hs2 this
      omega
  rw [Int.toNat_natCast]
  by_cases hn : n = 10 ^ 16
  · rw [if_pos hn]
    refine ⟨le_refl _, by norm_num, e - 15, n, main.1, main.2.1, ?_, main.2.2⟩
    simp only
    rw [hn, show e + 1 - 15 = 1 + (e - 15) by ring, zpow_add₀ (by norm_num)]
    push_cast
    ring
  · rw [if_neg hn]
    exact ⟨hl', lt_of_le_of_ne hh' hn, e - 15, n, main.1, main.2.1, rfl, main.2.2⟩

/-- The number that the text of a number stands for. -/
def val16 (x : ℚ) : ℚ :=
  if x = 0 then 0
  else if x < 0 then -(((dec16 |x|).1 : ℚ) * 10 ^ ((dec16 |x|).2 - 15))
  else ((dec16 |x|).1 : ℚ) * 10 ^ ((dec16 |x|).2 - 15)

theorem val16_sixteen (x : ℚ) : Sixteen x (val16 x) := by
  unfold val16 Sixteen
  by_cases h0 : x = 0
  · rw [if_pos h0]; exact Or.inl ⟨h0, rfl⟩
  · rw [if_neg h0]
    right
    have ha : 0 < |x| := abs_pos.mpr h0
    obtain ⟨h1, _, k, n, h3, h4, h5, h6, h7⟩ := dec16_spec ha
    have hpos : (0 : ℚ) < ((dec16 |x|).1 : ℚ) * 10 ^ ((dec16 |x|).2 - 15) := by
      have : 0 < (dec16 |x|).1 := lt_of_lt_of_le (by norm_num) h1
      exact mul_pos (by exact_mod_cast this) (ten_pos _)
    refine ⟨k, n, h3, h4, ?_⟩
    rw [h5] at hpos
    by_cases hn : x < 0
    · rw [if_pos hn, h5]
      rw [abs_of_neg hn] at h6 h7
      have e : |x - -(↑n * 10 ^ k)| = |-x - n * 10 ^ k| := by
        rw [← abs_neg]; congr 1; ring
      rw [e]
      exact ⟨by rw [abs_neg, abs_of_pos hpos], Or.inr ⟨hn, by linarith⟩, h6, h7⟩
    · rw [if_neg hn, h5]
      have hp : 0 < x := lt_of_le_of_ne (not_lt.mp hn) (Ne.symm h0)
      rw [abs_of_pos hp] at h6 h7
      exact ⟨abs_of_pos hpos, Or.inl ⟨hp, hpos⟩, h6, h7⟩

theorem realText_real (x : ℚ) : RealText True (val16 x) (realText (.num x)) := by
  unfold realText
  apply trim_real
  unfold fmt val16
  simp only
  by_cases h0 : x = 0
  · rw [if_pos h0, if_pos h0]
    refine ⟨0, ['0'], List.replicate 15 '0', '.' :: List.replicate 15 '0', [], 0,
      ⟨⟨by simp, by decide⟩, fun _ => rfl, by decide⟩, Or.inr ⟨Or.inl ⟨by simp, by decide⟩, rfl⟩,
      Or.inl ⟨rfl, rfl⟩, Or.inl (by simp), Or.inl ⟨?_, rfl⟩⟩
    rw [show decValue (['0'] ++ List.replicate 15 '0') = 0 by decide]
    simp
  · rw [if_neg h0, if_neg h0]
    obtain ⟨h1, h2, _⟩ := dec16_spec (abs_pos.mpr h0)
    obtain ⟨n, ds, fs, frac, ex, e, hn, hf, he, hne, hv, hb⟩ := body_real (e := (dec16 |x|).2) h1 h2
    refine ⟨n, ds, fs, frac, ex, e, hn, hf, he, hne, ?_⟩
    rw [hv, hb]
    by_cases hneg : x < 0
    · rw [if_pos hneg, if_pos hneg]; exact Or.inr ⟨rfl, by simp⟩
    · rw [if_neg hneg, if_neg hneg]; exact Or.inl ⟨rfl, by simp⟩

/-- A number of 16 digits is not changed. -/
theorem sixteen_exact {x y : ℚ} (h : Sixteen x y) {m : ℤ} {k : ℤ} (hm : m.natAbs < 10 ^ 16)
    (hx : x = m * 10 ^ k) : y = x := by
  rcases h with ⟨h1, h2⟩ | ⟨j, n, h1, h2, h3, h4, h5, h6⟩
  · rw [h1, h2]
  -- `x` is a multiple of `10 ^ j`
  obtain ⟨z, hz⟩ : ∃ z : ℤ, x = z * 10 ^ j := by
    have hjk : j ≤ k := by
      by_contra hc
      have hc' : k + 1 ≤ j := by omega
      have e1 : |x| = (m.natAbs : ℚ) * 10 ^ k := by
        rw [hx, abs_mul, abs_of_pos (ten_pos k), Nat.cast_natAbs]
        push_cast; rfl
      have e2 : (m.natAbs : ℚ) < 10 ^ 16 := by exact_mod_cast hm
      have e3 : |x| < 10 ^ 16 * 10 ^ k := by
        rw [e1]; exact mul_lt_mul_of_pos_right e2 (ten_pos k)
      have e4 : (10 : ℚ) ^ 16 * 10 ^ k = 10 ^ (k + 1 + 15) := by
        rw [← zpow_natCast, ← zpow_add₀ (by norm_num)]; congr 1; push_cast; ring
      have e5 : (10 : ℚ) ^ (k + 1 + 15) ≤ 10 ^ (j + 15) := zpow_le_zpow_right₀ (by norm_num) (by omega)
      rw [e4] at e3
      linarith
    obtain ⟨d, hd⟩ := Int.eq_ofNat_of_zero_le (sub_nonneg.mpr hjk)
    refine ⟨m * 10 ^ d, ?_⟩
    rw [hx, show k = d + j by omega, zpow_add₀ (by norm_num)]
    push_cast
    rw [zpow_natCast]; ring
  have hk := ten_pos j
  obtain ⟨w, hw⟩ : ∃ w : ℤ, y = w * 10 ^ j := by
    rcases abs_choice y with h | h
    · exact ⟨n, by rw [← h, h3]; push_cast; rfl⟩
    · exact ⟨-n, by rw [← neg_neg y, ← h, h3]; push_cast; ring⟩
  have e : |x - y| = |((z - w : ℤ) : ℚ)| * 10 ^ j := by
    rw [hz, hw, ← sub_mul, abs_mul, abs_of_pos hk]; push_cast; rfl
  rw [e] at h5
  have h7 : |((z - w : ℤ) : ℚ)| < 1 := by
    by_contra hc
    have := mul_le_mul_of_nonneg_right (not_lt.mp hc) hk.le
    linarith
  have h8 : |z - w| < 1 := by exact_mod_cast h7
  have h9 : z - w = 0 := Int.abs_lt_one_iff.mp h8
  rw [hz, hw, show w = z by omega]

/-! ## Values -/

mutual

/-- The value with its doubles as they are written. -/
def rounded (rd : ℚ → Dbl) : V → V
  | .real (.num q) => .real (rd (val16 q))
  | .real x => .real x
  | .arr l => .arr (roundedItems rd l)
  | .obj ms => .obj (roundedMembers rd ms)
  | .null => .null
  | .bool b => .bool b
  | .int z => .int z
  | .uint n => .uint n
  | .str s => .str s

def roundedItems (rd : ℚ → Dbl) : List V → List V
  | [] => []
  | x :: l => rounded rd x :: roundedItems rd l

def roundedMembers (rd : ℚ → Dbl) : List (Text × V) → List (Text × V)
  | [] => []
  | (k, x) :: l => (k, rounded rd x) :: roundedMembers rd l

end

mutual

theorem rounded_fits (rd : ℚ → Dbl) : (v : V) → Writable v → Fits (rounded rd v)
  | .null, _ => trivial
  | .bool _, _ => trivial
  | .str _, _ => trivial
  | .int z, h => by
    rw [Writable] at h
    rw [rounded, Fits]
    exact ⟨h.1, by omega⟩
  | .uint n, h => by
    rw [Writable] at h
    rw [rounded, Fits]
    exact h
  | .real x, h => by
    rw [Writable] at h
    obtain ⟨q, rfl⟩ := h
    trivial
  | .arr l, h => by
    rw [Writable] at h
    rw [rounded, Fits]
    exact roundedItems_fits rd l h
  | .obj ms, h => by
    rw [Writable] at h
    rw [rounded, Fits]
    exact roundedMembers_fits rd ms h.1

theorem roundedItems_fits (rd : ℚ → Dbl) : (l : List V) → WritableItems l → FitsItems (roundedItems rd l)
  | [], _ => trivial
  | x :: l, h => by
    rw [WritableItems] at h
    rw [roundedItems, FitsItems]
    exact ⟨rounded_fits rd x h.1, roundedItems_fits rd l h.2⟩

theorem roundedMembers_fits (rd : ℚ → Dbl) : (l : List (Text × V)) → WritableMembers l →
    FitsMembers (roundedMembers rd l)
  | [], _ => trivial
  | (k, x) :: l, h => by
    rw [WritableMembers] at h
    rw [roundedMembers, FitsMembers]
    exact ⟨h.1, rounded_fits rd x h.2.1, roundedMembers_fits rd l h.2.2⟩

end

theorem roundedMembers_names (rd : ℚ → Dbl) (l : List (Text × V)) :
    (roundedMembers rd l).map Prod.fst = l.map Prod.fst := by
  induction l with
  | nil => rfl
  | cons p l ih => obtain ⟨k, x⟩ := p; simp [roundedMembers, ih]

/-- Members with names in order are put in at the end. -/
theorem put_end {acc : List (Text × V)} {k : Text} (v : V) (h : ∀ p ∈ acc, p.1 < k) :
    put acc k v = acc ++ [(k, v)] := by
  unfold put
  rw [List.filter_eq_self.mpr (fun p hp => by simpa using h p hp),
    List.filter_eq_nil_iff.mpr (fun p hp => by simpa using (h p hp).le)]

theorem meaningMembers_sorted (l : List (Text × V)) : ∀ acc : List (Text × V),
    (∀ p ∈ acc, ∀ q ∈ l, p.1 < q.1) → (l.map Prod.fst).Pairwise (· < ·) →
    meaningMembers acc l = acc ++ l.map fun p => (p.1, meaning p.2) := by
  induction l with
  | nil => intro acc _ _; simp [meaningMembers]
  | cons p l ih =>
    intro acc h hs
    obtain ⟨k, x⟩ := p
    rw [List.map_cons, List.pairwise_cons] at hs
    rw [meaningMembers, put_end _ (fun p hp => h p hp (k, x) (by simp)), ih _ ?_ hs.2]
    · simp
    · intro p hp q hq
      rw [List.mem_append, List.mem_singleton] at hp
      rcases hp with hp | rfl
      · exact h p hp q (by simp [hq])
      · exact hs.1 q.1 (List.mem_map.mpr ⟨q, hq, rfl⟩)

mutual

theorem rounded_back (rd : ℚ → Dbl) : (v : V) → Writable v → Back rd v (meaning (rounded rd v))
  | .null, _ => by rw [rounded, meaning, Back]
  | .bool _, _ => by rw [rounded, meaning, Back]
  | .str _, _ => by rw [rounded, meaning, Back]
  | .int z, _ => by rw [rounded, meaning, Back]
  | .uint n, _ => by rw [rounded, meaning, Back]
  | .real x, h => by
    rw [Writable] at h
    obtain ⟨q, rfl⟩ := h
    rw [rounded, meaning, Back]
    exact ⟨q, _, rfl, val16_sixteen q, rfl⟩
  | .arr l, h => by
    rw [Writable] at h
    rw [rounded, meaning, Back]
    exact ⟨_, roundedItems_back rd l h, rfl⟩
  | .obj ms, h => by
    rw [Writable] at h
    rw [rounded, meaning, Back]
    refine ⟨_, roundedMembers_back rd ms h.1, ?_⟩
    rw [meaningMembers_sorted _ [] (by simp)]
    · rfl
    · rw [roundedMembers_names, List.pairwise_map]
      exact h.2

theorem roundedItems_back (rd : ℚ → Dbl) : (l : List V) → WritableItems l →
    BackItems rd l (meaningItems (roundedItems rd l))
  | [], _ => by rw [roundedItems, meaningItems, BackItems]
  | x :: l, h => by
    rw [WritableItems] at h
    rw [roundedItems, meaningItems, BackItems]
    exact ⟨_, _, rounded_back rd x h.1, roundedItems_back rd l h.2, rfl⟩

theorem roundedMembers_back (rd : ℚ → Dbl) : (l : List (Text × V)) → WritableMembers l →
    BackMembers rd l ((roundedMembers rd l).map fun p => (p.1, meaning p.2))
  | [], _ => by rw [roundedMembers, List.map_nil, BackMembers]
  | (k, x) :: l, h => by
    rw [WritableMembers] at h
    rw [roundedMembers, List.map_cons, BackMembers]
    exact ⟨_, _, rounded_back rd x h.2.1, roundedMembers_back rd l h.2.2, rfl⟩

end

theorem white_nil : White [] := by intro c hc; simp at hc

/-- A value that is no array and no object. -/
theorem scalar_text (rd : ℚ → Dbl) {v : V} (h : Writable v) (ha : ∀ l, v ≠ .arr l) (ho : ∀ l, v ≠ .obj l) :
    IsText (Number True rd) (rounded rd v) (scalar v) := by
  cases v with
  | null => rw [rounded, IsText, scalar]
  | bool b => rw [rounded, IsText, scalar]
  | int z =>
    rw [Writable] at h
    rw [rounded, IsText, scalar]
    exact intText_int (by norm_num; omega)
  | uint n =>
    rw [Writable] at h
    rw [rounded, IsText, scalar]
    refine ⟨uintText n, ?_, Or.inl ⟨by omega, rfl⟩⟩
    rw [Int.natAbs_natCast]
    exact uintText_nat (lt_trans h (by norm_num))
  | real x =>
    rw [Writable] at h
    obtain ⟨q, rfl⟩ := h
    rw [rounded, IsText, scalar]
    exact ⟨_, realText_real q, rfl⟩
  | str s =>
    rw [Writable] at h
    rw [rounded, IsText, scalar]
    exact quoted_lit h
  | arr l => exact absurd rfl (ha l)
  | obj l => exact absurd rfl (ho l)

mutual

theorem fast_text (rd : ℚ → Dbl) : (v : V) → Writable v →
    IsText (Number True rd) (rounded rd v) (fastValue v)
  | .null, h => by rw [fastValue]; exact scalar_text rd h (by simp) (by simp)
  | .bool _, h => by rw [fastValue]; exact scalar_text rd h (by simp) (by simp)
  | .str _, h => by rw [fastValue]; exact scalar_text rd h (by simp) (by simp)
  | .int z, h => by rw [fastValue]; exact scalar_text rd h (by simp) (by simp)
  | .uint n, h => by rw [fastValue]; exact scalar_text rd h (by simp) (by simp)
  | .real x, h => by rw [fastValue]; exact scalar_text rd h (by simp) (by simp)
  | .arr l, h => by
    rw [Writable] at h
    rw [fastValue, rounded, IsText]
    exact ⟨_, fastItems_text rd l h, rfl⟩
  | .obj ms, h => by
    rw [Writable] at h
    rw [fastValue, rounded, IsText]
    exact ⟨_, fastMembers_text rd ms h.1, rfl⟩

theorem fastItems_text (rd : ℚ → Dbl) : (l : List V) → WritableItems l →
    ItemsText (Number True rd) (roundedItems rd l) (fastItems l)
  | [], _ => by rw [roundedItems, fastItems, ItemsText]; exact white_nil
  | [x], h => by
    rw [WritableItems] at h
    rw [roundedItems, roundedItems, fastItems, ItemsText]
    exact ⟨[], _, [], white_nil, fast_text rd x h.1, white_nil, by simp⟩
  | x :: y :: l, h => by
    rw [WritableItems] at h
    have ih := fastItems_text rd (y :: l) h.2
    rw [roundedItems] at ih
    rw [roundedItems, roundedItems, fastItems, ItemsText]
    exact ⟨[], _, [], _, white_nil, fast_text rd x h.1, white_nil, ih, by simp⟩

theorem fastMembers_text (rd : ℚ → Dbl) : (l : List (Text × V)) → WritableMembers l →
    MembersText (Number True rd) (roundedMembers rd l) (fastMembers l)
  | [], _ => by rw [roundedMembers, fastMembers, MembersText]; exact white_nil
  | [(k, x)], h => by
    rw [WritableMembers] at h
    obtain ⟨l, hl, hq⟩ := quoted_lit h.1
    rw [roundedMembers, roundedMembers, fastMembers, MembersText, hq]
    exact ⟨[], l, [], [], _, [], white_nil, hl, white_nil, white_nil, fast_text rd x h.2.1, white_nil,
      by simp⟩
  | (k, x) :: (k', y) :: ms, h => by
    rw [WritableMembers] at h
    obtain ⟨l, hl, hq⟩ := quoted_lit h.1
    have ih := fastMembers_text rd ((k', y) :: ms) h.2.2
    rw [roundedMembers] at ih
    rw [roundedMembers, roundedMembers, fastMembers, MembersText, hq]
    exact ⟨[], l, [], [], _, [], _, white_nil, hl, white_nil, white_nil, fast_text rd x h.2.1, white_nil,
      ih, by simp⟩

end

theorem white_append {a b : Text} (ha : White a) (hb : White b) : White (a ++ b) := by
  intro c hc
  rcases List.mem_append.mp hc with h | h
  · exact ha c h
  · exact hb c h

theorem items_pad {num : Dbl → Text → Prop} {w : Text} (hw : White w) (l : List V) : ∀ (w' b : Text),
    White w' → ItemsText num l b → ItemsText num l (w' ++ b ++ w) := by
  induction l with
  | nil =>
    intro w' b hw' h
    rw [ItemsText] at h ⊢
    exact white_append (white_append hw' h) hw
  | cons x l ih =>
    intro w' b hw' h
    cases l with
    | nil =>
      rw [ItemsText] at h ⊢
      obtain ⟨u, t, u', h1, h2, h3, rfl⟩ := h
      exact ⟨w' ++ u, t, u' ++ w, white_append hw' h1, h2, white_append h3 hw, by simp⟩
    | cons y l =>
      rw [ItemsText] at h ⊢
      obtain ⟨u, t, u', b', h1, h2, h3, h4, rfl⟩ := h
      exact ⟨w' ++ u, t, u', _, white_append hw' h1, h2, h3, ih [] b' white_nil h4, by simp⟩

theorem members_pad {num : Dbl → Text → Prop} {w : Text} (hw : White w) (l : List (Text × V)) :
    ∀ (w' b : Text), White w' → MembersText num l b → MembersText num l (w' ++ b ++ w) := by
  induction l with
  | nil =>
    intro w' b hw' h
    rw [MembersText] at h ⊢
    exact white_append (white_append hw' h) hw
  | cons p l ih =>
    intro w' b hw' h
    obtain ⟨k, x⟩ := p
    cases l with
    | nil =>
      rw [MembersText] at h ⊢
      obtain ⟨u, q, u', u'', t, u3, h1, h2, h3, h4, h5, h6, rfl⟩ := h
      exact ⟨w' ++ u, q, u', u'', t, u3 ++ w, white_append hw' h1, h2, h3, h4, h5, white_append h6 hw,
        by simp⟩
    | cons y l =>
      rw [MembersText] at h ⊢
      obtain ⟨u, q, u', u'', t, u3, b', h1, h2, h3, h4, h5, h6, h7, rfl⟩ := h
      exact ⟨w' ++ u, q, u', u'', t, u3, _, white_append hw' h1, h2, h3, h4, h5, h6,
        ih [] b' white_nil h7, by simp⟩

/-- The line break and the indentation before an item. -/
theorem white_break (multi : Bool) {ind : Text} (h : White ind) :
    White (if multi = true then '\n' :: ind else []) := by
  cases multi
  · exact white_nil
  · intro c hc
    rcases List.mem_cons.mp hc with rfl | hc
    · simp
    · exact h c hc

mutual

theorem custom_text (rd : ℚ → Dbl) {st : Style} (hst : Spaced st) : (v : V) → Writable v →
    ∀ (ind : Text) (force : Bool), White ind → ∃ w t w', White w ∧ White w' ∧
      IsText (Number True rd) (rounded rd v) t ∧ customValue st ind force v = w ++ t ++ w'
  | .null, h, _, _, _ => by
    rw [customValue]
    exact ⟨[], _, [], white_nil, white_nil, scalar_text rd h (by simp) (by simp), by simp⟩
  | .bool _, h, _, _, _ => by
    rw [customValue]
    exact ⟨[], _, [], white_nil, white_nil, scalar_text rd h (by simp) (by simp), by simp⟩
  | .str _, h, _, _, _ => by
    rw [customValue]
    exact ⟨[], _, [], white_nil, white_nil, scalar_text rd h (by simp) (by simp), by simp⟩
  | .int z, h, _, _, _ => by
    rw [customValue]
    exact ⟨[], _, [], white_nil, white_nil, scalar_text rd h (by simp) (by simp), by simp⟩
  | .uint n, h, _, _, _ => by
    rw [customValue]
    exact ⟨[], _, [], white_nil, white_nil, scalar_text rd h (by simp) (by simp), by simp⟩
  | .real x, h, _, _, _ => by
    rw [customValue]
    exact ⟨[], _, [], white_nil, white_nil, scalar_text rd h (by simp) (by simp), by simp⟩
  | .arr l, h, ind, force, hi => by
    rw [Writable] at h
    obtain ⟨w1, w2, hw1, hw2, e1⟩ := hst.opensquare
    obtain ⟨w3, w4, hw3, hw4, e2⟩ := hst.closesquare
    rw [customValue, rounded]
    split
    · have ih := customItems_text rd hst l h ind false hi
      refine ⟨w1, '[' :: (w2 ++ customItems st ind false l ++ w3) ++ [']'],
        w4, hw1, hw4, ?_, ?_⟩
      · rw [IsText]
        exact ⟨_, items_pad hw3 _ w2 _ hw2 ih, rfl⟩
      · rw [e1, e2]; simp
    · have ih := customItems_text rd hst l h (ind ++ st.indent) true (white_append hi hst.indent)
      refine ⟨w1, '[' :: (w2 ++ customItems st (ind ++ st.indent) true l ++ ('\n' :: ind ++ w3)) ++ [']'],
        w4, hw1, hw4, ?_, ?_⟩
      · rw [IsText]
        exact ⟨_, items_pad (white_append (white_break true hi) hw3) _ w2 _ hw2 ih, rfl⟩
      · rw [e1, e2]; simp
  | .obj ms, h, ind, force, hi => by
    rw [Writable] at h
    obtain ⟨w1, w2, hw1, hw2, e1⟩ := hst.opencurly
    obtain ⟨w3, w4, hw3, hw4, e2⟩ := hst.closecurly
    rw [customValue, rounded]
    split
    · have ih := customMembers_text rd hst ms h.1 ind false hi
      refine ⟨w1, '{' :: (w2 ++ customMembers st ind false ms ++ w3) ++ ['}'],
        w4, hw1, hw4, ?_, ?_⟩
      · rw [IsText]
        exact ⟨_, members_pad hw3 _ w2 _ hw2 ih, rfl⟩
      · rw [e1, e2]; simp
    · have ih := customMembers_text rd hst ms h.1 (ind ++ st.indent) true (white_append hi hst.indent)
      refine ⟨w1, '{' :: (w2 ++ customMembers st (ind ++ st.indent) true ms ++ ('\n' :: ind ++ w3)) ++ ['}'],
        w4, hw1, hw4, ?_, ?_⟩
      · rw [IsText]
        exact ⟨_, members_pad (white_append (white_break true hi) hw3) _ w2 _ hw2 ih, rfl⟩
      · rw [e1, e2]; simp

theorem customItems_text (rd : ℚ → Dbl) {st : Style} (hst : Spaced st) : (l : List V) → WritableItems l →
    ∀ (ind : Text) (multi : Bool), White ind →
      ItemsText (Number True rd) (roundedItems rd l) (customItems st ind multi l)
  | [], _, _, _, _ => by rw [roundedItems, customItems, ItemsText]; exact white_nil
  | [x], h, ind, multi, hi => by
    rw [WritableItems] at h
    obtain ⟨w, t, w', hw, hw', ht, e⟩ := custom_text rd hst x h.1 ind false hi
    rw [roundedItems, roundedItems, customItems, ItemsText, e]
    exact ⟨_, t, w', white_append (white_break multi hi) hw, ht, hw', by simp⟩
  | x :: y :: l, h, ind, multi, hi => by
    rw [WritableItems] at h
    obtain ⟨w, t, w', hw, hw', ht, e⟩ := custom_text rd hst x h.1 ind false hi
    obtain ⟨w1, w2, hw1, hw2, e1⟩ := hst.comma
    have ih := customItems_text rd hst (y :: l) h.2 ind multi hi
    have ih := items_pad white_nil _ w2 _ hw2 ih
    rw [roundedItems] at ih
    rw [roundedItems, roundedItems, customItems, ItemsText, e, e1]
    exact ⟨_, t, w' ++ w1, _, white_append (white_break multi hi) hw, ht, white_append hw' hw1, ih,
      by simp⟩

theorem customMembers_text (rd : ℚ → Dbl) {st : Style} (hst : Spaced st) : (l : List (Text × V)) →
    WritableMembers l → ∀ (ind : Text) (multi : Bool), White ind →
      MembersText (Number True rd) (roundedMembers rd l) (customMembers st ind multi l)
  | [], _, _, _, _ => by rw [roundedMembers, customMembers, MembersText]; exact white_nil
  | [(k, x)], h, ind, multi, hi => by
    rw [WritableMembers] at h
    obtain ⟨l, hl, hq⟩ := quoted_lit h.1
    obtain ⟨w, t, w', hw, hw', ht, e⟩ := custom_text rd hst x h.2.1 ind (!multi) hi
    obtain ⟨w1, w2, hw1, hw2, e1⟩ := hst.colon
    rw [roundedMembers, roundedMembers, customMembers, MembersText, hq, e, e1]
    exact ⟨_, l, w1, w2 ++ w, t, w', white_break multi hi, hl, hw1, white_append hw2 hw, ht, hw',
      by simp⟩
  | (k, x) :: (k', y) :: ms, h, ind, multi, hi => by
    rw [WritableMembers] at h
    obtain ⟨l, hl, hq⟩ := quoted_lit h.1
    obtain ⟨w, t, w', hw, hw', ht, e⟩ := custom_text rd hst x h.2.1 ind (!multi) hi
    obtain ⟨w1, w2, hw1, hw2, e1⟩ := hst.colon
    obtain ⟨w3, w4, hw3, hw4, e2⟩ := hst.comma
    have ih := customMembers_text rd hst ((k', y) :: ms) h.2.2 ind multi hi
    have ih := members_pad white_nil _ w4 _ hw4 ih
    rw [roundedMembers] at ih
    rw [roundedMembers, roundedMembers, customMembers, MembersText, hq, e, e1, e2]
    exact ⟨_, l, w1, w2 ++ w, t, w' ++ w3, _, white_break multi hi, hl, hw1, white_append hw2 hw, ht,
      white_append hw' hw3, ih, by simp⟩

end

end Cyclus.JsonText
