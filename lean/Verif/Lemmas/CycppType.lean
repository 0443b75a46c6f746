import Verif.Spec.CycppType
import Verif.Lemmas.Cycpp
import Verif.Lemmas.CycppScan

/-!
# Canonical types: lemmas
-/

namespace Cyclus.CycppType

open Cycpp (Ty)
open CycppScan (isSpace isWord within words)

/-! ## White space -/

theorem word_not_space {c : Char} (h : isWord c = true) : isSpace c = false := by
  by_contra hs
  rw [Bool.not_eq_false] at hs
  simp only [isSpace, Bool.or_eq_true, decide_eq_true_eq] at hs
  rcases hs with ((((rfl | rfl) | rfl) | rfl) | rfl) | rfl <;> exact absurd h (by decide)

theorem plain_space {s : Str} (h : Plain s) : ∀ c ∈ s, isSpace c = false := by
  intro c hc
  rcases h.2.1 c hc with h | rfl
  · exact word_not_space h
  · decide

theorem words_free {s : Str} (h : ∀ c ∈ s, isSpace c = false) (hn : s ≠ []) : words s = [s] := by
  unfold CycppScan.words
  rw [List.splitOnP_eq_singleton h]
  cases s with
  | nil => exact absurd rfl hn
  | cons c s => rfl

theorem takeWhile_all (p : Char → Bool) (l : Str) : ∀ c ∈ l.takeWhile p, p c = true := by
  induction l with
  | nil => simp
  | cons d l ih =>
    intro c hc
    by_cases hd : p d = true
    · rw [List.takeWhile_cons_of_pos hd] at hc
      rcases List.mem_cons.mp hc with rfl | hc
      · exact hd
      · exact ih c hc
    · rw [List.takeWhile_cons_of_neg hd] at hc
      cases hc

/-- Stripping takes away a prefix and a suffix. -/
theorem strip_split (p : Char → Bool) (s : Str) :
    ∃ a b, s = a ++ Cycpp.strip p s ++ b ∧ (∀ c ∈ a, p c = true) ∧ (∀ c ∈ b, p c = true) := by
  refine ⟨s.takeWhile p, ((s.dropWhile p).reverse.takeWhile p).reverse, ?_, ?_, ?_⟩
  · unfold Cycpp.strip
    have h1 : (s.dropWhile p).reverse = (s.dropWhile p).reverse.takeWhile p ++ (s.dropWhile p).reverse.dropWhile p :=
      (List.takeWhile_append_dropWhile ..).symm
    have h2 : s.dropWhile p = ((s.dropWhile p).reverse.dropWhile p).reverse ++
        ((s.dropWhile p).reverse.takeWhile p).reverse := by
      rw [← List.reverse_append, ← h1, List.reverse_reverse]
    rw [List.append_assoc, ← h2, List.takeWhile_append_dropWhile]
  · intro c hc
    exact takeWhile_all p _ c hc
  · intro c hc
    rw [List.mem_reverse] at hc
    exact takeWhile_all p _ c hc

theorem strip_none {p : Char → Bool} {s : Str} (h1 : ∀ c, s.head? = some c → p c = false)
    (h2 : ∀ c, s.getLast? = some c → p c = false) : Cycpp.strip p s = s := by
  unfold Cycpp.strip
  have e1 : s.dropWhile p = s := by
    cases s with
    | nil => rfl
    | cons c s => rw [List.dropWhile_cons_of_neg]; simpa using h1 c rfl
  rw [e1]
  have e2 : s.reverse.dropWhile p = s.reverse := by
    cases hr : s.reverse with
    | nil => rfl
    | cons c r =>
      rw [List.dropWhile_cons_of_neg]
      have : s.getLast? = some c := by rw [← List.head?_reverse, hr]; rfl
      simpa using h2 c this
  rw [e2, List.reverse_reverse]

theorem solid_append (a b : Str) : solid (a ++ b) = solid a ++ solid b := by simp [solid]

theorem solid_spaces {a : Str} (h : ∀ c ∈ a, isSpace c = true) : solid a = [] := by
  simp only [solid, List.filter_eq_nil_iff]
  intro c hc
  simp [h c hc]

theorem solid_free {a : Str} (h : ∀ c ∈ a, isSpace c = false) : solid a = a := by
  rw [solid, List.filter_eq_self]
  intro c hc
  simp [h c hc]

theorem solid_strip (s : Str) : solid (Cycpp.strip isSpace s) = solid s := by
  obtain ⟨a, b, h, ha, hb⟩ := strip_split isSpace s
  conv_rhs => rw [h]
  rw [solid_append, solid_append, solid_spaces ha, solid_spaces hb]
  simp

theorem unwords_filter (l : List Str) : (unwords l).filter (· ≠ ' ') = (l.map (·.filter (· ≠ ' '))).flatten := by
  induction l with
  | nil => rfl
  | cons a l ih =>
    cases l with
    | nil => simp [unwords]
    | cons b r =>
      simp only [unwords, List.filter_append, List.filter_cons, ne_eq, not_true_eq_false, decide_false,
        Bool.false_eq_true, if_false, List.map_cons, List.flatten_cons] at ih ⊢
      rw [ih]

theorem split_pieces (s : Str) : (s.splitOnP isSpace).flatten = solid s ∧
    ∀ w ∈ s.splitOnP isSpace, ∀ c ∈ w, isSpace c = false := by
  induction s with
  | nil => simp [solid]
  | cons c s ih =>
    rw [List.splitOnP_cons_eq_if_modifyHead]
    by_cases hc : isSpace c = true
    · simp only [hc, if_true]
      refine ⟨by simpa [solid, hc] using ih.1, ?_⟩
      intro w hw
      rcases List.mem_cons.mp hw with rfl | hw
      · simp
      · exact ih.2 w hw
    · simp only [hc, if_false]
      cases hs : s.splitOnP isSpace with
      | nil => exact absurd hs (List.splitOnP_ne_nil _ _)
      | cons w ws =>
        rw [hs] at ih
        refine ⟨?_, ?_⟩
        · have := ih.1
          simp only [Bool.false_eq_true, if_false, List.modifyHead_cons, List.flatten_cons, List.cons_append,
            List.flatten_cons] at this ⊢
          rw [this]
          simp [solid, hc]
        · intro v hv d hd
          simp only [Bool.false_eq_true, if_false, List.modifyHead_cons, List.mem_cons] at hv
          rcases hv with rfl | hv
          · rcases List.mem_cons.mp hd with rfl | hd
            · simpa using hc
            · exact ih.2 w (by simp) d hd
          · exact ih.2 v (List.mem_cons_of_mem _ hv) d hd

theorem flatten_filter_ne (l : List Str) : (l.filter (fun x => !x.isEmpty)).flatten = l.flatten := by
  induction l with
  | nil => rfl
  | cons a l ih =>
    cases a with
    | nil => simpa using ih
    | cons c a => simp [ih]

/-- The words have all that is not white space. -/
theorem unwords_words (s : Str) : (unwords (words s)).filter (· ≠ ' ') = solid s := by
  rw [unwords_filter]
  obtain ⟨h1, h2⟩ := split_pieces s
  have h3 : (words s).map (fun w => w.filter (· ≠ ' ')) = words s := by
    conv_rhs => rw [← List.map_id (words s)]
    apply List.map_congr_left
    intro w hw
    simp only [CycppScan.words, List.mem_filter] at hw
    rw [id, List.filter_eq_self]
    intro c hc
    have := h2 w hw.1 c hc
    simp only [ne_eq, decide_not, Bool.not_eq_true', decide_eq_false_iff_not]
    rintro rfl
    exact absurd this (by decide)
  rw [h3, ← h1]
  exact flatten_filter_ne _

theorem head_solid {s : Str} (h : ∀ c, s.head? = some c → isSpace c = false) : (solid s).head? = s.head? := by
  cases s with
  | nil => rfl
  | cons c s => simp [solid, h c rfl]

theorem last_solid {s : Str} (h : ∀ c, s.getLast? = some c → isSpace c = false) : (solid s).getLast? = s.getLast? := by
  rw [← List.head?_reverse, ← List.head?_reverse]
  have : (solid s).reverse = solid s.reverse := by simp [solid]
  rw [this]
  refine head_solid fun c hc => h c ?_
  rw [← hc, List.head?_reverse]

theorem strip_ends (p : Char → Bool) (s : Str) :
    (∀ c, (Cycpp.strip p s).head? = some c → p c = false) ∧
      ∀ c, (Cycpp.strip p s).getLast? = some c → p c = false := by
  have aux : ∀ (l : Str) c, (l.dropWhile p).head? = some c → p c = false := by
    intro l c hc
    induction l with
    | nil => simp at hc
    | cons d l ih =>
      by_cases hd : p d = true
      · rw [List.dropWhile_cons_of_pos hd] at hc
        exact ih hc
      · rw [List.dropWhile_cons_of_neg hd] at hc
        simp only [List.head?_cons, Option.some.injEq] at hc
        subst hc
        simpa using hd
  unfold Cycpp.strip
  constructor
  · intro c hc
    have h1 : ((s.dropWhile p).reverse.dropWhile p).reverse <+: s.dropWhile p := by
      have := List.dropWhile_suffix (l := (s.dropWhile p).reverse) p
      rw [← List.reverse_prefix, List.reverse_reverse] at this
      exact this
    obtain ⟨t, ht⟩ := h1
    apply aux s
    rw [← ht, List.head?_append, hc]
    rfl
  · intro c hc
    rw [List.getLast?_reverse] at hc
    exact aux _ c hc

/-- What is left of a text when it is normalised. -/
theorem norm_solid {t : Str} (h1 : (solid t).head? ≠ some ':') (h2 : (solid t).getLast? ≠ some ':') :
    (norm t).filter (· ≠ ' ') = solid t := by
  unfold norm
  rw [unwords_words]
  have he := strip_ends isSpace t
  have hs : Cycpp.strip (fun x => decide (x = ':')) (Cycpp.strip isSpace t) = Cycpp.strip isSpace t := by
    apply strip_none
    · intro c hc
      have := head_solid he.1
      rw [solid_strip, hc] at this
      rw [this] at h1
      simpa using h1
    · intro c hc
      have := last_solid he.2
      rw [solid_strip, hc] at this
      rw [this] at h2
      simpa using h2
  rw [hs, solid_strip]

/-- A name with white space around it. -/
theorem norm_around {a t b : Str} (ha : ∀ c ∈ a, isSpace c = true) (hb : ∀ c ∈ b, isSpace c = true)
    (ht : Plain t) : norm (a ++ t ++ b) = t := by
  have hsp := plain_space ht
  have hstrip : Cycpp.strip isSpace (a ++ t ++ b) = t := by
    unfold Cycpp.strip
    have e1 : (a ++ t ++ b).dropWhile isSpace = t ++ b := by
      rw [List.append_assoc, List.dropWhile_append_of_pos ha]
      obtain ⟨hn, -⟩ := ht
      cases t with
      | nil => exact absurd rfl hn
      | cons c t =>
        rw [List.cons_append, List.dropWhile_cons_of_neg]
        simp [hsp c (by simp)]
    rw [e1, List.reverse_append, List.dropWhile_append_of_pos (by simpa using hb)]
    have e2 : t.reverse.dropWhile isSpace = t.reverse := by
      cases hr : t.reverse with
      | nil => rfl
      | cons c r =>
        rw [List.dropWhile_cons_of_neg]
        have : c ∈ t := by rw [← List.mem_reverse, hr]; simp
        simp [hsp c this]
    rw [e2, List.reverse_reverse]
  unfold norm
  rw [hstrip, strip_none, words_free hsp ht.1]
  · rfl
  · intro c hc
    have := ht.2.2.1
    rw [hc] at this
    simpa using this
  · intro c hc
    have := ht.2.2.2
    rw [hc] at this
    simpa using this

theorem norm_plain {t : Str} (ht : Plain t) : norm t = t := by
  have := norm_around (a := []) (b := []) (by simp) (by simp) ht
  simpa using this

theorem plain_no_angle {t : Str} (ht : Plain t) : '<' ∉ t := by
  intro h
  rcases ht.2.1 _ h with h | h
  · exact absurd h (by decide)
  · exact absurd h (by decide)

/-- The names of the tables are plain. -/
theorem supported_plain : ∀ s ∈ supported, Plain s := by
  unfold supported Plain
  decide +kernel

theorem templates_plain : ∀ s ∈ templates, Plain s := by
  unfold templates Plain
  decide +kernel

theorem ident_plain {s : Str} (h : Ident s) : Plain s := by
  obtain ⟨h1, h2⟩ := h
  refine ⟨h1, fun c hc => .inl (h2 c hc), ?_, ?_⟩
  · intro he
    have hm : ':' ∈ s := List.mem_of_mem_head? he
    exact absurd (h2 _ hm) (by decide)
  · intro he
    have hm : ':' ∈ s := List.mem_of_mem_getLast? he
    exact absurd (h2 _ hm) (by decide)

theorem within_plain {u t : Str} (hu : Plain u) (ht : Plain t) : Plain (within u t) := by
  obtain ⟨u1, u2, u3, u4⟩ := hu
  obtain ⟨t1, t2, t3, t4⟩ := ht
  refine ⟨by simp [within], ?_, ?_, ?_⟩
  · intro c hc
    simp only [within, List.mem_append, List.mem_cons] at hc
    rcases hc with hc | rfl | rfl | hc
    · exact u2 c hc
    · exact .inr rfl
    · exact .inr rfl
    · exact t2 c hc
  · cases u with
    | nil => exact absurd rfl u1
    | cons c u => simpa [within] using u3
  · have : (within u t).getLast? = t.getLast? := by
      have e : within u t = (u ++ [':', ':']) ++ t := by simp [within]
      rw [e, List.getLast?_append, List.getLast?_eq_some_getLast t1]
      rfl
    rw [this]
    exact t4

/-! ## Order -/

theorem mem_insertDesc {x y : ℤ × Str} {l : List (ℤ × Str)} : y ∈ insertDesc x l ↔ y = x ∨ y ∈ l := by
  induction l with
  | nil => simp [insertDesc]
  | cons z l ih =>
    simp only [insertDesc]
    split
    · simp
    · simp only [List.mem_cons, ih]
      tauto

theorem mem_sortDesc {y : ℤ × Str} {l : List (ℤ × Str)} : y ∈ sortDesc l ↔ y ∈ l := by
  unfold sortDesc
  induction l with
  | nil => simp
  | cons x l ih => simp [mem_insertDesc, ih]

/-- An entry that is deeper than all others comes first. -/
theorem head_insertDesc {x y : ℤ × Str} {l : List (ℤ × Str)} (h : (insertDesc x l).head? = some y) :
    (y = x ∨ l.head? = some y) := by
  cases l with
  | nil => simp only [insertDesc, List.head?_cons, Option.some.injEq] at h; exact .inl h.symm
  | cons z l =>
    simp only [insertDesc] at h
    split at h
    · simp only [List.head?_cons, Option.some.injEq] at h; exact .inl h.symm
    · exact .inr (by simpa using h)

theorem sort_max {l : List (ℤ × Str)} {y : ℤ × Str} (h : (sortDesc l).head? = some y) : ∀ x ∈ l, x.1 ≤ y.1 := by
  unfold sortDesc at h
  induction l generalizing y with
  | nil => simp
  | cons z l ih =>
    rw [List.foldr_cons] at h
    cases hl : (l.foldr insertDesc []) with
    | nil =>
      have hnil : l = [] := by
        cases l with
        | nil => rfl
        | cons a l =>
          rw [List.foldr_cons] at hl
          cases h' : l.foldr insertDesc [] with
          | nil => rw [h'] at hl; simp [insertDesc] at hl
          | cons b r =>
            rw [h'] at hl
            simp only [insertDesc] at hl
            split at hl <;> cases hl
      subst hnil
      simp only [List.foldr_nil, insertDesc, List.head?_cons, Option.some.injEq] at h
      subst h
      simp
    | cons w r =>
      have hw := ih (y := w) (by rw [hl]; rfl)
      rw [hl] at h
      simp only [insertDesc] at h
      split at h
      · rename_i hle
        simp only [List.head?_cons, Option.some.injEq] at h
        subst h
        have hwz : w.1 ≤ z.1 := by
          simp only [pairLe, Bool.or_eq_true, decide_eq_true_eq, Bool.and_eq_true] at hle
          rcases hle with h | h
          · exact h.le
          · exact h.1.le
        intro x hx
        rcases List.mem_cons.mp hx with rfl | hx
        · exact le_refl _
        · exact le_trans (hw x hx) hwz
      · rename_i hle
        simp only [List.head?_cons, Option.some.injEq] at h
        subst h
        have hzw : z.1 ≤ w.1 := by
          simp only [pairLe, Bool.or_eq_true, decide_eq_true_eq, Bool.and_eq_true, not_or, not_lt, not_and] at hle
          exact hle.1
        intro x hx
        rcases List.mem_cons.mp hx with rfl | hx
        · exact hzw
        · exact hw x hx

theorem sort_nonempty {l : List (ℤ × Str)} {x : ℤ × Str} (h : x ∈ l) : ∃ y ∈ l, (sortDesc l).head? = some y := by
  cases hs : sortDesc l with
  | nil =>
    have := mem_sortDesc.mpr h
    rw [hs] at this
    cases this
  | cons y r =>
    exact ⟨y, mem_sortDesc.mp (by rw [hs]; simp), rfl⟩

/-- The alias that is picked is the innermost. -/
theorem pick_deepest {aliases : List (ℤ × Str × Str)} {d : ℤ} {n t : Str} (h : (d, n, t) ∈ aliases)
    (hd : ∀ x ∈ aliases, x.2.2 = t → x ≠ (d, n, t) → x.1 < d) : pick aliases t = some n := by
  unfold pick
  set l := ((aliases.filter (fun x => x.2.2 = t)).map fun x => (x.1, x.2.1)) with hl
  have hm : (d, n) ∈ l := by
    rw [hl, List.mem_map]
    exact ⟨(d, n, t), by simp [List.mem_filter, h], rfl⟩
  obtain ⟨y, hy, hh⟩ := sort_nonempty hm
  have hmax := sort_max hh (d, n) hm
  rw [hl, List.mem_map] at hy
  obtain ⟨x, hx, rfl⟩ := hy
  simp only [List.mem_filter, decide_eq_true_eq] at hx
  by_cases e : x = (d, n, t)
  · rw [hh, e]; rfl
  · have := hd x hx.1 hx.2 e
    simp only at hmax
    omega

theorem pick_mem {aliases : List (ℤ × Str × Str)} {t n : Str} (h : pick aliases t = some n) :
    ∃ x ∈ aliases, x.2.1 = n ∧ x.2.2 = t := by
  unfold pick at h
  simp only [Option.map_eq_some_iff] at h
  obtain ⟨y, hy, rfl⟩ := h
  have : y ∈ sortDesc ((aliases.filter (fun x => x.2.2 = t)).map fun x => (x.1, x.2.1)) :=
    List.mem_of_mem_head? hy
  rw [mem_sortDesc, List.mem_map] at this
  obtain ⟨x, hx, rfl⟩ := this
  simp only [List.mem_filter, decide_eq_true_eq] at hx
  exact ⟨x, hx.1, rfl, hx.2⟩

theorem pick_none {aliases : List (ℤ × Str × Str)} {t : Str} (h : ∀ x ∈ aliases, x.2.2 ≠ t) :
    pick aliases t = none := by
  cases hp : pick aliases t with
  | none => rfl
  | some n =>
    obtain ⟨x, hx, -, ht⟩ := pick_mem hp
    exact absurd ht (h x hx)

/-! ## Arguments -/

theorem each_ok {f : Ty → Res} {l ts : List Ty} : each f l = .ok ts ↔ List.Forall₂ (fun a t => f a = .ok t) l ts := by
  induction l generalizing ts with
  | nil =>
    simp only [each, Except.ok.injEq]
    constructor
    · rintro rfl
      exact .nil
    · intro h
      cases h
      rfl
  | cons a l ih =>
    simp only [each]
    cases ha : f a with
    | ok t =>
      simp only
      cases hl : each f l with
      | ok us =>
        simp only [Except.ok.injEq]
        constructor
        · rintro rfl
          exact .cons ha (ih.mp hl)
        · intro h
          cases h with
          | cons h1 h2 =>
            rw [ha] at h1
            cases h1
            have := ih.mpr h2
            rw [hl] at this
            cases this
            rfl
      | error e =>
        simp only
        constructor
        · intro h; cases h
        · intro h
          cases h with
          | cons h1 h2 =>
            have := ih.mpr h2
            rw [hl] at this
            cases this
    | type =>
      simp only
      constructor
      · intro h; cases h
      · intro h
        cases h with
        | cons h1 h2 => rw [ha] at h1; cases h1
    | deep =>
      simp only
      constructor
      · intro h; cases h
      · intro h
        cases h with
        | cons h1 h2 => rw [ha] at h1; cases h1

theorem each_error {f : Ty → Res} {l : List Ty} {e : Res} (h : each f l = .error e) :
    e ≠ .ok (.str []) ∧ (∀ t, e ≠ .ok t) ∧ ∃ a ∈ l, f a = e := by
  induction l with
  | nil => simp [each] at h
  | cons a l ih =>
    simp only [each] at h
    cases ha : f a with
    | ok t =>
      rw [ha] at h
      simp only at h
      cases hl : each f l with
      | ok us => rw [hl] at h; cases h
      | error e' =>
        rw [hl] at h
        cases h
        obtain ⟨h1, h2, b, hb, hb'⟩ := ih hl
        exact ⟨h1, h2, b, List.mem_cons_of_mem _ hb, hb'⟩
    | type =>
      rw [ha] at h
      cases h
      exact ⟨by simp, by simp, a, by simp, ha⟩
    | deep =>
      rw [ha] at h
      cases h
      exact ⟨by simp, by simp, a, by simp, ha⟩

theorem targs_ok {f : Ty → Res} {n : Str} {args : List Ty} {t : Ty} :
    targs f n args = .ok t ↔ ∃ ts, t = .tup n ts ∧ List.Forall₂ (fun a t => f a = .ok t) args ts := by
  unfold targs
  cases h : each f args with
  | ok ts =>
    simp only [Res.ok.injEq]
    constructor
    · rintro rfl
      exact ⟨ts, rfl, each_ok.mp h⟩
    · rintro ⟨us, rfl, hu⟩
      have := each_ok.mpr hu
      rw [h] at this
      cases this
      rfl
  | error e =>
    simp only
    constructor
    · intro he
      exact absurd he ((each_error h).2.1 t)
    · rintro ⟨us, rfl, hu⟩
      have := each_ok.mpr hu
      rw [h] at this
      cases this

theorem targs_deep {f : Ty → Res} {n : Str} {args : List Ty} (h : ∀ a ∈ args, f a ≠ .deep) :
    targs f n args ≠ .deep := by
  unfold targs
  cases he : each f args with
  | ok ts => simp
  | error e =>
    obtain ⟨-, -, a, ha, hf⟩ := each_error he
    simp only
    rw [← hf]
    exact h a ha

/-- The arguments do not depend on the function where it gives a result. -/
theorem targs_mono {f g : Ty → Res} (hfg : ∀ a, f a ≠ .deep → g a = f a) {n : Str} {args : List Ty}
    (h : targs f n args ≠ .deep) : targs g n args = targs f n args := by
  have key : ∀ l : List Ty, each f l ≠ .error .deep → each g l = each f l := by
    intro l
    induction l with
    | nil => intro _; rfl
    | cons a l ih =>
      intro hl
      simp only [each] at hl ⊢
      cases ha : f a with
      | deep => rw [ha] at hl; exact absurd rfl hl
      | type =>
        rw [hfg a (by rw [ha]; simp), ha]
      | ok t =>
        rw [ha] at hl
        simp only at hl
        rw [hfg a (by rw [ha]; simp), ha]
        simp only
        rw [ih (by
          intro he
          rw [he] at hl
          exact hl rfl)]
  unfold targs at h ⊢
  rw [key]
  intro he
  rw [he] at h
  exact h rfl

theorem usingLoop_mono {f g : Str → Res} (hfg : ∀ a, f a ≠ .deep → g a = f a) {t : Str} {l : List (ℤ × Str)}
    (h : usingLoop f t l ≠ .deep) : usingLoop g t l = usingLoop f t l := by
  induction l with
  | nil => rfl
  | cons u l ih =>
    simp only [usingLoop] at h ⊢
    split
    · rename_i hp
      rw [if_pos hp] at h
      exact ih h
    · rename_i hp
      rw [if_neg hp] at h
      cases hf : f (within u.2 t) with
      | deep => rw [hf] at h; exact absurd rfl h
      | type =>
        rw [hf] at h
        rw [hfg _ (by rw [hf]; simp), hf]
        exact ih h
      | ok ty =>
        rw [hfg _ (by rw [hf]; simp), hf]

/-- More calls allowed give the same result. -/
theorem canonize_mono {us : List (ℤ × Str)} {al : List (ℤ × Str × Str)} (n : ℕ) :
    ∀ t, canonize us al n t ≠ .deep → canonize us al (n + 1) t = canonize us al n t := by
  induction n with
  | zero => intro t h; exact absurd rfl h
  | succ n ih =>
    intro t h
    cases t with
    | tup name args =>
      rw [canonize] at h ⊢
      rw [canonize]
      split
      · rename_i hk
        rw [if_pos hk] at h
        exact targs_mono ih h
      · rename_i hk
        rw [if_neg hk] at h
        cases hp : pick al name with
        | some a =>
          rw [hp] at h
          exact targs_mono ih h
        | none =>
          rw [hp] at h
          exact usingLoop_mono (fun m hm => ih _ hm) h
    | str t =>
      rw [canonize] at h ⊢
      rw [canonize]
      split
      · rename_i hk
        rw [if_pos hk] at h
        cases hp : Cycpp.parseTemplate ((norm t).length + 1) (norm t) with
        | none => rfl
        | some ty =>
          rw [hp] at h
          exact ih _ h
      · rename_i hk
        rw [if_neg hk] at h
        split
        · rfl
        · rename_i hs
          rw [if_neg hs] at h
          cases hp : pick al (norm t) with
          | some a =>
            rw [hp] at h
            exact ih _ h
          | none =>
            rw [hp] at h
            exact usingLoop_mono (fun m hm => ih _ hm) h

theorem canonize_le {us : List (ℤ × Str)} {al : List (ℤ × Str × Str)} {n m : ℕ} (hnm : n ≤ m) {t : Ty}
    (h : canonize us al n t ≠ .deep) : canonize us al m t = canonize us al n t := by
  induction m, hnm using Nat.le_induction with
  | base => rfl
  | succ m _ ih => rw [canonize_mono m t (by rw [ih]; exact h), ih]

/-! ## Parts of names -/

theorem parts_cons (t : Str) : ∀ c, parts t ≤ parts (c :: t) ∧ parts (c :: t) ≤ 1 + parts t := by
  induction hn : t.length using Nat.strong_induction_on generalizing t with
  | _ n ih =>
    intro c
    by_cases h : ∃ s, c = ':' ∧ t = ':' :: s
    · obtain ⟨s, rfl, rfl⟩ := h
      have := ih s.length (by simp at hn; omega) s rfl ':'
      simp only [parts]
      omega
    · have : parts (c :: t) = parts t := by
        rw [parts]
        rintro s rfl rfl
        exact h ⟨s, rfl, rfl⟩
      omega

theorem parts_append (u t : Str) : 1 + parts t ≤ parts (u ++ ':' :: ':' :: t) := by
  induction hn : u.length using Nat.strong_induction_on generalizing u with
  | _ n ih =>
    cases u with
    | nil => simp [parts]
    | cons c u =>
      have := ih u.length (by simp at hn; omega) u rfl
      have := (parts_cons (u ++ ':' :: ':' :: t) c).1
      rw [List.cons_append]
      omega

theorem parts_ident {s : Str} (h : ∀ c ∈ s, isWord c = true) : parts s = 1 := by
  induction s with
  | nil => rfl
  | cons c s ih =>
    have hc := h c (by simp)
    rw [parts]
    · exact ih fun d hd => h d (List.mem_cons_of_mem _ hd)
    · rintro t rfl rfl
      exact absurd hc (by decide)

end Cyclus.CycppType
