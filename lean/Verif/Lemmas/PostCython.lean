import Verif.Spec.PostCython
import Mathlib.Data.List.Infix
import Mathlib.Tactic.Ring
import Mathlib.Tactic.Linarith

namespace Cyclus.PostCython

open Cyclus.PostCython.Spec

/-! ## Positions -/

theorem idx_nat {n i : ℕ} (h : i ≤ n) : idx n (i : ℤ) = i := by
  unfold idx
  rw [if_neg (by omega), Int.toNat_natCast, min_eq_left h]

/-- No proper part is both at the begin and at the end. -/
def Borderless (pat : Str) : Prop := ∀ q, q ≠ [] → q <+: pat → q <:+ pat → q = pat

theorem occ_none {pat : Str} (hp : pat ≠ []) : ∀ {s : Str}, ¬ pat <:+: s → occ pat s = none
  | [], _ => by simp [occ, hp]
  | c :: s, h => by
    have h1 : ¬ pat.isPrefixOf (c :: s) = true := by
      rw [List.isPrefixOf_iff_prefix]
      exact fun hh => h hh.isInfix
    rw [occ, if_neg h1, occ_none hp fun hh => h (List.infix_cons hh)]
    rfl

theorem occ_at {pat : Str} (hp : pat ≠ []) (hb : Borderless pat) (c : Str) : ∀ {b : Str}, ¬ pat <:+: b →
    occ pat (b ++ (pat ++ c)) = some b.length
  | [], _ => by
    obtain ⟨x, p, rfl⟩ := List.exists_cons_of_ne_nil hp
    simp only [List.nil_append, List.cons_append, occ]
    rw [if_pos]
    · rfl
    · rw [List.isPrefixOf_iff_prefix]
      exact ⟨c, by simp⟩
  | x :: b, h => by
    have h1 : ¬ pat.isPrefixOf (x :: (b ++ (pat ++ c))) = true := by
      rw [List.isPrefixOf_iff_prefix]
      intro hh
      have hx : x :: b <+: x :: (b ++ (pat ++ c)) := ⟨pat ++ c, rfl⟩
      rcases List.prefix_or_prefix_of_prefix hh hx with h' | ⟨q, hq⟩
      · exact h h'.isInfix
      · by_cases hq0 : q = []
        · subst hq0
          rw [List.append_nil] at hq
          exact h (hq ▸ List.infix_rfl)
        · obtain ⟨r, hr⟩ := hh
          have hr' : x :: b ++ (q ++ r) = x :: b ++ (pat ++ c) := by
            rw [← List.append_assoc, hq]
            exact hr
          have hr'' := List.append_cancel_left hr'
          have hqp : q <+: pat := by
            have a1 : q <+: pat ++ c := ⟨r, hr''⟩
            have a2 : pat <+: pat ++ c := ⟨c, rfl⟩
            have hl : q.length ≤ pat.length := by
              rw [← hq, List.length_append]
              omega
            exact List.prefix_of_prefix_length_le a1 a2 hl
          have := hb q hq0 hqp ⟨x :: b, hq⟩
          rw [this] at hq
          have hl := congrArg List.length hq
          rw [List.length_append, List.length_cons] at hl
          omega
    rw [List.cons_append, occ, if_neg h1, occ_at hp hb c fun hh => h (List.infix_cons hh)]
    rfl

theorem find_at {pat s a b c : Str} {i k : ℤ} (hp : pat ≠ []) (hb : Borderless pat) (h : ¬ pat <:+: b)
    (hs : s = a ++ (b ++ (pat ++ c))) (hi : i = a.length) (hk : k = a.length + b.length) :
    find pat s i = k := by
  have hl : a.length ≤ s.length := by rw [hs]; simp
  unfold find
  rw [hi, idx_nat hl, hs, List.drop_left, occ_at hp hb c h]
  simp [hk]

theorem find_none {pat s a b : Str} {i : ℤ} (hp : pat ≠ []) (h : ¬ pat <:+: b) (hs : s = a ++ b)
    (hi : i = a.length) : find pat s i = -1 := by
  have hl : a.length ≤ s.length := by rw [hs]; simp
  unfold find
  rw [hi, idx_nat hl, hs, List.drop_left, occ_none hp h]

theorem borderless_one (x : Char) : Borderless [x] := by
  intro q hq h _
  rcases q with _ | ⟨y, q⟩
  · exact absurd rfl hq
  · rw [List.cons_prefix_cons] at h
    obtain ⟨rfl, h⟩ := h
    rw [List.prefix_nil.1 h]

theorem borderless_of {pat : Str} (h : ∀ q ∈ pat.tails, q ≠ [] → q <+: pat → q = pat) : Borderless pat :=
  fun q h1 h2 h3 => h q ((List.mem_tails _ _).2 h3) h1 h2

theorem borderless_end : Borderless ['*', '/'] := borderless_of (by decide +kernel)
theorem borderless_void : Borderless ['v', 'o', 'i', 'd', ' '] := borderless_of (by decide +kernel)
theorem borderless_bases : Borderless markBases := borderless_of (by decide +kernel)
theorem borderless_cons : Borderless markCons := borderless_of (by decide +kernel)

theorem not_infix_one {x : Char} {s : Str} (h : x ∉ s) : ¬ [x] <:+: s := by
  rintro ⟨a, b, rfl⟩
  exact h (by simp)

/-- A text that begins otherwise can be put before. -/
theorem not_infix_cons {x y : Char} {p s : Str} (hxy : x ≠ y) (h : ¬ x :: p <:+: s) :
    ¬ x :: p <:+: y :: s := by
  rw [List.infix_cons_iff]
  rintro (h' | h')
  · rw [List.cons_prefix_cons] at h'
    exact hxy h'.1
  · exact h h'

theorem slice_at {s a b c : Str} {i j : ℤ} (hs : s = a ++ (b ++ c)) (hi : i = a.length)
    (hj : j = a.length + b.length) : slice s i j = b := by
  have h1 : a.length ≤ s.length := by rw [hs]; simp
  have h2 : a.length + b.length ≤ s.length := by rw [hs]; simp
  unfold slice
  rw [hi, idx_nat h1, hj, ← Nat.cast_add, idx_nat h2, hs, ← List.append_assoc, ← List.length_append,
    List.take_left, List.drop_left]

theorem take_at {s a b : Str} {i : ℤ} (hs : s = a ++ b) (hi : i = a.length) :
    s.take (idx s.length i) = a := by
  have h1 : a.length ≤ s.length := by rw [hs]; simp
  rw [hi, idx_nat h1, hs, List.take_left]

theorem drop_at {s a b : Str} {i : ℤ} (hs : s = a ++ b) (hi : i = a.length) :
    s.drop (idx s.length i) = b := by
  have h1 : a.length ≤ s.length := by rw [hs]; simp
  rw [hi, idx_nat h1, hs, List.drop_left]

theorem occ_rev {x : Char} {a b : Str} (h : x ∉ b) : occ [x] (a ++ x :: b).reverse = some b.length := by
  have : (a ++ x :: b).reverse = b.reverse ++ ([x] ++ a.reverse) := by simp
  rw [this, occ_at (by simp) (borderless_one x) _ (not_infix_one (by simpa using h)), List.length_reverse]

theorem rfind_at {x : Char} {s a b c : Str} {j k : ℤ} (h : x ∉ b) (hs : s = a ++ x :: b ++ c)
    (hj : j = a.length + 1 + b.length) (hk : k = a.length) : rfind x s j = k := by
  have ht : s.take (idx s.length j) = a ++ x :: b := take_at hs (by rw [hj]; simp; ring)
  unfold rfind
  rw [ht, occ_rev h]
  simp only [List.length_append, List.length_cons]
  rw [hk]
  push_cast
  ring

theorem beforeLast_at {x : Char} {a b : Str} (h : x ∉ b) : beforeLast x (a ++ x :: b) = a := by
  unfold beforeLast
  rw [occ_rev h]
  simp only [List.length_append, List.length_cons]
  rw [show a.length + (b.length + 1) - 1 - b.length = a.length by omega, List.take_left]

theorem beforeLast_none {x : Char} {a : Str} (h : x ∉ a) : beforeLast x a = [] := by
  unfold beforeLast
  rw [occ_none (by simp) (not_infix_one (by simpa using h))]

/-! ## Characters -/

theorem isWord_iff (c : Char) : isWord c = true ↔ WordChar c := by simp [isWord, WordChar]

theorem isWord_false (c : Char) : isWord c = false ↔ ¬ WordChar c := by
  rw [← isWord_iff]; simp

theorem isSpace_iff (c : Char) : isSpace c = true ↔ Blank c := by
  simp [isSpace, Blank, or_assoc]

theorem dropWhile_blank {sp s : Str} (h : ∀ c ∈ sp, Blank c) (h' : ∀ c, s.head? = some c → ¬ Blank c) :
    (sp ++ s).dropWhile isSpace = s := by
  rw [List.dropWhile_append_of_pos fun c hc => (isSpace_iff c).2 (h c hc)]
  rcases s with _ | ⟨c, s⟩
  · rfl
  · rw [List.dropWhile_cons_of_neg]
    rw [isSpace_iff]
    exact h' c rfl

theorem strip_at {sp s sp' : Str} (h : ∀ c ∈ sp, Blank c) (h' : ∀ c ∈ sp', Blank c) (h1 : s ≠ [])
    (h2 : ∀ c, s.head? = some c → ¬ Blank c) (h3 : ∀ c, s.getLast? = some c → ¬ Blank c) :
    strip (sp ++ s ++ sp') = s := by
  obtain ⟨c, t, rfl⟩ := List.exists_cons_of_ne_nil h1
  have e : (sp ++ c :: t ++ sp').dropWhile isSpace = c :: t ++ sp' := by
    rw [List.append_assoc]
    exact dropWhile_blank h (by simpa using h2)
  unfold strip
  rw [e, List.reverse_append]
  rw [dropWhile_blank (by simpa using h') (by
    intro x hx
    rw [List.head?_reverse] at hx
    exact h3 x hx)]
  rw [List.reverse_reverse]

theorem strip_word {s : Str} (h : ∀ c ∈ s, ¬ Blank c) : strip s = s := by
  by_cases hs : s = []
  · subst hs; rfl
  · have := strip_at (sp := []) (sp' := []) (s := s) (by simp) (by simp) hs
      (fun c hc => h c (List.mem_of_mem_head? hc)) (fun c hc => h c (List.mem_of_mem_getLast? hc))
    simpa using this

/-! ## Templates -/

/-- There are groups. -/
def hasGrp : Tmpl → Bool
  | .nil => false
  | .chr _ t => hasGrp t
  | .grp _ _ => true

/-- One turn: groups without groups in them go. -/
def prune : Tmpl → Tmpl
  | .nil => .nil
  | .chr x t => .chr x (prune t)
  | .grp i t => if hasGrp i then .grp (prune i) (prune t) else prune t

theorem flat_top {o c : Char} : ∀ {t : Tmpl}, hasGrp t = false → t.flat o c = t.top
  | .nil, _ => rfl
  | .chr x t, h => by rw [Tmpl.flat, Tmpl.top, flat_top (t := t) h]
  | .grp _ _, h => by simp [hasGrp] at h

theorem top_prune : ∀ (t : Tmpl), (prune t).top = t.top
  | .nil => rfl
  | .chr x t => by rw [prune, Tmpl.top, Tmpl.top, top_prune t]
  | .grp i t => by
    rw [prune]
    split_ifs
    · rw [Tmpl.top, Tmpl.top, top_prune t]
    · rw [Tmpl.top, top_prune t]

theorem good_prune {o c : Char} : ∀ {t : Tmpl}, t.Good o c → (prune t).Good o c
  | .nil, _ => trivial
  | .chr x t, h => ⟨h.1, h.2.1, good_prune h.2.2⟩
  | .grp i t, h => by
    rw [prune]
    split_ifs
    · exact ⟨good_prune h.1, by rw [top_prune]; exact h.2.1, good_prune h.2.2⟩
    · exact good_prune h.2.2

theorem flat_prune_le (o c : Char) : ∀ (t : Tmpl), ((prune t).flat o c).length ≤ (t.flat o c).length
  | .nil => le_rfl
  | .chr x t => by
    have := flat_prune_le o c t
    simp only [prune, Tmpl.flat, List.length_cons]
    omega
  | .grp i t => by
    have h1 := flat_prune_le o c i
    have h2 := flat_prune_le o c t
    rw [prune]
    split_ifs <;> simp only [Tmpl.flat, List.length_cons, List.length_append] <;> omega

theorem flat_prune_lt (o c : Char) : ∀ {t : Tmpl}, hasGrp t = true →
    ((prune t).flat o c).length < (t.flat o c).length
  | .nil, h => by simp [hasGrp] at h
  | .chr x t, h => by
    have := flat_prune_lt o c (t := t) h
    simp only [prune, Tmpl.flat, List.length_cons]
    omega
  | .grp i t, _ => by
    have h2 := flat_prune_le o c t
    rw [prune]
    split_ifs with hi
    · have h1 := flat_prune_lt o c hi
      simp only [Tmpl.flat, List.length_cons, List.length_append]
      omega
    · simp only [Tmpl.flat, List.length_cons, List.length_append]
      omega

theorem inner_none {o c : Char} (hoc : o ≠ c) (r : Str) : ∀ {t : Tmpl}, t.Good o c → hasGrp t = true →
    inner o c (t.flat o c ++ r) = none
  | .nil, _, h => by simp [hasGrp] at h
  | .chr x t, h, hg => by
    simp only [Tmpl.flat, List.cons_append, inner, if_neg h.2.1, if_neg h.1]
    rw [inner_none hoc r h.2.2 hg]
    rfl
  | .grp i t, _, _ => by
    simp only [Tmpl.flat, List.cons_append, inner, if_neg hoc, if_true]

theorem matchLen_none {o c : Char} (hoc : o ≠ c) (r : Str) : ∀ {t : Tmpl}, t.Good o c → hasGrp t = true →
    matchLen o c (t.flat o c ++ r) = none
  | .nil, _, h => by simp [hasGrp] at h
  | .chr x t, h, hg => by
    simp only [Tmpl.flat, List.cons_append, matchLen]
    rw [if_neg (by rintro (h' | h') <;> simp_all [Tmpl.Good]), inner_none hoc r h.2.2 hg]
    rfl
  | .grp i t, _, _ => by simp [Tmpl.flat, matchLen]

theorem inner_some {o c : Char} (r : Str) : ∀ {t : Tmpl}, t.Good o c → hasGrp t = false →
    inner o c (t.flat o c ++ c :: r) = some ((t.flat o c).length + 1)
  | .nil, _, _ => by simp [Tmpl.flat, inner]
  | .chr x t, h, hg => by
    simp only [Tmpl.flat, List.cons_append, inner, if_neg h.2.1, if_neg h.1]
    rw [inner_some r h.2.2 hg]
    simp
  | .grp i t, _, h => by simp [hasGrp] at h

theorem matchLen_some {o c : Char} (r : Str) : ∀ {t : Tmpl}, t.Good o c → hasGrp t = false → t.top ≠ [] →
    matchLen o c (t.flat o c ++ c :: r) = some ((t.flat o c).length + 1)
  | .nil, _, _, h => by simp [Tmpl.top] at h
  | .chr x t, h, hg, _ => by
    simp only [Tmpl.flat, List.cons_append, matchLen]
    rw [if_neg (by rintro (h' | h') <;> simp_all [Tmpl.Good]), inner_some r h.2.2 hg]
    simp
  | .grp i t, _, h, _ => by simp [hasGrp] at h

theorem subOnce_skip (o c : Char) (r : Str) : ∀ (a : Str), subOnce o c a.length (a ++ r) = subOnce o c 0 r
  | [] => by simp
  | x :: a => by
    rw [List.length_cons, List.cons_append, subOnce]
    exact subOnce_skip o c r a

theorem subOnce_flat {o c : Char} (hoc : o ≠ c) : ∀ {t : Tmpl} (r : Str), t.Good o c →
    subOnce o c 0 (t.flat o c ++ r) = (prune t).flat o c ++ subOnce o c 0 r
  | .nil, _, _ => rfl
  | .chr x t, r, h => by
    simp only [Tmpl.flat, prune, List.cons_append, subOnce, if_neg h.1]
    rw [subOnce_flat hoc r h.2.2]
  | .grp i t, r, h => by
    have e : Tmpl.flat o c (.grp i t) ++ r = o :: (i.flat o c ++ c :: (t.flat o c ++ r)) := by
      simp [Tmpl.flat]
    rw [e, prune, subOnce, if_pos rfl]
    cases hi : hasGrp i
    · rw [matchLen_some _ h.1 hi h.2.1]
      simp only
      have := subOnce_skip o c (t.flat o c ++ r) (i.flat o c ++ [c])
      simp only [List.length_append, List.length_singleton, List.append_assoc, List.singleton_append] at this
      rw [this, subOnce_flat hoc r h.2.2]
      simp
    · rw [matchLen_none hoc _ h.1 hi]
      simp only [if_true]
      rw [subOnce_flat hoc _ h.1, subOnce, if_neg (Ne.symm hoc), subOnce_flat hoc r h.2.2]
      simp [Tmpl.flat]

theorem removeLoop_flat {o c : Char} (hoc : o ≠ c) : ∀ {n : ℕ} {t : Tmpl}, t.Good o c →
    (t.flat o c).length ≤ n → removeLoop o c n (t.flat o c) = t.top
  | 0, t, _, hn => by
    have h0 : t.flat o c = [] := List.length_eq_zero_iff.1 (by omega)
    rw [removeLoop]
    cases t with
    | nil => rfl
    | chr x t => simp [Tmpl.flat] at h0
    | grp i t => simp [Tmpl.flat] at h0
  | n + 1, t, h, hn => by
    have hs : subOnce o c 0 (t.flat o c) = (prune t).flat o c := by
      have := subOnce_flat hoc [] h
      simpa [subOnce] using this
    rw [removeLoop, hs]
    cases hg : hasGrp t
    · have e : (prune t).flat o c = t.flat o c := by
        rw [flat_top hg]
        have : ∀ {t : Tmpl}, hasGrp t = false → prune t = t := by
          intro t
          induction t with
          | nil => intro _; rfl
          | chr x t ih => intro h; rw [prune, ih h]
          | grp i t => intro h; simp [hasGrp] at h
        rw [this hg, flat_top hg]
      rw [if_pos e, flat_top hg]
    · have hlt := flat_prune_lt o c hg
      rw [if_neg (fun e => by rw [e] at hlt; exact absurd hlt (lt_irrefl _)),
        removeLoop_flat hoc (good_prune h) (by omega), top_prune]

theorem removeTemplates_flat {o c : Char} (hoc : o ≠ c) {t : Tmpl} (h : t.Good o c) :
    removeTemplates o c (t.flat o c) = t.top := removeLoop_flat hoc h le_rfl

/-! ## Names of arguments -/

theorem splitOn_intercalate {x : Char} : ∀ {l : List Str}, l ≠ [] → (∀ s ∈ l, x ∉ s) →
    ([x].intercalate l).splitOn x = l := by
  intro l hl h
  exact List.splitOn_intercalate x h hl

theorem lastWord_decl {d : Decl} (h : d.Good) : lastWord d.text = .ok d.name := by
  obtain ⟨hw, -, -, hn, hp, hq⟩ := h
  have e1 : d.text.reverse.dropWhile (fun c => !isWord c) = d.name.reverse ++ d.pre.reverse := by
    unfold Decl.text
    rw [List.reverse_append, List.reverse_append]
    rw [List.dropWhile_append_of_pos]
    · have : d.name.reverse ≠ [] := by simpa using hw.1
      obtain ⟨c, t, ht⟩ := List.exists_cons_of_ne_nil this
      have hc : WordChar c := hw.2 c (by
        have : c ∈ d.name.reverse := by rw [ht]; simp
        simpa using this)
      rw [ht, List.cons_append, List.dropWhile_cons_of_neg]
      simpa using (isWord_iff c).2 hc
    · intro c hc
      have := (isWord_false c).2 (hq c (by simpa using hc))
      simp [this]
  have hall : ∀ c ∈ d.name.reverse, isWord c = true := fun c hc => (isWord_iff c).2 (hw.2 c (by simpa using hc))
  have hpre : d.pre.reverse.takeWhile isWord = [] ∧ d.pre.reverse.dropWhile isWord = d.pre.reverse := by
    cases hr : d.pre.reverse with
    | nil => simp
    | cons c t =>
      have hc : ¬ WordChar c := hp c (by
        rw [← List.head?_reverse, hr]
        rfl)
      have := (isWord_false c).2 hc
      simp [this]
  unfold lastWord
  simp only [e1]
  rw [List.takeWhile_append_of_pos hall, List.dropWhile_append_of_pos hall, hpre.1, hpre.2]
  rw [List.append_nil, List.reverse_reverse, if_neg]
  rintro (h' | h')
  · exact hw.1 h'
  · exact hn (by simpa using h')

theorem lastWords_decls : ∀ {l : List Decl}, (∀ d ∈ l, d.Good) →
    lastWords (l.map Decl.text) = .ok (l.map Decl.name)
  | [], _ => rfl
  | d :: l, h => by
    rw [List.map_cons, lastWords, lastWord_decl (h d (by simp)),
      lastWords_decls fun d' hd' => h d' (List.mem_cons_of_mem _ hd')]
    rfl

theorem lastWords_args {o c : Char} (hoc : o ≠ c) {a : Args} (h : a.Good o c) :
    lastWords ((removeTemplates o c (a.tmpl.flat o c)).splitOn ',') = .ok a.names := by
  obtain ⟨h1, h2, h3, h4, -⟩ := h
  rw [removeTemplates_flat hoc h1, h4, splitOn_intercalate (by simpa using h2), lastWords_decls h3]
  · rfl
  · intro s hs
    obtain ⟨d, hd, rfl⟩ := List.mem_map.1 hs
    obtain ⟨hw, g1, g2, -⟩ := h3 d hd
    unfold Decl.text
    intro hm
    rw [List.mem_append, List.mem_append] at hm
    rcases hm with (hm | hm) | hm
    · exact g1 hm
    · have := hw.2 ',' hm
      revert this
      unfold WordChar
      decide
    · exact g2 hm

/-! ## Renaming -/

theorem text_append : ∀ (l l' : List Tok), text (l ++ l') = text l ++ text l'
  | [], _ => rfl
  | .word w :: l, l' => by simp [text, text_append l l']
  | .other c :: l, l' => by simp [text, text_append l l']

/-- One replacement. -/
def rename1 (a b : Str) : Tok → Tok
  | .word w => .word (if w = a then b else w)
  | .other c => .other c

theorem repl_skip (a b r : Str) : ∀ (p : Str), repl a b p.length (p ++ r) = repl a b 0 r
  | [] => by simp
  | x :: p => by
    rw [List.length_cons, List.cons_append, repl]
    exact repl_skip a b r p

theorem repl_word {a b r : Str} (ha : Word a) (hr : ∀ c, r.head? = some c → ¬ WordChar c) :
    ∀ {w : Str}, ¬ a <:+: w → repl a b 0 (w ++ r) = w ++ repl a b 0 r
  | [], _ => rfl
  | c :: w, h => by
    have hp : ¬ a.isPrefixOf (c :: (w ++ r)) = true := by
      rw [List.isPrefixOf_iff_prefix]
      intro hh
      have hx : c :: w <+: c :: (w ++ r) := ⟨r, rfl⟩
      rcases List.prefix_or_prefix_of_prefix hh hx with h' | ⟨q, hq⟩
      · exact h h'.isInfix
      · rcases q with _ | ⟨x, q⟩
        · rw [List.append_nil] at hq
          exact h (hq ▸ List.infix_rfl)
        · obtain ⟨t, ht⟩ := hh
          have ht' : c :: w ++ (x :: q ++ t) = c :: w ++ r := by
            rw [← List.append_assoc, hq]
            exact ht
          have := List.append_cancel_left ht'
          exact hr x (by rw [← this]; rfl) (ha.2 x (by rw [← hq]; simp))
    rw [List.cons_append, repl, if_neg hp, repl_word ha hr fun hh => h (List.infix_cons hh)]
    rfl

theorem head_text {l : List Tok} (h : Proper l) (hn : ∀ v l', l ≠ .word v :: l') :
    ∀ c, (text l).head? = some c → ¬ WordChar c := by
  intro c hc
  rcases l with _ | ⟨_ | x, l⟩
  · simp [text] at hc
  · exact absurd rfl (hn _ _)
  · simp only [text, List.head?_cons, Option.some.injEq] at hc
    subst hc
    exact h.1

theorem repl_text {a b : Str} (ha : Word a) : ∀ {l : List Tok}, Proper l →
    (∀ w, .word w ∈ l → a <:+: w → w = a) → repl a b 0 (text l) = text (l.map (rename1 a b))
  | [], _, _ => rfl
  | .other c :: l, hp, h => by
    have hc : ¬ a.isPrefixOf (c :: text l) = true := by
      rw [List.isPrefixOf_iff_prefix]
      obtain ⟨x, t, rfl⟩ := List.exists_cons_of_ne_nil ha.1
      rw [List.cons_prefix_cons]
      rintro ⟨rfl, -⟩
      exact hp.1 (ha.2 x (by simp))
    rw [text, repl, if_neg hc, repl_text ha hp.2 fun w hw => h w (List.mem_cons_of_mem _ hw)]
    rfl
  | .word w :: l, hp, h => by
    have ih := repl_text (b := b) ha hp.2.2 fun w hw => h w (List.mem_cons_of_mem _ hw)
    have hh := head_text hp.2.2 hp.2.1
    simp only [text, List.map_cons, rename1]
    by_cases hw : w = a
    · subst hw
      rw [if_pos rfl, ← ih]
      obtain ⟨x, t, rfl⟩ := List.exists_cons_of_ne_nil ha.1
      rw [List.cons_append, repl, if_pos (by
        rw [List.isPrefixOf_iff_prefix]
        exact ⟨text l, rfl⟩)]
      simp only [List.length_cons, Nat.add_sub_cancel]
      rw [repl_skip]
    · rw [if_neg hw, ← ih, repl_word ha hh fun hi => hw (h w (by simp) hi)]


theorem splitOn_cons {x : Char} {a b : Str} (h : x ∉ a) : (a ++ x :: b).splitOn x = a :: b.splitOn x := by
  have := List.splitOnP_append_cons_of_forall_mem (p := fun y => y == x) (xs := a)
    (fun y hy => by
      rw [beq_eq_false_iff_ne]
      rintro rfl
      exact h hy) x (by simp) b
  exact this

theorem splitOn_none {x : Char} {a : Str} (h : x ∉ a) : a.splitOn x = [a] := by
  have := splitOn_intercalate (x := x) (l := [a]) (by simp) (by simpa using h)
  simpa using this

theorem word_rename1 {a b : Str} (hb : Word b) : ∀ {l : List Tok}, Proper l → Proper (l.map (rename1 a b))
  | [], _ => trivial
  | .other c :: l, h => ⟨h.1, word_rename1 hb h.2⟩
  | .word w :: l, h => by
    refine ⟨?_, ?_, word_rename1 hb h.2.2⟩
    · split_ifs
      · exact hb
      · exact h.1
    · intro v l' e
      rcases l with _ | ⟨_ | _, l⟩
      · simp at e
      · exact h.2.1 _ _ rfl
      · simp [rename1] at e

theorem mem_rename1 {a b w : Str} {l : List Tok} (h : .word w ∈ l.map (rename1 a b)) :
    w = b ∨ .word w ∈ l := by
  obtain ⟨t, ht, e⟩ := List.mem_map.1 h
  cases t with
  | other c => simp [rename1] at e
  | word v =>
    simp only [rename1, Tok.word.injEq] at e
    split_ifs at e with hv
    · exact Or.inl e.symm
    · exact Or.inr (e ▸ ht)

theorem replAll_text : ∀ {ren : List (Str × Str)} {l : List Tok}, Proper l → Clear ren l →
    (∀ e ∈ ren, Word e.1 ∧ Word e.2) → replAll ren (text l) = text (l.map (rename ren))
  | [], l, _, _, _ => by
    have : l.map (rename []) = l := by
      conv_rhs => rw [← List.map_id l]
      apply List.map_congr_left
      intro t _
      cases t <;> simp [rename]
    rw [this]
    rfl
  | (a, b) :: ren, l, hp, hc, hw => by
    obtain ⟨wa, wb⟩ := hw (a, b) (by simp)
    obtain ⟨c1, c2⟩ := hc
    rw [List.pairwise_cons] at c2
    have e1 : replAll ((a, b) :: ren) (text l) = replAll ren (repl a b 0 (text l)) := rfl
    rw [e1, repl_text wa hp (c1 (a, b) (by simp)),
      replAll_text (word_rename1 wb hp) ⟨?_, c2.2⟩ fun e he => hw e (List.mem_cons_of_mem _ he)]
    · rw [List.map_map]
      congr 1
      apply List.map_congr_left
      intro t _
      cases t with
      | other c => rfl
      | word w =>
        simp only [Function.comp, rename1, rename]
        congr 1
        by_cases hwa : w = a
        · subst hwa
          rw [if_pos rfl, List.lookup_cons_self]
          have : ren.lookup b = none := by
            rw [List.lookup_eq_none_iff]
            intro e he
            rw [bne_iff_ne]
            rintro rfl
            exact c2.1 e he List.infix_rfl
          rw [this]
          rfl
        · rw [if_neg hwa, List.lookup_cons, beq_eq_false_iff_ne.2 hwa]
    · intro e he w hm hi
      rcases mem_rename1 hm with rfl | hm
      · exact absurd hi (c2.1 e he)
      · exact c1 e (List.mem_cons_of_mem _ he) w hm hi

theorem count_word {x : Char} (hx : ¬ WordChar x) {w : Str} (h : Word w) : w.count x = 0 := by
  rw [List.count_eq_zero]
  exact fun hm => hx (h.2 x hm)

theorem not_mem_word {x : Char} (hx : ¬ WordChar x) {w : Str} (h : Word w) : x ∉ w :=
  fun hm => hx (h.2 x hm)

theorem rename_word {ren : List (Str × Str)} (hw : ∀ e ∈ ren, Word e.1 ∧ Word e.2) {w : Str} (h : Word w) :
    Word ((ren.lookup w).getD w) := by
  cases hl : ren.lookup w with
  | none => exact h
  | some v =>
    have : (w, v) ∈ ren := by
      clear hw
      induction ren with
      | nil => simp at hl
      | cons e ren ih =>
        rw [List.lookup_cons] at hl
        cases he : w == e.1
        · rw [he] at hl
          exact List.mem_cons_of_mem _ (ih hl)
        · rw [he] at hl
          simp only [Option.some.injEq] at hl
          have := eq_of_beq he
          subst this hl
          simp
    exact (hw _ this).2

theorem count_rename {ren : List (Str × Str)} (hw : ∀ e ∈ ren, Word e.1 ∧ Word e.2) {x : Char}
    (hx : ¬ WordChar x) : ∀ {l : List Tok}, Proper l →
    (text (l.map (rename ren))).count x = (text l).count x
  | [], _ => rfl
  | .other c :: l, h => by
    simp only [List.map_cons, rename, text, List.count_cons, count_rename hw hx h.2]
  | .word w :: l, h => by
    simp only [List.map_cons, rename, text, List.count_append, count_rename hw hx h.2.2,
      count_word hx h.1, count_word hx (rename_word hw h.1)]

theorem paren_open : ¬ WordChar '(' := by unfold WordChar; decide
theorem paren_close : ¬ WordChar ')' := by unfold WordChar; decide

/-- A list of tokens has no opening bracket, or one of them is the first. -/
theorem tok_split : ∀ {l : List Tok}, Proper l → '(' ∉ text l ∨
    ∃ l1 l2, l = l1 ++ .other '(' :: l2 ∧ '(' ∉ text l1
  | [], _ => Or.inl (by simp [text])
  | .other c :: l, h => by
    by_cases hc : c = '('
    · subst hc
      exact Or.inr ⟨[], l, rfl, by simp [text]⟩
    · rcases tok_split h.2 with h' | ⟨l1, l2, rfl, h'⟩
      · exact Or.inl (by simp [text, h', Ne.symm hc])
      · exact Or.inr ⟨.other c :: l1, l2, rfl, by simp [text, h', Ne.symm hc]⟩
  | .word w :: l, h => by
    have hn := not_mem_word paren_open h.1
    rcases tok_split h.2.2 with h' | ⟨l1, l2, rfl, h'⟩
    · exact Or.inl (by simp [text, h', hn])
    · exact Or.inr ⟨.word w :: l1, l2, rfl, by simp [text, h', hn]⟩

theorem proper_append : ∀ {l l' : List Tok}, Proper (l ++ l') → Proper l ∧ Proper l'
  | [], _, h => ⟨trivial, h⟩
  | .other c :: l, l', h => ⟨⟨h.1, (proper_append h.2).1⟩, (proper_append h.2).2⟩
  | .word w :: l, l', h => by
    refine ⟨⟨h.1, ?_, (proper_append h.2.2).1⟩, (proper_append h.2.2).2⟩
    rintro v l'' rfl
    exact h.2.1 v (l'' ++ l') rfl

theorem clear_append {ren : List (Str × Str)} {l l' : List Tok} (h : Clear ren (l ++ l')) :
    Clear ren l ∧ Clear ren l' :=
  ⟨⟨fun e he w hw => h.1 e he w (List.mem_append_left _ hw), h.2⟩,
    ⟨fun e he w hw => h.1 e he w (List.mem_append_right _ hw), h.2⟩⟩

theorem clear_tail {ren : List (Str × Str)} {t : Tok} {l : List Tok} (h : Clear ren (t :: l)) : Clear ren l :=
  ⟨fun e he w hw => h.1 e he w (List.mem_cons_of_mem _ hw), h.2⟩

theorem intercalate_cons {x : Char} (a : Str) {l : List Str} (h : l ≠ []) :
    [x].intercalate (a :: l) = a ++ x :: [x].intercalate l := by
  obtain ⟨b, l, rfl⟩ := List.exists_cons_of_ne_nil h
  simp [List.intercalate, List.intersperse]

theorem partsLoop_ne {ren : List (Str × Str)} {i n : ℕ} {l : List Str} (h : l ≠ []) :
    partsLoop ren i n l ≠ [] := by
  obtain ⟨b, l, rfl⟩ := List.exists_cons_of_ne_nil h
  rw [partsLoop]
  split_ifs <;> simp

theorem parts_text {ren : List (Str × Str)} (hw : ∀ e ∈ ren, Word e.1 ∧ Word e.2) (m : ℕ) :
    ∀ {l : List Tok} {i n : ℕ}, l.length ≤ m → Proper l → Clear ren l →
    n < i → (∀ p, p ++ ['('] <+: text l → n + p.count ')' < i + 1 + p.count '(') →
    ['('].intercalate (partsLoop ren i n ((text l).splitOn '(')) = text (l.map (rename ren)) := by
  induction m with
  | zero =>
    intro l i n hl hp hc hin hb
    have : l = [] := List.length_eq_zero_iff.1 (by omega)
    subst this
    simp only [text, splitOn_none (x := '(') (a := []) (by simp), partsLoop]
    rw [if_neg (by omega)]
    have h1 := replAll_text (l := []) hp hc hw
    simp only [text] at h1
    rw [h1]
    rfl
  | succ m ih =>
    intro l i n hl hp hc hni hb
    have hin : i ≠ n := by omega
    rcases tok_split hp with h | ⟨l1, l2, rfl, h⟩
    · rw [splitOn_none h, partsLoop, if_neg hin, replAll_text hp hc hw]
      simp [partsLoop]
    · obtain ⟨p1, p2⟩ := proper_append hp
      obtain ⟨c1, c2⟩ := clear_append hc
      have e : text (l1 ++ .other '(' :: l2) = text l1 ++ '(' :: text l2 := text_append _ _
      rw [e, splitOn_cons h, partsLoop, if_neg hin, replAll_text p1 c1 hw, count_rename hw paren_close p1,
        intercalate_cons _ (partsLoop_ne (List.splitOn_ne_nil _ _))]
      have h0 : (text l1).count '(' = 0 := List.count_eq_zero.2 h
      rw [ih (by simp at hl; omega) p2.2 (clear_tail c2) ?_ ?_]
      · rw [List.map_append, text_append]
        rfl
      · have := hb (text l1) (by rw [e, List.prefix_append_right_inj, List.cons_prefix_cons]; simp)
        rw [h0] at this
        omega
      · intro p hpp
        have := hb (text l1 ++ '(' :: p) (by
          rw [e, List.append_assoc, List.prefix_append_right_inj, List.cons_append, List.cons_prefix_cons]
          exact ⟨rfl, hpp⟩)
        simp only [List.count_append, List.count_cons, h0] at this
        simp at this
        omega

theorem rename_other {ren : List (Str × Str)} (c : Char) : rename ren (.other c) = .other c := rfl

theorem renameBases_text {ren : List (Str × Str)} (hw : ∀ e ∈ ren, Word e.1 ∧ Word e.2) {b : Str}
    {l : List Tok} (hb : '(' ∉ b) (hp : Proper l) (hc : Clear ren l)
    (hbal : Balanced (b ++ '(' :: text l)) :
    renameBases ren (b ++ '(' :: text l) = b ++ '(' :: text (l.map (rename ren)) := by
  unfold renameBases
  rw [splitOn_cons hb]
  simp only
  have h0 : b.count '(' = 0 := List.count_eq_zero.2 hb
  rw [intercalate_cons _ (partsLoop_ne (List.splitOn_ne_nil _ _)), parts_text hw l.length le_rfl hp hc]
  · have := hbal b (List.prefix_append _ _)
    omega
  · intro p hpp
    have := hbal (b ++ '(' :: p) (by
      rw [List.prefix_append_right_inj, List.cons_prefix_cons]
      exact ⟨rfl, (List.prefix_append _ _).trans hpp⟩)
    simp only [List.count_append, List.count_cons, h0] at this
    simp at this
    omega

end Cyclus.PostCython
