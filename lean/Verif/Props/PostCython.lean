import Verif.Lemmas.PostCython
import Mathlib.Data.List.TakeWhile

/-!
# C124: the post-processor for Cython output
-/

namespace Cyclus.PostCython.Props

open Cyclus.PostCython Cyclus.PostCython.Spec

/-- One marked constructor, as plain texts. -/
theorem basesOne_raw {A line cy btw mark ln mid hd cpp R src : Str} {cyN cppN : List Str}
    (hs : src = A ++ ('\n' :: (line ++ ('(' :: (cy ++ (')' :: (btw ++ (mark ++ (ln ++
      ('\n' :: (mid ++ ('*' :: '/' :: (hd ++ ('(' :: (cpp ++ (')' :: R))))))))))))))))
    (hml : mark.length = 8) (hmark : '\n' ∉ mark)
    (l1 : '\n' ∉ line) (l2 : '(' ∉ line) (c1 : ')' ∉ cy) (c2 : '\n' ∉ cy) (b1 : '\n' ∉ btw)
    (s1 : '\n' ∉ ln) (m1 : ¬ ['*', '/'] <:+: mid) (h1 : '(' ∉ hd)
    (p1 : ')' ∉ cpp)
    (hcy : lastWords ((removeTemplates '[' ']' cy).splitOn ',') = .ok cyN)
    (hcpp : lastWords ((removeTemplates '<' '>' cpp).splitOn ',') = .ok cppN) {start : ℤ}
    (hst : start = (A ++ ('\n' :: (line ++ ('(' :: (cy ++ (')' :: btw)))))).length) :
    let Y := A ++ ('\n' :: (line ++ ('(' :: (cy ++ (')' :: (btw ++ (mark ++ (ln ++
      ('\n' :: mid)))))))))
    let bases := renameBases (cyN.zip cppN) (strip (beforeLast '#' ln))
    (¬ ['v', 'o', 'i', 'd', ' '] <:+: hd → basesOne src start =
      .ok (Y ++ ('*' :: '/' :: (hd ++ ('(' :: (cpp ++ (')' :: ' ' :: ':' :: ' ' :: (bases ++ R)))))),
        (Y ++ ('*' :: '/' :: (hd ++ ('(' :: (cpp ++ (')' :: ' ' :: ':' :: ' ' :: bases)))))).length - 1)) ∧
    (∀ u name v, hd = u ++ (['v', 'o', 'i', 'd', ' '] ++ (name ++ (':' :: v))) →
      ¬ ['v', 'o', 'i', 'd', ' '] <:+: u → ':' ∉ name → strip name = name → basesOne src start =
      .ok (Y ++ ('*' :: '/' :: (u ++ (name ++ (':' :: ':' :: (name ++ ('(' :: (cpp ++ (')' :: ' ' :: ':' :: ' ' ::
        (bases ++ R))))))))),
        (Y ++ ('*' :: '/' :: (u ++ (name ++ (':' :: ':' :: (name ++ ('(' :: (cpp ++ (')' :: ' ' :: ':' :: ' ' ::
          bases))))))))).length - 1)) := by
  intro Y bases
  have e1 : rfind '\n' src start = A.length :=
    rfind_at (a := A) (b := line ++ ('(' :: (cy ++ (')' :: btw)))) (c := mark ++ (ln ++
      ('\n' :: (mid ++ ('*' :: '/' :: (hd ++ ('(' :: (cpp ++ (')' :: R)))))))))
      (by simp [l1, c2, b1]) (by rw [hs]; simp) (by rw [hst]; simp; ring) rfl
  have e2 : find ['('] src (A.length : ℤ) = A.length + 1 + line.length :=
    find_at (a := A) (b := '\n' :: line) (by simp) (borderless_one _)
      (not_infix_one (by simp [l2])) (by rw [hs]; simp; rfl) rfl (by simp; ring)
  have e3 : find [')'] src (A.length + 1 + line.length : ℤ) = A.length + 1 + line.length + 1 + cy.length :=
    find_at (a := A ++ ('\n' :: line)) (b := '(' :: cy) (by simp) (borderless_one _)
      (not_infix_one (by simp [c1])) (by rw [hs]; simp; rfl) (by simp; ring) (by simp; ring)
  have e4 : slice src (A.length + 1 + line.length + 1 : ℤ) (A.length + 1 + line.length + 1 + cy.length) = cy :=
    slice_at (a := A ++ ('\n' :: (line ++ ['(']))) (by rw [hs]; simp; rfl) (by simp; ring) (by simp; ring)
  have e5 : find ['\n'] src start = start + 8 + ln.length :=
    find_at (a := A ++ ('\n' :: (line ++ ('(' :: (cy ++ (')' :: btw))))))
      (b := mark ++ ln) (by simp) (borderless_one _)
      (not_infix_one (by simp [hmark, s1])) (by rw [hs]; simp; rfl) hst
      (by rw [hst]; simp [hml]; ring)
  have e6 : slice src (start + 8) (start + 8 + ln.length) = ln :=
    slice_at (a := A ++ ('\n' :: (line ++ ('(' :: (cy ++ (')' :: (btw ++ mark)))))))
      (by rw [hs]; simp; rfl) (by rw [hst]; simp [hml]; ring) (by rw [hst]; simp [hml]; ring)
  have hY : start + 8 + ln.length + 1 + mid.length = (Y.length : ℤ) := by
    rw [hst]; simp [Y, hml]; ring
  have e7 : find ['*', '/'] src (start + 8 + ln.length) = Y.length :=
    find_at (a := A ++ ('\n' :: (line ++ ('(' :: (cy ++ (')' :: (btw ++ (mark ++ ln)))))))) (b := '\n' :: mid)
      (by simp) borderless_end (not_infix_cons (by decide) m1) (by rw [hs]; simp; rfl)
      (by rw [hst]; simp [hml]; ring) (by rw [← hY, hst]; simp [hml]; ring)
  have hsY : src = Y ++ ('*' :: '/' :: (hd ++ ('(' :: (cpp ++ (')' :: R))))) := by rw [hs]; simp [Y]
  have e8 : find ['('] src (Y.length : ℤ) = Y.length + 2 + hd.length :=
    find_at (a := Y) (b := '*' :: '/' :: hd) (by simp) (borderless_one _) (not_infix_one (by simp [h1]))
      (by rw [hsY]; simp; rfl) rfl (by simp; ring)
  have e9 : find [')'] src (Y.length + 2 + hd.length : ℤ) = Y.length + 2 + hd.length + 1 + cpp.length :=
    find_at (a := Y ++ ('*' :: '/' :: hd)) (b := '(' :: cpp) (by simp) (borderless_one _)
      (not_infix_one (by simp [p1])) (by rw [hsY]; simp; rfl) (by simp; ring) (by simp; ring)
  have e10 : slice src (Y.length + 2 + hd.length + 1 : ℤ) (Y.length + 2 + hd.length + 1 + cpp.length) = cpp :=
    slice_at (a := Y ++ ('*' :: '/' :: (hd ++ ['(']))) (by rw [hsY]; simp; rfl) (by simp; ring) (by simp; ring)
  have e11 : slice src 0 (Y.length + 2 + hd.length + 1 + cpp.length + 1 : ℤ) =
      Y ++ ('*' :: '/' :: (hd ++ ('(' :: (cpp ++ [')'])))) :=
    slice_at (a := []) (c := R) (by rw [hsY]; simp) (by simp) (by simp; ring)
  have e12 : src.drop (idx src.length (Y.length + 2 + hd.length + 1 + cpp.length + 1 : ℤ)) = R :=
    drop_at (a := Y ++ ('*' :: '/' :: (hd ++ ('(' :: (cpp ++ [')']))))) (by rw [hsY]; simp) (by simp; ring)
  have hsrc' : Y ++ ('*' :: '/' :: (hd ++ ('(' :: (cpp ++ [')'])))) ++ [' ', ':', ' '] ++ bases ++ R =
      Y ++ ('*' :: '/' :: hd) ++ ('(' :: (cpp ++ (')' :: ' ' :: ':' :: ' ' :: (bases ++ R)))) := by simp
  generalize hS : Y ++ ('*' :: '/' :: (hd ++ ('(' :: (cpp ++ [')'])))) ++ [' ', ':', ' '] ++ bases ++ R = S at hsrc'
  have e13 : S.take (idx S.length (Y.length + 2 + hd.length : ℤ)) = Y ++ ('*' :: '/' :: hd) :=
    take_at hsrc' (by simp; ring)
  have e14 : S.drop (idx S.length (Y.length + 2 + hd.length : ℤ)) =
      '(' :: (cpp ++ (')' :: ' ' :: ':' :: ' ' :: (bases ++ R))) := drop_at hsrc' (by simp; ring)
  have hmain : basesOne src start =
      (if 0 ≤ find "void ".toList (Y ++ ('*' :: '/' :: hd)) Y.length then
        .ok (slice S 0 (find "void ".toList (Y ++ ('*' :: '/' :: hd)) Y.length) ++
          (strip (((slice S (find "void ".toList (Y ++ ('*' :: '/' :: hd)) Y.length + 5)
            (Y.length + 2 + hd.length)).splitOn ':').headD []) ++ [':', ':'] ++
          strip (((slice S (find "void ".toList (Y ++ ('*' :: '/' :: hd)) Y.length + 5)
            (Y.length + 2 + hd.length)).splitOn ':').headD [])) ++
          '(' :: (cpp ++ (')' :: ' ' :: ':' :: ' ' :: (bases ++ R))),
          Y.length + 2 + hd.length + 1 + cpp.length + 3 + bases.length +
            ((strip (((slice S (find "void ".toList (Y ++ ('*' :: '/' :: hd)) Y.length + 5)
            (Y.length + 2 + hd.length)).splitOn ':').headD []) ++ [':', ':'] ++
          strip (((slice S (find "void ".toList (Y ++ ('*' :: '/' :: hd)) Y.length + 5)
            (Y.length + 2 + hd.length)).splitOn ':').headD [])).length -
            (Y.length + 2 + hd.length - find "void ".toList (Y ++ ('*' :: '/' :: hd)) Y.length)))
      else .ok (S, Y.length + 2 + hd.length + 1 + cpp.length + 3 + bases.length)) := by
    unfold basesOne
    simp only [e1, e2, e3, e4, hcy, e5, e6, e7, e8, e9, e10, hcpp, e11, e12]
    simp only [show renameBases (cyN.zip cppN) (strip (beforeLast '#' ln)) = bases from rfl, hS, e13, e14]
  have hv : "void ".toList = ['v', 'o', 'i', 'd', ' '] := rfl
  rw [hv] at hmain
  constructor
  · intro hno
    have hf : find ['v', 'o', 'i', 'd', ' '] (Y ++ ('*' :: '/' :: hd)) Y.length = -1 :=
      find_none (a := Y) (by simp) (not_infix_cons (by decide) (not_infix_cons (by decide) hno)) rfl rfl
    rw [hmain, hf, if_neg (by omega), hsrc']
    simp
    ring
  · intro u name v hhd hu hn hname
    have hf : find ['v', 'o', 'i', 'd', ' '] (Y ++ ('*' :: '/' :: hd)) Y.length = Y.length + 2 + u.length :=
      find_at (a := Y) (b := '*' :: '/' :: u) (by simp) borderless_void
        (not_infix_cons (by decide) (not_infix_cons (by decide) hu)) (by rw [hhd]; simp; rfl) rfl (by simp; ring)
    have f1 : slice S 0 (Y.length + 2 + u.length : ℤ) = Y ++ ('*' :: '/' :: u) :=
      slice_at (a := []) (by rw [hsrc', hhd]; simp; rfl) (by simp) (by simp; ring)
    have f2 : slice S (Y.length + 2 + u.length + 5 : ℤ) (Y.length + 2 + hd.length) = name ++ (':' :: v) :=
      slice_at (a := Y ++ ('*' :: '/' :: (u ++ ['v', 'o', 'i', 'd', ' ']))) (by rw [hsrc', hhd]; simp; rfl)
        (by simp; ring) (by rw [hhd]; simp; ring)
    rw [hmain, hf, if_pos (by omega), f1, f2, splitOn_cons hn, List.headD_cons, hname, hhd]
    simp
    ring

theorem text_snoc (l : List Tok) (c : Char) : text (l ++ [.other c]) = text l ++ [c] := by
  rw [text_append]
  rfl

theorem proper_snoc {c : Char} (hc : ¬ WordChar c) : ∀ {l : List Tok}, Proper l → Proper (l ++ [.other c])
  | [], _ => ⟨hc, trivial⟩
  | .other _ :: _, h => ⟨h.1, proper_snoc hc h.2⟩
  | .word w :: l, h => by
    refine ⟨h.1, ?_, proper_snoc hc h.2.2⟩
    intro v l' e
    cases l with
    | nil => simp at e
    | cons t l => exact h.2.1 v l (by simp at e; rw [e.1])

theorem clear_snoc {ren : List (Str × Str)} {c : Char} {l : List Tok} (h : Clear ren l) :
    Clear ren (l ++ [.other c]) :=
  ⟨fun e he w hw => h.1 e he w (by simpa using hw), h.2⟩

theorem ren_words {k : Ctor} (h : k.Good) : ∀ e ∈ k.ren, Word e.1 ∧ Word e.2 := by
  obtain ⟨⟨-, -, h1, -, -, -, -, -, -, -, -, -, -, -, -, -, -, -, h2⟩, -⟩ := h
  rintro ⟨a, b⟩ he
  have ha := (List.of_mem_zip he).1
  have hb := (List.of_mem_zip he).2
  obtain ⟨d, hd, rfl⟩ := List.mem_map.1 ha
  obtain ⟨d', hd', rfl⟩ := List.mem_map.1 hb
  exact ⟨(h1.2.2.1 d hd).1, (h2.2.2.1 d' hd').1⟩

theorem basesOne_ctor {k : Ctor} (h : k.Good) (A R : Str) :
    basesOne (A ++ k.before ++ R) (A ++ k.lead).length =
      .ok (A ++ k.after ++ R, ((A ++ k.after).length : ℤ) - 1) := by
  have hw := ren_words h
  obtain ⟨⟨g1, g2, g3, g4, g5, g6, g7, g8, g9, g10, g11, g12, g13, g15, g16, g17, g18, g19, g20⟩, g14⟩ := h
  have hstrip : strip (k.sp ++ (k.base ++ '(' :: (text k.toks ++ [')'])) ++ k.sp') =
      k.base ++ '(' :: (text k.toks ++ [')']) := by
    refine strip_at (fun c hc => (g6 c hc).1) (fun c hc => (g7 c hc).1) (by simp) ?_ ?_
    · obtain ⟨x, t, ht⟩ := List.exists_cons_of_ne_nil g9
      rw [ht] at g8 ⊢
      simpa using g8
    · intro c hc
      rw [show k.base ++ '(' :: (text k.toks ++ [')']) = (k.base ++ '(' :: text k.toks) ++ [')'] by simp,
        List.getLast?_append] at hc
      simp at hc
      subst hc
      unfold Blank
      decide
  have hren : renameBases k.ren (k.base ++ '(' :: (text k.toks ++ [')'])) =
      k.base ++ '(' :: (text (k.toks.map (rename k.ren)) ++ [')']) := by
    have := renameBases_text hw (b := k.base) (l := k.toks ++ [.other ')']) g10
      (proper_snoc paren_close g13) (clear_snoc g14) (by rw [text_snoc]; exact g15)
    rw [text_snoc] at this
    rw [this, List.map_append, List.map_cons, List.map_nil, rename_other, text_snoc]
  have hm : '\n' ∉ (['C', '+', '+', 'B', 'A', 'S', 'E', 'S'] : Str) := by decide
  have hbs : '\n' ∉ k.sp ++ (k.base ++ '(' :: (text k.toks ++ [')'])) ++ k.sp' := by
    simp only [List.mem_append, List.mem_cons, List.not_mem_nil, not_or]
    exact ⟨⟨fun hc => (g6 _ hc).2 rfl, g11, by decide, g12, by decide, by decide⟩, fun hc => (g7 _ hc).2 rfl⟩
  have hmid := g18
  have hcy := lastWords_args (by decide) g3
  have hcpp := lastWords_args (by decide) g20
  have hhp : '(' ∉ k.head.before := by
    cases hh : k.head with
    | void u name v =>
      rw [hh] at g19
      obtain ⟨-, -, a, b, c⟩ := g19
      simp [Head.before, a, b, c]
    | plain s => rw [hh] at g19; exact g19.2
  have raw := basesOne_raw (A := A) (line := k.line) (cy := k.cyargs.tmpl.flat '[' ']') (btw := k.between)
    (mark := ['C', '+', '+', 'B', 'A', 'S', 'E', 'S'])
    (ln := k.sp ++ (k.base ++ '(' :: (text k.toks ++ [')'])) ++ k.sp' ++ '#' :: k.tail) (mid := k.mid) (hd := k.head.before) (cpp := k.cppargs.tmpl.flat '<' '>') (R := R)
    (src := A ++ k.before ++ R) (start := ((A ++ k.lead).length : ℤ))
    (by simp [Ctor.before, Ctor.lead, Ctor.comment, Ctor.args]) rfl hm g1 g2 g3.2.2.2.2 g4 g5
    (by rw [List.mem_append, List.mem_cons, not_or, not_or]; exact ⟨hbs, by decide, g16⟩) hmid hhp g20.2.2.2.2 hcy hcpp (by simp [Ctor.lead])
  simp only [beforeLast_at g17, hstrip, show k.cyargs.names.zip k.cppargs.names = k.ren from rfl, hren] at raw
  cases hh : k.head with
  | void u name v =>
    rw [hh] at g19 raw
    obtain ⟨a, b, c⟩ := g19
    have := raw.2 u name v (by simp [Head.before]) a (fun hc => (b _ hc).2 rfl)
      (strip_word fun c hc => (b c hc).1)
    rw [this]
    simp only [Ctor.after, Ctor.lead, Ctor.comment, Ctor.args, hh, Head.after]
    simp
  | plain s =>
    rw [hh] at g19 raw
    rw [raw.1 g19.1]
    simp only [Ctor.after, Ctor.lead, Ctor.comment, Ctor.args, hh, Head.before, Head.after]
    simp

/-- A part of a text with a character that is not in the part is on one side of the character. -/
theorem infix_split {p a b : Str} {x : Char} (hx : x ∉ p) (h : p <:+: a ++ x :: b) : p <:+: a ∨ p <:+: b := by
  obtain ⟨u, v, h⟩ := h
  rw [List.append_assoc] at h
  rcases List.append_eq_append_iff.1 h with ⟨t, rfl, ht⟩ | ⟨t, rfl, ht⟩
  · rcases List.append_eq_append_iff.1 ht with ⟨w, rfl, hw⟩ | ⟨w, hp, hw⟩
    · exact .inl ⟨u, w, by simp⟩
    · cases w with
      | nil => exact .inl ⟨u, [], by simp [hp]⟩
      | cons y w =>
        simp only [List.cons_append, List.cons.injEq] at hw
        exact absurd (by rw [hp, hw.1]; simp) hx
  · cases t with
    | nil =>
      cases p with
      | nil => exact .inl (List.nil_infix)
      | cons y p =>
        simp only [List.nil_append, List.cons_append, List.cons.injEq] at ht
        exact absurd (by rw [ht.1]; exact List.mem_cons_self) hx
    | cons y t =>
      simp only [List.cons_append, List.cons.injEq] at ht
      exact .inr ⟨t, v, by simp [ht.2]⟩

/-- Text that was read without a mark, so that no mark begins in it. -/
def Read (mark b : Str) : Prop := ¬ mark <:+: b ∧ (b = [] ∨ ∃ b' x, b = b' ++ [x] ∧ x ∉ mark)

theorem read_append {mark b s : Str} (hm : mark ≠ []) (h : Read mark b) (hs : ¬ mark <:+: s) :
    ¬ mark <:+: b ++ s := by
  obtain ⟨h1, rfl | ⟨b', x, rfl, hx⟩⟩ := h
  · exact hs
  · intro hh
    rw [List.append_assoc] at hh
    rcases infix_split hx hh with h' | h'
    · exact h1 (h'.trans (List.prefix_append _ _).isInfix)
    · exact hs h'

/-- The loop over a file. -/
theorem loop_file {I : Type} {mark : Str} (hm : mark ≠ []) (hb : Borderless mark)
    {one : Str → ℤ → Except Err (Str × ℤ)} (f g : I → Str) (e : Str) (he : ¬ mark <:+: e) :
    ∀ (l : List (Str × I)) (n : ℕ) (A b : Str),
    (∀ p ∈ l,
      (∃ lead rest u w, f p.2 = lead ++ (mark ++ rest) ∧ g p.2 = u ++ w ∧ Read mark w ∧
        (∀ A R, one (A ++ (f p.2 ++ R)) (A ++ lead).length = .ok (A ++ (g p.2 ++ R), (A ++ u).length)) ∧
        ¬ mark <:+: p.1 ++ lead) ∨
      (f p.2 = g p.2 ∧ Read mark (p.1 ++ f p.2))) →
    l.length < n → Read mark b →
    loop mark one n (A ++ (b ++ file f l e)) A.length = .ok (A ++ (b ++ file g l e))
  | [], n, A, b, _, hn, hr => by
    obtain ⟨n, rfl⟩ := Nat.exists_eq_succ_of_ne_zero (by omega : n ≠ 0)
    rw [loop, if_pos]
    · rfl
    · exact find_none hm (read_append hm hr he) rfl rfl
  | (s, k) :: l, n, A, b, hl, hn, hr => by
    have ih := loop_file (one := one) hm hb f g e he l
    rcases hl (s, k) (by simp) with ⟨lead, rest, u, w, hf, hg, hw, hone, hs⟩ | ⟨hfg, hr'⟩
    · obtain ⟨n, rfl⟩ := Nat.exists_eq_succ_of_ne_zero (by omega : n ≠ 0)
      dsimp only at hf hg hone hs
      have hfind : find mark (A ++ (b ++ file f ((s, k) :: l) e)) A.length =
          (((A ++ (b ++ s)) ++ lead).length : ℤ) := by
        refine find_at (a := A) (b := b ++ (s ++ lead)) (c := rest ++ file f l e) hm hb
          (read_append hm hr hs) ?_ rfl ?_
        · rw [file, hf]; simp
        · simp
      have h1 := hone (A ++ (b ++ s)) (file f l e)
      have hsrc : A ++ (b ++ file f ((s, k) :: l) e) = A ++ (b ++ s) ++ (f k ++ file f l e) := by
        rw [file]; simp
      rw [loop, hfind, if_neg (by omega), hsrc, h1]
      simp only
      have h2 := ih n (A ++ (b ++ s) ++ u) w (fun p hp => hl p (by simp [hp])) (by simp at hn; omega) hw
      have e1 : A ++ (b ++ s) ++ (g k ++ file f l e) = A ++ (b ++ s) ++ u ++ (w ++ file f l e) := by
        rw [hg]; simp
      rw [e1, h2, file, hg]
      simp
    · have h2 := ih n A (b ++ (s ++ f k)) (fun p hp => hl p (by simp [hp])) (by simp at hn; omega)
        ⟨read_append hm hr hr'.1, by
          rcases hr'.2 with h0 | ⟨b', x, hbx, hx⟩
          · dsimp only at h0
            rw [h0, List.append_nil]
            exact hr.2
          · exact .inr ⟨b ++ b', x, by dsimp only at hbx; rw [hbx]; simp, hx⟩⟩
      dsimp only at hfg
      simp only [file, ← hfg]
      simpa using h2

/-! ## Declarations of constructors -/

theorem tight_decls : ∀ {d : Str} {l : List (Str × Str × Str)}, Tight d → (∀ e ∈ l, Tight e.2.2) →
    Tight (decls d l)
  | d, [], h, _ => h
  | d, (sp, sp', d') :: l, h, hl => by
    have ih := tight_decls (d := d') (l := l) (hl (sp, sp', d') (by simp)) (fun e he => hl e (by simp [he]))
    obtain ⟨x, t, rfl⟩ := List.exists_cons_of_ne_nil h.1
    refine ⟨by simp [decls], by simpa [decls] using h.2.1, ?_⟩
    intro c hc
    apply ih.2.2 c
    obtain ⟨y, r, hyr⟩ := List.exists_cons_of_ne_nil ih.1
    have e : decls (x :: t) ((sp, sp', d') :: l) = (x :: t ++ (sp ++ ';' :: sp')) ++ decls d' l := by
      simp [decls]
    rw [e, List.getLast?_append, hyr] at hc
    rw [hyr]
    rw [List.getLast?_cons] at hc ⊢
    simpa using hc

theorem no_semi {sp : Str} (h : ∀ c ∈ sp, Blank c ∧ c ≠ '\n') : ';' ∉ sp := by
  intro hc
  have := (h _ hc).1
  revert this
  unfold Blank
  decide

theorem split_decls : ∀ {d : Str} {l : List (Str × Str × Str)} {pre : Str}, (∀ c ∈ pre, Blank c ∧ c ≠ '\n') →
    Tight d → ';' ∉ d →
    (∀ e ∈ l, (∀ c ∈ e.1, Blank c ∧ c ≠ '\n') ∧ (∀ c ∈ e.2.1, Blank c ∧ c ≠ '\n') ∧
      Tight e.2.2 ∧ ';' ∉ e.2.2 ∧ '\n' ∉ e.2.2) →
    ((pre ++ decls d l).splitOn ';').map strip = d :: l.map fun e => e.2.2
  | d, [], pre, hp, h, hd, _ => by
    have := strip_at (sp := pre) (sp' := []) (s := d) (fun c hc => (hp c hc).1) (by simp) h.1 h.2.1 h.2.2
    rw [List.append_nil] at this
    rw [decls, splitOn_none (by simp [no_semi hp, hd]), List.map_cons, this]
    rfl
  | d, (sp, sp', d') :: l, pre, hp, h, hd, hl => by
    obtain ⟨a1, a2, a3, a4, -⟩ := hl (sp, sp', d') (by simp)
    have ih := split_decls (d := d') (l := l) a2 a3 a4 (fun e he => hl e (by simp [he]))
    have e : pre ++ decls d ((sp, sp', d') :: l) = (pre ++ d ++ sp) ++ ';' :: (sp' ++ decls d' l) := by
      simp [decls]
    rw [e, splitOn_cons (by simp [no_semi hp, hd, no_semi a1]), List.map_cons, ih,
      strip_at (fun c hc => (hp c hc).1) (fun c hc => (a1 c hc).1) h.1 h.2.1 h.2.2]
    rfl

theorem nl_decls : ∀ {d : Str} {l : List (Str × Str × Str)}, '\n' ∉ d →
    (∀ e ∈ l, (∀ c ∈ e.1, Blank c ∧ c ≠ '\n') ∧ (∀ c ∈ e.2.1, Blank c ∧ c ≠ '\n') ∧
      Tight e.2.2 ∧ ';' ∉ e.2.2 ∧ '\n' ∉ e.2.2) → '\n' ∉ decls d l
  | d, [], h, _ => h
  | d, (sp, sp', d') :: l, h, hl => by
    obtain ⟨a1, a2, a3, a4, a5⟩ := hl (sp, sp', d') (by simp)
    have ih := nl_decls (d := d') (l := l) a5 (fun e he => hl e (by simp [he]))
    simp only [decls, List.mem_append, List.mem_cons, not_or]
    exact ⟨h, fun hc => (a1 _ hc).2 rfl, by decide, fun hc => (a2 _ hc).2 rfl, ih⟩

theorem join_decls : ∀ (d : Str) (l : List Str),
    [' ', ' '] ++ [';', '\n', ' ', ' '].intercalate (d :: l) ++ [';', '\n'] =
      ((d :: l).map fun d => ' ' :: ' ' :: (d ++ [';', '\n'])).flatten
  | d, [] => by simp
  | d, d' :: l => by
    have ih := join_decls d' l
    rw [List.map_cons, List.flatten_cons, ← ih]
    simp [List.intercalate]

theorem consOne_cls {k : Cls} (h : k.Good) (A R : Str) :
    consOne (A ++ (k.before ++ R)) A.length = .ok (A ++ (k.after ++ R), (A ++ k.after).length) := by
  obtain ⟨g1, g2, g3, g4, g5, g6, g7, g8, g9, g10⟩ := h
  have hm : '\n' ∉ (['C', '+', '+', 'C', 'O', 'N', 'S', 'T', 'R', 'U', 'C', 'T', 'O', 'R', 'S'] : Str) := by decide
  have hml : (['C', '+', '+', 'C', 'O', 'N', 'S', 'T', 'R', 'U', 'C', 'T', 'O', 'R', 'S'] : Str).length = 15 := rfl
  have hafter : k.after = k.before ++ ([' ', ' '] ++ [';', '\n', ' ', ' '].intercalate
      (k.first :: k.more.map fun e => e.2.2) ++ [';', '\n']) := by rw [join_decls]; rfl
  have hbefore : k.before = ['C', '+', '+', 'C', 'O', 'N', 'S', 'T', 'R', 'U', 'C', 'T', 'O', 'R', 'S'] ++ (k.sp ++
    (decls k.first k.more ++ (k.sp' ++ '#' :: (k.tail ++ '\n' :: (k.mid ++ '*' :: '/' :: (k.rest ++ ['\n'])))))) := rfl
  generalize ['C', '+', '+', 'C', 'O', 'N', 'S', 'T', 'R', 'U', 'C', 'T', 'O', 'R', 'S'] = mark at hm hml hbefore
  have hnl := nl_decls g5 g6
  have htight := tight_decls g3 (fun e he => (g6 e he).2.2.1)
  have hsplit := split_decls (pre := []) (by simp) g3 g4 g6
  have e1 : find ['\n'] (A ++ (k.before ++ R)) A.length =
      ((A ++ (mark ++ (k.sp ++ (decls k.first k.more ++ (k.sp' ++ '#' :: k.tail))))).length : ℤ) := by
    refine find_at (a := A) (b := mark ++ (k.sp ++ (decls k.first k.more ++ (k.sp' ++ '#' :: k.tail))))
      (c := k.mid ++ '*' :: '/' :: (k.rest ++ '\n' :: R)) (by simp) (borderless_one _) (not_infix_one ?_)
      (by rw [hbefore]; simp) rfl (by simp)
    simp only [List.mem_append, List.mem_cons, not_or]
    exact ⟨hm, fun hc => (g1 _ hc).2 rfl, hnl, fun hc => (g2 _ hc).2 rfl, by decide, g7⟩
  have e2 : slice (A ++ (k.before ++ R)) (A.length + 15)
      ((A ++ (mark ++ (k.sp ++ (decls k.first k.more ++ (k.sp' ++ '#' :: k.tail))))).length : ℤ) =
      k.sp ++ decls k.first k.more ++ k.sp' ++ '#' :: k.tail := by
    refine slice_at (a := A ++ mark) (c := '\n' :: (k.mid ++ '*' :: '/' :: (k.rest ++ '\n' :: R)))
      (by rw [hbefore]; simp) (by simp [hml]) (by simp; ring)
  have e3 : strip (k.sp ++ decls k.first k.more ++ k.sp') = decls k.first k.more :=
    strip_at (fun c hc => (g1 c hc).1) (fun c hc => (g2 c hc).1) htight.1 htight.2.1 htight.2.2
  have e4 : find ['*', '/'] (A ++ (k.before ++ R))
      ((A ++ (mark ++ (k.sp ++ (decls k.first k.more ++ (k.sp' ++ '#' :: k.tail))))).length : ℤ) =
      ((A ++ (mark ++ (k.sp ++ (decls k.first k.more ++ (k.sp' ++ '#' :: (k.tail ++ '\n' :: k.mid)))))).length : ℤ) :=
    find_at (a := A ++ (mark ++ (k.sp ++ (decls k.first k.more ++ (k.sp' ++ '#' :: k.tail)))))
      (b := '\n' :: k.mid) (c := k.rest ++ '\n' :: R) (by simp) borderless_end
      (not_infix_cons (by decide) g9) (by rw [hbefore]; simp) rfl (by simp; ring)
  have e5 : find ['\n'] (A ++ (k.before ++ R))
      ((A ++ (mark ++ (k.sp ++ (decls k.first k.more ++ (k.sp' ++ '#' :: (k.tail ++ '\n' :: k.mid)))))).length : ℤ) =
      ((A ++ k.before).length : ℤ) - 1 :=
    find_at (a := A ++ (mark ++ (k.sp ++ (decls k.first k.more ++ (k.sp' ++ '#' :: (k.tail ++ '\n' :: k.mid))))))
      (b := '*' :: '/' :: k.rest) (c := R) (by simp) (borderless_one _)
      (not_infix_one (by simp [g10])) (by rw [hbefore]; simp) rfl (by rw [hbefore]; simp; ring)
  have e6 : slice (A ++ (k.before ++ R)) 0 ((A ++ k.before).length : ℤ) = A ++ k.before :=
    slice_at (a := []) (c := R) (by simp) (by simp) (by simp)
  have e7 : (A ++ (k.before ++ R)).drop (idx (A ++ (k.before ++ R)).length ((A ++ k.before).length : ℤ)) = R :=
    drop_at (a := A ++ k.before) (by simp) rfl
  rw [List.nil_append] at hsplit
  unfold consOne
  simp only [e1, e2, beforeLast_at g8, e3, hsplit, e4, e5, Int.sub_add_cancel, e6, e7]
  rw [hafter]
  simp
  ring

/-! ## Files -/

theorem versionAt_iff : ∀ (s : Str) (seen : Bool), versionAt s seen = true ↔
    ∃ p b r, s = p ++ '.' :: b :: r ∧ (∀ c ∈ p, c.isDigit = true) ∧ b.isDigit = true ∧ (p = [] → seen = true)
  | [], seen => by simp [versionAt]
  | c :: s, seen => by
    rw [versionAt.eq_def]
    simp only
    by_cases hc : c.isDigit = true
    · rw [if_pos hc, versionAt_iff s true]
      constructor
      · rintro ⟨p, b, r, rfl, h1, h2, -⟩
        exact ⟨c :: p, b, r, rfl, by simpa [hc] using h1, h2, by simp⟩
      · rintro ⟨p, b, r, h, h1, h2, h3⟩
        cases p with
        | nil =>
          simp only [List.nil_append, List.cons.injEq] at h
          rw [h.1] at hc
          exact absurd hc (by decide)
        | cons d p =>
          simp only [List.cons_append, List.cons.injEq] at h
          exact ⟨p, b, r, h.2, fun c hc => h1 c (by simp [hc]), h2, by simp⟩
    · rw [if_neg hc]
      split
      · next h =>
        obtain ⟨rfl, hs⟩ := h
        cases s with
        | nil =>
          simp only [Bool.false_eq_true, false_iff]
          rintro ⟨p, b, r, h, -⟩
          have := congrArg List.length h
          simp at this
          omega
        | cons d s =>
          simp only
          constructor
          · intro hd
            exact ⟨[], d, s, rfl, by simp, hd, fun _ => hs⟩
          · rintro ⟨p, b, r, h, h1, h2, -⟩
            cases p with
            | nil =>
              simp only [List.nil_append, List.cons.injEq, true_and] at h
              rw [h.1]
              exact h2
            | cons x p =>
              simp only [List.cons_append, List.cons.injEq] at h
              have := h1 x (by simp)
              rw [← h.1] at this
              exact absurd this (by decide)
      · next hn =>
        simp only [Bool.false_eq_true, false_iff]
        rintro ⟨p, b, r, h, h1, h2, h3⟩
        cases p with
        | nil =>
          simp only [List.nil_append, List.cons.injEq] at h
          exact hn ⟨h.1, h3 rfl⟩
        | cons x p =>
          simp only [List.cons_append, List.cons.injEq] at h
          have := h1 x (by simp)
          rw [← h.1] at this
          exact hc this

theorem hasVersion_iff : ∀ (s : Str), hasVersion s = true ↔ Versioned s
  | [] => by simp [hasVersion, Versioned]
  | c :: s => by
    rw [hasVersion, Bool.or_eq_true, versionAt_iff]
    constructor
    · rintro (⟨p, b, r, h, h1, h2, h3⟩ | h)
      · have hp : p ≠ [] := by
          intro hp
          exact absurd (h3 hp) (by simp)
        obtain ⟨q, a, rfl⟩ := List.eq_nil_or_concat p |>.resolve_left hp
        refine ⟨q, a, b, r, by rw [h]; simp, ?_, h1 a (by simp), h2⟩
        intro hq
        exact absurd (h1 '\n' (by simp [hq])) (by decide)
      · split at h
        · exact absurd h (by simp)
        · next hc =>
          obtain ⟨p, a, b, r, rfl, h1, h2, h3⟩ := (hasVersion_iff s).1 h
          exact ⟨c :: p, a, b, r, rfl, by simp [h1, Ne.symm hc], h2, h3⟩
    · rintro ⟨p, a, b, r, h, h1, h2, h3⟩
      cases p with
      | nil => exact .inl ⟨[a], b, r, by simpa using h, by simpa using h2, h3, by simp⟩
      | cons x p =>
        simp only [List.cons_append, List.cons.injEq] at h
        simp only [List.mem_cons, not_or] at h1
        right
        rw [if_neg (by rw [h.1]; exact fun e => h1.1 e.symm), hasVersion_iff]
        exact ⟨p, a, b, r, h.2, h1.2, h2, h3⟩

theorem markBases_eq : markBases = ['C', '+', '+', 'B', 'A', 'S', 'E', 'S'] := rfl
theorem markCons_eq : markCons = ['C', '+', '+', 'C', 'O', 'N', 'S', 'T', 'R', 'U', 'C', 'T', 'O', 'R', 'S'] := rfl

/-- The constructors of C++, and other things as they are. -/
def half : Item → Str
  | .ctor k => k.after
  | .cls k => k.before

theorem after_end (k : Ctor) : ∃ u, k.after = u ++ [')'] :=
  ⟨k.lead ++ k.comment ++ k.head.after ++ k.args ++ [' ', ':', ' '] ++ k.base ++
    '(' :: text (k.toks.map (rename k.ren)), by simp [Ctor.after]⟩

theorem cppbases_file {l : List (Str × Item)} {e : Str} (hl : ∀ p ∈ l, p.2.Good p.1)
    (he : ¬ ['C', '+', '+', 'B', 'A', 'S', 'E', 'S'] <:+: e) {n : ℕ} (hn : l.length < n) :
    cppbases n (file Item.before l e) = .ok (file half l e) := by
  have hb := borderless_bases
  unfold cppbases
  rw [markBases_eq] at hb ⊢
  have := loop_file (one := basesOne) (by simp) hb Item.before half e he l n [] [] ?_ hn ⟨by simp, .inl rfl⟩
  · simpa using this
  rintro ⟨s, it⟩ hp
  have hg := hl _ hp
  cases it with
  | ctor k =>
    left
    obtain ⟨u, hu⟩ := after_end k
    refine ⟨k.lead, k.sp ++ k.base ++ '(' :: (text k.toks ++ ')' :: (k.sp' ++
      '#' :: (k.tail ++ '\n' :: (k.mid ++ ['*', '/'])))) ++ k.head.before ++ k.args, u, [')'], ?_, hu, ?_, ?_, hg.2.1⟩
    · simp [Item.before, Ctor.before, Ctor.comment]
    · exact ⟨by decide +kernel, .inr ⟨[], ')', rfl, by decide⟩⟩
    · intro A R
      have h1 := basesOne_ctor hg.1 A R
      rw [List.append_assoc, List.append_assoc] at h1
      simp only [Item.before, half]
      rw [h1, hu]
      simp
      ring
  | cls k =>
    right
    refine ⟨rfl, hg.2.1, .inr ⟨s ++ (['C', '+', '+', 'C', 'O', 'N', 'S', 'T', 'R', 'U', 'C', 'T', 'O', 'R', 'S'] ++ (k.sp ++
      (decls k.first k.more ++ (k.sp' ++ '#' :: (k.tail ++ '\n' :: (k.mid ++ '*' :: '/' :: k.rest)))))), '\n', ?_, by decide⟩⟩
    simp [Item.before, Cls.before]

theorem cppconstructors_file {l : List (Str × Item)} {e : Str} (hl : ∀ p ∈ l, p.2.Good p.1)
    (he : ¬ ['C', '+', '+', 'C', 'O', 'N', 'S', 'T', 'R', 'U', 'C', 'T', 'O', 'R', 'S'] <:+: e) {n : ℕ}
    (hn : l.length < n) :
    cppconstructors n (file half l e) = .ok (file Item.after l e) := by
  have hb := borderless_cons
  unfold cppconstructors
  rw [markCons_eq] at hb ⊢
  have := loop_file (one := consOne) (by simp) hb half Item.after e he l n [] [] ?_ hn ⟨by simp, .inl rfl⟩
  · simpa using this
  rintro ⟨s, it⟩ hp
  have hg := hl _ hp
  cases it with
  | ctor k =>
    right
    obtain ⟨u, hu⟩ := after_end k
    refine ⟨rfl, hg.2.2, .inr ⟨s ++ u, ')', ?_, by decide⟩⟩
    simp [half, hu]
  | cls k =>
    left
    refine ⟨[], k.sp ++ (decls k.first k.more ++ (k.sp' ++ '#' :: (k.tail ++ '\n' :: (k.mid ++ '*' :: '/' ::
      (k.rest ++ ['\n']))))), k.after, [], ?_, ?_, ⟨by simp, .inl rfl⟩, ?_, ?_⟩
    · simp [half, Cls.before]
    · simp [Item.after]
    · intro A R
      have h1 := consOne_cls hg.1 A R
      simp only [half, Item.after, List.append_nil]
      rw [h1]
    · rw [List.append_nil]
      exact hg.2.2

/-- **C124**: a file with a version in its first line, in which every mark is at a constructor or a class
as Cython writes them, becomes the file in which every marked constructor calls the constructors of its
bases with its arguments and has no type, and the declarations of every marked class follow its comment;
nothing else changes. -/
theorem C124_process {l : List (Str × Item)} {e : Str} (hl : ∀ p ∈ l, p.2.Good p.1)
    (he : ¬ ['C', '+', '+', 'B', 'A', 'S', 'E', 'S'] <:+: e)
    (he' : ¬ ['C', '+', '+', 'C', 'O', 'N', 'S', 'T', 'R', 'U', 'C', 'T', 'O', 'R', 'S'] <:+: e)
    (hv : Versioned (file Item.before l e)) {n : ℕ} (hn : l.length < n) :
    process n (file Item.before l e) = .ok (file Item.after l e) := by
  unfold process
  rw [if_pos ((hasVersion_iff _).2 hv), cppbases_file hl he hn]
  exact cppconstructors_file hl he' hn

/-- **C124**: a file without marks is left as it is. -/
theorem C124_unmarked {s : Str} (h : ¬ ['C', '+', '+', 'B', 'A', 'S', 'E', 'S'] <:+: s)
    (h' : ¬ ['C', '+', '+', 'C', 'O', 'N', 'S', 'T', 'R', 'U', 'C', 'T', 'O', 'R', 'S'] <:+: s)
    (hv : Versioned s) {n : ℕ} (hn : 0 < n) : process n s = .ok s :=
  C124_process (l := []) (by simp) h h' hv hn

/-- **C124**, what the code does besides: a file without a version in its first line is an error, even
when there is nothing to do. -/
theorem C124_no_version {s : Str} (hv : ¬ Versioned s) (n : ℕ) : process n s = .error .attribute := by
  unfold process
  rw [if_neg fun h => hv ((hasVersion_iff _).1 h)]

/-! ## What the code does besides -/

/-- Characters as text with templates. -/
def chars : Str → Tmpl
  | [] => .nil
  | c :: s => .chr c (chars s)

theorem chars_flat (o c : Char) : ∀ s : Str, (chars s).flat o c = s
  | [] => rfl
  | x :: s => by rw [chars, Tmpl.flat, chars_flat o c s]

theorem chars_top : ∀ s : Str, (chars s).top = s
  | [] => rfl
  | x :: s => by rw [chars, Tmpl.top, chars_top s]

theorem chars_good {o c : Char} : ∀ {s : Str}, o ∉ s → c ∉ s → (chars s).Good o c
  | [], _, _ => trivial
  | x :: s, h, h' => by
    simp only [List.mem_cons, not_or] at h h'
    exact ⟨Ne.symm h.1, Ne.symm h'.1, chars_good h.2 h'.2⟩

theorem removeTemplates_none {o c : Char} (hoc : o ≠ c) {s : Str} (h : o ∉ s) (h' : c ∉ s) :
    removeTemplates o c s = s := by
  have := removeTemplates_flat hoc (chars_good (o := o) (c := c) h h')
  rwa [chars_flat, chars_top] at this

theorem lastWord_blank {s : Str} (h : ∀ c ∈ s, Blank c) : lastWord s = .error .attribute := by
  have hb : ∀ c, Blank c → isWord c = false := by
    intro c hc
    rw [isWord_false]
    revert hc
    unfold Blank
    simp only [List.mem_cons, List.not_mem_nil, or_false]
    rintro (rfl | rfl | rfl | rfl | rfl | rfl) <;> (unfold WordChar; decide)
  have : s.reverse.dropWhile (fun c => !isWord c) = [] := by
    simp only [List.dropWhile_eq_nil_iff, List.mem_reverse]
    intro c hc
    rw [hb c (h c hc)]
    rfl
  unfold lastWord
  simp only [this]
  rfl

theorem not_blank {sp : Str} (h : ∀ c ∈ sp, Blank c) {x : Char} (hx : ¬ Blank x) : x ∉ sp :=
  fun hc => hx (h x hc)

/-- **C124**, what the code does besides: a marked constructor without arguments is an error, whatever
is in the file after it. -/
theorem C124_no_arguments {s line cy between : Str} (rest : Str) (hl : '\n' ∉ line) (hl' : '(' ∉ line)
    (hc : ∀ c ∈ cy, Blank c ∧ c ≠ '\n') (hb : '\n' ∉ between)
    (hm : ¬ ['C', '+', '+', 'B', 'A', 'S', 'E', 'S'] <:+:
      s ++ '\n' :: (line ++ '(' :: (cy ++ ')' :: between))) (n : ℕ) :
    process (n + 1) (s ++ '\n' :: (line ++ '(' :: (cy ++ ')' :: between)) ++
      (['C', '+', '+', 'B', 'A', 'S', 'E', 'S'] ++ rest)) = .error .attribute := by
  by_cases hv : hasVersion (s ++ '\n' :: (line ++ '(' :: (cy ++ ')' :: between)) ++
      (['C', '+', '+', 'B', 'A', 'S', 'E', 'S'] ++ rest)) = true
  swap
  · unfold process
    rw [if_neg hv]
  have hbl : ∀ c ∈ cy, Blank c := fun c h => (hc c h).1
  have hnb : ¬ Blank '[' ∧ ¬ Blank ']' ∧ ¬ Blank ',' ∧ ¬ Blank ')' := by unfold Blank; decide
  have hbo := borderless_bases
  unfold process
  rw [if_pos hv]
  unfold cppbases
  rw [markBases_eq] at hbo ⊢
  clear hv
  have hmn : (['C', '+', '+', 'B', 'A', 'S', 'E', 'S'] : Str) ≠ [] := by simp
  generalize (['C', '+', '+', 'B', 'A', 'S', 'E', 'S'] : Str) = mark at *
  have hf : find mark (s ++ '\n' :: (line ++ '(' :: (cy ++ ')' :: between)) ++ (mark ++ rest)) 0 =
      ((s ++ '\n' :: (line ++ '(' :: (cy ++ ')' :: between))).length : ℤ) :=
    find_at (a := []) hmn hbo hm rfl (by simp) (by simp)
  have hone : basesOne (s ++ '\n' :: (line ++ '(' :: (cy ++ ')' :: between)) ++ (mark ++ rest))
      ((s ++ '\n' :: (line ++ '(' :: (cy ++ ')' :: between))).length : ℤ) = .error .attribute := by
    have e1 : rfind '\n' (s ++ '\n' :: (line ++ '(' :: (cy ++ ')' :: between)) ++ (mark ++ rest))
        ((s ++ '\n' :: (line ++ '(' :: (cy ++ ')' :: between))).length : ℤ) = s.length :=
      rfind_at (a := s) (b := line ++ '(' :: (cy ++ ')' :: between)) (c := mark ++ rest)
        (by simp [hl, hb]; exact fun h => (hc _ h).2 rfl) rfl (by simp; ring) rfl
    have e2 : find ['('] (s ++ '\n' :: (line ++ '(' :: (cy ++ ')' :: between)) ++ (mark ++ rest)) (s.length : ℤ) =
        s.length + 1 + line.length :=
      find_at (a := s) (b := '\n' :: line) (c := cy ++ ')' :: (between ++ (mark ++ rest))) (by simp) (borderless_one _)
        (not_infix_one (by simp [hl'])) (by simp) rfl (by simp; ring)
    have e3 : find [')'] (s ++ '\n' :: (line ++ '(' :: (cy ++ ')' :: between)) ++ (mark ++ rest))
        (s.length + 1 + line.length : ℤ) = s.length + 1 + line.length + 1 + cy.length :=
      find_at (a := s ++ '\n' :: line) (b := '(' :: cy) (c := between ++ (mark ++ rest)) (by simp) (borderless_one _)
        (not_infix_one (by simp [not_blank hbl hnb.2.2.2])) (by simp) (by simp; ring) (by simp; ring)
    have e4 : slice (s ++ '\n' :: (line ++ '(' :: (cy ++ ')' :: between)) ++ (mark ++ rest))
        (s.length + 1 + line.length + 1 : ℤ) (s.length + 1 + line.length + 1 + cy.length) = cy :=
      slice_at (a := s ++ '\n' :: (line ++ ['('])) (c := ')' :: (between ++ (mark ++ rest))) (by simp)
        (by simp; ring) (by simp; ring)
    unfold basesOne
    simp only [e1, e2, e3, e4, removeTemplates_none (by decide) (not_blank hbl hnb.1) (not_blank hbl hnb.2.1),
      splitOn_none (not_blank hbl hnb.2.2.1), lastWords, lastWord_blank hbl]
  rw [loop, hf, if_neg (by omega), hone]

/-- **C124**, what the code does besides: a mark in a line without a later number sign — as in the
comments in which Cython repeats lines around the line that it compiles — puts a colon without bases after
the next arguments. -/
theorem C124_repeated_line {s line between ln mid hd R : Str} {cyargs cppargs : Args}
    (h1 : '\n' ∉ line) (h2 : '(' ∉ line) (h3 : cyargs.Good '[' ']') (h4 : '\n' ∉ cyargs.tmpl.flat '[' ']')
    (h5 : '\n' ∉ between) (h6 : '\n' ∉ ln) (h7 : '#' ∉ ln) (h8 : ¬ ['*', '/'] <:+: mid) (h9 : '(' ∉ hd)
    (h10 : ¬ ['v', 'o', 'i', 'd', ' '] <:+: hd) (h11 : cppargs.Good '<' '>')
    (hm : ¬ ['C', '+', '+', 'B', 'A', 'S', 'E', 'S'] <:+:
      s ++ '\n' :: (line ++ '(' :: (cyargs.tmpl.flat '[' ']' ++ ')' :: between)))
    (hm' : ¬ ['C', '+', '+', 'B', 'A', 'S', 'E', 'S'] <:+: R) {n : ℕ} (hn : 1 < n) :
    let before := s ++ '\n' :: (line ++ '(' :: (cyargs.tmpl.flat '[' ']' ++ ')' :: (between ++
      (['C', '+', '+', 'B', 'A', 'S', 'E', 'S'] ++ (ln ++ '\n' :: (mid ++ '*' :: '/' :: (hd ++ '(' ::
        (cppargs.tmpl.flat '<' '>' ++ [')']))))))))
    cppbases n (before ++ R) = .ok (before ++ ' ' :: ':' :: ' ' :: R) := by
  intro before
  have hbefore : before = s ++ '\n' :: (line ++ '(' :: (cyargs.tmpl.flat '[' ']' ++ ')' :: (between ++
      (['C', '+', '+', 'B', 'A', 'S', 'E', 'S'] ++ (ln ++ '\n' :: (mid ++ '*' :: '/' :: (hd ++ '(' ::
        (cppargs.tmpl.flat '<' '>' ++ [')'])))))))) := rfl
  clear_value before
  have hnl : '\n' ∉ (['C', '+', '+', 'B', 'A', 'S', 'E', 'S'] : Str) := by decide
  have hml : (['C', '+', '+', 'B', 'A', 'S', 'E', 'S'] : Str).length = 8 := rfl
  have hsp : ' ' ∉ (['C', '+', '+', 'B', 'A', 'S', 'E', 'S'] : Str) := by decide
  have hbo := borderless_bases
  unfold cppbases
  rw [markBases_eq] at hbo ⊢
  generalize (['C', '+', '+', 'B', 'A', 'S', 'E', 'S'] : Str) = mark at *
  have hmn : mark ≠ [] := by
    intro h
    rw [h] at hml
    exact absurd hml (by decide)
  have raw := (basesOne_raw (A := s) (line := line) (cy := cyargs.tmpl.flat '[' ']') (btw := between)
    (mark := mark) (ln := ln) (mid := mid) (hd := hd) (cpp := cppargs.tmpl.flat '<' '>') (R := R)
    (src := before ++ R)
    (start := ((s ++ '\n' :: (line ++ '(' :: (cyargs.tmpl.flat '[' ']' ++ ')' :: between))).length : ℤ))
    (by simp [hbefore]) hml hnl h1 h2 h3.2.2.2.2 h4 h5 h6 h8 h9 h11.2.2.2.2 (lastWords_args (by decide) h3)
    (lastWords_args (by decide) h11) (by simp)).1 h10
  have hb0 : ∀ ren, renameBases ren (strip (beforeLast '#' ln)) = [] := by
    intro ren
    rw [beforeLast_none h7]
    rfl
  rw [hb0] at raw
  obtain ⟨n, rfl⟩ := Nat.exists_eq_succ_of_ne_zero (by omega : n ≠ 0)
  obtain ⟨n, rfl⟩ := Nat.exists_eq_succ_of_ne_zero (by omega : n ≠ 0)
  have hf : find mark (before ++ R) 0 =
      ((s ++ '\n' :: (line ++ '(' :: (cyargs.tmpl.flat '[' ']' ++ ')' :: between))).length : ℤ) :=
    find_at (a := []) (c := ln ++ '\n' :: (mid ++ '*' :: '/' :: (hd ++ '(' ::
        (cppargs.tmpl.flat '<' '>' ++ ')' :: R)))) hmn hbo hm (by simp [hbefore]) (by simp) (by simp)
  rw [loop, hf, if_neg (by omega), raw]
  simp only
  rw [loop, if_pos]
  · simp [hbefore]
  · obtain ⟨x, m, rfl⟩ := List.exists_cons_of_ne_nil hmn
    simp only [List.mem_cons, not_or] at hsp
    exact find_none (a := before ++ [' ', ':']) (b := ' ' :: R) hmn (not_infix_cons (Ne.symm hsp.1) hm')
      (by simp [hbefore]) (by simp [hbefore]; ring)

/-! ## Examples -/

instance (c : Char) : Decidable (WordChar c) := by unfold WordChar; infer_instance
instance (w : Str) : Decidable (Word w) := by unfold Word; infer_instance
instance (c : Char) : Decidable (Blank c) := by unfold Blank; infer_instance

theorem balanced_of {s : Str} (h : ∀ p ∈ s.inits, p.count ')' ≤ p.count '(') : Balanced s :=
  fun p hp => h p (by simpa using hp)

/-- `vector[int] xs` and `std::vector<int> __pyx_v_xs`. -/
def exCtor : Ctor where
  line := [' ', '*', ' ', ' ', ' ', 'C', 'h', 'i', 'l', 'd']
  cyargs := ⟨.chr 'v' (.chr 'e' (.grp (.chr 'i' .nil) (.chr ' ' (.chr 'x' (.chr 's' .nil))))),
    [⟨['v', 'e', ' '], ['x', 's'], []⟩]⟩
  between := [':', ' ', '#', ' ']
  sp := [' ']
  base := ['B', 'a', 's', 'e']
  toks := [.word ['x', 's'], .other ',', .word ['n', '2']]
  sp' := [' ']
  tail := [' ', '<', '<', '<']
  mid := [' ']
  head := .void ['\n'] ['C', 'h', 'i', 'l', 'd'] [':', '_', '_', 'i', 'n', 'i', 't', '_', '_']
  cppargs := ⟨.chr 'v' (.chr 'e' (.grp (.chr 'i' .nil) (.chr ' ' (.chr 'v' (.chr '_' (.chr 'x' (.chr 's' .nil))))))),
    [⟨['v', 'e', ' '], ['v', '_', 'x', 's'], []⟩]⟩

def exCls : Cls where
  sp := [' ']
  first := ['C', '(', 'i', 'n', 't', ')']
  more := [([], [' '], ['C', '(', 'c', 'h', 'a', 'r', '*', ')'])]
  sp' := [' ']
  tail := [' ', '<', '<', '<']
  mid := ['\n', ' ']
  rest := []

theorem decl_good {d : Decl} (h : Word d.name ∧ ',' ∉ d.pre ∧ ',' ∉ d.post ∧ '\n' ∉ d.pre ∧
    (∀ c ∈ d.pre.getLast?, ¬ WordChar c) ∧ ∀ c ∈ d.post, ¬ WordChar c) : d.Good := h

theorem exShape : exCtor.Shape := by
  have a1 : exCtor.cyargs.Good '[' ']' := by
    refine ⟨by simp [exCtor, Tmpl.Good, Tmpl.top], by simp [exCtor], ?_, by decide +kernel, by decide +kernel⟩
    simp only [exCtor, List.mem_singleton, forall_eq]
    exact decl_good (by decide +kernel)
  have a2 : exCtor.cppargs.Good '<' '>' := by
    refine ⟨by simp [exCtor, Tmpl.Good, Tmpl.top], by simp [exCtor], ?_, by decide +kernel, by decide +kernel⟩
    simp only [exCtor, List.mem_singleton, forall_eq]
    exact decl_good (by decide +kernel)
  have a3 : ∀ c ∈ exCtor.base.head?, ¬ Blank c := by decide +kernel
  have a4 : Proper exCtor.toks := by
    simp only [exCtor, Proper]
    refine ⟨by decide +kernel, ?_, by decide +kernel, by decide +kernel, ?_, trivial⟩ <;> simp
  have a5 : exCtor.head.Good := by
    simp only [exCtor, Head.Good]
    decide +kernel
  have a6 : Balanced (exCtor.base ++ '(' :: (text exCtor.toks ++ [')'])) := balanced_of (by decide +kernel)
  refine ⟨?_, ?_, a1, ?_, ?_, ?_, ?_, fun c hc => a3 c hc, ?_, ?_, ?_, ?_, a4, a6, ?_, ?_, ?_, a5, a2⟩ <;>
    decide +kernel

theorem exClear : Clear exCtor.ren exCtor.toks := by
  have h : exCtor.ren = [(['x', 's'], ['v', '_', 'x', 's'])] := rfl
  rw [h]
  refine ⟨?_, by simp⟩
  simp only [forall_eq, exCtor, List.mem_cons, List.not_mem_nil, or_false, Tok.word.injEq,
    reduceCtorEq, false_or]
  rintro w (rfl | rfl)
  · simp
  · intro hh
    exact absurd hh (by decide +kernel)

theorem exCls_good : exCls.Good := by
  have h : ∀ d : Str, d ≠ [] → (∀ c ∈ d.head?, ¬ Blank c) → (∀ c ∈ d.getLast?, ¬ Blank c) → Tight d :=
    fun d h1 h2 h3 => ⟨h1, fun c hc => h2 c hc, fun c hc => h3 c hc⟩
  refine ⟨?_, ?_, h _ ?_ ?_ ?_, ?_, ?_, ?_, ?_, ?_, ?_, ?_⟩
  case refine_8 =>
    simp only [exCls, List.mem_singleton, forall_eq]
    exact ⟨by simp, by decide +kernel, h _ (by decide +kernel) (by decide +kernel) (by decide +kernel), by decide +kernel, by decide +kernel⟩
  all_goals decide +kernel

/-- The begin of a file. -/
def exHead : Str := ['/', '*', ' ', '3', '.', '0', ' ', '*', '/', '\n', '/', '*', ' ']

/-- A file with a marked class and a marked constructor. -/
def exFile : List (Str × Item) := [(exHead, .cls exCls), (['c', 'l', 'a', 's', 's', ';', '\n', '/', '*'], .ctor exCtor)]

theorem exFile_good : ∀ p ∈ exFile, p.2.Good p.1 := by
  simp only [exFile, List.mem_cons, List.not_mem_nil, or_false, forall_eq_or_imp, forall_eq, Item.Good]
  exact ⟨⟨exCls_good, by decide +kernel, by decide +kernel⟩, ⟨exShape, exClear⟩, by decide +kernel, by decide +kernel⟩

theorem exFile_versioned : Versioned (file Item.before exFile [' ', '{', '}']) :=
  (hasVersion_iff _).1 (by decide +kernel)

example : process 3 (file Item.before exFile [' ', '{', '}']) = .ok (file Item.after exFile [' ', '{', '}']) :=
  C124_process exFile_good (by decide +kernel) (by decide +kernel) exFile_versioned (by decide)

/-- The text of the constructor afterwards. -/
example : exCtor.after = exCtor.lead ++ exCtor.comment ++
    ['\n', 'C', 'h', 'i', 'l', 'd', ':', ':', 'C', 'h', 'i', 'l', 'd', '(', 'v', 'e', '<', 'i', '>', ' ', 'v', '_', 'x', 's', ')', ' ', ':', ' ', 'B', 'a', 's', 'e', '(', 'v', '_', 'x', 's', ',', 'n', '2', ')'] := by decide +kernel

example : process 1 ['/', '/', ' ', '3', '.', '0'] = .ok ['/', '/', ' ', '3', '.', '0'] :=
  C124_unmarked (by decide +kernel) (by decide +kernel) ((hasVersion_iff _).1 (by decide +kernel)) (by decide)

example : process 1 ['/', '/'] = .error .attribute :=
  C124_no_version (fun h => absurd ((hasVersion_iff _).2 h) (by decide +kernel)) 1

example : process 1 (['3', '.', '0'] ++ '\n' :: (['A'] ++ '(' :: ([] ++ ')' :: [':', '#'])) ++
    (['C', '+', '+', 'B', 'A', 'S', 'E', 'S'] ++ [' ', 'B', '(', ')', '#', '\n'])) = .error .attribute :=
  C124_no_arguments _ (by decide +kernel) (by decide +kernel) (by simp) (by decide +kernel) (by decide +kernel) 0

example : let before := ['3', '.', '0'] ++ '\n' :: (exCtor.line ++ '(' :: (exCtor.cyargs.tmpl.flat '[' ']' ++ ')' :: ([':', ' ', '#', ' '] ++
      (['C', '+', '+', 'B', 'A', 'S', 'E', 'S'] ++ ([' ', 'B', '(', 'x', 's', ')'] ++ '\n' :: (['f', '(', 'x', 's', ')', ' ', ' ', '#', ' ', '<', '<', '<', '\n', ' '] ++ '*' :: '/' :: (['\n', 'f'] ++ '(' ::
        (exCtor.cppargs.tmpl.flat '<' '>' ++ [')']))))))))
    cppbases 2 (before ++ [';']) = .ok (before ++ ' ' :: ':' :: ' ' :: [';']) :=
  C124_repeated_line (by decide +kernel) (by decide +kernel) exShape.2.2.1 (by decide +kernel) (by decide +kernel)
    (by decide +kernel) (by decide +kernel) (by decide +kernel) (by decide +kernel) (by decide +kernel)
    exShape.2.2.2.2.2.2.2.2.2.2.2.2.2.2.2.2.2.2 (by decide +kernel) (by decide +kernel) (by decide)

/-- A constructor with two arguments, of which the second is in the name in C++ of the first. -/
def exBad : Ctor :=
  { exCtor with
    cyargs := ⟨(.chr 'i' (.chr ' ' (.chr 'x' (.chr ',' (.chr 'i' (.chr ' ' (.chr 'y' .nil))))))), [⟨['i', ' '], ['x'], []⟩, ⟨['i', ' '], ['y'], []⟩]⟩
    toks := [.word ['x'], .other ',', .word ['y']]
    cppargs := ⟨(.chr 'i' (.chr ' ' (.chr '_' (.chr '_' (.chr 'p' (.chr 'y' (.chr 'x' (.chr '_' (.chr 'v' (.chr '_' (.chr 'x' (.chr ',' (.chr 'i' (.chr ' ' (.chr '_' (.chr '_' (.chr 'p' (.chr 'y' (.chr 'x' (.chr '_' (.chr 'v' (.chr '_' (.chr 'y' .nil))))))))))))))))))))))),
      [⟨['i', ' '], ['_', '_', 'p', 'y', 'x', '_', 'v', '_', 'x'], []⟩, ⟨['i', ' '], ['_', '_', 'p', 'y', 'x', '_', 'v', '_', 'y'], []⟩]⟩ }

theorem exBad_shape : exBad.Shape := by
  have b1 : exBad.cyargs.Good '[' ']' := by
    refine ⟨by simp [exBad, Tmpl.Good], by simp [exBad], ?_, by decide +kernel, by decide +kernel⟩
    simp only [exBad, List.mem_cons, List.not_mem_nil, or_false, forall_eq_or_imp, forall_eq]
    exact ⟨decl_good (by decide +kernel), decl_good (by decide +kernel)⟩
  have b2 : exBad.cppargs.Good '<' '>' := by
    refine ⟨by simp [exBad, Tmpl.Good], by simp [exBad], ?_, by decide +kernel, by decide +kernel⟩
    simp only [exBad, List.mem_cons, List.not_mem_nil, or_false, forall_eq_or_imp, forall_eq]
    exact ⟨decl_good (by decide +kernel), decl_good (by decide +kernel)⟩
  have b4 : Proper exBad.toks := by
    simp only [exBad, Proper]
    refine ⟨by decide +kernel, ?_, by decide +kernel, by decide +kernel, ?_, trivial⟩ <;> simp
  have b6 : Balanced (exBad.base ++ '(' :: (text exBad.toks ++ [')'])) := balanced_of (by decide +kernel)
  obtain ⟨c1, c2, -, -, c5, c6, c7, c8, c9, c10, c11, -, -, -, c16, c17, c18, c19, -⟩ := exShape
  exact ⟨c1, c2, b1, by decide +kernel, c5, c6, c7, c8, c9, c10, c11, by decide +kernel, b4, b6, c16, c17, c18, c19, b2⟩

/-- **C124**, the negation: with a name that is a part of another one, like `y`, which is in the names
that Cython gives to arguments, the constructors of the bases are called with names that do not exist. -/
theorem C124_not_any_names : ¬ ∀ (k : Ctor) (s e : Str), k.Shape → Versioned (s ++ k.before ++ e) →
    ¬ ['C', '+', '+', 'B', 'A', 'S', 'E', 'S'] <:+: s ++ k.lead → ¬ ['C', '+', '+', 'B', 'A', 'S', 'E', 'S'] <:+: e →
    cppbases 2 (s ++ k.before ++ e) = .ok (s ++ k.after ++ e) := by
  intro h
  exact absurd (h exBad exHead [] exBad_shape ((hasVersion_iff _).1 (by decide +kernel)) (by decide +kernel)
    (by decide +kernel)) (by decide +kernel)

/-- What is written for that constructor: `Base(__p__pyx_v_yx_v_x,__pyx_v_y)`, in which the first name
does not exist. -/
theorem C124_broken_name : cppbases 2 (exHead ++ exBad.before) = .ok (exHead ++ exBad.lead ++ exBad.comment ++
    exBad.head.after ++ exBad.args ++ [' ', ':', ' ', 'B', 'a', 's', 'e', '(', '_', '_', 'p', '_', '_', 'p', 'y', 'x', '_', 'v', '_', 'y', 'x', '_', 'v', '_', 'x', ',', '_', '_', 'p', 'y', 'x', '_', 'v', '_', 'y', ')']) := by
  decide +kernel

end Cyclus.PostCython.Props
