import Verif.Spec.CycppLine

/-!
# Lemmas about line directives
-/

namespace Cyclus.CycppLine

open CycppText (Str)

theorem weave_take (file : Str) : ∀ (xs : List Block) (pos d : ℕ) (b : List Str), (∀ x ∈ xs, pos + d ≤ x.j) →
    d ≤ b.length → (weave file pos xs b).take d = b.take d ∧
      (weave file pos xs b).drop d = weave file (pos + d) xs (b.drop d) := by
  intro xs
  cases xs with
  | nil => intro pos d b _ _; exact ⟨rfl, rfl⟩
  | cons x xs =>
    intro pos d b h hd
    have hx := h x (by simp)
    have hl : d ≤ (b.take (x.j - pos)).length := by rw [List.length_take]; omega
    refine ⟨?_, ?_⟩
    · rw [weave, List.take_append_of_le_length hl, List.take_take]
      congr 1; omega
    · have e1 : x.j - pos - d = x.j - (pos + d) := by omega
      have e2 : d + (x.j - (pos + d)) = x.j - pos := by omega
      rw [weave, weave, List.drop_append_of_le_length hl, List.drop_take, List.drop_drop, e1, e2]

theorem insertAll_eq (file : Str) : ∀ (xs : List Block) (b : List Str),
    xs.Pairwise (fun x y => x.j ≤ y.j) → (∀ x ∈ xs, x.j ≤ b.length) →
    xs.reverse.foldl (fun l x => insertAt l x.j (directive file (x.i + 1))) b = weave file 0 xs b := by
  intro xs
  induction xs with
  | nil => intro b _ _; rfl
  | cons x xs ih =>
    intro b hp hb
    rw [List.pairwise_cons] at hp
    rw [List.reverse_cons, List.foldl_append, ih b hp.2 fun y hy => hb y (by simp [hy])]
    obtain ⟨h1, h2⟩ := weave_take file xs 0 x.j b (by intro y hy; have := hp.1 y hy; omega) (hb x (by simp))
    simp only [List.foldl_cons, List.foldl_nil, insertAt]
    rw [h1, h2, weave, Nat.sub_zero, Nat.zero_add]

theorem report_append {S : Type} (R : Reader S) (ls : List Str) : ∀ (p : Pos S) (ms : List Str),
    R.report p (ls ++ ms) = R.report p ls ++ R.report (ls.foldl R.next p) ms := by
  induction ls with
  | nil => intro p ms; rfl
  | cons l ls ih => intro p ms; simp [Reader.report, ih]

theorem report_length {S : Type} (R : Reader S) (ls : List Str) : ∀ p : Pos S, (R.report p ls).length = ls.length := by
  induction ls with
  | nil => intro p; rfl
  | cons l ls ih => intro p; simp [Reader.report, ih]

theorem next_state {S : Type} (R : Reader S) (p : Pos S) (l : Str) : (R.next p l).state = R.step p.state l := by
  unfold Reader.next
  split <;> rfl

theorem foldl_state {S : Type} (R : Reader S) (ls : List Str) : ∀ p : Pos S,
    (ls.foldl R.next p).state = R.after p.state ls := by
  induction ls with
  | nil => intro p; rfl
  | cons l ls ih => intro p; rw [List.foldl_cons, ih, next_state]; rfl

/-- Lines that are no directives are numbered on. -/
theorem report_plain {S : Type} (R : Reader S) (ls : List Str) : ∀ (p : Pos S) (k : ℕ) (l : Str) (ms : List Str),
    (∀ m ∈ ls.take k, R.line m = none) → ls[k]? = some l →
    (R.report p (ls ++ ms))[k]? = some (l, p.num + k, p.file) := by
  induction ls with
  | nil => intro p k l ms _ h; simp at h
  | cons m ls ih =>
    intro p k l ms hn hk
    cases k with
    | zero =>
      simp at hk
      simp [Reader.report, hk]
    | succ k =>
      have h0 : R.line m = none := hn m (by simp)
      have hnx : R.next p m = ⟨R.step p.state m, p.num + 1, p.file⟩ := by
        unfold Reader.next
        rw [h0]
        cases R.free p.state <;> rfl
      simp only [List.cons_append, Reader.report, List.getElem?_cons_succ]
      rw [ih (R.next p m) k l ms (fun x hx => hn x (by simp [hx])) (by simpa using hk), hnx]
      simp only [Option.some.injEq, Prod.mk.injEq, true_and, and_true]
      omega

theorem after_append {S : Type} (R : Reader S) (s : S) (a b : List Str) :
    R.after s (a ++ b) = R.after (R.after s a) b := by simp [Reader.after]

theorem next_directive {S : Type} (R : Reader S) (file : Str) (hR : R.Knows file) (p : Pos S) (n : ℕ)
    (hf : R.free p.state = true) : R.next p (directive file n) = ⟨p.state, n, file⟩ := by
  unfold Reader.next
  rw [hR.1, hf, hR.2]

/-- The line `p` of the new file is reported with the number that follows from the block before it. -/
theorem report_weave {S : Type} (R : Reader S) (file : Str) (hR : R.Knows file) : ∀ (xs : List Block) (pos : ℕ)
    (b : List Str) (q : Pos S) (r : ℕ) (x : Block) (p : ℕ) (l : Str),
    xs.Pairwise (fun x y => x.j ≤ y.j) → (∀ y ∈ xs, pos ≤ y.j ∧ y.j ≤ pos + b.length) → xs[r]? = some x → x.j ≤ p →
    (∀ y, xs[r + 1]? = some y → p < y.j) → b[p - pos]? = some l →
    R.free (R.after q.state (b.take (x.j - pos))) = true →
    (∀ m ∈ (b.drop (x.j - pos)).take (p - x.j), R.line m = none) →
    (weave file pos xs b)[p - pos + r + 1]? = some l ∧
    (R.report q (weave file pos xs b))[p - pos + r + 1]? = some (l, x.i + 1 + (p - x.j), file) := by
  intro xs
  induction xs with
  | nil => intro pos b q r x p l _ _ h; simp at h
  | cons y xs ih =>
    intro pos b q r x p l hs hb hr hp hn hl hf hd
    rw [List.pairwise_cons] at hs
    obtain ⟨hy1, hy2⟩ := hb y (by simp)
    have hlen : (b.take (y.j - pos)).length = y.j - pos := by rw [List.length_take]; omega
    have hq := foldl_state R (b.take (y.j - pos)) q
    rw [weave]
    cases r with
    | zero =>
      have hx : y = x := by simpa using hr
      subst hx
      have hidx : p - pos + 0 + 1 = (y.j - pos) + ((p - y.j) + 1) := by omega
      have hxl : (b.drop (y.j - pos))[p - y.j]? = some l := by
        rw [List.getElem?_drop, ← hl]; congr 1; omega
      -- the lines up to the next block
      have hw : ∃ ms ns, weave file y.j xs (b.drop (y.j - pos)) = ms ++ ns ∧ ms[p - y.j]? = some l ∧
          ms.take (p - y.j) = (b.drop (y.j - pos)).take (p - y.j) := by
        cases xs with
        | nil => exact ⟨_, [], (List.append_nil _).symm, hxl, rfl⟩
        | cons z xs =>
          have hz := hn z (by simp)
          refine ⟨_, _, rfl, ?_, ?_⟩
          · rw [List.getElem?_take_of_lt (by omega), hxl]
          · rw [List.take_take]; congr 1; omega
      obtain ⟨ms, ns, hw, hml, hmt⟩ := hw
      rw [hidx, hw]
      refine ⟨?_, ?_⟩
      · rw [List.getElem?_append_right (by omega), hlen, Nat.add_sub_cancel_left, List.getElem?_cons_succ,
          List.getElem?_append_left (by
            rw [List.getElem?_eq_some_iff] at hml; exact hml.1), hml]
      · rw [report_append, List.getElem?_append_right (by rw [report_length]; omega), report_length, hlen,
          Nat.add_sub_cancel_left, Reader.report, List.getElem?_cons_succ]
        have hnx : R.next ((b.take (y.j - pos)).foldl R.next q) (directive file (y.i + 1)) =
            ⟨R.after q.state (b.take (y.j - pos)), y.i + 1, file⟩ := by
          rw [next_directive R file hR _ _ (by rw [hq]; exact hf), hq]
        rw [hnx, report_plain R ms _ _ l ns (by rw [hmt]; exact hd) hml]
    | succ r =>
      have hrx : xs[r]? = some x := by simpa using hr
      have hyx : y.j ≤ x.j := hs.1 x (List.mem_of_getElem? hrx)
      have hidx : p - pos + (r + 1) + 1 = (y.j - pos) + ((p - y.j + r + 1) + 1) := by omega
      have hstate : (R.next ((b.take (y.j - pos)).foldl R.next q) (directive file (y.i + 1))).state =
          R.after q.state (b.take (y.j - pos)) := by
        rw [next_state, hR.2, hq]
      have htt : b.take (x.j - pos) = b.take (y.j - pos) ++ (b.drop (y.j - pos)).take (x.j - y.j) := by
        have he : x.j - pos = (y.j - pos) + (x.j - y.j) := by omega
        rw [he, List.take_add]
      obtain ⟨i1, i2⟩ := ih y.j (b.drop (y.j - pos))
        (R.next ((b.take (y.j - pos)).foldl R.next q) (directive file (y.i + 1))) r x p l hs.2
        (by
          intro z hz
          have h1 := hs.1 z hz
          have h2 := hb z (by simp [hz])
          rw [List.length_drop]
          omega)
        hrx hp (by intro z hz; exact hn z (by simpa using hz))
        (by rw [List.getElem?_drop, ← hl]; congr 1; omega)
        (by rw [hstate, ← after_append, ← htt]; exact hf)
        (by
          intro m hm
          apply hd m
          rw [List.drop_drop] at hm
          have he : y.j - pos + (x.j - y.j) = x.j - pos := by omega
          rw [he] at hm
          exact hm)
      rw [hidx]
      refine ⟨?_, ?_⟩
      · rw [List.getElem?_append_right (by omega), hlen, Nat.add_sub_cancel_left, List.getElem?_cons_succ, i1]
      · rw [report_append, List.getElem?_append_right (by rw [report_length]; omega), report_length, hlen,
          Nat.add_sub_cancel_left, Reader.report, List.getElem?_cons_succ, i2]

end Cyclus.CycppLine
