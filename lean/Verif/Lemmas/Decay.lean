import Verif.Spec.Decay
import Verif.Lemmas.CompMath
import Mathlib.Tactic.Ring

/-!
# Lemmas about decay
-/

namespace Cyclus.Decay

open Cyclus.CompMath

theorem nonneg_get {v : CompMap} (h : NonNeg v) (n : ℕ) : 0 ≤ get v n := by
  induction v with
  | nil => simp [CompMath.get]
  | cons e v ih =>
    obtain ⟨k, q⟩ := e
    unfold CompMath.get
    split
    · exact h (k, q) (by simp)
    · exact ih fun e he => h e (by simp [he])

theorem get_not_mem {v : CompMap} {n : ℕ} (h : n ∉ v.map Prod.fst) : get v n = 0 := by
  induction v with
  | nil => rfl
  | cons e v ih =>
    obtain ⟨k, q⟩ := e
    simp only [List.map_cons, List.mem_cons, not_or] at h
    unfold CompMath.get
    rw [if_neg (fun h' => h.1 h'.symm)]
    exact ih h.2

theorem get_filter_pos {v : CompMap} (hk : (v.map Prod.fst).Nodup) (h : NonNeg v) (n : ℕ) :
    get (v.filter fun e => decide (0 < e.2)) n = get v n := by
  induction v with
  | nil => rfl
  | cons e v ih =>
    obtain ⟨k, q⟩ := e
    simp only [List.map_cons, List.nodup_cons] at hk
    have hv : NonNeg v := fun e he => h e (by simp [he])
    have hq : 0 ≤ q := h (k, q) (by simp)
    by_cases hp : 0 < q
    · rw [List.filter_cons_of_pos (by simpa using hp)]
      unfold CompMath.get
      split
      · rfl
      · exact ih hk.2 hv
    · rw [List.filter_cons_of_neg (by simpa using hp)]
      have h0 : q = 0 := le_antisymm (not_lt.1 hp) hq
      rw [ih hk.2 hv]
      conv_rhs => unfold CompMath.get
      split
      · rename_i hkn
        rw [h0]
        exact get_not_mem (hkn ▸ hk.1)
      · rfl

theorem zip_get {ks : List ℕ} (hk : ks.Nodup) {l : List ℚ} (hl : l.length = ks.length) :
    ks.map (get (ks.zip l)) = l := by
  induction ks generalizing l with
  | nil =>
    cases l with
    | nil => rfl
    | cons => simp at hl
  | cons k ks ih =>
    cases l with
    | nil => simp at hl
    | cons x l =>
      simp only [List.nodup_cons] at hk
      simp only [List.length_cons, Nat.add_right_cancel_iff] at hl
      simp only [List.zip_cons_cons, List.map_cons, List.cons.injEq]
      refine ⟨by simp [CompMath.get], ?_⟩
      conv_rhs => rw [← ih hk.2 hl]
      refine List.map_congr_left fun n hn => ?_
      conv_lhs => unfold CompMath.get
      exact if_neg fun (h : k = n) => hk.1 (h ▸ hn)

theorem vec_length (T : Tables) (v : CompMap) : (vec T v).length = T.nucids.length := by
  simp [vec]

theorem vec_nonneg (T : Tables) {v : CompMap} (h : NonNeg v) : ∀ x ∈ vec T v, 0 ≤ x := by
  intro x hx
  obtain ⟨n, -, rfl⟩ := List.mem_map.1 hx
  exact nonneg_get h n

theorem zip_nonneg {ks : List ℕ} {l : List ℚ} (h : ∀ x ∈ l, 0 ≤ x) : NonNeg (ks.zip l) :=
  fun _ he => h _ (List.of_mem_zip he).2

theorem decayAtoms_nonneg (T : Tables) (t : ℤ) (v : CompMap) : NonNeg (decayAtoms T t v) := by
  unfold decayAtoms
  split
  · intro e he; simp at he
  · intro e he
    have := (List.mem_filter.1 he).2
    simp only [decide_eq_true_eq] at this
    exact this.le

theorem vec_nil (T : Tables) : vec T [] = T.nucids.map fun _ => 0 := rfl

theorem get_decayAtoms {T : Tables} (hT : Physical T) {t : ℤ} (ht : 0 ≤ t) {v : CompMap}
    (hv : NonNeg v) (n : ℕ) : get (decayAtoms T t v) n = after T t v n := by
  unfold decayAtoms after
  split
  · rename_i h
    subst h
    rw [vec_nil, hT.zero]
    clear ht hv
    have : ∀ ks : List ℕ, get (ks.zip (ks.map fun _ => (0 : ℚ))) n = 0 := by
      intro ks
      induction ks with
      | nil => rfl
      | cons k ks ih =>
        simp only [List.map_cons, List.zip_cons_cons]
        unfold CompMath.get
        split
        · rfl
        · exact ih
    rw [this]; rfl
  · refine get_filter_pos ?_ (zip_nonneg (hT.nonneg t ht _ (vec_length T v) (vec_nonneg T hv))) n
    rw [List.map_fst_zip]
    · exact hT.nodup
    · exact (hT.len t _ (vec_length T v)).ge

theorem vec_of_after {T : Tables} (hT : Physical T) {t : ℤ} {v w : CompMap}
    (h : ∀ n, get w n = after T t v n) : vec T w = T.expm t (vec T v) := by
  have : vec T w = T.nucids.map (get (T.nucids.zip (T.expm t (vec T v)))) :=
    List.map_congr_left fun n _ => h n
  rw [this]
  exact zip_get hT.nodup (hT.len t _ (vec_length T v))

/-- Decaying again adds up. -/
theorem after_after {T : Tables} (hT : Physical T) {s t : ℤ} (hs : 0 ≤ s) (ht : 0 ≤ t)
    {v w : CompMap} (h : ∀ n, get w n = after T s v n) (n : ℕ) :
    after T t w n = after T (s + t) v n := by
  unfold after
  rw [vec_of_after hT h, hT.add s t hs ht _ (vec_length T v)]

/-- What holds of compositions and log in every history. -/
structure Inv (T : Tables) (secs : ℤ) (s : Comps) (L : List (ℕ × ℕ × ℤ)) : Prop where
  mem : ∀ c r k, (c, r, k) ∈ L → 1 ≤ c ∧ c < s.next ∧ (s.comp c).prev = k ∧
    (s.comp c).line = (s.comp r).line ∧ 0 ≤ k ∧ (c = r → k = 0) ∧ (r, r, (0 : ℤ)) ∈ L
  line_of : ∀ c r k, (c, r, k) ∈ L → c ≠ r → s.line (s.comp c).line k = some c
  of_line : ∀ l k d, s.line l k = some d → ∃ r, (d, r, k) ∈ L ∧ d ≠ r ∧ (s.comp d).line = l
  root : ∀ r r', (r, r, (0 : ℤ)) ∈ L → (r', r', (0 : ℤ)) ∈ L →
    (s.comp r).line = (s.comp r').line → r = r'
  bound : ∀ c, 1 ≤ c → c < s.next → (s.comp c).line < s.nlines
  all : ∀ c, 1 ≤ c → c < s.next → ∃ r k, (c, r, k) ∈ L
  nonneg : ∀ c, 1 ≤ c → c < s.next → NonNeg (s.comp c).atom
  val : ∀ c r k, (c, r, k) ∈ L → c ≠ r →
    ∀ n, get (s.comp c).atom n = after T (secs * k) (s.comp r).atom n
  pos : 1 ≤ s.next

theorem Inv.initial (T : Tables) (secs : ℤ) : Inv T secs .init [] where
  mem := by simp
  line_of := by simp
  of_line := by simp [Comps.init]
  root := by simp
  bound := by intro c h1 h2; simp [Comps.init] at h2; omega
  all := by intro c h1 h2; simp [Comps.init] at h2; omega
  nonneg := by intro c h1 h2; simp [Comps.init] at h2; omega
  val := by simp
  pos := by simp [Comps.init]

theorem Inv.rmem {T : Tables} {secs : ℤ} {s : Comps} {L} (h : Inv T secs s L) {c r k}
    (hm : (c, r, k) ∈ L) : 1 ≤ r ∧ r < s.next := by
  have := (h.mem c r k hm).2.2.2.2.2.2
  exact ⟨(h.mem _ _ _ this).1, (h.mem _ _ _ this).2.1⟩

theorem Inv.create {T : Tables} {secs : ℤ} {s : Comps} {L} (h : Inv T secs s L) (v : CompMap)
    (hv : NonNeg v) : Inv T secs (create s v).1 ((s.next, s.next, 0) :: L) := by
  have old : ∀ c, c < s.next → (Cyclus.Decay.create s v).1.comp c = s.comp c := by
    intro c hc
    simp only [Cyclus.Decay.create]
    rw [if_neg (by omega)]
  have new : (Cyclus.Decay.create s v).1.comp s.next = ⟨v, 0, s.nlines⟩ := by
    simp [Cyclus.Decay.create]
  have hn : (Cyclus.Decay.create s v).1.next = s.next + 1 := rfl
  have hpos := h.pos
  constructor
  · intro c r k hm
    rw [List.mem_cons] at hm
    rcases hm with hm | hm
    · simp only [Prod.mk.injEq] at hm
      obtain ⟨rfl, rfl, rfl⟩ := hm
      rw [new, hn]
      simp [hpos]
    · obtain ⟨h1, h2, h3, h4, h5, h6, h7⟩ := h.mem c r k hm
      obtain ⟨hr1, hr2⟩ := h.rmem hm
      rw [old c h2, old r hr2, hn]
      exact ⟨h1, by omega, h3, h4, h5, h6, List.mem_cons_of_mem _ h7⟩
  · intro c r k hm hne
    rw [List.mem_cons] at hm
    rcases hm with hm | hm
    · simp only [Prod.mk.injEq] at hm
      exact absurd (hm.1.trans hm.2.1.symm) hne
    · rw [old c (h.mem c r k hm).2.1]
      exact h.line_of c r k hm hne
  · intro l k d hl
    obtain ⟨r, hm, hne, hd⟩ := h.of_line l k d hl
    refine ⟨r, List.mem_cons_of_mem _ hm, hne, ?_⟩
    rw [old d (h.mem _ _ _ hm).2.1]
    exact hd
  · intro r r' hr hr' he
    rw [List.mem_cons] at hr hr'
    rcases hr with hr | hr <;> rcases hr' with hr' | hr'
    · simp only [Prod.mk.injEq] at hr hr'
      exact hr.1.trans hr'.1.symm
    · simp only [Prod.mk.injEq] at hr
      obtain ⟨h1, h2, -⟩ := h.mem _ _ _ hr'
      rw [hr.1, new, old _ h2] at he
      have := h.bound _ h1 h2
      simp only at he
      omega
    · simp only [Prod.mk.injEq] at hr'
      obtain ⟨h1, h2, -⟩ := h.mem _ _ _ hr
      rw [hr'.1, new, old _ h2] at he
      have := h.bound _ h1 h2
      simp only at he
      omega
    · rw [old _ (h.mem _ _ _ hr).2.1, old _ (h.mem _ _ _ hr').2.1] at he
      exact h.root _ _ hr hr' he
  · intro c h1 h2
    rw [hn] at h2
    have hl : (Cyclus.Decay.create s v).1.nlines = s.nlines + 1 := rfl
    rw [hl]
    rcases Nat.lt_succ_iff_lt_or_eq.1 h2 with h2 | rfl
    · rw [old c h2]
      have := h.bound c h1 h2
      omega
    · rw [new]; simp
  · intro c h1 h2
    rw [hn] at h2
    rcases Nat.lt_succ_iff_lt_or_eq.1 h2 with h2 | rfl
    · obtain ⟨r, k, hm⟩ := h.all c h1 h2
      exact ⟨r, k, List.mem_cons_of_mem _ hm⟩
    · exact ⟨s.next, 0, by simp⟩
  · intro c h1 h2
    rw [hn] at h2
    rcases Nat.lt_succ_iff_lt_or_eq.1 h2 with h2 | rfl
    · rw [old c h2]; exact h.nonneg c h1 h2
    · rw [new]; exact hv
  · intro c r k hm hne n
    rw [List.mem_cons] at hm
    rcases hm with hm | hm
    · simp only [Prod.mk.injEq] at hm
      exact absurd (hm.1.trans hm.2.1.symm) hne
    · rw [old c (h.mem c r k hm).2.1, old r (h.rmem hm).2]
      exact h.val c r k hm hne n
  · rw [hn]; omega

theorem decay_hit {T : Tables} {s : Comps} {c d : ℕ} {δ secs : ℤ}
    (h : s.line (s.comp c).line ((s.comp c).prev + δ) = some d) :
    decay T s c δ secs = (s, d) := by
  simp [decay, h]

theorem decay_miss {T : Tables} {s : Comps} {c : ℕ} {δ secs : ℤ}
    (h : s.line (s.comp c).line ((s.comp c).prev + δ) = none) :
    decay T s c δ secs =
      ({ (newDecay T s c δ secs).1 with line := fun l t =>
          if l = (s.comp c).line ∧ t = (s.comp c).prev + δ then some s.next else s.line l t },
        s.next) := by
  simp [decay, h, newDecay]

theorem Inv.decay {T : Tables} (hT : Physical T) {secs : ℤ} (hs : 0 ≤ secs) {s : Comps} {L}
    (h : Inv T secs s L) {c r : ℕ} {k δ : ℤ} (hm : (c, r, k) ∈ L) (hδ : 0 ≤ δ) :
    Inv T secs (decay T s c δ secs).1 (((decay T s c δ secs).2, r, k + δ) :: L) := by
  obtain ⟨hc1, hc2, hcp, hcl, hk, hroot, hrr⟩ := h.mem c r k hm
  obtain ⟨hr1, hr2⟩ := h.rmem hm
  cases hl : s.line (s.comp c).line ((s.comp c).prev + δ) with
  | some d =>
    rw [decay_hit hl]
    obtain ⟨r', hm', hne, hd⟩ := h.of_line _ _ _ hl
    obtain ⟨-, hd2, hdp, hdl, -, -, hrr'⟩ := h.mem d r' _ hm'
    have he : r' = r := h.root r' r hrr' hrr (by rw [← hdl, hd, hcl])
    subst he
    rw [hcp] at hm'
    constructor
    · intro a b j hj
      have : (a, b, j) ∈ L := by
        rcases List.mem_cons.1 hj with hj | hj
        · rw [hj]; exact hm'
        · exact hj
      obtain ⟨g1, g2, g3, g4, g5, g6, g7⟩ := h.mem a b j this
      exact ⟨g1, g2, g3, g4, g5, g6, List.mem_cons_of_mem _ g7⟩
    · intro a b j hj
      refine h.line_of a b j ?_
      rcases List.mem_cons.1 hj with hj | hj
      · rw [hj]; exact hm'
      · exact hj
    · intro l j e he
      obtain ⟨b, hb, hx⟩ := h.of_line l j e he
      exact ⟨b, List.mem_cons_of_mem _ hb, hx⟩
    · intro a b ha hb
      have aux : ∀ x, (x, x, (0 : ℤ)) ∈ (d, r', k + δ) :: L → (x, x, (0 : ℤ)) ∈ L := by
        intro x hx
        rcases List.mem_cons.1 hx with hx | hx
        · rw [hx]; exact hm'
        · exact hx
      exact h.root a b (aux a ha) (aux b hb)
    · exact h.bound
    · intro a g1 g2
      obtain ⟨b, j, hb⟩ := h.all a g1 g2
      exact ⟨b, j, List.mem_cons_of_mem _ hb⟩
    · exact h.nonneg
    · intro a b j hj
      refine h.val a b j ?_
      rcases List.mem_cons.1 hj with hj | hj
      · rw [hj]; exact hm'
      · exact hj
    · exact h.pos
  | none =>
    rw [decay_miss hl]
    simp only [newDecay]
    have old : ∀ a, a < s.next →
        (if a = s.next then (⟨decayAtoms T (secs * δ) (s.comp c).atom, (s.comp c).prev + δ,
          (s.comp c).line⟩ : Comp) else s.comp a) = s.comp a := by
      intro a ha; rw [if_neg (by omega)]
    have hsδ : 0 ≤ secs * δ := mul_nonneg hs hδ
    have hsk : 0 ≤ secs * k := mul_nonneg hs hk
    constructor
    · intro a b j hj
      simp only at hj ⊢
      rcases List.mem_cons.1 hj with hj | hj
      · simp only [Prod.mk.injEq] at hj
        obtain ⟨rfl, rfl, rfl⟩ := hj
        rw [if_pos rfl, old b hr2]
        refine ⟨h.pos, by omega, by simp [hcp], hcl, by omega, by omega,
          List.mem_cons_of_mem _ hrr⟩
      · obtain ⟨g1, g2, g3, g4, g5, g6, g7⟩ := h.mem a b j hj
        rw [old a g2, old b (h.rmem hj).2]
        exact ⟨g1, by omega, g3, g4, g5, g6, List.mem_cons_of_mem _ g7⟩
    · intro a b j hj hne
      simp only at hj ⊢
      rcases List.mem_cons.1 hj with hj | hj
      · simp only [Prod.mk.injEq] at hj
        obtain ⟨rfl, rfl, rfl⟩ := hj
        rw [if_pos rfl]
        simp [hcp]
      · rw [old a (h.mem a b j hj).2.1]
        have hx := h.line_of a b j hj hne
        rw [if_neg]
        · exact hx
        · rintro ⟨e1, e2⟩
          rw [e1, e2, hl] at hx
          exact absurd hx (by simp)
    · intro l j d hd
      simp only at hd ⊢
      split at hd
      · rename_i e
        simp only [Option.some.injEq] at hd
        subst hd
        refine ⟨r, ?_, by omega, ?_⟩
        · rw [e.2, hcp]; simp
        · rw [if_pos rfl]; exact e.1.symm
      · obtain ⟨b, hb, hne, hx⟩ := h.of_line l j d hd
        refine ⟨b, List.mem_cons_of_mem _ hb, hne, ?_⟩
        rw [old d (h.mem _ _ _ hb).2.1]
        exact hx
    · intro a b ha hb
      simp only
      have aux : ∀ x, (x, x, (0 : ℤ)) ∈ (s.next, r, k + δ) :: L → (x, x, (0 : ℤ)) ∈ L := by
        intro x hx
        rcases List.mem_cons.1 hx with hx | hx
        · simp only [Prod.mk.injEq] at hx
          omega
        · exact hx
      have ha' := aux a ha
      have hb' := aux b hb
      rw [old a (h.mem _ _ _ ha').2.1, old b (h.mem _ _ _ hb').2.1]
      exact h.root a b ha' hb'
    · intro a g1 g2
      simp only at g2 ⊢
      rcases Nat.lt_succ_iff_lt_or_eq.1 g2 with g2 | rfl
      · rw [old a g2]; exact h.bound a g1 g2
      · rw [if_pos rfl]; exact h.bound c hc1 hc2
    · intro a g1 g2
      simp only at g2
      rcases Nat.lt_succ_iff_lt_or_eq.1 g2 with g2 | rfl
      · obtain ⟨b, j, hb⟩ := h.all a g1 g2
        exact ⟨b, j, List.mem_cons_of_mem _ hb⟩
      · exact ⟨r, k + δ, by simp⟩
    · intro a g1 g2
      simp only at g2 ⊢
      rcases Nat.lt_succ_iff_lt_or_eq.1 g2 with g2 | rfl
      · rw [old a g2]; exact h.nonneg a g1 g2
      · rw [if_pos rfl]; exact decayAtoms_nonneg T _ _
    · intro a b j hj hne n
      simp only at hj ⊢
      rcases List.mem_cons.1 hj with hj | hj
      · simp only [Prod.mk.injEq] at hj
        obtain ⟨rfl, rfl, rfl⟩ := hj
        rw [if_pos rfl, old b hr2]
        simp only
        rw [get_decayAtoms hT hsδ (h.nonneg c hc1 hc2)]
        by_cases hcr : c = b
        · subst hcr
          rw [hroot rfl]
          simp
        · rw [after_after hT hsk hsδ (h.val c b k hm hcr), ← mul_add]
      · rw [old a (h.mem a b j hj).2.1, old b (h.rmem hj).2]
        exact h.val a b j hj hne n
    · simp

theorem Run.inv {T : Tables} (hT : Physical T) {secs : ℤ} (hs : 0 ≤ secs) {s : Comps} {L}
    (h : Run T secs s L) : Inv T secs s L := by
  induction h with
  | init => exact Inv.initial T secs
  | create v _ hv ih => exact ih.create v hv
  | decay c r k δ _ hm hδ ih => exact ih.decay hT hs hm hδ

/-- Nothing that exists is changed by a decay. -/
theorem decay_old (T : Tables) (s : Comps) (c : ℕ) (δ secs : ℤ) {a : ℕ} (ha : a < s.next) :
    (decay T s c δ secs).1.comp a = s.comp a ∧ s.next ≤ (decay T s c δ secs).1.next := by
  cases hl : s.line (s.comp c).line ((s.comp c).prev + δ) with
  | some d => rw [decay_hit hl]; simp
  | none =>
    rw [decay_miss hl]
    simp only [newDecay]
    refine ⟨if_neg (by omega), by omega⟩

end Cyclus.Decay
