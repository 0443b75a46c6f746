import Verif.Spec.PyDb
import Verif.Lemmas.PyAgent
import Verif.Lemmas.PyInfile
import Mathlib.Data.List.Forall2
import Mathlib.Tactic.NormNum

/-!
# Lemmas about recording and querying data from Python
-/

namespace Cyclus.PyDb

open InfileGen (Str Ty PyVal Val)
open Spec

theorem cstr_eq (s : Str) : cstr s = upToNull s := rfl

theorem toShape_ok {s : Option (List ℤ)} (h : ShapeOk s) : toShape s = .ok (s.getD []) := by
  cases s with
  | none => rfl
  | some l =>
    rw [toShape, if_pos]
    · rfl
    · rw [List.all_eq_true]
      intro z hz
      have := h l rfl z hz
      norm_num at this
      simp only [decide_eq_true_eq]
      omega

theorem toShape_err {s : Option (List ℤ)} (h : ¬ ShapeOk s) : toShape s = .error .overflow := by
  cases s with
  | none => exact absurd (fun l hl => by cases hl) h
  | some l =>
    rw [toShape, if_neg]
    intro ha
    apply h
    intro l' hl z hz
    cases hl
    have := List.all_eq_true.1 ha z hz
    simp only [decide_eq_true_eq] at this
    norm_num
    omega

/-- An entry holds the value; its name can be read. -/
def Holder (alive : ℕ → Option Str) (lo hi : ℕ) (e : Entry) (p : Put) : Prop :=
  e.field = p.name ∧ e.ty = p.ty ∧ e.val = p.val ∧ e.shape = p.shape ∧
    if p.lasting then ∃ s, e.name = .stays s ∧ cstr s = p.name
    else ∃ a s, e.name = .obj a ∧ lo ≤ a ∧ a < hi ∧ alive a = some s ∧ cstr s = p.name

/-- An entry holds the value; its name can be read only if it lasts. -/
def Waits (hi : ℕ) (e : Entry) (p : Put) : Prop :=
  e.field = p.name ∧ e.ty = p.ty ∧ e.val = p.val ∧ e.shape = p.shape ∧
    if p.lasting then ∃ s, e.name = .stays s ∧ cstr s = p.name else ∃ a, e.name = .obj a ∧ a < hi

theorem addVal_says {a : Add} {p : Put} (h : Says a p) (alive : ℕ → Option Str) (next : ℕ) (fields : List ℕ)
    (es : List Entry) (hf : ∀ k, next ≤ k → alive k = none) :
    ∃ alive' next' fields' e, addVal alive next fields es a = (alive', next', fields', es ++ [e], none) ∧
      Holder alive' next next' e p ∧ next ≤ next' ∧ (∀ k, k < next → alive' k = alive k) ∧
      (∀ k, next' ≤ k → alive' k = none) ∧ (∀ k, next ≤ k → alive' k ≠ none → k ∈ fields') ∧
      ∀ k ∈ fields, k ∈ fields' := by
  cases h with
  | @str s x sh t v hv hs =>
    by_cases hl : s.length ≤ 1
    · refine ⟨alive, next, fields, ⟨.stays s, cstr s, t, v, sh.getD []⟩, ?_, ?_, le_rfl, fun _ _ => rfl,
        hf, fun k hk hn => absurd (hf k hk) hn, fun _ hk => hk⟩
      · simp [addVal, toAny, hv, encode, hl, toShape_ok hs, Ptr.object]
      · simp [Holder, hl, cstr_eq]
    · refine ⟨Function.update alive next (some s), next + 1, fields ++ [next],
        ⟨.obj next, cstr s, t, v, sh.getD []⟩, ?_, ?_, by omega, ?_, ?_, ?_, ?_⟩
      · simp [addVal, toAny, hv, encode, hl, toShape_ok hs, Ptr.object]
      · simp only [Holder, hl, decide_false, Bool.false_eq_true, if_false, true_and, cstr_eq]
        exact ⟨next, s, rfl, le_rfl, by omega, by simp, rfl⟩
      · intro k hk
        rw [Function.update_of_ne (by omega)]
      · intro k hk
        rw [Function.update_of_ne (by omega)]
        exact hf k (by omega)
      · intro k hk hn
        by_cases hkn : k = next
        · simp [hkn]
        · rw [Function.update_of_ne hkn] at hn
          exact absurd (hf k hk) hn
      · intro k hk
        simp [hk]
  | @bytes s x sh t v hv hs =>
    refine ⟨alive, next, fields, ⟨.stays s, cstr s, t, v, sh.getD []⟩, ?_, ?_, le_rfl, fun _ _ => rfl,
      hf, fun k hk hn => absurd (hf k hk) hn, fun _ hk => hk⟩
    · simp [addVal, toAny, hv, encode, toShape_ok hs, Ptr.object]
    · simp [Holder, cstr_eq]

theorem addVal_silent {a : Add} (h : ∀ p, ¬ Says a p) (alive : ℕ → Option Str) (next : ℕ) (fields : List ℕ)
    (es : List Entry) (hf : ∀ k, next ≤ k → alive k = none) :
    ∃ alive' next' fields' e, addVal alive next fields es a = (alive', next', fields', es, some e) ∧
      next ≤ next' ∧ (∀ k, k < next → alive' k = alive k) ∧
      (∀ k, next ≤ k → alive' k ≠ none → k ∈ fields') ∧ ∀ k ∈ fields, k ∈ fields' := by
  have same : ∀ k, next ≤ k → alive k ≠ none → k ∈ fields := fun k hk hn => absurd (hf k hk) hn
  obtain ⟨f, x, sh, t⟩ := a
  cases t with
  | none => exact ⟨alive, next, fields, .type, rfl, le_rfl, fun _ _ => rfl, same, fun _ hk => hk⟩
  | unknown => exact ⟨alive, next, fields, .type, rfl, le_rfl, fun _ _ => rfl, same, fun _ hk => hk⟩
  | known t =>
    cases hv : PyInfile.toCpp t x with
    | error e =>
      exact ⟨alive, next, fields, .conv e, by simp [addVal, toAny, hv], le_rfl, fun _ _ => rfl, same, fun _ hk => hk⟩
    | ok v =>
      cases f with
      | other =>
        exact ⟨alive, next, fields, .value, by simp [addVal, toAny, hv, encode], le_rfl, fun _ _ => rfl, same,
          fun _ hk => hk⟩
      | bytes s =>
        have hs : ¬ ShapeOk sh := fun hs => h _ (.bytes hv hs)
        exact ⟨alive, next, fields, .overflow,
          by simp [addVal, toAny, hv, encode, toShape_err hs, Ptr.object], le_rfl, fun _ _ => rfl, same,
          fun _ hk => hk⟩
      | str s =>
        have hs : ¬ ShapeOk sh := fun hs => h _ (.str hv hs)
        by_cases hl : s.length ≤ 1
        · exact ⟨alive, next, fields, .overflow,
            by simp [addVal, toAny, hv, encode, hl, toShape_err hs, Ptr.object], le_rfl, fun _ _ => rfl, same,
            fun _ hk => hk⟩
        · refine ⟨Function.update alive next (some s), next + 1, fields ++ [next], .overflow,
            by simp [addVal, toAny, hv, encode, hl, toShape_err hs, Ptr.object], by omega, ?_, ?_, ?_⟩
          · intro k hk
            rw [Function.update_of_ne (by omega)]
          · intro k hk hn
            by_cases hkn : k = next
            · simp [hkn]
            · rw [Function.update_of_ne hkn] at hn
              exact absurd (hf k hk) hn
          · intro k hk
            simp [hk]

theorem Holder.mono {alive alive' : ℕ → Option Str} {lo lo' hi hi' : ℕ} {e : Entry} {p : Put}
    (h : Holder alive lo hi e p) (hlo : lo' ≤ lo) (hhi : hi ≤ hi') (ha : ∀ k, k < hi → alive' k = alive k) :
    Holder alive' lo' hi' e p := by
  obtain ⟨h1, h2, h3, h4, h5⟩ := h
  refine ⟨h1, h2, h3, h4, ?_⟩
  split at h5
  · rwa [if_pos ‹_›]
  · rw [if_neg ‹_›]
    obtain ⟨a, s, ha1, ha2, ha3, ha4, ha5⟩ := h5
    exact ⟨a, s, ha1, by omega, by omega, by rw [ha a ha3]; exact ha4, ha5⟩

theorem addVals_spec {as : List Add} {ps : List Put} {b : Bool} (h : AllSay as ps b) :
    ∀ (alive : ℕ → Option Str) (next : ℕ) (fields : List ℕ) (es : List Entry),
    (∀ k, next ≤ k → alive k = none) →
    ∃ alive' next' fields' es' x, addVals alive next fields es as = (alive', next', fields', es ++ es', x) ∧
      List.Forall₂ (Holder alive' next next') es' ps ∧ (x = none ↔ b = true) ∧ next ≤ next' ∧
      (∀ k, k < next → alive' k = alive k) ∧ (∀ k, next ≤ k → alive' k ≠ none → k ∈ fields') ∧
      ∀ k ∈ fields, k ∈ fields' := by
  induction h with
  | nil =>
    intro alive next fields es hf
    exact ⟨alive, next, fields, [], none, by simp [addVals], .nil, by simp, le_rfl, fun _ _ => rfl,
      fun k hk hn => absurd (hf k hk) hn, fun _ hk => hk⟩
  | @cons a p as ps b hp _ ih =>
    intro alive next fields es hf
    obtain ⟨alive1, next1, fields1, e, h1, hH, hn1, ha1, hf1, hm1, hs1⟩ := addVal_says hp alive next fields es hf
    obtain ⟨alive2, next2, fields2, es', x, h2, hF, hx, hn2, ha2, hm2, hs2⟩ := ih alive1 next1 fields1 (es ++ [e]) hf1
    refine ⟨alive2, next2, fields2, e :: es', x, ?_, ?_, hx, by omega, ?_, ?_, fun k hk => hs2 k (hs1 k hk)⟩
    · rw [addVals, h1]
      simp only
      rw [h2]
      simp
    · refine .cons (hH.mono le_rfl hn2 ha2) (hF.imp fun e p hep => hep.mono hn1 le_rfl fun _ _ => rfl)
    · intro k hk
      rw [ha2 k (by omega), ha1 k hk]
    · intro k hk hn
      by_cases hk1 : k < next1
      · rw [ha2 k hk1] at hn
        exact hs2 k (hm1 k hk hn)
      · exact hm2 k (by omega) hn
  | @stop a as hp =>
    intro alive next fields es hf
    obtain ⟨alive1, next1, fields1, e, h1, hn1, ha1, hm1, hs1⟩ := addVal_silent hp alive next fields es hf
    refine ⟨alive1, next1, fields1, [], some e, ?_, .nil, by simp, hn1, ha1, hm1, hs1⟩
    rw [addVals, h1]
    simp

theorem Holder.read {alive : ℕ → Option Str} {lo hi : ℕ} {e : Entry} {p : Put} (h : Holder alive lo hi e p) :
    e.read alive = cell true p := by
  obtain ⟨h1, h2, h3, h4, h5⟩ := h
  unfold Entry.read cell
  rw [h1, h2, h3, h4]
  split at h5
  · obtain ⟨s, hs, hp⟩ := h5
    simp [hs, hp]
  · obtain ⟨a, s, ha, -, -, hal, hp⟩ := h5
    simp [ha, hal, hp]

theorem Holder.waits {alive : ℕ → Option Str} {lo hi : ℕ} {e : Entry} {p : Put} (h : Holder alive lo hi e p) :
    Waits hi e p := by
  obtain ⟨h1, h2, h3, h4, h5⟩ := h
  refine ⟨h1, h2, h3, h4, ?_⟩
  split at h5
  · rwa [if_pos ‹_›]
  · rw [if_neg ‹_›]
    obtain ⟨a, s, ha, -, hhi, -, -⟩ := h5
    exact ⟨a, ha, hhi⟩

theorem Waits.read {alive : ℕ → Option Str} {hi : ℕ} {e : Entry} {p : Put} (h : Waits hi e p)
    (ha : ∀ k, k < hi → alive k = none) : e.read alive = cell false p := by
  obtain ⟨h1, h2, h3, h4, h5⟩ := h
  unfold Entry.read cell
  rw [h1, h2, h3, h4]
  split at h5
  · obtain ⟨s, hs, hp⟩ := h5
    simp [hs, hp, ‹p.lasting = true›]
  · obtain ⟨a, hn, hlt⟩ := h5
    have : p.lasting = false := by simpa using ‹¬ p.lasting = true›
    simp [hn, ha a hlt, this]

theorem Waits.mono {hi hi' : ℕ} {e : Entry} {p : Put} (h : Waits hi e p) (hh : hi ≤ hi') : Waits hi' e p := by
  obtain ⟨h1, h2, h3, h4, h5⟩ := h
  refine ⟨h1, h2, h3, h4, ?_⟩
  split at h5
  · rwa [if_pos ‹_›]
  · rw [if_neg ‹_›]
    obtain ⟨a, ha, hlt⟩ := h5
    exact ⟨a, ha, by omega⟩

/-- A slot holds a datum that waits. -/
def Holds' (base : List Entry) (hi : ℕ) (s : Slot) (d : Str × List Put) : Prop :=
  s.title = d.1 ∧ ∃ es, s.entries = base ++ es ∧ List.Forall₂ (Waits hi) es d.2

/-- What every datum starts with lasts. -/
def Static (base : List Entry) : Prop := ∀ e ∈ base, ∃ s, e.name = .stays s

/-- The cells of what every datum starts with. -/
def baseCells (base : List Entry) : List Cell := base.map (Entry.read fun _ => none)

theorem static_read {base : List Entry} (h : Static base) (alive : ℕ → Option Str) :
    base.map (Entry.read alive) = baseCells base := by
  refine List.map_congr_left fun e he => ?_
  obtain ⟨s, hs⟩ := h e he
  simp [Entry.read, hs]

theorem forall₂_map {α β γ : Type} {R : α → β → Prop} {f : α → γ} {g : β → γ} (h : ∀ a b, R a b → f a = g b) :
    ∀ {l : List α} {m : List β}, List.Forall₂ R l m → l.map f = m.map g
  | _, _, .nil => rfl
  | _, _, .cons h1 h2 => by rw [List.map_cons, List.map_cons, h _ _ h1, forall₂_map h h2]

theorem Holds'.read {base : List Entry} (hb : Static base) {hi : ℕ} {s : Slot} {d : Str × List Put}
    (h : Holds' base hi s d) {alive : ℕ → Option Str} (ha : ∀ k, k < hi → alive k = none) :
    s.read alive = row (baseCells base) false d := by
  obtain ⟨ht, es, he, hF⟩ := h
  unfold Slot.read row
  rw [ht, he, List.map_append, static_read hb, forall₂_map (fun e p hep => hep.read ha) hF]

/-- Between the data. -/
structure Rel (base : List Entry) (n : ℕ) (s : St) (w : List (Str × List Put)) : Prop where
  len : s.slots.length = n
  index : s.index = w.length
  le : w.length ≤ n
  dead : ∀ k, s.alive k = none
  waits : List.Forall₂ (Holds' base s.next) (s.slots.take w.length) w

theorem flush_spec {base : List Entry} (hb : Static base) {n : ℕ} {s : St} {w : List (Str × List Put)}
    (h : Rel base n s w) : (flush s).got = s.got ++ w.map (row (baseCells base) false) ∧
      Rel base n (flush s) [] := by
  have hread := forall₂_map (R := Holds' base s.next) (f := Slot.read s.alive) (g := row (baseCells base) false)
    (fun x d hx => Holds'.read hb hx (alive := s.alive) fun k _ => h.dead k) h.waits
  unfold flush
  split
  · rename_i h0
    have hw : w = [] := by
      rw [h.index] at h0
      exact List.length_eq_zero_iff.1 h0
    subst hw
    exact ⟨by simp, h⟩
  · refine ⟨?_, h.len, rfl, Nat.zero_le _, h.dead, by simp⟩
    simp only
    rw [h.index, hread]

theorem datum_spec {base : List Entry} (hb : Static base) {n : ℕ} {s : St} {w : List (Str × List Put)}
    (h : Rel base n s w) (hw : w.length < n) (t : Str) {adds : List Add} {ps : List Put} {b : Bool}
    (ha : AllSay adds ps b) : ∃ s' x, datum base s t adds = some (s', x) ∧ (x = none ↔ b = true) ∧
      ((b = true ∧ w.length + 1 = n) → s'.got = s.got ++ (w.map (row (baseCells base) false) ++
        [row (baseCells base) true (t, ps)]) ∧ Rel base n s' []) ∧
      (¬ (b = true ∧ w.length + 1 = n) → s'.got = s.got ∧ Rel base n s' (w ++ [(t, ps)])) := by
  obtain ⟨alive, next, fields, es, x, h1, hF, hx, hn, hal, hm, -⟩ :=
    addVals_spec ha s.alive s.next [] base (fun k _ => h.dead k)
  have hlt : s.index < s.slots.length := by rw [h.index, h.len]; exact hw
  have hdead : ∀ k, release fields alive k = none := by
    intro k
    unfold release
    split
    · rfl
    · rename_i hk
      by_contra hne
      by_cases hks : k < s.next
      · rw [hal k hks] at hne
        exact hne (h.dead k)
      · exact hk (hm k (by omega) hne)
  have htake : (s.slots.set s.index ⟨t, base ++ es⟩).take (w.length + 1) =
      s.slots.take w.length ++ [⟨t, base ++ es⟩] := by
    rw [h.index, List.take_set, List.take_succ_eq_append_getElem (by rw [h.len]; exact hw),
      List.set_append_right _ _ (by simp)]
    simp [h.len, Nat.min_eq_left (le_of_lt hw)]
  have hrel : Rel base n
      ⟨s.slots.set s.index ⟨t, base ++ es⟩, s.index + 1, release fields alive, next, s.got⟩ (w ++ [(t, ps)]) := by
    refine ⟨by simp [h.len], by simp [h.index], by simp; omega, hdead, ?_⟩
    simp only [List.length_append, List.length_cons, List.length_nil, Nat.zero_add]
    rw [htake]
    refine List.rel_append ?_ (.cons ?_ .nil)
    · exact h.waits.imp fun sl d hsd => ⟨hsd.1, hsd.2.imp fun es he => ⟨he.1, he.2.imp fun e p hep => hep.mono hn⟩⟩
    · exact ⟨rfl, es, rfl, hF.imp fun e p hep => hep.waits⟩
  unfold datum
  rw [if_pos hlt, h1]
  simp only
  refine ⟨_, _, rfl, hx, ?_, ?_⟩
  · rintro ⟨hbt, hfull⟩
    have hxn : x = none := hx.2 hbt
    subst hxn
    have hge : s.index + 1 ≥ (s.slots.set s.index ⟨t, base ++ es⟩).length := by
      rw [List.length_set, h.index, h.len]
      omega
    simp only [record, hge, if_true]
    have hall : s.slots.set s.index ⟨t, base ++ es⟩ = s.slots.take w.length ++ [⟨t, base ++ es⟩] := by
      rw [← htake, List.take_of_length_le]
      rw [List.length_set, h.len]
      omega
    refine ⟨?_, by simp [h.len], rfl, Nat.zero_le _, hdead, by simp⟩
    rw [hall, List.map_append]
    have h2 : (s.slots.take w.length).map (Slot.read alive) = w.map (row (baseCells base) false) :=
      forall₂_map (R := Holds' base s.next) (fun x d hx => Holds'.read hb hx (alive := alive) fun k hk => by
        rw [hal k hk]; exact h.dead k) h.waits
    rw [h2]
    congr 2
    simp only [List.map_cons, List.map_nil, Slot.read, row]
    rw [List.map_append, static_read hb, forall₂_map (fun e p hep => hep.read) hF]
  · intro hnf
    cases x with
    | some e => exact ⟨rfl, hrel⟩
    | none =>
      have hbt : b = true := hx.1 rfl
      have hne : w.length + 1 ≠ n := fun he => hnf ⟨hbt, he⟩
      have hlt' : ¬ s.index + 1 ≥ (s.slots.set s.index ⟨t, base ++ es⟩).length := by
        rw [List.length_set, h.index, h.len]
        omega
      simp only [record, hlt', if_false]
      exact ⟨trivial, hrel⟩

theorem run_spec {base : List Entry} (hb : Static base) {n : ℕ} {w : List (Str × List Put)} {as : List Act}
    {r : Option (List Row)} (hg : Gets n (baseCells base) w as r) : ∀ {s : St}, Rel base n s w →
    (run base s as).map St.got = r.map (s.got ++ ·) := by
  induction hg with
  | done => intro s _; simp [run]
  | @flush w as r hg ih =>
    intro s h
    obtain ⟨h1, h2⟩ := flush_spec hb h
    rw [run, ih h2, h1]
    cases r <;> simp
  | @full w t adds as ps r ha hn _ ih =>
    intro s h
    obtain ⟨s', x, h1, -, h2, -⟩ := datum_spec hb h (by omega) t ha
    obtain ⟨h3, h4⟩ := h2 ⟨rfl, hn⟩
    rw [run, h1]
    simp only
    rw [ih h4, h3]
    cases r <;> simp
  | @wait w t adds as ps r ha hn _ ih =>
    intro s h
    obtain ⟨s', x, h1, -, -, h2⟩ := datum_spec hb h (by omega) t ha
    obtain ⟨h3, h4⟩ := h2 (by omega)
    rw [run, h1]
    simp only
    rw [ih h4, h3]
  | @broken w t adds as ps r ha hn _ ih =>
    intro s h
    obtain ⟨s', x, h1, -, -, h2⟩ := datum_spec hb h (by omega) t ha
    obtain ⟨h3, h4⟩ := h2 (by simp)
    rw [run, h1]
    simp only
    rw [ih h4, h3]
  | @beyond w t adds as hn =>
    intro s h
    have : datum base s t adds = none := by
      unfold datum
      rw [if_neg]
      rw [h.index, h.len]
      omega
    rw [run, this]
    simp

theorem start_rel (base : List Entry) (n : ℕ) : Rel base n (start n) [] :=
  ⟨by simp [start], rfl, Nat.zero_le _, fun _ => rfl, by simp⟩

/-- What the calls say is determined. -/
theorem allSay_total : ∀ as : List Add, ∃ ps b, AllSay as ps b
  | [] => ⟨[], true, .nil⟩
  | a :: as => by
    by_cases h : ∃ p, Says a p
    · obtain ⟨p, hp⟩ := h
      obtain ⟨ps, b, ih⟩ := allSay_total as
      exact ⟨p :: ps, b, .cons hp ih⟩
    · exact ⟨[], false, .stop fun p hp => h ⟨p, hp⟩⟩

theorem gets_total (n : ℕ) (base : List Cell) : ∀ (as : List Act) (w : List (Str × List Put)),
    ∃ r, Gets n base w as r
  | [], w => ⟨_, .done⟩
  | .flush :: as, w => by
    obtain ⟨r, hr⟩ := gets_total n base as []
    exact ⟨_, .flush hr⟩
  | .datum t adds :: as, w => by
    obtain ⟨ps, b, hp⟩ := allSay_total adds
    by_cases hn : n ≤ w.length
    · exact ⟨none, .beyond hn⟩
    · cases b with
      | false =>
        obtain ⟨r, hr⟩ := gets_total n base as (w ++ [(t, ps)])
        exact ⟨r, .broken hp (by omega) hr⟩
      | true =>
        by_cases he : w.length + 1 = n
        · obtain ⟨r, hr⟩ := gets_total n base as []
          exact ⟨_, .full hp he hr⟩
        · obtain ⟨r, hr⟩ := gets_total n base as (w ++ [(t, ps)])
          exact ⟨r, .wait hp (by omega) hr⟩

theorem base_static (sim : Option Val) : Static (baseOf sim) := by
  cases sim with
  | none => intro e he; cases he
  | some u =>
    intro e he
    rw [baseOf, List.mem_singleton] at he
    subst he
    exact ⟨_, rfl⟩

theorem base_cells (sim : Option Val) : baseCells (baseOf sim) = simCells sim := by
  cases sim <;> rfl

theorem run_rel {base : List Entry} (hb : Static base) {n : ℕ} : ∀ {as : List Act} {s s' : St}
    {w : List (Str × List Put)}, Rel base n s w → run base s as = some s' → ∃ w', Rel base n s' w'
  | [], s, s', w, h, hr => by
    cases hr
    exact ⟨w, h⟩
  | .flush :: as, s, s', w, h, hr => run_rel hb (flush_spec hb h).2 hr
  | .datum t adds :: as, s, s', w, h, hr => by
    rw [run] at hr
    by_cases hw : w.length < n
    · obtain ⟨ps, b, ha⟩ := allSay_total adds
      obtain ⟨s1, x, h1, -, h2, h3⟩ := datum_spec hb h hw t ha
      rw [h1] at hr
      by_cases hc : b = true ∧ w.length + 1 = n
      · exact run_rel hb (h2 hc).2 hr
      · exact run_rel hb (h3 hc).2 hr
    · have : datum base s t adds = none := by
        unfold datum
        rw [if_neg]
        rw [h.index, h.len]
        omega
      rw [this] at hr
      cases hr

theorem says_det {a : Add} {p q : Put} (h : Says a p) (h' : Says a q) : p = q := by
  cases h with
  | str h1 _ =>
    cases h' with
    | str h2 _ =>
      rw [h1] at h2
      cases h2
      rfl
  | bytes h1 _ =>
    cases h' with
    | bytes h2 _ =>
      rw [h1] at h2
      cases h2
      rfl

theorem allSay_det {as : List Add} {ps qs : List Put} {b c : Bool} (h : AllSay as ps b) (h' : AllSay as qs c) :
    ps = qs ∧ b = c := by
  induction h generalizing qs c with
  | nil => cases h'; exact ⟨rfl, rfl⟩
  | cons h1 _ ih =>
    cases h' with
    | cons h2 h3 =>
      obtain ⟨rfl, rfl⟩ := ih h3
      rw [says_det h1 h2]
      exact ⟨rfl, rfl⟩
    | stop h2 => exact absurd h1 (h2 _)
  | stop h1 =>
    cases h' with
    | cons h2 _ => exact absurd h2 (h1 _)
    | stop _ => exact ⟨rfl, rfl⟩

theorem data_gets {n : ℕ} (hn : 0 < n) (base : List Cell) {as : List Act} {ds : List (Str × List Put)}
    (h : Data as ds) : ∀ {w : List (Str × List Put)}, w.length < n → ∃ rows,
      Gets n base w (as ++ [.flush]) (some rows) ∧
      List.Forall₂ (fun r d => r = row base true d ∨ r = row base false d) rows (w ++ ds) := by
  have late : ∀ w : List (Str × List Put),
      List.Forall₂ (fun r d => r = row base true d ∨ r = row base false d) (w.map (row base false)) w := by
    intro w
    induction w with
    | nil => exact .nil
    | cons d w ih => exact .cons (.inr rfl) ih
  induction h with
  | nil =>
    intro w _
    refine ⟨w.map (row base false) ++ [], .flush (r := some []) .done, ?_⟩
    simpa using late w
  | @flush as ds _ ih =>
    intro w _
    obtain ⟨rows, hg, hF⟩ := ih (w := []) hn
    exact ⟨_, .flush hg, List.rel_append (late w) hF⟩
  | @datum t adds as ps ds ha _ ih =>
    intro w hw
    by_cases he : w.length + 1 = n
    · obtain ⟨rows, hg, hF⟩ := ih (w := []) hn
      refine ⟨_, .full ha he hg, ?_⟩
      have : w ++ (t, ps) :: ds = (w ++ [(t, ps)]) ++ ds := by simp
      rw [this]
      exact List.rel_append (List.rel_append (late w) (.cons (.inl rfl) .nil)) hF
    · obtain ⟨rows, hg, hF⟩ := ih (w := w ++ [(t, ps)]) (by simp; omega)
      refine ⟨rows, .wait ha (by omega) hg, ?_⟩
      have : w ++ (t, ps) :: ds = (w ++ [(t, ps)]) ++ ds := by simp
      rw [this]
      exact hF

/-! ## Queries -/

theorem parse_iff (s : Str) (op : Op) : Op.parse s = some op ↔ s = written op := by
  unfold Op.parse
  constructor
  · intro h
    split_ifs at h <;> cases h <;> simp_all [written]
  · rintro rfl
    cases op <;> rfl

theorem lookup_some {β : Type} : ∀ {l : List (Str × β)}, (l.map Prod.fst).Nodup → ∀ {k : Str} {b : β},
    (k, b) ∈ l → l.lookup k = some b
  | [], _, _, _, h => by cases h
  | (k', b') :: l, hn, k, b, h => by
    rw [List.map_cons, List.nodup_cons] at hn
    rcases List.mem_cons.1 h with h1 | h1
    · cases h1
      simp
    · have hne : k ≠ k' := fun e => hn.1 (e ▸ List.mem_map.2 ⟨_, h1, rfl⟩)
      rw [List.lookup_cons, (by simpa using hne : (k == k') = false)]
      exact lookup_some hn.2 h1

theorem lookup_mem {β : Type} : ∀ {l : List (Str × β)} {k : Str} {b : β}, l.lookup k = some b → (k, b) ∈ l
  | [], _, _, h => by cases h
  | (k', b') :: l, k, b, h => by
    rw [List.lookup_cons] at h
    by_cases hk : k = k'
    · subst hk
      simp at h
      simp [h]
    · rw [(by simpa using hk : (k == k') = false)] at h
      exact List.mem_cons_of_mem _ (lookup_mem h)

/-- What C++ gets of the conditions. -/
theorem conds_ok {t : Table} (ht : Regular t) : ∀ {cs : List (Str × Str × PyVal)}, (∀ c ∈ cs, Sense t c) →
    ∃ ds, conds t cs = .ok ds ∧ ∀ f op w, (f, op, w) ∈ ds ↔
      ∃ c ∈ cs, ∃ ty, (upToNull c.1, ty) ∈ t.cols ∧ f = upToNull c.1 ∧ c.2.1 = written op ∧
        PyInfile.toCpp ty c.2.2 = .ok w
  | [], _ => ⟨[], rfl, by simp⟩
  | (f, o, x) :: cs, h => by
    obtain ⟨ds, hd, hm⟩ := conds_ok ht fun c hc => h c (List.mem_cons_of_mem _ hc)
    rw [conds]
    cases hl : t.cols.lookup (cstr f) with
    | none =>
      refine ⟨ds, hd, fun f' op w => (hm f' op w).trans ?_⟩
      constructor
      · rintro ⟨c, hc, r⟩
        exact ⟨c, List.mem_cons_of_mem _ hc, r⟩
      · rintro ⟨c, hc, ty, hty, r⟩
        rcases List.mem_cons.1 hc with rfl | hc
        · have := lookup_some ht.names hty
          rw [cstr_eq] at hl
          rw [hl] at this
          cases this
        · exact ⟨c, hc, ty, hty, r⟩
    | some ty =>
      have hmem := lookup_mem hl
      obtain ⟨⟨op, ho⟩, w, hw⟩ := h _ (List.mem_cons_self) ty hmem
      simp only at ho hw
      simp only [hw, (parse_iff o op).2 ho, hd]
      refine ⟨_, rfl, fun f' op' w' => ?_⟩
      rw [List.mem_cons, hm]
      constructor
      · rintro (he | ⟨c, hc, r⟩)
        · cases he
          exact ⟨_, List.mem_cons_self, ty, hmem, rfl, ho, hw⟩
        · exact ⟨c, List.mem_cons_of_mem _ hc, r⟩
      · rintro ⟨c, hc, ty', hty, hf, ho', hw'⟩
        rcases List.mem_cons.1 hc with rfl | hc
        · left
          simp only at hf ho' hw'
          have h1 := lookup_some ht.names hty
          simp only at h1
          rw [cstr_eq] at hl
          rw [hl] at h1
          cases h1
          rw [hw] at hw'
          cases hw'
          have h2 := (parse_iff o op').2 ho'
          rw [(parse_iff o op).2 ho] at h2
          cases h2
          rw [hf, cstr_eq]
        · exact .inr ⟨c, hc, ty', hty, hf, ho', hw'⟩

theorem conds_err {t : Table} (ht : Regular t) : ∀ {cs : List (Str × Str × PyVal)}, (∃ c ∈ cs, ¬ Sense t c) →
    ∃ e, conds t cs = .error e
  | [], h => by
    obtain ⟨c, hc, -⟩ := h
    cases hc
  | (f, o, x) :: cs, h => by
    rw [conds]
    cases hl : t.cols.lookup (cstr f) with
    | none =>
      refine conds_err ht ?_
      obtain ⟨c, hc, hs⟩ := h
      rcases List.mem_cons.1 hc with rfl | hc
      · refine absurd (fun ty hty => ?_) hs
        have := lookup_some ht.names hty
        rw [cstr_eq] at hl
        simp only at this
        rw [hl] at this
        cases this
      · exact ⟨c, hc, hs⟩
    | some ty =>
      simp only
      cases hw : PyInfile.toCpp ty x with
      | error e => exact ⟨_, rfl⟩
      | ok w =>
        simp only
        cases ho : Op.parse o with
        | none => exact ⟨_, rfl⟩
        | some op =>
          simp only
          obtain ⟨c, hc, hs⟩ := h
          rcases List.mem_cons.1 hc with rfl | hc
          · refine absurd (fun ty' hty => ?_) hs
            have := lookup_some ht.names hty
            rw [cstr_eq] at hl
            simp only at this
            rw [hl] at this
            cases this
            exact ⟨⟨op, (parse_iff o op).1 ho⟩, w, hw⟩
          · obtain ⟨e, he⟩ := conds_err ht ⟨c, hc, hs⟩
            exact ⟨e, by rw [he]⟩

theorem zip_lookup {l : List (Str × Ty)} (hn : (l.map Prod.fst).Nodup) {r : List Val} (hr : r.length = l.length)
    {f : Str} {v : Val} : ((l.map Prod.fst).zip r).lookup f = some v ↔
      ∃ (j : ℕ) (ty : Ty), l[j]? = some (f, ty) ∧ r[j]? = some v := by
  have hz : (((l.map Prod.fst).zip r).map Prod.fst).Nodup := by
    rw [List.map_fst_zip (by simp [hr])]
    exact hn
  constructor
  · intro h
    obtain ⟨j, hj, he⟩ := List.mem_iff_getElem.1 (lookup_mem h)
    rw [List.length_zip, List.length_map] at hj
    rw [List.getElem_zip, List.getElem_map] at he
    cases he
    exact ⟨j, (l[j]'(by omega)).2, by rw [List.getElem?_eq_getElem (by omega)],
      by rw [List.getElem?_eq_getElem (by omega)]⟩
  · rintro ⟨j, ty, h1, h2⟩
    refine lookup_some hz ?_
    rw [List.getElem?_eq_some_iff] at h1 h2
    obtain ⟨hj, h1⟩ := h1
    obtain ⟨hj', h2⟩ := h2
    refine List.mem_iff_getElem.2 ⟨j, by rw [List.length_zip, List.length_map]; omega, ?_⟩
    rw [List.getElem_zip, List.getElem_map, h1, h2]

/-- The rows selected are those for which the conditions hold. -/
theorem select_iff (cmp : Op → Val → Val → Bool) {t : Table} (ht : Regular t) {cs : List (Str × Str × PyVal)}
    (hs : ∀ c ∈ cs, Sense t c) {ds : List (Str × Op × Val)} (hd : ∀ f op w, (f, op, w) ∈ ds ↔
      ∃ c ∈ cs, ∃ ty, (upToNull c.1, ty) ∈ t.cols ∧ f = upToNull c.1 ∧ c.2.1 = written op ∧
        PyInfile.toCpp ty c.2.2 = .ok w) {r : List Val} (hr : r ∈ t.rows) :
    (ds.all fun c => match ((t.cols.map Prod.fst).zip r).lookup c.1 with
      | some v => cmp c.2.1 v c.2.2
      | none => false) = true ↔ ∀ c ∈ cs, Holds cmp t r c := by
  rw [List.all_eq_true]
  have hlen := ht.rows r hr
  constructor
  · intro h c hc j ty v hj hv
    have hmem : (upToNull c.1, ty) ∈ t.cols := List.mem_of_getElem? hj
    obtain ⟨⟨op, ho⟩, w, hw⟩ := hs c hc ty hmem
    have := h _ ((hd (upToNull c.1) op w).2 ⟨c, hc, ty, hmem, rfl, ho, hw⟩)
    simp only [(zip_lookup ht.names hlen).2 ⟨j, ty, hj, hv⟩] at this
    exact ⟨op, w, ho, hw, this⟩
  · rintro h ⟨f, op, w⟩ hm
    obtain ⟨c, hc, ty, hmem, rfl, ho, hw⟩ := (hd f op w).1 hm
    obtain ⟨j, hj, he⟩ := List.mem_iff_getElem.1 hmem
    have hj1 : t.cols[j]? = some (upToNull c.1, ty) := by rw [List.getElem?_eq_getElem hj, he]
    have hj2 : r[j]? = some (r[j]'(by omega)) := List.getElem?_eq_getElem (by omega)
    obtain ⟨op', w', ho', hw', hcmp⟩ := h c hc j ty _ hj1 hj2
    simp only [(zip_lookup ht.names hlen).2 ⟨j, ty, hj1, hj2⟩]
    rw [hw] at hw'
    cases hw'
    have h2 := (parse_iff _ op').2 ho'
    rw [(parse_iff _ op).2 ho] at h2
    cases h2
    exact hcmp

theorem column_spec {rows : List (List Val)} {j : ℕ} (h : ∀ r ∈ rows, j < r.length) :
    List.Forall₂ (fun (r : List Val) x => ∃ v, r[j]? = some v ∧ x = PyAgent.toPy v) rows (column rows j) := by
  induction rows with
  | nil => exact .nil
  | cons r rows ih =>
    have hr : r[j]? = some (r[j]'(h r List.mem_cons_self)) := List.getElem?_eq_getElem _
    unfold column at ih ⊢
    rw [List.filterMap_cons, hr]
    exact .cons ⟨_, hr, rfl⟩ (ih fun r' hr' => h r' (List.mem_cons_of_mem _ hr'))

/-- What is read denotes what there is. -/
theorem denotes_toPy : ∀ (t : Ty) (d : PyVal) (v : Val), PyInfile.Denotes t d v →
    PyInfile.Denotes t (PyAgent.toPy v) v
  | .prim p, d, v, h => by
    cases p with
    | bool => obtain ⟨b, -, rfl⟩ := h; exact ⟨b, rfl, rfl⟩
    | int => obtain ⟨z, -, h1, h2, rfl⟩ := h; exact ⟨z, rfl, h1, h2, rfl⟩
    | float => obtain ⟨q, -, rfl⟩ := h; exact ⟨q, .inl rfl, rfl⟩
    | double => obtain ⟨q, -, rfl⟩ := h; exact ⟨q, .inl rfl, rfl⟩
    | string => obtain ⟨s, -, h1, rfl⟩ := h; exact ⟨s, rfl, h1, rfl⟩
    | blob => exact h.elim
    | uuid => exact h.elim
  | .seq k e, d, v, h => by
    obtain ⟨l, vs, -, hF, rfl⟩ := h
    refine ⟨PyAgent.toPyList vs, vs, rfl, ?_, rfl⟩
    clear d
    induction hF with
    | nil => exact .nil
    | cons h1 _ ih => exact .cons (denotes_toPy e _ _ h1) ih
  | .pair a b, d, v, h => by
    obtain ⟨x, y, va, vb, -, h1, h2, rfl⟩ := h
    exact ⟨_, _, va, vb, rfl, denotes_toPy a _ _ h1, denotes_toPy b _ _ h2, rfl⟩
  | .map k w, d, v, h => by
    obtain ⟨l, vs, -, hF, rfl⟩ := h
    refine ⟨PyAgent.toPyItems vs, vs, rfl, ?_, rfl⟩
    clear d
    induction hF with
    | nil => exact .nil
    | cons h1 _ ih => exact .cons ⟨denotes_toPy k _ _ h1.1, denotes_toPy w _ _ h1.2⟩ ih

end Cyclus.PyDb
