import Verif.Spec.DynMod
import Verif.Props.Discovery
import Verif.Props.Loader
import Mathlib.Data.List.Perm.Basic
import Mathlib.Data.List.Dedup
import Mathlib.Data.List.Perm.Subperm

/-!
# Lemmas about modules
-/

namespace Cyclus.DynMod

open Load (Spec)

variable {κ : Type}

theorem str_inj {p q : Spec} (hp : Plain p) (hq : Plain q) (h : p.str = q.str) :
    p.path = q.path ∧ p.lib = q.lib ∧ p.agent = q.agent := by
  have h1 := Load.C36_roundtrip (s := p) hp.1 hp.2.1 hp.2.2
  have h2 := Load.C36_roundtrip (s := q) hq.1 hq.2.1 hq.2.2
  rw [h, h2] at h1
  injection h1 with h1
  injection h1 with a b c d
  exact ⟨a.symm, b.symm, c.symm⟩

theorem found_congr {w : World κ} {p q : Spec} (h1 : p.path = q.path) (h2 : p.lib = q.lib) {f : Txt}
    (h : Found w p f) : Found w q f := by
  have he : fileOf w p = fileOf w q := by rw [fileOf, fileOf, h1, h2]
  cases h with
  | file a b c => rw [he] at b c ⊢; exact .file a b c
  | python a b c => rw [he] at a; rw [h2] at b c ⊢; exact .python a b c

theorem findIn_at {ex : Txt → Bool} {join : Txt → Txt → Txt} {path d : Txt} {b : List Txt} :
    ∀ a : List Txt, (∀ x ∈ a, ex (join x path) = false) → ex (join d path) = true →
      Discovery.findIn ex join path (a ++ d :: b) = some (join d path)
  | [], _, h => by simp [Discovery.findIn, h]
  | x :: a, ha, h => by
    rw [List.cons_append, Discovery.findIn, if_neg (by simp [ha x (by simp)])]
    exact findIn_at a (fun y hy => ha y (by simp [hy])) h

theorem find_found {w : World κ} {p : Spec} {f : Txt} :
    Discovery.findModule w.ex w.join w.py w.dirs (libPath w p) p.lib = .ok f ↔ Found w p f := by
  obtain ⟨f1, f2⟩ := Discovery.findIn_spec (ex := w.ex) (join := w.join) (path := libPath w p) w.dirs
  constructor
  · intro h
    rw [Discovery.findModule] at h
    cases hf : Discovery.findIn w.ex w.join (libPath w p) w.dirs with
    | some g =>
      rw [hf] at h
      obtain ⟨a, d, b, e, g1, g2, g3⟩ := f1 g hf
      injection h with h
      subst h g1
      exact .file e g3 g2
    | none =>
      rw [hf] at h
      dsimp only at h
      split at h
      · rename_i hc
        injection h with h
        subst h
        simp only [Bool.and_eq_true, Bool.not_eq_true', List.isEmpty_eq_false_iff] at hc
        exact .python (f2.1 hf) hc.1 hc.2
      · cases h
  · intro h
    rw [Discovery.findModule]
    cases h with
    | file a b c =>
      rw [a, findIn_at (path := libPath w p) _ b c]
      rfl
    | python a b c =>
      rw [f2.2 a]
      dsimp only
      rw [if_pos (by simp [b, c])]

theorem found_unique {w : World κ} {p : Spec} {f g : Txt} (h : Found w p f) (h' : Found w p g) : f = g := by
  have a := find_found.2 h
  rw [find_found.2 h'] at a
  injection a with a
  exact a.symm

theorem isPy_iff (f : Txt) : isPy f = true ↔ PyPath f := by
  rw [isPy, List.isPrefixOf_iff_prefix]
  rfl

theorem construct_python {w : World κ} {p : Spec} {f : Txt} {r : Txt → ℕ} (h : Found w p f) (hp : PyPath f) :
    construct w r p = (.ok ⟨f, none, none⟩, r) := by
  rw [construct, find_found.2 h]
  dsimp only
  rw [if_pos ((isPy_iff f).2 hp)]

theorem construct_opened {w : World κ} {p : Spec} {f : Txt} {c : κ} {r : Txt → ℕ} (h : Opened w p f) (hc : entry w p f = some c) :
    construct w r p = (.ok ⟨f, some f, some c⟩, bump r f) := by
  rw [construct, find_found.2 h.1]
  dsimp only
  rw [if_neg (fun e => h.2.1 ((isPy_iff f).1 e)), if_pos h.2.2]
  rw [entry] at hc
  rw [hc]

theorem construct_absent {w : World κ} {p : Spec} {f : Txt} {r : Txt → ℕ} (h : Opened w p f) (hc : entry w p f = none) :
    construct w r p = (.error .io, bump r f) := by
  rw [construct, find_found.2 h.1]
  dsimp only
  rw [if_neg (fun e => h.2.1 ((isPy_iff f).1 e)), if_pos h.2.2]
  rw [entry] at hc
  rw [hc]

theorem construct_none {w : World κ} {p : Spec} {r : Txt → ℕ} (h : ∀ f, Found w p f → ¬ PyPath f ∧ w.opens f = false) :
    construct w r p = (.error .io, r) := by
  rw [construct]
  cases hf : Discovery.findModule w.ex w.join w.py w.dirs (libPath w p) p.lib with
  | error e => rfl
  | ok f =>
    obtain ⟨h1, h2⟩ := h f (find_found.1 hf)
    dsimp only
    rw [if_neg (fun e => h1 ((isPy_iff f).1 e)), if_neg (by simp [h2])]

/-- The four kinds of specs. -/
theorem kinds (w : World κ) (p : Spec) :
    (∃ f, Found w p f ∧ PyPath f) ∨ (∃ f c, Opened w p f ∧ entry w p f = some c) ∨
      (∃ f, Opened w p f ∧ entry w p f = none) ∨ ∀ f, Found w p f → ¬ PyPath f ∧ w.opens f = false := by
  by_cases h : ∃ f, Found w p f
  · obtain ⟨f, h⟩ := h
    by_cases h1 : PyPath f
    · exact .inl ⟨f, h, h1⟩
    · by_cases h2 : w.opens f = true
      · cases h3 : entry w p f with
        | none => exact .inr (.inr (.inl ⟨f, ⟨h, h1, h2⟩, h3⟩))
        | some c => exact .inr (.inl ⟨f, c, ⟨h, h1, h2⟩, h3⟩)
      · refine .inr (.inr (.inr fun g hg => ?_))
        rw [← found_unique h hg]
        exact ⟨h1, by simpa using h2⟩
  · exact .inr (.inr (.inr fun f hf => absurd ⟨f, hf⟩ h))

/-! ### The map -/

theorem ins_perm {α : Type} (k : Txt) (v : α) : ∀ l : List (Txt × α), (ins k v l).Perm ((k, v) :: l)
  | [] => List.Perm.refl _
  | e :: l => by
    rw [ins]
    split
    · exact List.Perm.refl _
    · exact ((ins_perm k v l).cons e).trans (List.Perm.swap _ _ _)

theorem lookup_mem {α : Type} {k : Txt} {v : α} : ∀ {l : List (Txt × α)}, l.lookup k = some v → (k, v) ∈ l
  | [], h => by simp at h
  | (k', v') :: l, h => by
    rw [List.lookup_cons] at h
    by_cases hk : k = k'
    · subst hk; simp at h; simp [h]
    · have : (k == k') = false := by simpa using hk
      rw [this] at h
      exact List.mem_cons_of_mem _ (lookup_mem h)

theorem lookup_none {α : Type} {k : Txt} : ∀ {l : List (Txt × α)}, l.lookup k = none ↔ k ∉ l.map Prod.fst
  | [] => by simp
  | (k', v') :: l => by
    rw [List.lookup_cons]
    by_cases hk : k = k'
    · subst hk; simp
    · have : (k == k') = false := by simpa using hk
      rw [this]
      simp only [List.map_cons, List.mem_cons, hk, false_or]
      exact lookup_none

theorem lookup_ins {α : Type} {k : Txt} {v : α} : ∀ {l : List (Txt × α)}, k ∉ l.map Prod.fst → (ins k v l).lookup k = some v
  | [], _ => by simp [ins]
  | (k', v') :: l, h => by
    simp only [List.map_cons, List.mem_cons, not_or] at h
    rw [ins]
    split
    · simp [List.lookup_cons]
    · have : (k == k') = false := by simpa using h.1
      rw [List.lookup_cons, this]
      exact lookup_ins h.2

/-! ### The invariant -/

/-- The entry for a spec. -/
def Made (w : World κ) (p : Spec) (e : Option (Module κ)) : Prop :=
  (∃ f, Found w p f ∧ PyPath f ∧ e = some ⟨f, none, none⟩) ∨
    ∃ f c, Opened w p f ∧ entry w p f = some c ∧ e = some ⟨f, some f, some c⟩

/-- The entry holds library `f`. -/
def holds (f : Txt) (x : Txt × Option (Module κ)) : Bool := decide (x.2.bind Module.handle = some f)

structure Inv (w : World κ) (ops : List Op) (s : St κ) : Prop where
  man : s.man = []
  nodup : (s.mods.map Prod.fst).Nodup
  ent : ∀ x ∈ s.mods, ∃ p, Plain p ∧ p.str = x.1 ∧ Op.make p ∈ since ops ∧ Made w p x.2
  keys : ∀ p, Op.make p ∈ since ops → There w p → p.str ∈ s.mods.map Prod.fst
  refs : ∀ f, s.refs f = s.mods.countP (holds f) + lost w f ops

theorem made_congr {w : World κ} {p q : Spec} (hp : Plain p) (hq : Plain q) (h : p.str = q.str) {e : Option (Module κ)}
    (hm : Made w p e) : Made w q e := by
  obtain ⟨h1, h2, h3⟩ := str_inj hp hq h
  rcases hm with ⟨f, a, b, c⟩ | ⟨f, c, a, b, d⟩
  · exact .inl ⟨f, found_congr h1 h2 a, b, c⟩
  · refine .inr ⟨f, c, ⟨found_congr h1 h2 a.1, a.2⟩, ?_, d⟩
    rw [← b, entry, entry, h3]

theorem lost_cons {w : World κ} {f : Txt} {o : Op} {ops : List Op} :
    (Leaks w f o → lost w f (o :: ops) = lost w f ops + 1) ∧ (¬ Leaks w f o → lost w f (o :: ops) = lost w f ops) := by
  refine ⟨fun h => ?_, fun h => ?_⟩
  · rw [lost, List.countP_cons_of_pos (by simpa using h)]; rfl
  · rw [lost, List.countP_cons_of_neg (by simpa using h)]; rfl

theorem since_make (p : Spec) (ops : List Op) : since (.make p :: ops) = .make p :: since ops := rfl
theorem since_exist (p : Spec) (ops : List Op) : since (.exist p :: ops) = .exist p :: since ops := rfl
theorem since_close (ops : List Op) : since (.close :: ops) = [] := rfl

theorem bump_apply (r : Txt → ℕ) (f g : Txt) : bump r f g = if g = f then r g + 1 else r g := rfl

theorem entry_there {w : World κ} {p : Spec} {f : Txt} (h : Opened w p f) (h' : entry w p f = none) : ¬ There w p := by
  rintro ⟨g, a, b⟩
  rw [← found_unique h.1 a] at b
  rcases b with b | ⟨-, c, b⟩
  · exact h.2.1 b
  · rw [h'] at b; cases b

/-- What `Make` does. -/
theorem step {w : World κ} {ops : List Op} {s : St κ} {p : Spec} (hi : Inv w ops s) (hp : Plain p) :
    (∃ c s', Names w p c ∧ make w s p = .ok ⟨c, p.str⟩ s' ∧ Inv w (.make p :: ops) s') ∨
      (NoClass w p ∧ make w s p = .crash) ∨
      (¬ There w p ∧ ∃ r, make w s p = .err .io { s with refs := r } ∧ Inv w (.make p :: ops) { s with refs := r }) := by
  cases hl : s.mods.lookup p.str with
  | some e =>
    have hmem := lookup_mem hl
    obtain ⟨q, q1, q2, q3, q4⟩ := hi.ent _ hmem
    have hm : Made w p e := made_congr q1 hp q2 q4
    have hmk : make w s p = instantiate w s p e := by rw [make, hi.man]; simp only [List.lookup_nil]; rw [hl]
    have hinv : (∀ f, ¬ Leaks w f (.make p)) → Inv w (.make p :: ops) s := fun hn =>
      { man := hi.man, nodup := hi.nodup
        ent := fun x hx => by
          obtain ⟨a, b, c, d, e⟩ := hi.ent x hx
          exact ⟨a, b, c, by rw [since_make]; exact List.mem_cons_of_mem _ d, e⟩
        keys := fun a ha ht => by
          rw [since_make, List.mem_cons] at ha
          rcases ha with ha | ha
          · injection ha with ha
            subst ha
            exact List.mem_map.2 ⟨_, hmem, rfl⟩
          · exact hi.keys a ha ht
        refs := fun f => by rw [lost_cons.2 (hn f)]; exact hi.refs f }
    rcases hm with ⟨f, a, b, c⟩ | ⟨f, c, a, b, d⟩
    · have hn : ∀ g, ¬ Leaks w g (.make p) := fun g hg => hg.1.2.1 (by rw [← found_unique a hg.1.1]; exact b)
      cases hc : w.cls p.lib p.agent with
      | none =>
        refine .inr (.inl ⟨⟨f, a, b, hc⟩, ?_⟩)
        rw [hmk, c, instantiate, if_pos ((isPy_iff f).2 b), hc]
      | some k =>
        refine .inl ⟨k, s, .python a b hc, ?_, hinv hn⟩
        rw [hmk, c, instantiate, if_pos ((isPy_iff f).2 b), hc]
    · have hn : ∀ g, ¬ Leaks w g (.make p) := fun g hg => by
        have := hg.2
        rw [← found_unique a.1 hg.1.1, b] at this
        cases this
      refine .inl ⟨c, s, .lib a b, ?_, hinv hn⟩
      have hr : 0 < s.refs f := by
        rw [hi.refs f]
        have : 0 < s.mods.countP (holds f) := List.countP_pos_iff.2 ⟨_, hmem, by simp [holds, d]⟩
        omega
      rw [hmk, d, instantiate, if_neg (fun e => a.2.1 ((isPy_iff f).1 e))]
      dsimp only
      rw [if_pos hr]
  | none =>
    have hk := lookup_none.1 hl
    have hinv : ∀ e r, Made w p e → (∀ f, r f = s.refs f + (if e.bind Module.handle = some f then 1 else 0)) → 
        (∀ f, ¬ Leaks w f (.make p)) → Inv w (.make p :: ops) { s with mods := ins p.str e s.mods, refs := r } := 
      fun e r hm hr hn =>
      { man := hi.man
        nodup := by
          have := (ins_perm p.str e s.mods).map Prod.fst
          exact this.nodup_iff.2 (List.nodup_cons.2 ⟨hk, hi.nodup⟩)
        ent := fun x hx => by
          rcases List.mem_cons.1 ((ins_perm p.str e s.mods).mem_iff.1 hx) with hx | hx
          · subst hx
            exact ⟨p, hp, rfl, by rw [since_make]; simp, hm⟩
          · obtain ⟨a, b, c, d, e⟩ := hi.ent x hx
            exact ⟨a, b, c, by rw [since_make]; exact List.mem_cons_of_mem _ d, e⟩
        keys := fun a ha ht => by
          rw [((ins_perm p.str e s.mods).map Prod.fst).mem_iff, List.map_cons, List.mem_cons]
          rw [since_make, List.mem_cons] at ha
          rcases ha with ha | ha
          · injection ha with ha
            subst ha
            exact .inl rfl
          · exact .inr (hi.keys a ha ht)
        refs := fun f => by
          show r f = _
          rw [lost_cons.2 (hn f), (ins_perm p.str e s.mods).countP_eq, List.countP_cons, hr f, hi.refs f]
          simp only [holds, decide_eq_true_eq]
          omega }
    have hmk : ∀ m r, construct w s.refs p = (.ok m, r) →
        make w s p = instantiate w { s with mods := ins p.str (some m) s.mods, refs := r } p (some m) := fun m r h => by
      rw [make, hi.man]
      simp only [List.lookup_nil]
      rw [hl]
      dsimp only
      rw [h, ← hi.man]
    have hme : ∀ r, construct w s.refs p = (.error .io, r) → make w s p = .err .io { s with refs := r } := fun r h => by
      rw [make, hi.man]
      simp only [List.lookup_nil]
      rw [hl]
      dsimp only
      rw [h, ← hi.man]
    have hinv2 : ∀ r, ¬ There w p → (∀ f, (Leaks w f (.make p) → r f = s.refs f + 1) ∧ (¬ Leaks w f (.make p) → r f = s.refs f)) →
        Inv w (.make p :: ops) { s with refs := r } := fun r ht hr =>
      { man := hi.man, nodup := hi.nodup
        ent := fun x hx => by
          obtain ⟨a, b, c, d, e⟩ := hi.ent x hx
          exact ⟨a, b, c, by rw [since_make]; exact List.mem_cons_of_mem _ d, e⟩
        keys := fun a ha ht' => by
          rw [since_make, List.mem_cons] at ha
          rcases ha with ha | ha
          · injection ha with ha
            subst ha
            exact absurd ht' ht
          · exact hi.keys a ha ht'
        refs := fun f => by
          show r f = s.mods.countP (holds f) + _
          by_cases h : Leaks w f (.make p)
          · rw [lost_cons.1 h, (hr f).1 h, hi.refs f]; omega
          · rw [lost_cons.2 h, (hr f).2 h, hi.refs f] }
    rcases kinds w p with ⟨f, a, b⟩ | ⟨f, c, a, b⟩ | ⟨f, a, b⟩ | h
    · have hn : ∀ g, ¬ Leaks w g (.make p) := fun g hg => hg.1.2.1 (by rw [← found_unique a hg.1.1]; exact b)
      have h1 := hmk _ _ (construct_python (r := s.refs) a b)
      cases hc : w.cls p.lib p.agent with
      | none =>
        refine .inr (.inl ⟨⟨f, a, b, hc⟩, ?_⟩)
        rw [h1, instantiate, if_pos ((isPy_iff f).2 b), hc]
      | some k =>
        refine .inl ⟨k, _, .python a b hc, ?_, hinv (some ⟨f, none, none⟩) s.refs (.inl ⟨f, a, b, rfl⟩) (fun g => ?_) hn⟩
        · rw [h1, instantiate, if_pos ((isPy_iff f).2 b), hc]
        · simp
    · have hn : ∀ g, ¬ Leaks w g (.make p) := fun g hg => by
        have := hg.2
        rw [← found_unique a.1 hg.1.1, b] at this
        cases this
      have h1 := hmk _ _ (construct_opened (r := s.refs) a b)
      refine .inl ⟨c, _, .lib a b, ?_, hinv (some ⟨f, some f, some c⟩) (bump s.refs f) (.inr ⟨f, c, a, b, rfl⟩) (fun g => ?_) hn⟩
      · rw [h1, instantiate, if_neg (fun e => a.2.1 ((isPy_iff f).1 e))]
        dsimp only
        rw [if_pos (by rw [bump_apply, if_pos rfl]; omega)]
      · rw [bump_apply]
        by_cases hg : g = f
        · subst hg; simp
        · rw [if_neg hg, if_neg (by simpa using fun e : f = g => hg e.symm)]; omega
    · refine .inr (.inr ⟨entry_there a b, _, hme _ (construct_absent a b), hinv2 _ (entry_there a b) fun g => ?_⟩)
      rw [bump_apply]
      refine ⟨fun h => ?_, fun h => ?_⟩
      · rw [if_pos (found_unique h.1.1 a.1)]
      · rw [if_neg]
        rintro rfl
        exact h ⟨a, b⟩
    · have ht : ¬ There w p := by
        rintro ⟨g, x, y⟩
        rcases y with y | y
        · exact (h g x).1 y
        · rw [(h g x).2] at y; exact absurd y.1 (by simp)
      refine .inr (.inr ⟨ht, _, hme _ (construct_none h), hinv2 _ ht fun g => ⟨fun hg => ?_, fun _ => rfl⟩⟩)
      have := hg.1.2.2
      rw [(h g hg.1.1).2] at this
      cases this

/-- What `Exists` does. -/
theorem exist_eq (w : World κ) (s : St κ) (p : Spec) :
    ((exist w s p).1 = true ↔ There w p) ∧ ∃ r, (exist w s p).2 = { s with refs := r } ∧
      ∀ f, (Opened w p f → r f = s.refs f + 1) ∧ (¬ Opened w p f → r f = s.refs f) := by
  rcases kinds w p with ⟨f, a, b⟩ | ⟨f, c, a, b⟩ | ⟨f, a, b⟩ | h
  · rw [exist, construct_python a b]
    exact ⟨⟨fun _ => ⟨f, a, .inl b⟩, fun _ => rfl⟩, _, rfl, fun g => ⟨fun hg => absurd (found_unique a hg.1 ▸ b) hg.2.1,
      fun _ => rfl⟩⟩
  · rw [exist, construct_opened a b]
    refine ⟨⟨fun _ => ⟨f, a.1, .inr ⟨a.2.2, c, b⟩⟩, fun _ => rfl⟩, _, rfl, fun g => ⟨fun hg => ?_, fun hg => ?_⟩⟩
    · rw [bump_apply, if_pos (found_unique hg.1 a.1)]
    · rw [bump_apply, if_neg]
      rintro rfl
      exact hg a
  · rw [exist, construct_absent a b]
    refine ⟨⟨fun h => absurd h (by simp), fun h => absurd h (entry_there a b)⟩, _, rfl, fun g => ⟨fun hg => ?_, fun hg => ?_⟩⟩
    · rw [bump_apply, if_pos (found_unique hg.1 a.1)]
    · rw [bump_apply, if_neg]
      rintro rfl
      exact hg a
  · rw [exist, construct_none h]
    refine ⟨⟨fun h => absurd h (by simp), ?_⟩, _, rfl, fun g => ⟨fun hg => ?_, fun _ => rfl⟩⟩
    · rintro ⟨g, x, y⟩
      rcases y with y | y
      · exact absurd y (h g x).1
      · rw [(h g x).2] at y; exact absurd y.1 (by simp)
    · have := hg.2.2
      rw [(h g hg.1).2] at this
      cases this

theorem exist_inv {w : World κ} {ops : List Op} {s : St κ} (p : Spec) (hi : Inv w ops s) :
    Inv w (.exist p :: ops) (exist w s p).2 := by
  obtain ⟨-, r, e, hr⟩ := exist_eq w s p
  rw [e]
  exact
    { man := hi.man, nodup := hi.nodup
      ent := fun x hx => by
        obtain ⟨a, b, c, d, e⟩ := hi.ent x hx
        exact ⟨a, b, c, by rw [since_exist]; exact List.mem_cons_of_mem _ d, e⟩
      keys := fun a ha ht => by
        rw [since_exist, List.mem_cons] at ha
        rcases ha with ha | ha
        · cases ha
        · exact hi.keys a ha ht
      refs := fun f => by
        show r f = s.mods.countP (holds f) + _
        by_cases h : Leaks w f (.exist p)
        · rw [lost_cons.1 h, (hr f).1 h, hi.refs f]; omega
        · rw [lost_cons.2 h, (hr f).2 h, hi.refs f] }

theorem closeLoop_refs {w : World κ} : ∀ {l l' : List (Txt × Option (Module κ))} {r r' : Txt → ℕ},
    closeLoop w l r = some (l', r', true) → ∀ f, r' f = r f - l.countP (holds f)
  | [], l', r, r', h, f => by
    rw [closeLoop] at h
    injection h with h
    injection h with _ h
    injection h with h _
    subst h
    simp
  | (k, none) :: l, l', r, r', h, f => by simp [closeLoop] at h
  | (k, some m) :: l, l', r, r', h, f => by
    rw [closeLoop] at h
    cases hh : m.handle with
    | none =>
      rw [hh] at h
      dsimp only at h
      rw [Option.map_eq_some_iff] at h
      obtain ⟨⟨a, b, c⟩, h1, h2⟩ := h
      injection h2 with _ h2
      injection h2 with h3 h4
      subst h3 h4
      rw [closeLoop_refs h1 f, List.countP_cons_of_neg (by simp [holds, hh])]
    | some g =>
      rw [hh] at h
      dsimp only at h
      split at h
      · rw [Option.map_eq_some_iff] at h
        obtain ⟨⟨a, b, c⟩, h1, h2⟩ := h
        injection h2 with _ h2
        injection h2 with h3 h4
        subst h3 h4
        rw [closeLoop_refs h1 f, List.countP_cons, drop]
        by_cases hg : f = g
        · subst hg; simp [holds, hh]; omega
        · rw [if_neg hg, if_neg (by simpa [holds, hh] using fun e : g = f => hg e.symm)]; rfl
      · injection h with h
        injection h with _ h
        injection h with _ h
        cases h

theorem closeLoop_ok {w : World κ} (hw : ∀ f, w.shuts f = true) : ∀ {l : List (Txt × Option (Module κ))} {r : Txt → ℕ},
    (∀ x ∈ l, x.2 ≠ none) → ∃ l' r', closeLoop w l r = some (l', r', true)
  | [], r, _ => ⟨_, _, rfl⟩
  | (k, none) :: l, r, h => absurd rfl (h (k, none) (by simp))
  | (k, some m) :: l, r, h => by
    rw [closeLoop]
    cases hh : m.handle with
    | none =>
      obtain ⟨a, b, e⟩ := closeLoop_ok hw (l := l) (r := r) fun x hx => h x (by simp [hx])
      exact ⟨_, _, by dsimp only; rw [e]; rfl⟩
    | some g =>
      obtain ⟨a, b, e⟩ := closeLoop_ok hw (l := l) (r := drop r g) fun x hx => h x (by simp [hx])
      exact ⟨_, _, by dsimp only; rw [if_pos (hw g), e]; rfl⟩

theorem close_eq {w : World κ} {s s' : St κ} (h : closeAll w s = .ok () s') :
    s'.mods = [] ∧ s'.man = [] ∧ ∀ f, s'.refs f = s.refs f - s.mods.countP (holds f) := by
  rw [closeAll] at h
  split at h
  · cases h
  · cases h
  · rename_i l r hc
    injection h with _ h
    subst h
    exact ⟨rfl, rfl, closeLoop_refs hc⟩

theorem close_inv {w : World κ} {ops : List Op} {s s' : St κ} (hi : Inv w ops s) (h : closeAll w s = .ok () s') :
    Inv w (.close :: ops) s' := by
  obtain ⟨h1, h2, h3⟩ := close_eq h
  exact
    { man := h2, nodup := by rw [h1]; simp
      ent := fun x hx => by rw [h1] at hx; simp at hx
      keys := fun a ha => by rw [since_close] at ha; simp at ha
      refs := fun f => by
        have : lost w f (.close :: ops) = lost w f ops := lost_cons.2 (fun h : False => h)
        rw [h3 f, h1, hi.refs f, this]
        simp }

theorem runs_inv {w : World κ} {ops : List Op} {s : St κ} (h : Runs w ops s) (hp : ∀ o ∈ ops, o.Plain) : Inv w ops s := by
  induction h with
  | start => exact ⟨rfl, by simp [St.init], by simp [St.init], by simp [since], fun f => by simp [St.init, lost]⟩
  | @made ops s s' p a h hm ih =>
    rcases step (ih fun o ho => hp o (by simp [ho])) (hp (.make p) (by simp)) with ⟨c, t, -, b, d⟩ | ⟨-, b⟩ | ⟨-, r, b, d⟩
    · rw [hm] at b
      injection b with _ b
      subst b
      exact d
    · rw [hm] at b; cases b
    · rw [hm] at b; cases b
  | @refused ops s s' p e h hm ih =>
    rcases step (ih fun o ho => hp o (by simp [ho])) (hp (.make p) (by simp)) with ⟨c, t, -, b, d⟩ | ⟨-, b⟩ | ⟨-, r, b, d⟩
    · rw [hm] at b; cases b
    · rw [hm] at b; cases b
    · rw [hm] at b
      injection b with _ b
      subst b
      exact d
  | asked p h ih => exact exist_inv p (ih fun o ho => hp o (by simp [ho]))
  | closed h hc ih => exact close_inv (ih fun o ho => hp o (by simp [ho])) hc

end Cyclus.DynMod
