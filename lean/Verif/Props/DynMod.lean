import Verif.Lemmas.DynMod

/-!
# C132: agents are made from the modules that their specs name, and libraries are closed

Full statement: `Make` gives an agent of the constructor that the spec names, in the first library found on the search path or else in
the Python module, whatever was made before, and an `IOError` if there is none; `Exists` is true exactly if `Make` succeeds;
`IsPyAgent` is true exactly for specs of Python modules; a library is open as long as its constructors are used, and after
`CloseAll` none is open.

The code violates this: modules are kept under a text that two specs may share (`C132_fails_colon`), a Python module without the class
ends the program although `Exists` is true (`C132_fails_class`), `Exists` and failed calls of `Make` open libraries that are
never closed (`C132_fails_open`), `IsPyAgent` uses the null pointer for specs that were not used (`C132_fails_python`), and
after a library that cannot be closed the map keeps deleted modules (`C132_fails_close`).
-/

namespace Cyclus.DynMod

open Load (Spec)

variable {κ : Type}

/-! ### A system for the examples -/

/-- Libraries `/m/liba.so` and `/n/liba.so` with the archetypes `A` and `B`, and a Python module `q` with class `C`. -/
def sample : World String where
  ex f := f == "/m/liba.so".toList || f == "/n/liba.so".toList
  join a b := if a = [] then b else a ++ ['/'] ++ b
  py l := if l = ['q'] then "<py>/q.py".toList else []
  dirs := ["/k".toList, "/m".toList, "/n".toList]
  opens _ := true
  sym f c := if c = "ConstructA".toList then some ("A in ".append (String.ofList f)) else
    if c = "ConstructB".toList then some "B" else none
  cls l a := if l = ['q'] ∧ a = ['C'] then some "C" else none
  shuts _ := true

/-- The spec `:a:A`. -/
def specA : Spec := ⟨[], ['a'], ['A'], []⟩
/-- The spec `:a:B`. -/
def specB : Spec := ⟨[], ['a'], ['B'], []⟩
/-- The spec `:q:C`. -/
def specC : Spec := ⟨[], ['q'], ['C'], []⟩
/-- The spec `:q:D`. -/
def specD : Spec := ⟨[], ['q'], ['D'], []⟩

theorem sample_found : Found sample specA "/m/liba.so".toList :=
  .file (a := ["/k".toList]) (d := "/m".toList) (b := ["/n".toList]) rfl (by decide +kernel) (by decide +kernel)

theorem sample_python : Found sample specC "<py>/q.py".toList := .python (by decide +kernel) (by decide) (by decide +kernel)

/-! ### Making agents -/

/-- **C132 (partial), making**: whatever was made, asked and closed before, an agent is made by the constructor that the spec names and gets
the text of the spec; without one there is an `IOError`.  Missing: specs with colons in their fields (`C132_fails_colon`), and Python modules
without the class, which end the program (`C132_fails_class`). -/
theorem C132_make_partial {w : World κ} {ops : List Op} {s : St κ} {p : Spec} (h : Runs w ops s) (ho : ∀ o ∈ ops, o.Plain)
    (hp : Plain p) :
    (∀ c, Names w p c → ∃ s', make w s p = .ok ⟨c, p.str⟩ s') ∧
      (∀ a s', make w s p = .ok a s' → Names w p a.made ∧ a.spec = p.str) ∧
      (¬ There w p ↔ ∃ s', make w s p = .err .io s') ∧ (∀ e s', make w s p = .err e s' → e = .io) ∧
      (make w s p = .crash ↔ NoClass w p) := by
  have hx : ∀ c, Names w p c → There w p ∧ ¬ NoClass w p := by
    intro c hc
    cases hc with
    | lib a b =>
      refine ⟨⟨_, a.1, .inr ⟨a.2.2, _, b⟩⟩, ?_⟩
      rintro ⟨g, x, y, -⟩
      rw [← found_unique a.1 x] at y
      exact a.2.1 y
    | python a b d =>
      refine ⟨⟨_, a, .inl b⟩, ?_⟩
      rintro ⟨g, -, -, z⟩
      rw [d] at z
      cases z
  have hu : ∀ c c', Names w p c → Names w p c' → c = c' := by
    intro c c' h1 h2
    cases h1 with
    | lib a b => cases h2 with
      | lib a' b' =>
        rw [← found_unique a.1 a'.1, b] at b'
        injection b'
      | python a' b' d' => exact absurd (found_unique a.1 a' ▸ b') a.2.1
    | python a b d => cases h2 with
      | lib a' b' => exact absurd (found_unique a a'.1 ▸ b) a'.2.1
      | python a' b' d' =>
        rw [d] at d'
        injection d'
  rcases step (runs_inv h ho) hp with ⟨c, s', h1, h2, -⟩ | ⟨h1, h2⟩ | ⟨h1, r, h2, -⟩
  · rw [h2]
    refine ⟨fun d hd => ⟨s', by rw [hu c d h1 hd]⟩, fun a t e => ?_, ⟨fun e => absurd (hx c h1).1 e, ?_⟩, ?_,
      ⟨fun e => (nomatch e), fun e => absurd e (hx c h1).2⟩⟩
    · injection e with e _
      subst e
      exact ⟨h1, rfl⟩
    · rintro ⟨t, e⟩; cases e
    · intro e t he; cases he
  · rw [h2]
    refine ⟨fun d hd => absurd h1 (hx d hd).2, fun a t e => (nomatch e), ⟨fun e => ?_, ?_⟩, ?_, ⟨fun _ => h1, fun _ => rfl⟩⟩
    · obtain ⟨f, x, y, -⟩ := h1
      exact absurd ⟨f, x, .inl y⟩ e
    · rintro ⟨t, e⟩; cases e
    · intro e t he; cases he
  · rw [h2]
    refine ⟨fun d hd => absurd (hx d hd).1 h1, fun a t e => (nomatch e), ⟨fun _ => ⟨_, rfl⟩, fun _ => h1⟩, ?_,
      ⟨fun e => (nomatch e), ?_⟩⟩
    · intro e t he
      injection he with he _
      exact he.symm
    · rintro ⟨f, x, y, -⟩
      exact absurd ⟨f, x, .inl y⟩ h1

/-- The library in the first directory is taken. -/
example : Names sample specA "A in /m/liba.so" ∧ (make sample (St.init String) specA matches .ok ⟨"A in /m/liba.so", [':', 'a', ':', 'A']⟩ _) := by
  refine ⟨.lib (f := "/m/liba.so".toList) ⟨sample_found, by unfold PyPath; decide +kernel, rfl⟩ (by decide +kernel), by decide +kernel⟩

/-- **C132**, constructors that tests register are used before any library, and nothing is loaded. -/
theorem C132_registered (w : World κ) (s : St κ) (p : Spec) (c : κ) (h : s.man.lookup p.str = some c) :
    make w s p = .ok ⟨c, p.str⟩ s := by
  rw [make, h]

example : make sample { St.init String with man := [(":a:A".toList, "mine")] } specA
    = .ok ⟨"mine", ":a:A".toList⟩ { St.init String with man := [(":a:A".toList, "mine")] } := C132_registered _ _ _ _ (by decide +kernel)

/-- **C132**, the second agent: after an agent was made, the next one of the same spec is made the same way, nothing is opened, and
it does not matter which files there are by then. -/
theorem C132_again {w w' : World κ} {s s' : St κ} {p : Spec} {a : Agent κ} (h : make w s p = .ok a s') (hw : w'.cls = w.cls) :
    make w' s' p = .ok a s' := by
  have hins : ∀ t m, instantiate w t p m = .ok a s' → t = s' ∧ instantiate w' t p m = .ok a s' := by
    intro t m hm
    have e : instantiate w' t p m = instantiate w t p m := by
      cases m with
      | none => rfl
      | some m => simp only [instantiate, hw]
    refine ⟨?_, by rw [e, hm]⟩
    cases m with
    | none => cases hm
    | some m =>
      rw [instantiate] at hm
      split at hm
      · split at hm
        · cases hm
        · injection hm
      · split at hm
        · split at hm
          · injection hm
          · cases hm
        · cases hm
  rw [make] at h
  cases h1 : s.man.lookup p.str with
  | some c =>
    rw [h1] at h
    injection h with h h'
    subst h h'
    rw [make, h1]
  | none =>
    rw [h1] at h
    dsimp only at h
    cases h2 : s.mods.lookup p.str with
    | some m =>
      rw [h2] at h
      obtain ⟨e, e'⟩ := hins _ _ h
      subst e
      rw [make, h1, h2]
      exact e'
    | none =>
      rw [h2] at h
      dsimp only at h
      split at h
      · cases h
      · rename_i m r hc
        obtain ⟨e, e'⟩ := hins _ _ h
        subst e
        rw [make]
        dsimp only
        rw [h1, lookup_ins (lookup_none.1 h2)]
        exact e'

/-- All files are gone. -/
example : ∃ a s', make sample (St.init String) specA = .ok a s' ∧ make { sample with ex := fun _ => false } s' specA = .ok a s' := by
  obtain ⟨s', h⟩ := (C132_make_partial (.start (w := sample)) (by simp) (p := specA) (by simp [Plain, specA])).1 _
    (.lib (f := "/m/liba.so".toList) ⟨sample_found, by unfold PyPath; decide +kernel, rfl⟩ (c := "A in /m/liba.so") (by decide +kernel))
  exact ⟨_, s', h, C132_again h rfl⟩

/-! ### Asking for specs -/

/-- **C132**, `Exists`: it is true exactly if there is a Python module, or a library with the constructor; no module is kept, but
the library that was opened stays open. -/
theorem C132_exists (w : World κ) (s : St κ) (p : Spec) :
    ((exist w s p).1 = true ↔ There w p) ∧ (exist w s p).2.mods = s.mods ∧ (exist w s p).2.man = s.man ∧
      ∀ f, (Opened w p f → (exist w s p).2.refs f = s.refs f + 1) ∧ (¬ Opened w p f → (exist w s p).2.refs f = s.refs f) := by
  obtain ⟨h1, r, h2, h3⟩ := exist_eq w s p
  rw [h2]
  exact ⟨h1, rfl, rfl, h3⟩

example : (exist sample (St.init String) specA).1 = true ∧ (exist sample (St.init String) specC).1 = true ∧
    (exist sample (St.init String) ⟨[], ['a'], ['Z'], []⟩).1 = false := by decide +kernel

/-- **C132 (partial)**, `Exists` and `Make`: if `Exists` is true, the agent can be made.  Missing: Python modules without the class
(`C132_fails_class`), and colons. -/
theorem C132_makable_partial {w : World κ} {ops : List Op} {s : St κ} {p : Spec} (h : Runs w ops s) (ho : ∀ o ∈ ops, o.Plain)
    (hp : Plain p) (hc : ¬ NoClass w p) :
    (exist w s p).1 = true ↔ ∃ a s', make w (exist w s p).2 p = .ok a s' := by
  rw [(C132_exists w s p).1]
  have hr := Runs.asked p h
  obtain ⟨-, h2, h3, h4, h5⟩ := C132_make_partial hr (fun o ho' => by
    rcases List.mem_cons.1 ho' with rfl | ho'
    · exact hp
    · exact ho o ho') hp
  constructor
  · intro ht
    cases hm : make w (exist w s p).2 p with
    | ok a s' => exact ⟨a, s', rfl⟩
    | err e s' =>
      rw [h4 e s' hm] at hm
      exact absurd ht (h3.2 ⟨s', hm⟩)
    | crash => exact absurd (h5.1 hm) hc
  · rintro ⟨a, s', hm⟩
    by_contra hn
    obtain ⟨t, ht⟩ := h3.1 hn
    rw [hm] at ht
    cases ht

example : ¬ NoClass sample specC := by
  rintro ⟨f, -, -, h⟩
  exact absurd h (by decide +kernel)

/-- **C132 (partial)**, `IsPyAgent`: it is false if there is no such module, and for a spec that was used since modules were closed it
tells whether the module is of Python.  Missing: specs that were not used (`C132_fails_python`). -/
theorem C132_python_partial {w : World κ} {ops : List Op} {s : St κ} {p : Spec} (h : Runs w ops s) (ho : ∀ o ∈ ops, o.Plain)
    (hu : Op.make p ∈ since ops) :
    ∃ b s', isPyAgent w s p = .ok b s' ∧ (b = true ↔ ∃ f, Found w p f ∧ PyPath f) := by
  obtain ⟨h1, h2, -, -⟩ := C132_exists w s p
  have hi := runs_inv h ho
  rw [isPyAgent]
  cases he : exist w s p with
  | mk b s' =>
    rw [he] at h1 h2
    cases b with
    | false =>
      refine ⟨false, s', rfl, by simp, ?_⟩
      rintro ⟨f, a, b⟩
      exact absurd (h1.2 ⟨f, a, .inl b⟩) (by simp)
    | true =>
      have hp : Plain p := ho (.make p) ((List.takeWhile_prefix _).subset hu)
      have hk := hi.keys p hu (h1.1 rfl)
      cases hl : s.mods.lookup p.str with
      | none => exact absurd hk (lookup_none.1 hl)
      | some e =>
        obtain ⟨q, q1, q2, -, q4⟩ := hi.ent _ (lookup_mem hl)
        have hm : Made w p e := made_congr q1 hp q2 q4
        dsimp only at h2 ⊢
        rw [h2, hl]
        rcases hm with ⟨f, a, b, c⟩ | ⟨f, c, a, b, d⟩
        · subst c
          exact ⟨_, _, rfl, fun _ => ⟨f, a, b⟩, fun _ => (isPy_iff f).2 b⟩
        · subst d
          refine ⟨_, _, rfl, fun e => absurd ((isPy_iff f).1 e) a.2.1, ?_⟩
          rintro ⟨g, x, y⟩
          rw [← found_unique a.1 x] at y
          exact absurd y a.2.1

/-- An agent of Python and an agent of C++ were made. -/
theorem sample_run : ∃ s, Runs sample [.make specA, .make specC] s := by
  obtain ⟨s1, h1⟩ := (C132_make_partial (.start (w := sample)) (by simp) (p := specC) (by simp [Plain, specC])).1 _
    (.python sample_python (by unfold PyPath; decide +kernel) (c := "C") (by decide +kernel))
  have r1 := Runs.made .start h1
  obtain ⟨s2, h2⟩ := (C132_make_partial r1 (by simp [Op.Plain, Plain, specC]) (p := specA) (by simp [Plain, specA])).1 _
    (.lib (f := "/m/liba.so".toList) ⟨sample_found, by unfold PyPath; decide +kernel, rfl⟩ (c := "A in /m/liba.so") (by decide +kernel))
  exact ⟨s2, .made r1 h2⟩

example : ∃ s b s', Runs sample [.make specA, .make specC] s ∧ isPyAgent sample s specC = .ok b s' ∧ b = true := by
  obtain ⟨s, h⟩ := sample_run
  obtain ⟨b, s', e, hb⟩ := C132_python_partial h (by simp [Op.Plain, Plain, specA, specC]) (p := specC) (by simp [since])
  exact ⟨s, b, s', h, e, hb.2 ⟨_, sample_python, by unfold PyPath; decide +kernel⟩⟩

/-! ### Open libraries -/

open Classical in
/-- **C132 (partial)**, open libraries: a library is open once for each spec used since modules were closed, however many agents were
made of it, and once for each question and each failed attempt.  Missing: the latter should not keep it open (`C132_fails_open`). -/
theorem C132_open_partial {w : World κ} {ops : List Op} {s : St κ} (h : Runs w ops s) (ho : ∀ o ∈ ops, o.Plain) (f : Txt) :
    s.refs f = held w f ops + lost w f ops := by
  have hi := runs_inv h ho
  rw [hi.refs f, List.countP_eq_length_filter]
  congr 1
  rw [held, ← List.length_map (f := Prod.fst)]
  apply List.Perm.length_eq
  have hplain : ∀ p, Op.make p ∈ since ops → Plain p := fun p hp => ho (.make p) ((List.takeWhile_prefix _).subset hp)
  rw [List.perm_ext_iff_of_nodup ((List.filter_sublist (l := s.mods)).map Prod.fst |>.nodup hi.nodup) (List.nodup_dedup _)]
  intro k
  rw [List.mem_dedup, List.mem_filterMap, List.mem_map]
  constructor
  · rintro ⟨x, hx, rfl⟩
    obtain ⟨hx, hh⟩ := List.mem_filter.1 hx
    obtain ⟨p, p1, p2, p3, p4⟩ := hi.ent x hx
    refine ⟨.make p, p3, ?_⟩
    rw [holds, decide_eq_true_eq] at hh
    rcases p4 with ⟨g, a, b, c⟩ | ⟨g, c, a, b, d⟩
    · rw [c] at hh; simp at hh
    · rw [d] at hh
      have hg : g = f := by simpa using hh
      subst hg
      rw [loads, if_pos ⟨a, by rw [b]; simp⟩, p2]
  · rintro ⟨o, h1, h2⟩
    cases o with
    | exist p => simp [loads] at h2
    | close => simp [loads] at h2
    | make p =>
      rw [loads] at h2
      split at h2
      · rename_i hc
        injection h2 with h2
        subst h2
        obtain ⟨c, he⟩ := Option.ne_none_iff_exists'.1 hc.2
        obtain ⟨x, hx, hx'⟩ := List.mem_map.1 (hi.keys p h1 ⟨f, hc.1.1, .inr ⟨hc.1.2.2, c, he⟩⟩)
        refine ⟨x, List.mem_filter.2 ⟨hx, ?_⟩, hx'⟩
        obtain ⟨q, q1, q2, -, q4⟩ := hi.ent x hx
        have hm : Made w p x.2 := made_congr q1 (hplain p h1) (by rw [q2, hx']) q4
        rcases hm with ⟨g, a, b, -⟩ | ⟨g, c', a, -, d⟩
        · exact absurd (found_unique a hc.1.1 ▸ b) hc.1.2.1
        · rw [holds, d, decide_eq_true_eq, found_unique hc.1.1 a.1]
          rfl
      · cases h2

/-- The library is open once although the agent of Python was made before. -/
example : ∃ s, Runs sample [.make specA, .make specC] s ∧
    s.refs "/m/liba.so".toList = held sample "/m/liba.so".toList [.make specA, .make specC]
      + lost sample "/m/liba.so".toList [.make specA, .make specC] := by
  obtain ⟨s, h⟩ := sample_run
  exact ⟨s, h, C132_open_partial h (by simp [Op.Plain, Plain, specA, specC]) _⟩

/-- **C132 (partial)**, closing: libraries can always be closed if the system does not refuse; nothing is kept then, and a library is
still open only because of questions and failed attempts.  Missing: a system that refuses (`C132_fails_close`). -/
theorem C132_close_partial {w : World κ} {ops : List Op} {s : St κ} (h : Runs w ops s) (ho : ∀ o ∈ ops, o.Plain)
    (hw : ∀ f, w.shuts f = true) :
    ∃ s', closeAll w s = .ok () s' ∧ s'.mods = [] ∧ s'.man = [] ∧ ∀ f, s'.refs f = lost w f ops := by
  have hi := runs_inv h ho
  obtain ⟨l, r, e⟩ := closeLoop_ok hw (l := s.mods) (r := s.refs) fun x hx => by
    obtain ⟨p, -, -, -, p4⟩ := hi.ent x hx
    rcases p4 with ⟨g, a, b, c⟩ | ⟨g, c, a, b, d⟩
    · rw [c]; simp
    · rw [d]; simp
  have hc : closeAll w s = .ok () ⟨[], [], r⟩ := by rw [closeAll, e]
  obtain ⟨h1, h2, h3⟩ := close_eq hc
  refine ⟨_, hc, h1, h2, fun f => ?_⟩
  rw [h3 f, hi.refs f]
  omega

/-- A question and an agent. -/
example : ∃ s s', Runs sample [.exist specA, .make specA, .make specC] s ∧ closeAll sample s = .ok () s' ∧ s'.mods = [] := by
  obtain ⟨s, h⟩ := sample_run
  obtain ⟨s', e, h1, -, -⟩ := C132_close_partial (.asked specA h) (by simp [Op.Plain, Plain, specA, specC]) (fun _ => rfl)
  exact ⟨_, s', .asked specA h, e, h1⟩

open Classical in
/-- **C132**, without questions and failed attempts no library is open after closing. -/
theorem C132_closed {w : World κ} {ops : List Op} {s : St κ} (h : Runs w ops s) (ho : ∀ o ∈ ops, o.Plain)
    (hw : ∀ f, w.shuts f = true) (hq : ∀ p, Op.exist p ∉ ops) (hm : ∀ p, Op.make p ∈ ops → There w p) :
    ∃ s', closeAll w s = .ok () s' ∧ s'.mods = [] ∧ ∀ f, s'.refs f = 0 := by
  obtain ⟨s', a, b, -, c⟩ := C132_close_partial h ho hw
  refine ⟨s', a, b, fun f => ?_⟩
  rw [c f, lost, List.countP_eq_zero]
  intro o hoo
  rw [decide_eq_true_eq]
  cases o with
  | close => exact fun h => h
  | exist p => exact absurd hoo (hq p)
  | make p =>
    rintro ⟨x, y⟩
    exact entry_there x y (hm p hoo)

/-- Agents of two archetypes of one library: it is open twice, and closed. -/
example : ∃ s1 s2 a b, make sample (St.init String) specA = .ok a s1 ∧ make sample s1 specB = .ok b s2 ∧
    Runs sample [.make specB, .make specA] s2 ∧ (∀ p, Op.make p ∈ [Op.make specB, Op.make specA] → There sample p) := by
  have hA : There sample specA := ⟨_, sample_found, .inr ⟨rfl, "A in /m/liba.so", by decide +kernel⟩⟩
  have hB : There sample specB := ⟨"/m/liba.so".toList, found_congr (p := specA) (q := specB) rfl rfl sample_found, .inr ⟨rfl, "B", by decide +kernel⟩⟩
  obtain ⟨s1, h1⟩ := (C132_make_partial (.start (w := sample)) (by simp) (p := specA) (by simp [Plain, specA])).1 _
    (.lib (f := "/m/liba.so".toList) ⟨sample_found, by unfold PyPath; decide +kernel, rfl⟩ (c := "A in /m/liba.so") (by decide +kernel))
  have r1 := Runs.made .start h1
  obtain ⟨s2, h2⟩ := (C132_make_partial r1 (by simp [Op.Plain, Plain, specA]) (p := specB) (by simp [Plain, specB])).1 _
    (.lib (f := "/m/liba.so".toList) ⟨found_congr (p := specA) (q := specB) rfl rfl sample_found, by unfold PyPath; decide +kernel, rfl⟩
      (c := "B") (by decide +kernel))
  refine ⟨s1, s2, _, _, h1, h2, Runs.made r1 h2, fun p hp => ?_⟩
  simp only [List.mem_cons, Op.make.injEq, List.not_mem_nil, or_false] at hp
  rcases hp with rfl | rfl
  · exact hB
  · exact hA

/-! ### Discovery -/

/-- **C132 (partial)**, discovery: for a directory and a library without colons, the specs found in the library are exactly those of
the archetypes named in it that exist.  Missing: directories with a colon (`C132_fails_discover`), and texts as in C83. -/
theorem C132_discover_partial {w : World κ} {text : Txt → Txt} {dir lib f : Txt} (s : St κ) (hd : ':' ∉ dir) (hl : ':' ∉ lib)
    (hf : Discovery.findModule w.ex w.join w.py w.dirs (w.join dir ("lib".toList ++ lib ++ ".so".toList)) [] = .ok f)
    (ht : ¬ Discovery.mark <+: text f) :
    ∃ l s', discoverSpecs w text dir lib s = .ok l s' ∧ s'.mods = s.mods ∧
      ∀ n, n ≠ [] → (dir ++ [':'] ++ lib ++ [':'] ++ n ∈ l ↔ Discovery.IsArchetype n (text f) ∧ There w ⟨dir, lib, n, n⟩) := by
  obtain ⟨l, h1, h2, h3⟩ := Discovery.C83_names_partial ht
  have hword : ∀ n, Discovery.IsArchetype n (text f) → ':' ∉ n := by
    rintro n ⟨-, a, b, -, hw, -⟩ hm
    have := hw ':' (by simp [hm])
    simp [Discovery.WordChar] at this
  have hcol : ∀ n ∈ l.dedup, ':' ∉ n := by
    intro n hn
    cases n with
    | nil => simp
    | cons c n => exact hword _ ((h2 _ (by simp)).1 (List.mem_dedup.1 hn))
  have hloop : ∀ (l : List Txt) (s : St κ), (∀ n ∈ l, ':' ∉ n) → ∃ r s', discoverLoop w dir lib l s = .ok r s' ∧ s'.mods = s.mods ∧
      ∀ n, dir ++ [':'] ++ lib ++ [':'] ++ n ∈ r ↔ n ∈ l ∧ There w ⟨dir, lib, n, n⟩ := by
    intro l
    induction l with
    | nil => intro s _; exact ⟨[], s, rfl, rfl, by simp⟩
    | cons m l ih =>
      intro s hn
      have hp : Spec.parse (dir ++ [':'] ++ lib ++ [':'] ++ m) = .ok ⟨dir, lib, m, m⟩ :=
        Load.C36_roundtrip (s := ⟨dir, lib, m, m⟩) hd hl (hn m (by simp))
      obtain ⟨e1, e2, -, -⟩ := C132_exists w s ⟨dir, lib, m, m⟩
      obtain ⟨r, s', a, b, c⟩ := ih (exist w s ⟨dir, lib, m, m⟩).2 fun n h => hn n (by simp [h])
      refine ⟨_, s', by rw [discoverLoop, hp]; dsimp only; rw [a], by rw [b, e2], fun n => ?_⟩
      by_cases he : (exist w s ⟨dir, lib, m, m⟩).1 = true
      · rw [if_pos he, List.mem_cons, c n, List.mem_cons, List.append_cancel_left_eq]
        constructor
        · rintro (h | ⟨x, y⟩)
          · exact ⟨.inl h, by rw [h]; exact e1.1 he⟩
          · exact ⟨.inr x, y⟩
        · rintro ⟨h | x, y⟩
          · exact .inl h
          · exact .inr ⟨x, y⟩
      · rw [if_neg he, c n, List.mem_cons]
        constructor
        · rintro ⟨x, y⟩; exact ⟨.inr x, y⟩
        · rintro ⟨h | x, y⟩
          · subst h; exact absurd (e1.2 y) he
          · exact ⟨x, y⟩
  obtain ⟨r, s', a, b, c⟩ := hloop l.dedup s hcol
  refine ⟨r, s', ?_, b, fun n hn => ?_⟩
  · rw [discoverSpecs, hf]
    dsimp only
    rw [h1]
    exact a
  · rw [c n, List.mem_dedup, h2 n hn]

/-- A library that mentions two constructors, one of which it has not. -/
example : (discoverSpecs sample (fun _ => "x ConstructA ConstructZ y".toList) [] ['a'] (St.init String) matches .ok [[':', 'a', ':', 'A']] _) := by
  decide +kernel

/-! ### Disagreements -/

/-- **C132 fails**: specs that differ only in which field a colon belongs to share a module, so that the second one gets an agent of
the first one's library. -/
theorem C132_fails_colon : ∃ (w : World String) (p q : Spec) (s : St String) (a b : Agent String), Names w p "one" ∧ Names w q "two" ∧
    make w (St.init String) p = .ok a s ∧ make w s q = .ok b s ∧ b.made = "one" := by
  let w : World String := { sample with
    ex := fun f => f == "/m/x:y/libz.so".toList || f == "/m/x/liby:z.so".toList
    sym := fun f _ => some (if f = "/m/x:y/libz.so".toList then "one" else "two") }
  let p : Spec := ⟨"x:y".toList, ['z'], ['A'], []⟩
  let q : Spec := ⟨['x'], "y:z".toList, ['A'], []⟩
  have hp : Names w p "one" := .lib (f := "/m/x:y/libz.so".toList)
    ⟨.file (a := ["/k".toList]) (d := "/m".toList) (b := ["/n".toList]) rfl (by decide +kernel) (by decide +kernel),
      by unfold PyPath; decide +kernel, rfl⟩ (by decide +kernel)
  have hq : Names w q "two" := .lib (f := "/m/x/liby:z.so".toList)
    ⟨.file (a := ["/k".toList]) (d := "/m".toList) (b := ["/n".toList]) rfl (by decide +kernel) (by decide +kernel),
      by unfold PyPath; decide +kernel, rfl⟩ (by decide +kernel)
  have hc : construct w (St.init String).refs p = (.ok ⟨"/m/x:y/libz.so".toList, some "/m/x:y/libz.so".toList, some "one"⟩,
      bump (St.init String).refs "/m/x:y/libz.so".toList) :=
    construct_opened ⟨.file (a := ["/k".toList]) (d := "/m".toList) (b := ["/n".toList]) rfl (by decide +kernel) (by decide +kernel),
      by unfold PyPath; decide +kernel, rfl⟩ (by decide +kernel)
  have hs : p.str = q.str := by decide +kernel
  have hn : isPy "/m/x:y/libz.so".toList = false := by decide +kernel
  have h1 : make w (St.init String) p = .ok ⟨"one", p.str⟩ ⟨[(p.str, some ⟨"/m/x:y/libz.so".toList, some "/m/x:y/libz.so".toList,
      some "one"⟩)], [], bump (St.init String).refs "/m/x:y/libz.so".toList⟩ := by
    rw [make]
    simp only [St.init, List.lookup_nil] at hc ⊢
    rw [hc]
    dsimp only
    rw [instantiate, hn]
    simp [bump, ins]
  refine ⟨w, p, q, _, _, ⟨"one", q.str⟩, hp, hq, h1, ?_, rfl⟩
  rw [make, hs]
  simp only [List.lookup_nil, List.lookup_cons, beq_self_eq_true]
  rw [instantiate, hn]
  simp [bump]

/-- **C132 fails**: for a Python module without the class `Exists` is true and `Make` ends the program: the exception of Python is not noticed,
and the null pointer is used. -/
theorem C132_fails_class : (exist sample (St.init String) specD).1 = true ∧ NoClass sample specD ∧
    make sample (St.init String) specD = .crash := by
  have hd : NoClass sample specD := ⟨"<py>/q.py".toList, found_congr (p := specC) (q := specD) rfl rfl sample_python, by unfold PyPath; decide +kernel, by decide +kernel⟩
  exact ⟨by decide +kernel, hd, (C132_make_partial .start (by simp) (by simp [Plain, specD])).2.2.2.2.2 hd⟩

/-- **C132 fails**: a library that was only asked for, or that does not have the archetype, is open for ever. -/
theorem C132_fails_open : ∃ s1 s2 s3 : St String, exist sample (St.init String) specA = (true, s1) ∧ closeAll sample s1 = .ok () s2 ∧
    s2.refs "/m/liba.so".toList = 1 ∧ make sample s2 ⟨[], ['a'], ['Z'], []⟩ = .err .io s3 ∧ s3.mods = [] ∧
    s3.refs "/m/liba.so".toList = 2 := by
  have h1 : Opened sample specA "/m/liba.so".toList := ⟨sample_found, by unfold PyPath; decide +kernel, rfl⟩
  have hc := construct_opened (r := (St.init String).refs) h1 (c := "A in /m/liba.so") (by decide +kernel)
  have h2 : Opened sample ⟨[], ['a'], ['Z'], []⟩ "/m/liba.so".toList :=
    ⟨found_congr (p := specA) (q := ⟨[], ['a'], ['Z'], []⟩) rfl rfl sample_found, by unfold PyPath; decide +kernel, rfl⟩
  have hz := construct_absent (r := bump (St.init String).refs "/m/liba.so".toList) h2 (by decide +kernel)
  refine ⟨⟨[], [], bump (St.init String).refs "/m/liba.so".toList⟩, ⟨[], [], bump (St.init String).refs "/m/liba.so".toList⟩,
    ⟨[], [], bump (bump (St.init String).refs "/m/liba.so".toList) "/m/liba.so".toList⟩, ?_, rfl, by simp [bump, St.init], ?_, rfl,
    by simp [bump, St.init]⟩
  · rw [exist, hc]
    rfl
  · rw [make]
    simp only [List.lookup_nil]
    rw [hz]

/-- **C132 fails**: discovery leaves the library open once for every name that looks like an archetype, whether it is one or not. -/
theorem C132_fails_discovery :
    (match discoverSpecs sample (fun _ => "x ConstructA ConstructZ y".toList) [] ['a'] (St.init String) with
    | .ok l s => l == [":a:A".toList] && s.refs "/m/liba.so".toList == 2 && s.mods.isEmpty
    | _ => false) = true := by
  decide +kernel

/-- **C132 fails**: for a spec that exists and was not used, `IsPyAgent` uses the null pointer, whatever kind of module it is. -/
theorem C132_fails_python (w : World κ) (p : Spec) (h : There w p) : isPyAgent w (St.init κ) p = .crash := by
  obtain ⟨h1, h2, -, -⟩ := C132_exists w (St.init κ) p
  rw [isPyAgent]
  cases he : exist w (St.init κ) p with
  | mk b s' =>
    rw [he] at h1 h2
    have hb : b = true := h1.2 h
    subst hb
    dsimp only at h2 ⊢
    rw [h2]
    rfl

example : There sample specA ∧ There sample specC :=
  ⟨⟨_, sample_found, .inr ⟨rfl, "A in /m/liba.so", by decide +kernel⟩⟩, ⟨_, sample_python, .inl (by unfold PyPath; decide +kernel)⟩⟩

/-- **C132 fails**: if the system refuses to close the second library there is an exception, and then the first module is deleted but still in
the map: closing again, or making an agent of it, ends the program. -/
theorem C132_fails_close : ∃ (w : World String) (p q : Spec) (s1 s2 s3 : St String) (a b : Agent String),
    make w (St.init String) p = .ok a s1 ∧ make w s1 q = .ok b s2 ∧ closeAll w s2 = .err .io s3 ∧ closeAll w s3 = .crash ∧
      make w s3 p = .crash := by
  let f : Txt := "/m/liba.so".toList
  let g : Txt := "/m/libb.so".toList
  let w : World String := { sample with ex := fun h => h == f || h == g, shuts := fun h => h == f }
  let r := bump (St.init String).refs f
  let p : Spec := ⟨[], ['b'], ['B'], []⟩
  have hf : Found w specA f :=
    .file (a := ["/k".toList]) (d := "/m".toList) (b := ["/n".toList]) rfl (by decide +kernel) (by decide +kernel)
  have hg : Found w p g :=
    .file (a := ["/k".toList]) (d := "/m".toList) (b := ["/n".toList]) rfl (by decide +kernel) (by decide +kernel)
  have nf : isPy f = false := by decide +kernel
  have ng : isPy g = false := by decide +kernel
  have h1 : construct w (St.init String).refs specA = (.ok ⟨f, some f, some "A in /m/liba.so"⟩, r) :=
    construct_opened ⟨hf, by unfold PyPath; decide +kernel, rfl⟩ (by decide +kernel)
  have h2 : construct w r p = (.ok ⟨g, some g, some "B"⟩, bump r g) :=
    construct_opened ⟨hg, by unfold PyPath; decide +kernel, rfl⟩ (by decide +kernel)
  have hl : List.lookup p.str [(specA.str, some (⟨f, some f, some "A in /m/liba.so"⟩ : Module String))] = none :=
    lookup_none.2 (by decide +kernel)
  have hi : ins p.str (some (⟨g, some g, some "B"⟩ : Module String)) [(specA.str, some ⟨f, some f, some "A in /m/liba.so"⟩)]
      = [(specA.str, some ⟨f, some f, some "A in /m/liba.so"⟩), (p.str, some ⟨g, some g, some "B"⟩)] := by decide +kernel
  refine ⟨w, specA, p, ⟨[(specA.str, some ⟨f, some f, some "A in /m/liba.so"⟩)], [], r⟩,
    ⟨[(specA.str, some ⟨f, some f, some "A in /m/liba.so"⟩), (p.str, some ⟨g, some g, some "B"⟩)], [], bump r g⟩,
    ⟨[(specA.str, none), (p.str, some ⟨g, some g, some "B"⟩)], [], drop (bump r g) f⟩,
    ⟨"A in /m/liba.so", specA.str⟩, ⟨"B", p.str⟩, ?_, ?_, ?_, ?_, ?_⟩
  · rw [make]
    simp only [St.init, List.lookup_nil] at h1 ⊢
    rw [h1]
    dsimp only
    rw [instantiate, nf]
    simp [r, bump, ins]
  · rw [make]
    simp only [List.lookup_nil]
    rw [hl]
    dsimp only
    rw [h2]
    dsimp only
    rw [hi, instantiate, ng]
    simp [bump]
  · have e1 : w.shuts f = true := by decide +kernel
    have e2 : w.shuts g = false := by decide +kernel
    rw [closeAll]
    simp [closeLoop, e1, e2]
  · rw [closeAll]
    simp [closeLoop]
  · rw [make]
    simp [instantiate]

/-- **C132 fails**: in a directory with a colon in its name no archetype is found: there is a `ValueError` as soon as the library names
one. -/
theorem C132_fails_discover (w : World κ) (s : St κ) (dir lib : Txt) (n : Txt) (l : List Txt) (h : ':' ∈ dir) :
    discoverLoop w dir lib (n :: l) s = .err .value s := by
  rw [discoverLoop]
  have : ∀ p, Spec.parse (dir ++ [':'] ++ lib ++ [':'] ++ n) ≠ .ok p := by
    intro p hp
    obtain ⟨h1, h2, h3, h4, -⟩ := Load.C36_str hp
    have hc := congrArg (List.count ':') h1
    rw [Spec.str] at hc
    simp only [List.count_append, List.count_singleton_self] at hc
    have := List.count_pos_iff.2 h
    rw [List.count_eq_zero.2 h2, List.count_eq_zero.2 h3, List.count_eq_zero.2 h4] at hc
    omega
  cases hp : Spec.parse (dir ++ [':'] ++ lib ++ [':'] ++ n) with
  | error e => rfl
  | ok p => exact absurd hp (this p)

end Cyclus.DynMod
