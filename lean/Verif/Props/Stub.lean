import Verif.Lemmas.Stub

/-!
# C141: projects of archetypes keep what they have and build what was added
-/

namespace Cyclus.Stub

open Spec

/-- C141.  A line is entered directly below the first line that has the text, and nothing else changes. -/
theorem C141_insert {t x : Txt} {a b : List Txt} {m : Txt} (ha : ∀ l ∈ a, ¬ t <:+: l) (hm : t <:+: m) :
    insertLine t x (a ++ m :: b) = some (a ++ m :: x :: b) :=
  insert_first (fun l hl => not_within (ha l hl)) (within_iff.2 hm)

example : insertLine "here".toList "new".toList ["a".toList, "x here".toList, "here".toList]
    = some ["a".toList, "x here".toList, "new".toList, "here".toList] := by decide +kernel

/-- C141.  Without a line that has the text, nothing is entered. -/
theorem C141_insert_none {t x : Txt} {a : List Txt} (ha : ∀ l ∈ a, ¬ t <:+: l) : insertLine t x a = none :=
  insert_none (fun l hl => not_within (ha l hl))

example : insertLine "here".toList "new".toList ["a".toList, "her".toList] = none := by decide +kernel

/-- C141.  A command that is not done changes nothing. -/
theorem C141_unchanged (e : Env) (p : Project) (ty spec : Txt) (h : (run e p ty spec).1 ≠ .done) :
    (run e p ty spec).2 = p := by
  unfold run at h ⊢
  cases h3 : three (parseSpec spec) with
  | none => rfl
  | some x =>
    obtain ⟨path, lib, arch⟩ := x
    rw [h3] at h
    unfold build at h ⊢
    dsimp only at h ⊢
    cases hf : p.first with
    | none => rw [hf] at h; exact absurd rfl h
    | some line =>
      rw [hf] at h
      dsimp only at h ⊢
      cases hr : readSpec line with
      | none => rfl
      | some y =>
        obtain ⟨pp, pl, pa⟩ := y
        rw [hr] at h
        unfold extend at h ⊢
        dsimp only at h ⊢
        split
        · rfl
        split
        · rfl
        split
        · rfl
        · rename_i h1 h2 _ ls hi
          rw [if_neg h1, if_neg h2, hi] at h
          exact absurd rfl h

/-- An environment for the examples: names are not changed and the stubs are empty. -/
def env0 : Env := ⟨id, fun _ _ _ _ _ => [], fun _ => ["\n".toList]⟩

/-- An empty directory. -/
def empty : Project := ⟨none, [], fun _ => none⟩

/-- A project with the library `lib` at `p`. -/
def started : Project := (run env0 empty "facility".toList "p:lib:A".toList).2

example : (run env0 started "facility".toList "q:lib:B".toList).1 = .refused
    ∧ (run env0 started "facility".toList "p:other:B".toList).1 = .refused
    ∧ (run env0 started "facility".toList "p:lib".toList).1 = .raised
    ∧ (run env0 started "facility".toList "p:lib:B".toList).1 = .done := by decide +kernel

/-- C141.  What a project has is read back: its path, library and first archetype. -/
theorem C141_read {path lib arch : Txt} (h : Parts path lib arch) (hl : lib ≠ []) :
    readSpec (firstLine path lib arch) = some (path, lib, arch) := read_first h hl

theorem parts0 : Parts "p".toList "lib".toList "A".toList :=
  ⟨by decide, by decide, by decide, by decide, by decide⟩

example : readSpec (firstLine "p".toList "lib".toList "A".toList) = some ("p".toList, "lib".toList, "A".toList) :=
  C141_read parts0 (by decide)

/-- C141.  A project of one library takes no archetype of another: of all specifications only those of its path and library are done. -/
theorem C141_library (e : Env) (p : Project) {path lib arch path' lib' arch' : Txt} (h : Parts path lib arch) (hl : lib ≠ [])
    (h' : Parts path' lib' arch') (hp : p.first = some (firstLine path lib arch)) (ty : Txt)
    (hd : (run e p ty (joined path' lib' arch')).1 = .done) : path' = path ∧ lib' = lib := by
  unfold run at hd
  rw [parse_joined h'] at hd
  unfold three build at hd
  dsimp only at hd
  rw [hp] at hd
  dsimp only at hd
  rw [read_first h hl] at hd
  unfold extend at hd
  dsimp only at hd
  by_cases h1 : path' ≠ path
  · rw [if_pos h1] at hd; exact nomatch hd
  by_cases h2 : lib' ≠ lib
  · rw [if_neg h1, if_pos h2] at hd; exact nomatch hd
  exact ⟨not_not.1 h1, not_not.1 h2⟩

example : started.first = some (firstLine "p".toList "lib".toList "A".toList) := by decide +kernel

theorem extend_done (e : Env) (p : Project) {path lib arch a : Txt} (h : Parts path lib arch) (hl : lib ≠ []) (h' : Parts path lib a)
    (hp : p.first = some (firstLine path lib arch)) {tl : List Txt} (hh : p.lines = here :: tl) (ty : Txt) :
    run e p ty (joined path lib a)
      = (.done, { p with lines := here :: use lib (e.low a) :: tl, files := copied e ty path lib a p.files }) := by
  unfold run
  rw [parse_joined h']
  unfold three build
  dsimp only
  rw [hp]
  dsimp only
  rw [read_first h hl]
  unfold extend
  dsimp only
  rw [if_neg (not_not.2 rfl), if_neg (not_not.2 rfl), hh, insertLine, if_pos within_here, ← hp]

theorem runAll_extend (e : Env) {path lib arch : Txt} (h : Parts path lib arch) (hl : lib ≠ []) (l : List (Txt × Txt)) :
    ∀ (p : Project) (tl : List Txt), (∀ x ∈ l, Parts path lib x.2) → p.first = some (firstLine path lib arch) → p.lines = here :: tl →
    ∃ q, runAll e p (l.map fun x => (x.1, joined path lib x.2)) = some q
      ∧ q.lines = here :: ((l.map fun x => use lib (e.low x.2)).reverse ++ tl)
      ∧ (∀ n, (p.files n).isSome ∨ (∃ x ∈ l, n ∈ targets (e.low x.2)) → (q.files n).isSome)
      ∧ (∀ n, (∀ x ∈ l, n ∉ targets (e.low x.2)) → q.files n = p.files n) := by
  induction l with
  | nil =>
    intro p tl _ _ hh
    refine ⟨p, rfl, hh, ?_, fun _ _ => rfl⟩
    rintro n (hn | ⟨x, hx, _⟩)
    · exact hn
    · exact absurd hx (List.not_mem_nil)
  | cons x l ih =>
    intro p tl hx hp hh
    have hr := extend_done e p h hl (hx x List.mem_cons_self) hp hh x.1
    obtain ⟨q, h1, h2, h3, h4⟩ := ih { p with lines := here :: use lib (e.low x.2) :: tl, files := copied e x.1 path lib x.2 p.files }
      (use lib (e.low x.2) :: tl) (fun y hy => hx y (List.mem_cons_of_mem _ hy)) hp rfl
    refine ⟨q, ?_, ?_, ?_, ?_⟩
    · rw [List.map_cons, runAll, hr]; exact h1
    · rw [h2]; simp
    · intro n hn
      apply h3
      by_cases hm : n ∈ targets (e.low x.2)
      · left; show (copied _ _ _ _ _ _ n).isSome; rw [copied, if_pos hm]; rfl
      · rcases hn with hn | ⟨y, hy, hny⟩
        · left; show (copied _ _ _ _ _ _ n).isSome; rw [copied, if_neg hm]; exact hn
        · rcases List.mem_cons.1 hy with rfl | hy
          · exact absurd hny hm
          · exact Or.inr ⟨y, hy, hny⟩
    · intro n hn
      rw [h4 n (fun y hy => hn y (List.mem_cons_of_mem _ hy))]
      show copied _ _ _ _ _ _ n = _
      rw [copied, if_neg (hn x List.mem_cons_self)]

/-- C141.  Beginning in a directory without a project, any archetypes of one library are entered one after the other: every command is done, the
library builds all of them, the newest first, all their files are there, and no other file is touched. -/
theorem C141_all (e : Env) (p : Project) {path lib arch : Txt} (ty : Txt) (h : Parts path lib arch) (hl : lib ≠ []) (hp : p.first = none)
    (l : List (Txt × Txt)) (hx : ∀ x ∈ l, Parts path lib x.2) :
    ∃ q, runAll e p (((ty, arch) :: l).map fun x => (x.1, joined path lib x.2)) = some q
      ∧ q.lines = here :: ((((ty, arch) :: l).map fun x => use lib (e.low x.2)).reverse ++ e.rest lib)
      ∧ (∀ x ∈ (ty, arch) :: l, ∀ n ∈ targets (e.low x.2), (q.files n).isSome)
      ∧ (∀ n, (∀ x ∈ (ty, arch) :: l, n ∉ targets (e.low x.2)) → q.files n = p.files n) := by
  have hr : run e p ty (joined path lib arch) = (.done, create e p ty path lib arch) := by
    unfold run
    rw [parse_joined h]
    unfold three build
    dsimp only
    rw [hp]
  obtain ⟨q, h1, h2, h3, h4⟩ := runAll_extend e h hl l (create e p ty path lib arch) _ hx rfl rfl
  refine ⟨q, ?_, ?_, ?_, ?_⟩
  · rw [List.map_cons, runAll, hr]; exact h1
  · rw [h2]; simp
  · intro x hm n hn
    apply h3
    rcases List.mem_cons.1 hm with rfl | hm
    · left; show (copied _ _ _ _ _ _ n).isSome; rw [copied, if_pos hn]; rfl
    · exact Or.inr ⟨x, hm, hn⟩
  · intro n hn
    rw [h4 n (fun y hy => hn y (List.mem_cons_of_mem _ hy))]
    show copied _ _ _ _ _ _ n = _
    rw [copied, if_neg (hn _ List.mem_cons_self)]

example : (runAll env0 empty [("facility".toList, "p:lib:A".toList), ("inst".toList, "p:lib:B".toList)]).map Project.lines
    = some [here, use "lib".toList "B".toList, use "lib".toList "A".toList, "\n".toList] := by decide +kernel

example : use "lib".toList "b".toList = "USE_CYCLUS(\"lib\" \"b\")\n".toList
    ∧ targets "b".toList = ["src/b.h".toList, "src/b.cc".toList, "src/b_tests.cc".toList, "example_b.xml".toList]
    ∧ firstLine "p".toList "lib".toList "B".toList = "# DO NOT DELETE THIS LINE:: p:lib:B\n".toList := by decide +kernel

/-- C141.  After a command that is done, the files of the archetype are what its stubs become. -/
theorem C141_files (e : Env) (p : Project) {path lib arch : Txt} (h : Parts path lib arch) (ty n : Txt)
    (hd : (run e p ty (joined path lib arch)).1 = .done) (hn : n ∈ targets (e.low arch)) :
    (run e p ty (joined path lib arch)).2.files n = some (e.stub ty path lib arch n) := by
  unfold run at hd ⊢
  rw [parse_joined h] at hd ⊢
  unfold three build at hd ⊢
  dsimp only at hd ⊢
  cases hf : p.first with
  | none => show copied _ _ _ _ _ _ n = _; rw [copied, if_pos hn]
  | some line =>
    rw [hf] at hd
    dsimp only at hd ⊢
    cases hr : readSpec line with
    | none => rw [hr] at hd; exact nomatch hd
    | some y =>
      rw [hr] at hd
      unfold extend at hd ⊢
      dsimp only at hd ⊢
      split
      · rename_i h1; rw [if_pos h1] at hd; exact nomatch hd
      rename_i h1
      rw [if_neg h1] at hd
      split
      · rename_i h2; rw [if_pos h2] at hd; exact nomatch hd
      rename_i h2
      rw [if_neg h2] at hd
      split
      · rename_i h3; rw [h3] at hd; exact nomatch hd
      · show copied _ _ _ _ _ _ n = _; rw [copied, if_pos hn]

example : (run env0 started "facility".toList "p:lib:B".toList).1 = .done ∧ "src/B.h".toList ∈ targets (env0.low "B".toList) := by
  decide +kernel

/-- Full claim, false: a command leaves the files that are there as they are. -/
def Keeps : Prop := ∀ (e : Env) (p : Project) (ty spec n t : Txt), p.files n = some t → (run e p ty spec).2.files n = some t

/-- The project after its sources were written. -/
def written : Project := { started with files := fun n => if n = "src/A.cc".toList then some "work".toList else started.files n }

/-- C141.  The code violates it: an archetype that is entered again loses its sources. -/
theorem C141_keeps_false : ¬ Keeps := fun h =>
  absurd (h env0 written "facility".toList "p:lib:A".toList "src/A.cc".toList "work".toList (by decide +kernel)) (by decide +kernel)

/-- C141.  The code violates it even for new archetypes: the tests of `a` are lost to the archetype `a_tests`. -/
theorem C141_tests_false : ∃ f g : Txt, f ≠ g ∧ ∃ n ∈ targets f, n ∈ targets g :=
  ⟨"a".toList, "a_tests".toList, by decide, "src/a_tests.cc".toList, by decide +kernel, by decide +kernel⟩

/-- C141.  Partial: files that are not those of the archetype are kept. -/
theorem C141_keeps_partial (e : Env) (p : Project) {path lib arch : Txt} (h : Parts path lib arch) (ty n : Txt)
    (hn : n ∉ targets (e.low arch)) : (run e p ty (joined path lib arch)).2.files n = p.files n := by
  unfold run
  rw [parse_joined h]
  unfold three build
  dsimp only
  cases hf : p.first with
  | none => show copied _ _ _ _ _ _ n = _; rw [copied, if_neg hn]
  | some line =>
    dsimp only
    cases hr : readSpec line with
    | none => rfl
    | some y =>
      unfold extend
      dsimp only
      split
      · rfl
      split
      · rfl
      split
      · rfl
      · show copied _ _ _ _ _ _ n = _; rw [copied, if_neg hn]

example : (run env0 written "facility".toList "p:lib:B".toList).1 = .done
    ∧ (run env0 written "facility".toList "p:lib:B".toList).2.files "src/A.cc".toList = some "work".toList := by decide +kernel

/-- C141.  Partial: the files of two archetypes are apart unless the names are the same or one is that of the tests of the other. -/
theorem C141_apart_partial {f g n : Txt} (h : f ≠ g) (h1 : g ≠ f ++ "_tests".toList) (h2 : f ≠ g ++ "_tests".toList)
    (hf : n ∈ targets f) : n ∉ targets g := by
  intro hg
  have e1 : "_tests.cc".toList = "_tests".toList ++ ".cc".toList := by decide
  have aux : ∀ (a b c d : Txt) (x y : Txt), a ++ x ++ c = b ++ y ++ d → c.getLast? ≠ d.getLast? → c ≠ [] → d ≠ [] → False := by
    intro a b c d x y hh hne hc hd
    apply hne
    have := congrArg List.getLast? hh
    rwa [List.getLast?_append_of_ne_nil _ hc, List.getLast?_append_of_ne_nil _ hd] at this
  simp only [targets, List.mem_cons, List.not_mem_nil, or_false] at hf hg
  rcases hf with rfl | rfl | rfl | rfl <;> rcases hg with hg | hg | hg | hg
  · exact h (List.append_cancel_left (List.append_cancel_right hg))
  · exact aux _ _ _ _ _ _ hg (by decide) (by decide) (by decide)
  · exact aux _ _ _ _ _ _ hg (by decide) (by decide) (by decide)
  · exact aux _ _ _ _ _ _ hg (by decide) (by decide) (by decide)
  · exact aux _ _ _ _ _ _ hg (by decide) (by decide) (by decide)
  · exact h (List.append_cancel_left (List.append_cancel_right hg))
  · rw [e1, ← List.append_assoc, List.append_assoc _ g] at hg
    exact h2 (List.append_cancel_left (List.append_cancel_right hg))
  · exact aux _ _ _ _ _ _ hg (by decide) (by decide) (by decide)
  · exact aux _ _ _ _ _ _ hg (by decide) (by decide) (by decide)
  · rw [e1, ← List.append_assoc, List.append_assoc _ f] at hg
    exact h1 (List.append_cancel_left (List.append_cancel_right hg)).symm
  · exact h (List.append_cancel_left (List.append_cancel_right hg))
  · exact aux _ _ _ _ _ _ hg (by decide) (by decide) (by decide)
  · exact aux _ _ _ _ _ _ hg (by decide) (by decide) (by decide)
  · exact aux _ _ _ _ _ _ hg (by decide) (by decide) (by decide)
  · exact aux _ _ _ _ _ _ hg (by decide) (by decide) (by decide)
  · exact h (List.append_cancel_left (List.append_cancel_right hg))

example : "src/a.cc".toList ∈ targets "a".toList ∧ "src/a.cc".toList ∉ targets "b".toList := by decide +kernel

/-- C141.  The code enters an archetype again that is there: the library then lists it twice. -/
theorem C141_once_false : (run env0 started "facility".toList "p:lib:A".toList).1 = .done
    ∧ (run env0 started "facility".toList "p:lib:A".toList).2.lines.count (use "lib".toList "A".toList) = 2 := by decide +kernel

/-- C141.  Without a name for the library, a project begins, but takes no further archetype: its first line cannot be read. -/
theorem C141_noname_false : (run env0 empty "facility".toList "p::A".toList).1 = .done
    ∧ (run env0 (run env0 empty "facility".toList "p::A".toList).2 "facility".toList "p::B".toList).1 = .raised := by decide +kernel

end Cyclus.Stub
