import Verif.Lemmas.PyLife

/-!
# C133: an agent in Python lives as long as its C++ agent, and is always the same object

Full statement: whatever is done with agents, none is deleted twice, no method is called on an object that does not live any more, an agent is always
given to Python code as the same object, objects are freed after their agents when nobody has them, an agent made in Python is one
agent, and its annotations are the same whenever they are read.

The code violates this for objects that the user makes by calling a class (`C133_fails_double`, `C133_fails_same`, `C133_fails_stale`), after the cache is cleared
(`C133_fails_clear`), for objects whose agent was deleted (`C133_fails_use`), for regions, institutions and facilities, which are
two agents (`C133_fails_orphan`), and for annotations that are read twice (`C133_fails_annotations`).
-/

namespace Cyclus.PyLife

/-- **C133 (partial), no crash**: agents that are made, cloned, initialised, given to Python, forgotten, called and deleted in any order never end the
program: nothing is deleted twice, and no method is called on an object that does not live.  Missing: objects made by the user
(`C133_fails_double`), clearing the cache (`C133_fails_clear`), using deleted agents (`C133_fails_use`). -/
theorem C133_safe_partial (ops : List Op) (h : ∀ o ∈ ops, Managed o) : ∃ s, exec St.init ops = some s := by
  obtain ⟨s, e, -⟩ := exec_inv inv_init h
  exact ⟨s, e⟩

example : ∀ o ∈ [Op.make true, .cpp, .wrap 1, .clone 1 true, .call 4, .wrap 2, .del 1, .release 0, .call 4, .del 4, .release 7],
    Managed o := by decide

/-- **C133 (partial), lifetime**: while an agent written in Python lives, so does its object, and it belongs to no other agent. -/
theorem C133_alive_partial {ops : List Op} {s : St} (h : ∀ o ∈ ops, Managed o) (e : exec St.init ops = some s) {c o : ℕ}
    (hc : s.cpp c = some (.shim o)) : Lives s o c ∧ ∀ c', s.cpp c' = some (.shim o) → c' = c := by
  obtain ⟨s', e', hi⟩ := exec_inv inv_init h
  rw [e] at e'
  injection e' with e'
  subst e'
  obtain ⟨-, k, ho⟩ := hi.refs c o (hi.shim c o hc)
  refine ⟨⟨_, ho, rfl⟩, fun c' hc' => ?_⟩
  obtain ⟨-, k', ho'⟩ := hi.refs c' o (hi.shim c' o hc')
  rw [ho] at ho'
  injection ho' with ho'
  injection ho' with ho' _ _
  exact ho'.symm

example : ∃ s, exec St.init [.make false, .make true, .wrap 0, .release 0] = some s ∧ s.cpp 0 = some (.shim 0) ∧
    s.cpp 2 = some (.shim 1) := ⟨_, rfl, rfl, rfl⟩

/-- **C133 (partial), the same object**: once an agent was given to Python code as an object, it is given as that object until it is
deleted; for an agent written in Python it is the object that methods are called on. -/
theorem C133_same_partial {ops more : List Op} {s t u : St} (h : ∀ o ∈ ops, Managed o) (e : exec St.init ops = some s) {c : ℕ}
    (hc : s.cpp c = some .cpp ∨ ∃ o, s.cpp c = some (.shim o)) (et : step s (.wrap c) = some t) (hm : ∀ o ∈ more, Managed o)
    (hd : Op.del c ∉ more) (eu : exec t more = some u) :
    wrapped u c = wrapped s c ∧ Lives u (wrapped u c) c ∧ ∀ o, s.cpp c = some (.shim o) → wrapped s c = o := by
  obtain ⟨s', e', hi⟩ := exec_inv inv_init h
  rw [e] at e'
  injection e' with e'
  subst e'
  obtain ⟨t', e', ht⟩ := step_inv hi (o := .wrap c) trivial
  rw [et] at e'
  injection e' with e'
  subst e'
  obtain ⟨u', e', hu⟩ := exec_inv ht hm
  rw [eu] at e'
  injection e' with e'
  subst e'
  have hr : t.refs c = some (wrapped s c) := by
    rcases wrap_eq hi c with ⟨hx, -⟩ | ⟨-, hn, ew⟩ | ⟨o, k, hr, -, ew⟩
    · rcases hc with hc | ⟨o, hc⟩
      · exact absurd (hx _ hc) (by simp)
      · exact absurd (hx _ hc) (by simp)
    · rw [step, ew] at et
      injection et with et
      subst et
      simp [wrapped, hn, upd_same]
    · rw [step, ew] at et
      injection et with et
      subst et
      simp [wrapped, hr]
  have hr' := exec_refs ht hm hd hr eu
  have hw : wrapped u c = wrapped s c := by simp [wrapped, hr'] 
  obtain ⟨-, k, hl⟩ := hu.refs c _ hr'
  refine ⟨hw, by rw [hw]; exact ⟨_, hl, rfl⟩, fun o ho => ?_⟩
  rw [wrapped, hi.shim c o ho]
  rfl

/-- An agent in C++ gets object 0; it is forgotten and asked for again. -/
example : ∃ s t u, exec St.init [.cpp] = some s ∧ step s (.wrap 0) = some t ∧ exec t [.release 0, .make true, .wrap 0] = some u ∧
    s.cpp 0 = some .cpp ∧ wrapped u 0 = 0 := ⟨_, _, _, rfl, rfl, rfl, rfl, rfl⟩

/-- **C133 (partial), nothing remains**: an object whose agent was deleted lives only because the user has it, and is not in the cache; the cache
has entries for agents that live only. -/
theorem C133_freed_partial {ops : List Op} {s : St} (h : ∀ o ∈ ops, Managed o) (e : exec St.init ops = some s) :
    (∀ o b, s.objs o = some b → s.cpp b.cpp = none → 0 < b.held) ∧ ∀ c, s.cpp c = none → s.refs c = none := by
  obtain ⟨s', e', hi⟩ := exec_inv inv_init h
  rw [e] at e'
  injection e' with e'
  subst e'
  refine ⟨fun o b ho hc => ?_, fun c hc => ?_⟩
  · rcases (hi.objs o b ho).2 with hr | hr
    · obtain ⟨⟨x, hx, -⟩, -⟩ := hi.refs _ _ hr
      rw [hc] at hx
      cases hx
    · exact hr.1
  · cases hr : s.refs c with
    | none => rfl
    | some o =>
      obtain ⟨⟨x, hx, -⟩, -⟩ := hi.refs _ _ hr
      rw [hc] at hx
      cases hx

example : ∃ s, exec St.init [.make false, .wrap 0, .del 0] = some s ∧ s.cpp 0 = none ∧ s.objs 0 = some ⟨0, false, 1⟩ :=
  ⟨_, rfl, rfl, rfl⟩

/-- **C133 (partial), deleting**: an agent is deleted together with its entry in the cache and with its object if the user does not have it; no
other agent and no other object is touched. -/
theorem C133_delete_partial {ops : List Op} {s : St} (h : ∀ o ∈ ops, Managed o) (e : exec St.init ops = some s) {c : ℕ}
    (hc : s.cpp c ≠ none) : ∃ t, step s (.del c) = some t ∧ t.cpp c = none ∧ (∀ c', c' ≠ c → t.cpp c' = s.cpp c') ∧
      ∀ o b, s.objs o = some b → t.objs o = if b.cpp = c ∧ b.held = 0 then none else some b := by
  obtain ⟨s', e', hi⟩ := exec_inv inv_init h
  rw [e] at e'
  injection e' with e'
  subst e'
  obtain ⟨x, hx⟩ := Option.ne_none_iff_exists'.1 hc
  refine ⟨_, del_eq hi hx, upd_same _ _ _, fun c' hc' => upd_other _ _ hc', fun o b ho => ?_⟩
  simp only [gone, ho, Option.bind_some]
  by_cases hr : s.refs c = some o ∧ b.held = 0
  · rw [if_pos hr, if_pos]
    obtain ⟨-, k, hk⟩ := hi.refs c o hr.1
    rw [ho] at hk
    injection hk with hk
    refine ⟨?_, hr.2⟩
    rw [hk]
  · rw [if_neg hr, if_neg]
    rintro ⟨h1, h2⟩
    rcases (hi.objs o b ho).2 with h3 | h3
    · rw [h1] at h3
      exact hr ⟨h3, h2⟩
    · omega

example : ∃ s, exec St.init [.make false, .make false] = some s ∧ s.cpp 0 ≠ none := ⟨_, rfl, by decide⟩

/-- **C133 (partial), annotations**: the first time they are read, they are those of the agent.  Missing: every further time
(`C133_fails_annotations`). -/
theorem C133_annotations_partial {α : Type} (empty a : α) : annotations empty a none = a := rfl

example : annotations "null" "{}" none = "{}" := rfl

/-! ### Disagreements -/

/-- **C133 fails**: an agent that the user made by calling the class and that is deleted through the context is deleted again when the user
forgets the object. -/
theorem C133_fails_double (sub : Bool) : ∃ c, exec St.init [.user sub, .del c] ≠ none ∧ exec St.init [.user sub, .del c, .release 0] = none := by
  cases sub
  · exact ⟨0, by decide +kernel, rfl⟩
  · exact ⟨1, by decide +kernel, rfl⟩

/-- **C133 fails**: such an agent is given to Python code as another object than that of the user. -/
theorem C133_fails_same : ∃ s t, exec St.init [.user false] = some s ∧ s.cpp 0 = some (.shim 0) ∧ step s (.wrap 0) = some t ∧
    wrapped s 0 = 1 ∧ t.objs 1 = some ⟨0, false, 1⟩ := ⟨_, _, rfl, rfl, rfl, rfl, rfl⟩

/-- **C133 fails**: when the user then forgets the first object, the agent is deleted; the second object remains in the cache for ever, and using it
uses the deleted agent. -/
theorem C133_fails_stale : ∃ s, exec St.init [.user false, .wrap 0, .release 0, .release 1] = some s ∧ s.cpp 0 = none ∧ s.refs 0 = some 1 ∧
    s.objs 1 = some ⟨0, false, 0⟩ ∧ exec St.init [.user false, .wrap 0, .release 0, .use 1] = none := ⟨_, rfl, rfl, rfl, rfl, rfl⟩

/-- **C133 fails**: after the cache is cleared (`CloseAll`) the objects of agents that live are gone, and the next call ends the program. -/
theorem C133_fails_clear : exec St.init [.make false, .call 0, .clear] ≠ none ∧ exec St.init [.make false, .call 0, .clear, .call 0] = none :=
  ⟨by decide +kernel, rfl⟩

/-- Clearing the cache empties it, frees the objects that were in it and that nobody has, and keeps all others. -/
theorem C133_clear (s : St) : ∃ t, step s .clear = some t ∧ (∀ c, t.refs c = none) ∧
    (∀ o b, s.objs o = some b → (t.objs o = none ↔ b.held = 0 ∧ s.refs b.cpp = some o) ∧ (t.objs o ≠ none → t.objs o = some b)) := by
  refine ⟨_, rfl, fun _ => rfl, fun o b hb => ?_⟩
  simp only [hb, Option.bind_some]
  by_cases h : b.held = 0 ∧ s.refs b.cpp = some o
  · rw [if_pos h]
    exact ⟨⟨fun _ => h, fun _ => rfl⟩, fun hn => absurd rfl hn⟩
  · rw [if_neg h]
    exact ⟨⟨fun hn => (nomatch hn), fun hn => absurd hn h⟩, fun _ => rfl⟩

/-- **C133 fails**: an object that the user keeps still has the pointer to its agent after the agent was deleted. -/
theorem C133_fails_use : exec St.init [.make false, .wrap 0, .use 0, .del 0] ≠ none ∧ exec St.init [.make false, .wrap 0, .del 0, .use 0] = none :=
  ⟨by decide +kernel, rfl⟩

/-- **C133 fails**: every region, institution or facility that is made in Python is two agents: one is never used, has a number, and remains
in the list of agents when the other is deleted. -/
theorem C133_fails_orphan (s : St) : (make s true).nc = s.nc + 2 ∧ (make s true).cpp s.nc = some .orphan ∧
    (make s true).cpp (s.nc + 1) = some (.shim s.np) ∧
    ∃ t, exec St.init [.make true, .del 1] = some t ∧ t.cpp 0 = some .orphan ∧ t.cpp 1 = none := by
  refine ⟨rfl, ?_, ?_, _, rfl, rfl, rfl⟩
  · rw [make_cpp, if_neg (by simp [own]), if_pos ⟨rfl, rfl⟩]
  · rw [make_cpp, if_pos (by simp [own])]

/-- **C133 fails**: the annotations of an agent are empty every time but the first. -/
theorem C133_fails_annotations {α : Type} (empty a : α) :
    annotations empty a (some (annotations empty a none)) = empty ∧ ∀ r, annotations empty a (some r) = empty := ⟨rfl, fun _ => rfl⟩

end Cyclus.PyLife
