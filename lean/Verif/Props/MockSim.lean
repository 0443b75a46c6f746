import Verif.Spec.MockSim
import Verif.Lemmas.MockSim
import Verif.Props.ToXml

/-!
# C127: a mock simulation has the agents that were asked for
-/

namespace Cyclus.MockSim.Props

open Spec (Asked LastStep)

/-! ## What is asked for -/

/-- The last value given to a call of one kind, or a default. -/
def lastOf {α : Type} (f : Call → Option α) (d : α) (calls : List Call) : α :=
  ((calls.filterMap f).getLast?).getD d

/-- What a chain of calls asks for. -/
def asked (source : Bool) (commod : String) (calls : List Call) : Asked where
  source := source
  commod := lastOf (fun | .commod s => some s | _ => none) commod calls
  recipe := lastOf (fun | .recipe s => some s | _ => none) "" calls
  cap := lastOf (fun | .capacity q => some q | _ => none) (10 ^ 299) calls
  start := lastOf (fun | .start t => some t | _ => none) 0 calls
  life := lastOf (fun | .lifetime n => some n | _ => none) (-1) calls

/-- C127 (configuration).  A mock agent holds the last value given with each call.  Without a call it has
no recipe, the capacity 1e299, the start 0 and the lifetime -1. -/
theorem C127_configuration (next : ℕ) (source : Bool) (commod : String) (calls : List Call) :
    calls.foldl Conf.call (add next source commod).1 =
      { proto := .mock source next
        source := source
        commod := (asked source commod calls).commod
        recipe := (asked source commod calls).recipe
        cap := (asked source commod calls).cap
        start := (asked source commod calls).start
        life := (asked source commod calls).life } := by
  induction calls using List.reverseRec with
  | nil => rfl
  | append_singleton calls c ih =>
    rw [List.foldl_append, ih]
    cases c <;> simp [Conf.call, asked, lastOf, List.filterMap_append]

example : (asked true "ore" [.start 3, .capacity 5, .start 4]).start = 4 ∧
    (asked true "ore" [.start 3, .capacity 5, .start 4]).cap = 5 ∧
    (asked true "ore" [.start 3, .capacity 5, .start 4]).life = -1 := by decide +kernel

/-- C127 (names).  The mock agents made in a process have different names, which are also different from
that of the agent under test; there is one for each call. -/
theorem C127_names (next : ℕ) (l : List (Bool × String × List Call)) :
    ((addAll next l).map Conf.proto).Nodup ∧ (∀ c ∈ addAll next l, c.proto ≠ .tested) ∧
    (addAll next l).length = l.length := by
  have hp : ∀ next l, ∀ c ∈ addAll next l, ∃ b n, next ≤ n ∧ c.proto = .mock b n := by
    intro next l
    induction l generalizing next with
    | nil => simp [addAll]
    | cons a l ih =>
      obtain ⟨s, cm, calls⟩ := a
      intro c hc
      rcases List.mem_cons.1 hc with rfl | hc
      · exact ⟨s, next, le_refl _, by rw [C127_configuration]⟩
      · obtain ⟨b, n, h1, h2⟩ := ih (next + 1) c hc
        exact ⟨b, n, by omega, h2⟩
  refine ⟨?_, ?_, ?_⟩
  · induction l generalizing next with
    | nil => simp [addAll]
    | cons a l ih =>
      obtain ⟨s, cm, calls⟩ := a
      unfold addAll
      rw [List.map_cons, List.nodup_cons]
      refine ⟨?_, ih _⟩
      intro hm
      obtain ⟨c, hc, he⟩ := List.mem_map.1 hm
      obtain ⟨b, n, h1, h2⟩ := hp (next + 1) l c hc
      rw [C127_configuration, h2] at he
      simp only [Who.mock.injEq] at he
      omega
  · intro c hc he
    obtain ⟨b, n, -, h⟩ := hp next l c hc
    rw [h] at he
    cases he
  · induction l generalizing next with
    | nil => rfl
    | cons a l ih =>
      obtain ⟨s, cm, calls⟩ := a
      simp [addAll, ih]

example : (addAll 7 [(true, "ore", []), (false, "waste", []), (true, "ore", [.start 2])]).map
    Conf.proto = [.mock true 7, .mock false 8, .mock true 9] := by decide +kernel

/-- C127 (prototype).  The prototype made of a mock agent is a source or a sink as asked, with the
lifetime, the commodity and the recipe asked for.  Its capacity is the one asked for if that has at most
six significant digits, and within 5 millionths of it in general. -/
theorem C127_prototype_partial (c : Conf) :
    c.prototype.spec = (if c.source then ":agents:Source" else ":agents:Sink") ∧
    c.prototype.lifetime = c.life ∧ c.prototype.commods = [c.commod] ∧
    c.prototype.recipe = c.recipe ∧
    (c.prototype.capacity = c.cap ↔ ∃ m k : ℤ, |m| < 10 ^ 6 ∧ c.cap = m * (10 : ℚ) ^ k) ∧
    |c.prototype.capacity - c.cap| ≤ |c.cap| * (5 / 10 ^ 6) := by
  refine ⟨rfl, rfl, rfl, ?_, (Convert.C97_numbers 0 c.cap).2.1, (Convert.C97_numbers 0 c.cap).2.2⟩
  unfold Conf.prototype
  by_cases h : c.recipe = "" <;> simp [h]

/-- The default capacity is written exactly. -/
example (next : ℕ) (b : Bool) : (fresh next b).1.prototype.capacity = 10 ^ 299 := by
  rw [(C127_prototype_partial (fresh next b).1).2.2.2.2.1.2]
  · rfl
  · exact ⟨1, 299, by norm_num, by norm_num [fresh]⟩

/-- C127 (dummy prototypes).  They are sources without a lifetime, which build no agent by themselves. -/
theorem C127_dummy_partial (commod : String) (q : ℚ) :
    dummy = ⟨":agents:Source", -1, ["alongunusedcommodityname"], "", 0⟩ ∧
    (dummyWith commod q).spec = ":agents:Source" ∧ (dummyWith commod q).lifetime = -1 ∧
    (dummyWith commod q).recipe = "" ∧
    ((dummyWith commod q).capacity = q ↔ ∃ m k : ℤ, |m| < 10 ^ 6 ∧ q = m * (10 : ℚ) ^ k) :=
  ⟨rfl, rfl, rfl, rfl, (Convert.C97_numbers 0 q).2.1⟩

/-! ## The run -/

/-- C127 (lives).  Let the mock agents start in steps ≥ 0, and let those that start later have no
lifetime 0.  Then the simulation runs.  Every mock agent enters once, in the step asked for, if the
simulation gets there, and the agent under test enters in step 0.  A mock agent with a lifetime of
`n ≥ 1` steps is there in exactly `n` steps and leaves at the end of the last, if the simulation gets
there; without a lifetime it never leaves; nobody leaves twice.  The same is true of an agent under test
which schedules its decommissioning itself. -/
theorem C127_lives_partial (cs : List Conf) (own : Bool) (life : ℤ) (duration : ℕ)
    (hs : ∀ c ∈ cs, 0 ≤ c.start) (hn : (cs.map Conf.proto).Nodup)
    (ht : ∀ c ∈ cs, c.proto ≠ .tested) (hl : ∀ c ∈ cs, c.life = 0 → c.start = 0) :
    ∃ s, run cs own life duration = .ok s ∧
      s.time = duration ∧
      s.protos = cs.map (fun c => (c.proto, c.prototype)) ∧
      (∀ w t, (w, t) ∈ s.entries ↔ (w = .tested ∧ t = 0) ∨
        ∃ c ∈ cs, w = c.proto ∧ t = c.start ∧ (t = 0 ∨ t < duration)) ∧
      (s.entries.map Prod.fst).Nodup ∧
      (∀ w t, (w, t) ∈ s.exits ↔ t < duration ∧
        ((own = true ∧ w = .tested ∧ (LastStep 0 life t ∨ (life = 0 ∧ t = 0))) ∨
         ∃ c ∈ cs, w = c.proto ∧ (LastStep c.start c.life t ∨ (c.life = 0 ∧ t = 0)))) ∧
      (s.exits.map Prod.fst).Nodup := by
  obtain ⟨s, hr, hi⟩ := run_inv (own := own) (L := life) hs hn ht hl duration
  refine ⟨s, hr, hi.time, hi.protos, hi.entries, hi.enteredOnce, ?_, hi.once⟩
  intro w t
  rw [hi.exits, hi.decoms]
  unfold decOf LastStep
  constructor
  · rintro ⟨(⟨ho, h⟩ | ⟨c, hc, hk, h⟩), htd⟩
    · refine ⟨htd, .inl ?_⟩
      simp only at h
      split_ifs at h with h1 h2
      · cases h; exact ⟨ho, rfl, .inr ⟨h2, rfl⟩⟩
      · cases h; exact ⟨ho, rfl, .inl ⟨by omega, rfl⟩⟩
    · refine ⟨htd, .inr ⟨c, hc, ?_⟩⟩
      simp only at h
      split_ifs at h with h1 h2
      · cases h; exact ⟨rfl, .inr ⟨h2, hl c hc h2⟩⟩
      · cases h; exact ⟨rfl, .inl ⟨by omega, rfl⟩⟩
  · rintro ⟨htd, (⟨ho, rfl, h⟩ | ⟨c, hc, rfl, h⟩)⟩
    · refine ⟨.inl ⟨ho, ?_⟩, htd⟩
      rcases h with ⟨h1, rfl⟩ | ⟨rfl, rfl⟩
      · have e1 : 0 ≤ life := by omega
        have e2 : ¬ life = 0 := by omega
        simp [e1, e2]
      · simp
    · refine ⟨.inr ⟨c, hc, ?_⟩, htd⟩
      have h0 := hs c hc
      rcases h with ⟨h1, rfl⟩ | ⟨hz, rfl⟩
      · have e1 : 0 ≤ c.life := by omega
        have e2 : ¬ c.life = 0 := by omega
        refine ⟨by omega, ?_⟩
        simp [e1, e2]
      · have := hl c hc hz
        simp [this, hz]

/-- A source from step 2 for three steps, a sink for ever, an agent under test for four steps. -/
example : (run (addAll 0 [(true, "ore", [.start 2, .lifetime 3]), (false, "waste", [])]) true 4 6).map
    (fun s => (s.entries, s.exits)) =
    .ok ([(.mock false 1, 0), (.tested, 0), (.mock true 0, 2)],
         [(.tested, 3), (.mock true 0, 4)]) := by decide +kernel

example : (∀ c ∈ addAll 0 [(true, "ore", [.start 2, .lifetime 3]), (false, "waste", [])],
    0 ≤ c.start ∧ (c.life = 0 → c.start = 0)) := by decide +kernel

/-- C127 (start in the past).  A mock agent whose start is less than -1 is refused, and nothing is
scheduled or built for it. -/
theorem C127_past (s : State) (c : Conf) (h : c.start < -1) (ht : 0 ≤ s.time) :
    finalize s c = .error .value := by
  have e0 : ¬ c.start = 0 := by omega
  have e1 : ¬ c.start = -1 := by omega
  have e2 : c.start ≤ s.time := by omega
  simp [finalize, schedBuild, e0, e1, e2]

example : finalize init ((fresh 0 true).1.call (.start (-2))) = .error .value := by rfl

/-! ## Disagreements -/

/-- C127 disagreement: the capacity asked for is rounded to six digits on its way through the text. -/
theorem C127_fails_capacity (next : ℕ) (b : Bool) :
    ((fresh next b).1.call (.capacity 1234567)).prototype.capacity ≠ 1234567 := by
  intro h
  obtain ⟨m, k, hm, he⟩ := (C127_prototype_partial
    ((fresh next b).1.call (.capacity 1234567))).2.2.2.2.1.1 h
  exact (Convert.C97_fails_precision (shown := fun _ => []) []).2
    ((Convert.C97_numbers 0 1234567).2.1.2 ⟨m, k, hm, he⟩)

/-- C127 disagreement: the commodity given to `DummyProto` is ignored. -/
theorem C127_fails_dummy (commod : String) (q : ℚ) (h : commod ≠ "commod") :
    (dummyWith commod q).commods ≠ [commod] := by
  intro he
  simp only [dummyWith, List.cons.injEq, and_true] at he
  exact h he.symm

example : "fuel" ≠ "commod" := by decide

/-- C127 disagreement: a lifetime of 0 of an agent that starts in step 0 is the same as one of 1; of an
agent that starts later it ends the simulation with an error, after the agent has entered. -/
theorem C127_fails_zero :
    (run [⟨.mock true 0, true, "ore", "", 1, 0, 0⟩] true (-1) 3).map State.exits =
      (run [⟨.mock true 0, true, "ore", "", 1, 0, 1⟩] true (-1) 3).map State.exits ∧
    (run [⟨.mock true 0, true, "ore", "", 1, 0, 0⟩] true (-1) 3).map State.exits =
      .ok [(.mock true 0, 0)] ∧
    run [⟨.mock true 0, true, "ore", "", 1, 2, 0⟩] true (-1) 3 = .error .value := by
  refine ⟨by decide +kernel, by decide +kernel, by rfl⟩

/-- C127 disagreement: the start -1, in the past, means step 1. -/
theorem C127_fails_start :
    (run [⟨.mock true 0, true, "ore", "", 1, -1, -1⟩] true (-1) 3).map State.entries =
      .ok [(.tested, 0), (.mock true 0, 1)] := by decide +kernel

/-- C127 disagreement: the lifetime of the agent under test has no effect, unless the archetype schedules
its decommissioning itself: no other agent does it. -/
theorem C127_fails_tested (cs : List Conf) (life t : ℤ) (duration : ℕ)
    (hs : ∀ c ∈ cs, 0 ≤ c.start) (hn : (cs.map Conf.proto).Nodup)
    (ht : ∀ c ∈ cs, c.proto ≠ .tested) (hl : ∀ c ∈ cs, c.life = 0 → c.start = 0) :
    ∃ s, run cs false life duration = .ok s ∧ (Who.tested, t) ∉ s.exits := by
  obtain ⟨s, hr, -, -, -, -, he, -⟩ := C127_lives_partial cs false life duration hs hn ht hl
  refine ⟨s, hr, ?_⟩
  rw [he]
  rintro ⟨-, (⟨h, -⟩ | ⟨c, hc, h, -⟩)⟩
  · cases h
  · exact ht c hc h.symm

example : (run [] false 2 5).map State.exits = .ok [] ∧
    (run [] true 2 5).map State.exits = .ok [(.tested, 1)] := by
  constructor <;> decide +kernel

end Cyclus.MockSim.Props
