import Verif.Lemmas.StateTables

/-!
# C140: agents find in their tables what they wrote

Whatever other agents and archetypes recorded, an agent reads exactly what it recorded under a title at a time, as archetype
(`C140_archetype`), as `Agent` (`C140_base_partial`), and as inventories (`C140_inventory_partial`); a prototype reads what it recorded at any time
(`C140_prototype`).  Tables of one archetype are different for different titles (`C140_titles`).

The code violates the rest: different archetypes share a table (`C140_fails_share`, `C140_fails_titles`), an agent that is
recorded twice in one time step reads everything twice (`C140_fails_twice`), and archetypes whose path has a colon cannot record
anything (`C140_fails_colon`).
-/

namespace Cyclus.StateTables

open Cyclus.Load

/-- **C140**: an archetype reads exactly what it recorded under a title at a time. -/
theorem C140_archetype {A : Type} (l : List (Write A)) (m : Agent) (t : ℤ) (title : Txt) (hc : Consistent l m) (hb : BaseTitles l) :
    read (db l) true m (some t) title = own l true m.id (some t) title := by
  unfold read query db own
  apply filter_map_eq
  intro w hw
  cases w with
  | inv m' t' a =>
    have : (Write.inv m' t' a).row.table ≠ statePrefix true m.spec ++ title := inv_ne m' t' a m.spec title
    simp only [this, decide_false, Bool.false_and, Bool.false_eq_true, if_false]
  | state f m' t' ti a =>
    cases f with
    | false =>
      have h0 := (hb _ hw m' t' ti a rfl).1
      have : statePrefix false m'.spec ++ ti ≠ statePrefix true m.spec ++ title := (full_ne m.spec title ti h0).symm
      simp only [Write.row, newDatum, this, decide_false, Bool.false_and, Bool.false_eq_true, if_false, false_and]
    | true =>
      by_cases hi : m'.id = m.id
      · have hm : m' = m := hc _ hw hi
        subst hm
        simp only [Write.row, newDatum, List.append_cancel_left_eq, Bool.and_eq_true, decide_eq_true_eq, true_and, reduceCtorEq, false_or, Option.some.injEq,
          and_true]
        by_cases h1 : ti = title <;> by_cases h2 : t' = t <;> simp [h1, h2]
        simp [Ne.symm h2]
      · simp [Write.row, newDatum, hi]

/-- Two facilities of different archetypes. -/
def fac1 : Agent := ⟨7, ⟨"p".toList, "lib".toList, "Src".toList, []⟩⟩
/-- Two facilities of different archetypes. -/
def fac2 : Agent := ⟨8, ⟨"p".toList, "lib".toList, "Sink".toList, []⟩⟩

/-- Their records. -/
def recs : List (Write ℕ) :=
  [.state false fac1 3 "Agent".toList 1, .state true fac1 3 "Info".toList 2, .state true fac2 3 "Info".toList 3, .inv fac1 3 4, .state true fac1 4 "Info".toList 5]

example : Consistent recs fac1 ∧ BaseTitles recs ∧ read (db recs) true fac1 (some 3) "Info".toList = [2] := by
  refine ⟨?_, ?_, by decide⟩
  · intro w hw h
    simp only [recs, List.mem_cons, List.not_mem_nil, or_false] at hw
    rcases hw with rfl | rfl | rfl | rfl | rfl
    · rfl
    · rfl
    · exact absurd h (by decide)
    · rfl
    · rfl
  · intro w hw m t ti a h
    simp only [recs, List.mem_cons, List.not_mem_nil, or_false] at hw
    rcases hw with rfl | rfl | rfl | rfl | rfl <;> cases h
    decide

/-- **C140**: the class `Agent` reads exactly what it recorded, under titles as it uses them. -/
theorem C140_base_partial {A : Type} (l : List (Write A)) (m : Agent) (t : ℤ) (title : Txt) (ht : '_' ∉ title ∧ title ≠ "Inventories".toList) :
    read (db l) false m (some t) title = own l false m.id (some t) title := by
  unfold read query db own
  apply filter_map_eq
  intro w hw
  cases w with
  | inv m' t' a =>
    have : (Write.inv m' t' a).row.table ≠ statePrefix false m.spec ++ title := by
      intro h
      change (inventory m' t' a).table = _ at h
      rw [inv_table] at h
      exact ht.2 (List.append_cancel_left (as := "AgentState".toList) h).symm
    simp only [this, decide_false, Bool.false_and, Bool.false_eq_true, if_false]
  | state f m' t' ti a =>
    cases f with
    | true =>
      have : statePrefix true m'.spec ++ ti ≠ statePrefix false m.spec ++ title := full_ne m'.spec ti title ht.1
      simp only [Write.row, newDatum, this, decide_false, Bool.false_and, Bool.false_eq_true, if_false, Bool.true_eq_false, false_and]
    | false =>
      have hp : statePrefix false m'.spec = statePrefix false m.spec := rfl
      simp only [Write.row, newDatum, hp, List.append_cancel_left_eq, Bool.and_eq_true, decide_eq_true_eq, true_and, reduceCtorEq, false_or, Option.some.injEq]
      by_cases h1 : ti = title <;> by_cases h2 : t' = t <;> by_cases h3 : m'.id = m.id <;> simp [h1, h2, h3]
      simp [Ne.symm h2]

example : read (db recs) false fac1 (some 3) "Agent".toList = [1] ∧ '_' ∉ "Agent".toList ∧ "Agent".toList ≠ "Inventories".toList := by decide

/-- **C140**: a prototype reads what it recorded, at whatever time. -/
theorem C140_prototype {A : Type} (l : List (Write A)) (m : Agent) (title : Txt) (hc : Consistent l m) (hb : BaseTitles l) :
    read (db l) true m none title = own l true m.id none title := by
  unfold read query db own
  apply filter_map_eq
  intro w hw
  cases w with
  | inv m' t' a =>
    have : (Write.inv m' t' a).row.table ≠ statePrefix true m.spec ++ title := inv_ne m' t' a m.spec title
    simp only [this, decide_false, Bool.false_and, Bool.false_eq_true, if_false]
  | state f m' t' ti a =>
    cases f with
    | false =>
      have h0 := (hb _ hw m' t' ti a rfl).1
      have : statePrefix false m'.spec ++ ti ≠ statePrefix true m.spec ++ title := (full_ne m.spec title ti h0).symm
      simp only [Write.row, newDatum, this, decide_false, Bool.false_and, Bool.false_eq_true, if_false, false_and]
    | true =>
      by_cases hi : m'.id = m.id
      · have hm : m' = m := hc _ hw hi
        subst hm
        simp only [Write.row, newDatum, List.append_cancel_left_eq, Bool.and_eq_true, decide_eq_true_eq, true_and, true_or, and_true]
      · simp [Write.row, newDatum, hi]

example : read (db recs) true fac1 none "Info".toList = [2, 5] := by decide

/-- **C140**: the inventories that are read are exactly those that were recorded. -/
theorem C140_inventory_partial {A : Type} (l : List (Write A)) (m : Agent) (t : ℤ) (hb : BaseTitles l) :
    readInv (db l) m t = ownInv l m.id t := by
  unfold readInv query db ownInv
  apply filter_map_eq
  intro w hw
  cases w with
  | inv m' t' a =>
    have : (Write.inv m' t' a).row.table = "AgentState".toList ++ "Inventories".toList := inv_table m' t' a
    simp only [this, decide_true, Bool.true_and, Bool.and_eq_true, decide_eq_true_eq]
    rfl
  | state f m' t' ti a =>
    have : statePrefix f m'.spec ++ ti ≠ "AgentState".toList ++ "Inventories".toList := by
      cases f with
      | true => exact full_ne m'.spec ti _ (by decide)
      | false =>
        intro h
        exact (hb _ hw m' t' ti a rfl).2 (List.append_cancel_left (as := "AgentState".toList) h)
    simp only [Write.row, newDatum, this, decide_false, Bool.false_and, Bool.false_eq_true, if_false]

example : readInv (db recs) fac1 3 = [4] := by decide

/-- **C140**: an archetype has different tables for different titles, none of which is a table of `Agent` or of inventories. -/
theorem C140_titles {A : Type} (m m' m'' : Agent) (t t' : ℤ) (ti ti' u : Txt) (a a' : A) (hm : m.spec = m'.spec) (hu : '_' ∉ u) :
    ((newDatum true m t ti a).table = (newDatum true m' t' ti' a').table ↔ ti = ti') ∧
    (newDatum true m t ti a).table ≠ (newDatum false m'' t' u a').table ∧ (newDatum true m t ti a).table ≠ (inventory m' t' a').table := by
  refine ⟨?_, full_ne m.spec ti u hu, (inv_ne m' t' a' m.spec ti).symm⟩
  simp only [newDatum, hm, List.append_cancel_left_eq]

example : '_' ∉ "Agent".toList ∧ (newDatum true fac1 3 "Info".toList 2).table = "AgentStatep_lib_SrcInfo".toList := by decide

/-- **C140 fails**: archetypes whose paths differ only in a character that tables cannot have share their tables. -/
theorem C140_fails_share : ∃ s s' : Spec, s.path ≠ s'.path ∧ ∀ (m m' : Agent) (t : ℤ) (ti : Txt) (a : ℕ), m.spec = s → m'.spec = s' →
    (newDatum true m t ti a).table = (newDatum true m' t ti a).table :=
  ⟨⟨"a-b".toList, "l".toList, "X".toList, []⟩, ⟨"a_b".toList, "l".toList, "X".toList, []⟩, by decide, fun m m' t ti a h h' => by
    simp only [newDatum, statePrefix, h, h']
    rfl⟩

/-- **C140 fails**: an archetype whose name begins with the name of another shares a table with it under another title. -/
theorem C140_fails_titles : ∃ s s' : Spec, s.agent ≠ s'.agent ∧ statePrefix true s ++ "PoolInfo".toList = statePrefix true s' ++ "Info".toList :=
  ⟨⟨"p".toList, "l".toList, "Fuel".toList, []⟩, ⟨"p".toList, "l".toList, "FuelPool".toList, []⟩, by decide, by decide⟩

/-- **C140 fails**: an agent that is recorded twice in one time step reads everything twice. -/
theorem C140_fails_twice {A : Type} (m : Agent) (t : ℤ) (ti : Txt) (a : A) :
    read (db [.state true m t ti a, .state true m t ti a]) true m (some t) ti = [a, a] := by
  simp [read, query, db, Write.row, newDatum]

/-- **C140 fails**: the archetype of an agent cannot be read from its text if its path has a colon, so that nothing can be recorded. -/
theorem C140_fails_colon : ∃ s : Spec, s.lib ≠ [] ∧ s.agent ≠ [] ∧ Spec.parse s.str = .error .value :=
  ⟨⟨"c:d".toList, "l".toList, "X".toList, []⟩, by decide, by decide, by decide⟩

end Cyclus.StateTables
