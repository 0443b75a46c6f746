import Verif.Spec.StateTables

/-!
# Lemmas about the tables of agents
-/

namespace Cyclus.StateTables

open Cyclus.Load

/-- Names of archetypes in tables have an underscore. -/
theorem underscore_mem (s : Spec) : '_' ∈ s.sanitize := by
  unfold Spec.sanitize replaceAll Spec.str
  simp only [List.map_map, List.mem_map, List.mem_append]
  exact ⟨':', Or.inl (Or.inl (Or.inl (Or.inr (by simp)))) , by decide⟩

theorem full_ne (s : Spec) (t u : Txt) (hu : '_' ∉ u) : statePrefix true s ++ t ≠ "AgentState".toList ++ u := by
  intro h
  unfold statePrefix at h
  rw [if_pos rfl, List.append_assoc] at h
  have := List.append_cancel_left h
  exact hu (this ▸ List.mem_append_left _ (underscore_mem s))

theorem inv_table {A : Type} (m : Agent) (t : ℤ) (a : A) : (inventory m t a).table = "AgentState".toList ++ "Inventories".toList := by
  unfold inventory
  dsimp only
  decide

theorem inv_ne {A : Type} (m : Agent) (t : ℤ) (a : A) (s : Spec) (u : Txt) : (inventory m t a).table ≠ statePrefix true s ++ u := by
  rw [inv_table]
  exact (full_ne s u "Inventories".toList (by decide)).symm

theorem filter_map_eq {A B C : Type} (f : A → B) (p : B → Bool) (g : B → C) (h : A → Option C) :
    ∀ l : List A, (∀ a ∈ l, (if p (f a) then some (g (f a)) else none) = h a) → ((l.map f).filter p).map g = l.filterMap h
  | [], _ => rfl
  | a :: l, hl => by
    have ih := filter_map_eq f p g h l fun b hb => hl b (List.mem_cons_of_mem _ hb)
    have ha := hl a List.mem_cons_self
    rw [List.map_cons, List.filter_cons]
    cases hp : p (f a) with
    | true =>
      rw [hp, if_pos rfl] at ha
      rw [if_pos rfl, List.map_cons, ih, List.filterMap_cons, ← ha]
    | false =>
      rw [hp] at ha
      rw [if_neg (by simp), ih, List.filterMap_cons, ← ha]
      rfl

end Cyclus.StateTables
