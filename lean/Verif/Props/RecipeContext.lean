import Verif.Model.RecipeContext
import Mathlib.Order.Basic
import Mathlib.Data.List.Induction
import Mathlib.Tactic.Tauto

/-!
# Commodity recipe context (C52)
-/

namespace Cyclus.RecipeCtx

namespace Spec

/-- The calls that change a context. -/
inductive Op where
  | addIn (c r c' r' : ℕ)
  | updateIn (c r : ℕ)
  | addRes (c i : ℕ)
  | rmRes (i : ℕ)
  | query (c i : ℕ)

/-- The effect of a call; a query is one call of each lookup. -/
def apply (s : Ctx) : Op → Ctx
  | .addIn c r c' r' => s.addIn c r c' r'
  | .updateIn c r => s.updateIn c r
  | .addRes c i => s.addRes c i
  | .rmRes i => s.rmRes i
  | .query c i => (((((s.outCommod c).1.inRecipe c).1).outRecipe c).1.commod i).1

/-- The context after a history. -/
def run (ops : List Op) : Ctx := ops.foldl apply {}

/-- The input recipe that a history, latest call first, associates with a commodity. -/
def inRec (c : ℕ) : List Op → Option ℕ
  | [] => none
  | .addIn d r _ _ :: ops => if d = c then some r else inRec c ops
  | .updateIn d r :: ops => if d = c then some r else inRec c ops
  | _ :: ops => inRec c ops

/-- Output commodity and output recipe. -/
def outs (c : ℕ) : List Op → Option (ℕ × ℕ)
  | [] => none
  | .addIn d _ c' r' :: ops => if d = c then some (c', r') else outs c ops
  | _ :: ops => outs c ops

/-- The commodity of a resource. -/
def resOf (i : ℕ) : List Op → Option ℕ
  | [] => none
  | .addRes c j :: ops => if j = i then some c else resOf i ops
  | .rmRes j :: ops => if j = i then none else resOf i ops
  | _ :: ops => resOf i ops

end Spec

open Spec

theorem find_set (k k' v : ℕ) (m : List (ℕ × ℕ)) :
    mapFind k' (mapSet k v m) = if k' = k then some v else mapFind k' m := by
  induction m with
  | nil => simp [mapSet, mapFind]
  | cons e es ih =>
    unfold mapSet
    by_cases h1 : k < e.1
    · simp [h1, mapFind]
    · by_cases h2 : k = e.1
      · rw [if_neg h1, if_pos h2, h2]
        simp only [mapFind]
        by_cases h3 : k' = e.1 <;> simp [h3]
      · simp only [h1, if_false, h2, mapFind, ih]
        by_cases h3 : k' = e.1
        · have : k' ≠ k := fun h => h2 (h.symm.trans h3)
          simp [h3, Ne.symm h2]
        · simp [h3]

theorem find_erase (k k' : ℕ) (m : List (ℕ × ℕ)) :
    mapFind k' (mapErase k m) = if k' = k then none else mapFind k' m := by
  induction m with
  | nil => simp [mapErase, mapFind]
  | cons e es ih =>
    unfold mapErase at ih ⊢
    rw [List.filter_cons]
    by_cases h : e.1 = k
    · simp only [h, decide_true, Bool.not_true, Bool.false_eq_true, if_false, ih, mapFind]
      by_cases h2 : k' = k <;> simp [h2]
    · simp only [h, decide_false, Bool.not_false, if_true, mapFind, ih]
      by_cases h2 : k' = e.1
      · simp [h2, h]
      · simp [h2]

theorem at_val (k : ℕ) (m : List (ℕ × ℕ)) : (mapAt k m).2 = (mapFind k m).getD 0 := by
  unfold mapAt
  cases mapFind k m <;> rfl

/-- A lookup changes no value that is read. -/
theorem at_find (k k' : ℕ) (m : List (ℕ × ℕ)) :
    (mapFind k' (mapAt k m).1).getD 0 = (mapFind k' m).getD 0 := by
  unfold mapAt
  cases h : mapFind k m with
  | some v => rfl
  | none =>
    simp only [find_set]
    by_cases h2 : k' = k
    · simp [h2, h]
    · simp [h2]

/-- **C52, lookups**: after any history of calls, every lookup gives what the key was last associated
with, and the empty string if it was not associated with anything. -/
theorem C52_lookup (ops : List Op) (c i : ℕ) :
    ((run ops).inRecipe c).2 = (inRec c ops.reverse).getD 0 ∧
    ((run ops).outCommod c).2 = ((outs c ops.reverse).map Prod.fst).getD 0 ∧
    ((run ops).outRecipe c).2 = ((outs c ops.reverse).map Prod.snd).getD 0 ∧
    ((run ops).commod i).2 = (resOf i ops.reverse).getD 0 := by
  simp only [Ctx.inRecipe, Ctx.outCommod, Ctx.outRecipe, Ctx.commod, at_val]
  induction ops using List.reverseRecOn with
  | nil => simp [run, mapFind, inRec, outs, resOf]
  | append_singleton ops o ih =>
    obtain ⟨h1, h2, h3, h4⟩ := ih
    simp only [run, List.foldl_append, List.foldl_cons, List.foldl_nil, List.reverse_append,
      List.reverse_cons, List.reverse_nil, List.nil_append, List.cons_append] at *
    cases o with
    | addIn d r c' r' =>
      simp only [apply, Ctx.addIn, find_set, inRec, outs, resOf]
      by_cases hd : c = d
      · subst hd; simp [h4]
      · simp [hd, Ne.symm hd, h1, h2, h3, h4]
    | updateIn d r =>
      simp only [apply, Ctx.updateIn, find_set, inRec, outs, resOf]
      by_cases hd : c = d
      · subst hd; simp [h2, h3, h4]
      · simp [hd, Ne.symm hd, h1, h2, h3, h4]
    | addRes d j =>
      simp only [apply, Ctx.addRes, find_set, inRec, outs, resOf]
      by_cases hd : i = j
      · subst hd; simp [h1, h2, h3]
      · simp [hd, Ne.symm hd, h1, h2, h3, h4]
    | rmRes j =>
      simp only [apply, Ctx.rmRes, find_erase, inRec, outs, resOf]
      by_cases hd : i = j
      · subst hd; simp [h1, h2, h3]
      · simp [hd, Ne.symm hd, h1, h2, h3, h4]
    | query d j =>
      simp only [apply, Ctx.outCommod, Ctx.inRecipe, Ctx.outRecipe, Ctx.commod, at_find, inRec, outs,
        resOf]
      exact ⟨h1, h2, h3, h4⟩

theorem mem_setInsert (x y : ℕ) (l : List ℕ) : y ∈ setInsert x l ↔ y = x ∨ y ∈ l := by
  induction l with
  | nil => simp [setInsert]
  | cons a l ih =>
    unfold setInsert
    by_cases h1 : x < a
    · simp [h1]
    · by_cases h2 : x = a
      · rw [if_neg h1, if_pos h2, h2]; simp
      · simp only [h1, if_false, h2, List.mem_cons, ih]; tauto

theorem addIn_sets (s : Ctx) (c r c' r' : ℕ) :
    (s.addIn c r c' r').ins = setInsert c s.ins ∧ (s.addIn c r c' r').outs = setInsert c' s.outs :=
  ⟨rfl, rfl⟩

/-- **C52, sets**: the input commodities are those that were added, and the output commodities are
those that were ever named as output. -/
theorem C52_sets (ops : List Op) (c : ℕ) :
    (c ∈ (run ops).ins ↔ ∃ r c' r', Op.addIn c r c' r' ∈ ops) ∧
    (c ∈ (run ops).outs ↔ ∃ d r r', Op.addIn d r c r' ∈ ops) := by
  induction ops using List.reverseRecOn with
  | nil => simp [run]
  | append_singleton ops o ih =>
    simp only [run, List.foldl_append, List.foldl_cons, List.foldl_nil] at *
    have key : ∀ o : Op, (c ∈ (apply (List.foldl apply {} ops) o).ins ↔
        (∃ r c' r', o = Op.addIn c r c' r') ∨ c ∈ (List.foldl apply {} ops).ins) ∧
        (c ∈ (apply (List.foldl apply {} ops) o).outs ↔
        (∃ d r r', o = Op.addIn d r c r') ∨ c ∈ (List.foldl apply {} ops).outs) := by
      intro o
      cases o with
      | addIn d r c' r' =>
        simp only [apply, Ctx.addIn, mem_setInsert]
        constructor
        · constructor
          · rintro (rfl | h)
            · exact .inl ⟨r, c', r', rfl⟩
            · exact .inr h
          · rintro (⟨_, _, _, h⟩ | h)
            · injection h with h; exact .inl h.symm
            · exact .inr h
        · constructor
          · rintro (rfl | h)
            · exact .inl ⟨d, r, r', rfl⟩
            · exact .inr h
          · rintro (⟨_, _, _, h⟩ | h)
            · injection h with _ _ h; exact .inl h.symm
            · exact .inr h
      | updateIn d r => simp [apply, Ctx.updateIn]
      | addRes d j => simp [apply, Ctx.addRes]
      | rmRes j => simp [apply, Ctx.rmRes]
      | query d j => simp [apply, Ctx.outCommod, Ctx.inRecipe, Ctx.outRecipe, Ctx.commod]
    obtain ⟨k1, k2⟩ := key o
    obtain ⟨i1, i2⟩ := ih
    constructor
    · rw [k1, i1]
      constructor
      · rintro (⟨r, c', r', rfl⟩ | ⟨r, c', r', h⟩)
        · exact ⟨r, c', r', by simp⟩
        · exact ⟨r, c', r', by simp [h]⟩
      · rintro ⟨r, c', r', h⟩
        rcases List.mem_append.1 h with h | h
        · exact .inr ⟨r, c', r', h⟩
        · exact .inl ⟨r, c', r', (List.mem_singleton.1 h).symm⟩
    · rw [k2, i2]
      constructor
      · rintro (⟨r, c', r', rfl⟩ | ⟨r, c', r', h⟩)
        · exact ⟨r, c', r', by simp⟩
        · exact ⟨r, c', r', by simp [h]⟩
      · rintro ⟨r, c', r', h⟩
        rcases List.mem_append.1 h with h | h
        · exact .inr ⟨r, c', r', h⟩
        · exact .inl ⟨r, c', r', (List.mem_singleton.1 h).symm⟩

/-! ### Snapshot and restore -/

/-- Rows with the lookups of the context. -/
theorem snapLoop_spec : ∀ (cs : List ℕ) (s : Ctx),
    (snapLoop s cs).2 = cs.map (fun c => (c, (mapFind c s.inRec).getD 0,
      (mapFind c s.outOf).getD 0, (mapFind c s.outRec).getD 0)) ∧ (snapLoop s cs).1.res = s.res := by
  intro cs
  induction cs with
  | nil => intro s; simp [snapLoop]
  | cons c cs ih =>
    intro s
    obtain ⟨h1, h2⟩ := ih ((((s.inRecipe c).1).outCommod c).1.outRecipe c).1
    constructor
    · simp only [snapLoop, h1, List.map_cons]
      simp only [Ctx.inRecipe, Ctx.outCommod, Ctx.outRecipe, at_val, at_find]
    · simp only [snapLoop, h2]
      simp only [Ctx.inRecipe, Ctx.outCommod, Ctx.outRecipe]

theorem restore_loop (g : ℕ → ℕ × ℕ × ℕ) : ∀ (cs : List ℕ) (s : Ctx) (c : ℕ),
    let s' := (cs.map fun c => (c, (g c).1, (g c).2.1, (g c).2.2)).foldl
      (fun s r => s.addIn r.1 r.2.1 r.2.2.1 r.2.2.2) s
    mapFind c s'.inRec = (if c ∈ cs then some (g c).1 else mapFind c s.inRec) ∧
    mapFind c s'.outOf = (if c ∈ cs then some (g c).2.1 else mapFind c s.outOf) ∧
    mapFind c s'.outRec = (if c ∈ cs then some (g c).2.2 else mapFind c s.outRec) ∧
    (c ∈ s'.ins ↔ c ∈ cs ∨ c ∈ s.ins) ∧ s'.res = s.res := by
  intro cs
  induction cs with
  | nil => intro s c; simp
  | cons d cs ih =>
    intro s c
    obtain ⟨h1, h2, h3, h4, h5⟩ := ih (s.addIn d (g d).1 (g d).2.1 (g d).2.2) c
    simp only [List.map_cons, List.foldl_cons]
    rw [h1, h2, h3, h4, h5]
    simp only [Ctx.addIn, find_set, mem_setInsert, List.mem_cons]
    refine ⟨?_, ?_, ?_, by tauto, trivial⟩ <;>
    · by_cases hc : c ∈ cs
      · simp [hc]
      · by_cases hd : c = d
        · subst hd; simp
        · simp [hc, hd]

/-- The keys of a map are different. -/
def Keys (m : List (ℕ × ℕ)) : Prop := m.Pairwise fun a b => a.1 < b.1

theorem keys_set {k v : ℕ} {m : List (ℕ × ℕ)} (h : Keys m) : Keys (mapSet k v m) := by
  induction m with
  | nil => simp [mapSet, Keys]
  | cons e es ih =>
    unfold Keys at *
    rw [List.pairwise_cons] at h
    unfold mapSet
    by_cases h1 : k < e.1
    · simp only [h1, if_true]
      rw [List.pairwise_cons, List.pairwise_cons]
      refine ⟨?_, h⟩
      intro a ha
      rcases List.mem_cons.1 ha with rfl | ha
      · exact h1
      · exact lt_trans h1 (h.1 a ha)
    · by_cases h2 : k = e.1
      · rw [if_neg h1, if_pos h2, h2, List.pairwise_cons]
        exact ⟨fun a ha => h.1 a ha, h.2⟩
      · simp only [h1, if_false, h2]
        rw [List.pairwise_cons]
        refine ⟨?_, ih h.2⟩
        intro a ha
        have : ∀ m : List (ℕ × ℕ), a ∈ mapSet k v m → a.1 = k ∨ a ∈ m := by
          intro m
          induction m with
          | nil => intro ha; left; rw [List.mem_singleton.1 ha]
          | cons x xs ihx =>
            unfold mapSet
            split
            · intro ha
              rcases List.mem_cons.1 ha with rfl | ha
              · left; rfl
              · right; exact ha
            · split
              · intro ha
                rcases List.mem_cons.1 ha with rfl | ha
                · left; rfl
                · right; simp [ha]
              · intro ha
                rcases List.mem_cons.1 ha with rfl | ha
                · right; simp
                · rcases ihx ha with h | h
                  · left; exact h
                  · right; simp [h]
        rcases this es ha with h' | h'
        · rw [h']; omega
        · exact h.1 a h'

theorem find_none {k : ℕ} {m : List (ℕ × ℕ)} (h : ∀ e ∈ m, k < e.1) : mapFind k m = none := by
  induction m with
  | nil => rfl
  | cons e es ih =>
    unfold mapFind
    rw [if_neg (by have := h e (by simp); omega)]
    exact ih fun a ha => h a (by simp [ha])

theorem find_foldl : ∀ (m m0 : List (ℕ × ℕ)) (k : ℕ), Keys m →
    mapFind k (m.foldl (fun m e => mapSet e.1 e.2 m) m0) = (mapFind k m).or (mapFind k m0) := by
  intro m
  induction m with
  | nil => intro m0 k _; simp [mapFind]
  | cons e es ih =>
    intro m0 k h
    unfold Keys at h
    rw [List.pairwise_cons] at h
    rw [List.foldl_cons, ih _ _ h.2, find_set]
    have hf : mapFind k (e :: es) = if k = e.1 then some e.2 else mapFind k es := rfl
    rw [hf]
    by_cases hk : k = e.1
    · subst hk
      rw [find_none h.1]
      simp
    · simp [hk]

theorem keys_run (ops : List Op) : Keys (run ops).res := by
  induction ops using List.reverseRecOn with
  | nil => simp [run, Keys]
  | append_singleton ops o ih =>
    simp only [run, List.foldl_append, List.foldl_cons, List.foldl_nil] at *
    cases o with
    | addIn d r c' r' => exact ih
    | updateIn d r => exact ih
    | addRes d j => exact keys_set ih
    | rmRes j => exact List.Pairwise.filter _ ih
    | query d j =>
      simp only [apply, Ctx.outCommod, Ctx.inRecipe, Ctx.outRecipe, Ctx.commod]
      unfold mapAt
      split
      · exact ih
      · exact keys_set ih

/-- **C52, snapshot**: a context with an input commodity that is recorded and restored has the same
input commodities, and gives the same answers for them and for every resource. -/
theorem C52_snapshot {ops : List Op} (h : (run ops).ins ≠ []) :
    ∃ t, Ctx.initFrom {} (run ops).snapshot.2 = (t, .ok ()) ∧
      (∀ c, c ∈ t.ins ↔ c ∈ (run ops).ins) ∧
      (∀ c ∈ (run ops).ins, (t.inRecipe c).2 = ((run ops).inRecipe c).2 ∧
        (t.outCommod c).2 = ((run ops).outCommod c).2 ∧
        (t.outRecipe c).2 = ((run ops).outRecipe c).2) ∧
      ∀ i, (t.commod i).2 = ((run ops).commod i).2 := by
  generalize hs : run ops = s at *
  have hk : Keys s.res := hs ▸ keys_run ops
  obtain ⟨h1, h2⟩ := snapLoop_spec s.ins s
  have hsn : s.snapshot.2 = ⟨s.ins.map (fun c => (c, (mapFind c s.inRec).getD 0,
      (mapFind c s.outOf).getD 0, (mapFind c s.outRec).getD 0)), s.res⟩ := by
    unfold Ctx.snapshot
    simp only [h1, h2]
  have hne : s.ins.map (fun c => (c, (mapFind c s.inRec).getD 0,
      (mapFind c s.outOf).getD 0, (mapFind c s.outRec).getD 0)) ≠ [] := by simpa using h
  refine ⟨_, by rw [hsn]; unfold Ctx.initFrom; rw [if_neg hne], ?_⟩
  have hr := restore_loop (fun c => ((mapFind c s.inRec).getD 0, (mapFind c s.outOf).getD 0,
    (mapFind c s.outRec).getD 0)) s.ins {}
  simp only at hr
  refine ⟨?_, ?_, ?_⟩
  · intro c
    rw [(hr c).2.2.2.1]; simp
  · intro c hc
    simp only [Ctx.inRecipe, Ctx.outCommod, Ctx.outRecipe, at_val]
    rw [(hr c).1, (hr c).2.1, (hr c).2.2.1]
    simp [hc]
  · intro i
    simp only [Ctx.commod, at_val]
    rw [find_foldl _ _ _ hk, (hr 0).2.2.2.2]
    simp [mapFind]

/-- Two commodities, one of them added again, and a resource. -/
def exOps : List Op :=
  [.addIn 1 11 2 12, .addIn 3 13 4 14, .addRes 2 100, .addIn 1 21 5 22, .updateIn 3 33]

/-- The history meets the hypothesis, and lookups give the latest values. -/
example : (run exOps).ins ≠ [] ∧ ((run exOps).inRecipe 1).2 = 21 ∧ ((run exOps).inRecipe 3).2 = 33 ∧
    ((run exOps).commod 100).2 = 2 := by decide

/-- Unknown commodities are not rejected: the lookup gives the empty string, and leaves an entry
behind, after which the context is different from an equal one. -/
theorem C52_fails_unknown : ∃ (ops : List Op) (c : ℕ), c ∉ (run ops).ins ∧
    ((run ops).inRecipe c).2 = 0 ∧ (run ops).eq (run ops) = true ∧
    ((run ops).inRecipe c).1.eq (run ops) = false :=
  ⟨exOps, 9, by decide, by decide, by decide, by decide⟩

/-- An output commodity of a commodity that was added again is still listed, although no commodity
leads to it. -/
theorem C52_fails_stale : ∃ (ops : List Op) (c : ℕ), c ∈ (run ops).outs ∧
    ∀ e ∈ (run ops).outOf, e.2 ≠ c :=
  ⟨exOps, 2, by decide, by decide⟩

/-- A recipe that was set for a commodity that was not added is lost in a snapshot. -/
theorem C52_fails_update : ∃ (ops : List Op) (c : ℕ), ((run ops).inRecipe c).2 = 7 ∧
    ((Ctx.initFrom {} (run ops).snapshot.2).1.inRecipe c).2 = 0 :=
  ⟨[.addIn 1 11 2 12, .updateIn 3 7], 3, by decide, by decide⟩

/-- A context without commodities can be recorded but not restored. -/
theorem C52_fails_empty : ∃ ops : List Op, (run ops).res ≠ [] ∧
    (Ctx.initFrom {} (run ops).snapshot.2).2 = .error .io :=
  ⟨[.addRes 2 100], by decide, rfl⟩

/-- Contexts with different input commodities can be equal. -/
theorem C52_fails_equal : ∃ a b : List Op, (run a).eq (run b) = true ∧ (run a).ins ≠ (run b).ins :=
  ⟨[.addIn 1 0 0 0, .query 2 5], [.addIn 2 0 0 0, .query 1 5], by decide, by decide⟩

end Cyclus.RecipeCtx
