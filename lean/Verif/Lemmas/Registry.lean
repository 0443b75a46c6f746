import Verif.Model.Registry
import Mathlib.Data.List.Induction
import Mathlib.Data.List.Nodup

/-!
# Lemmas about the registries
-/

namespace Cyclus.Registry

variable {α : Type}

theorem get_cons (e : String × α) (m : List (String × α)) (k : String) :
    get (e :: m) k = if e.1 = k then some e.2 else get m k := by
  by_cases h : e.1 = k <;> simp [get, List.find?_cons, h]

theorem get_none {m : List (String × α)} {k : String} : get m k = none ↔ k ∉ m.map Prod.fst := by
  induction m with
  | nil => simp [get]
  | cons e m ih =>
    rw [get_cons]
    by_cases h : e.1 = k
    · simp [h]
    · rw [if_neg h, ih, List.map_cons, List.mem_cons, not_or]
      exact ⟨fun h' => ⟨Ne.symm h, h'⟩, fun h' => h'.2⟩

theorem put_new {m : List (String × α)} {k : String} (v : α) (h : get m k = none) :
    put m k v = m ++ [(k, v)] := by
  rw [put, h]

theorem get_append (m : List (String × α)) (k k' : String) (v : α) :
    get (m ++ [(k, v)]) k' = (get m k').or (if k = k' then some v else none) := by
  induction m with
  | nil => by_cases h : k = k' <;> simp [get, h]
  | cons e m ih =>
    rw [List.cons_append, get_cons, get_cons, ih]
    by_cases h : e.1 = k' <;> simp [h]

theorem get_replace (m : List (String × α)) (k k' : String) (v : α) :
    get (m.map fun e => if e.1 = k then (k, v) else e) k' =
      if k = k' then (get m k).map fun _ => v else get m k' := by
  induction m with
  | nil => simp [get]
  | cons e m ih =>
    rw [List.map_cons, get_cons, ih, get_cons, get_cons]
    by_cases h : k = k'
    · subst h
      by_cases he : e.1 = k <;> simp [he]
    · by_cases he : e.1 = k
      · simp [he, h]
      · simp [he, h]

theorem get_put (m : List (String × α)) (k k' : String) (v : α) :
    get (put m k v) k' = if k = k' then some v else get m k' := by
  cases h : get m k with
  | none =>
    rw [put_new v h, get_append]
    by_cases hk : k = k'
    · subst hk; simp [h]
    · simp [hk]
  | some x =>
    rw [put, h]
    simp only
    rw [get_replace, h]
    rfl

theorem runOps_append (dmax : ℚ) (ops : List Op) (op : Op) (w : World) :
    runOps dmax (ops ++ [op]) w = op.run dmax (runOps dmax ops w) := by
  rw [runOps, List.foldl_append]; rfl

/-- The two ways in which a list that ends in `op` can be split around an element. -/
theorem split_concat {β : Type} (ops : List β) (op x : β) (pre post : List β) :
    ops ++ [op] = pre ++ x :: post ↔
      (x = op ∧ pre = ops ∧ post = []) ∨ ∃ post', post = post' ++ [op] ∧ ops = pre ++ x :: post' := by
  constructor
  · intro h
    rcases List.eq_nil_or_concat post with hp | ⟨post', y, hp⟩
    · subst hp
      obtain ⟨h1, h2⟩ := List.append_inj' h rfl
      injection h2 with h2
      exact Or.inl ⟨h2.symm, h1.symm, rfl⟩
    · rw [List.concat_eq_append] at hp
      subst hp
      have h' : ops ++ [op] = (pre ++ x :: post') ++ [y] := by simpa using h
      obtain ⟨h1, h2⟩ := List.append_inj' h' rfl
      injection h2 with h2
      exact Or.inr ⟨post', by rw [h2], h1⟩
  · rintro (⟨rfl, rfl, rfl⟩ | ⟨post', rfl, rfl⟩)
    · rfl
    · simp

/-! ## Which parts a use touches -/

@[simp] theorem addPrototype_recipes (w : World) (n p o) :
    (addPrototype w n p o).1.recipes = w.recipes ∧
    (addPrototype w n p o).1.db.recipes = w.db.recipes ∧
    (addPrototype w n p o).1.pkgs = w.pkgs ∧
    (addPrototype w n p o).1.db.pkgs = w.db.pkgs ∧
    (addPrototype w n p o).1.units = w.units ∧
    (addPrototype w n p o).1.db.units = w.db.units ∧
    (addPrototype w n p o).1.unpackaged = w.unpackaged ∧
    (addPrototype w n p o).1.unrestricted = w.unrestricted := by
  unfold addPrototype
  split
  · simp
  · dsimp only
    split <;> simp

theorem addPrototype_ok {w : World} {n : String} {p : Proto} {o : Bool}
    (h : ¬ (o = false ∧ get w.protos n ≠ none)) :
    (addPrototype w n p o).1.protos = put w.protos n p ∧
    (addPrototype w n p o).1.db.protos = w.db.protos ++ [(n, p.id, p.spec)] ∧
    (addPrototype w n p o).2 = .ok () := by
  unfold addPrototype
  rw [if_neg h]
  dsimp only
  split <;> simp

theorem addPrototype_err {w : World} {n : String} {p : Proto} {o : Bool}
    (h : o = false ∧ get w.protos n ≠ none) : addPrototype w n p o = (w, .error .key) := by
  unfold addPrototype
  rw [if_pos h]

theorem addPackage_touches (w : World) (p : Pkg) :
    (addPackage w p).1.recipes = w.recipes ∧
    (addPackage w p).1.db.recipes = w.db.recipes ∧
    (addPackage w p).1.protos = w.protos ∧
    (addPackage w p).1.db.protos = w.db.protos ∧
    (addPackage w p).1.recVer = w.recVer ∧
    (addPackage w p).1.db.versions = w.db.versions ∧
    (addPackage w p).1.units = w.units ∧
    (addPackage w p).1.db.units = w.db.units ∧
    (addPackage w p).1.unpackaged = w.unpackaged ∧
    (addPackage w p).1.unrestricted = w.unrestricted := by
  unfold addPackage
  split
  · simp
  · split <;> simp

theorem addUnit_touches (w : World) (u : TUnit) :
    (addUnit w u).1.recipes = w.recipes ∧
    (addUnit w u).1.db.recipes = w.db.recipes ∧
    (addUnit w u).1.protos = w.protos ∧
    (addUnit w u).1.db.protos = w.db.protos ∧
    (addUnit w u).1.recVer = w.recVer ∧
    (addUnit w u).1.db.versions = w.db.versions ∧
    (addUnit w u).1.pkgs = w.pkgs ∧
    (addUnit w u).1.db.pkgs = w.db.pkgs ∧
    (addUnit w u).1.unpackaged = w.unpackaged ∧
    (addUnit w u).1.unrestricted = w.unrestricted := by
  unfold addUnit
  split
  · simp
  · split <;> simp

theorem getPackage_touches (dmax : ℚ) (w : World) (n : String) :
    (getPackage dmax w n).1 = w ∨ (getPackage dmax w n).1 = { w with unpackaged := true } := by
  unfold getPackage
  split
  · exact Or.inr rfl
  · left
    split
    · rfl
    · split <;> rfl

theorem getUnit_touches (w : World) (n : String) :
    (getUnit w n).1 = w ∨ (getUnit w n).1 = { w with unrestricted := true } := by
  unfold getUnit
  split
  · exact Or.inr rfl
  · left
    split
    · rfl
    · split <;> rfl

theorem addPackage_cases (w : World) (p : Pkg) :
    (get w.pkgs p.name ≠ none ∧ addPackage w p = (w, .error .key)) ∨
    (get w.pkgs p.name = none ∧ createPkg w.unpackaged p = .error .value ∧
      addPackage w p = (w, .error .value)) ∨
    (get w.pkgs p.name = none ∧ createPkg w.unpackaged p = .ok p ∧
      addPackage w p = ({ w with
        pkgs := w.pkgs ++ [(p.name, p)]
        db := { w.db with pkgs := w.db.pkgs ++ [p] } }, .ok ())) := by
  cases h : get w.pkgs p.name with
  | some x => left; simp [addPackage, h]
  | none =>
    right
    have hc : createPkg w.unpackaged p = .error .value ∨ createPkg w.unpackaged p = .ok p := by
      unfold createPkg
      repeat' split
      all_goals first | exact Or.inl rfl | exact Or.inr rfl
    rcases hc with hc | hc
    · left; refine ⟨rfl, hc, ?_⟩; simp [addPackage, h, hc]
    · right; refine ⟨rfl, hc, ?_⟩; simp [addPackage, h, hc, put_new p h]

theorem addUnit_cases (w : World) (u : TUnit) :
    (get w.units u.name ≠ none ∧ addUnit w u = (w, .error .key)) ∨
    (get w.units u.name = none ∧ createUnit w.unrestricted u = .error .value ∧
      addUnit w u = (w, .error .value)) ∨
    (get w.units u.name = none ∧ createUnit w.unrestricted u = .ok u ∧
      addUnit w u = ({ w with
        units := w.units ++ [(u.name, u)]
        db := { w.db with units := w.db.units ++ [u] } }, .ok ())) := by
  cases h : get w.units u.name with
  | some x => left; simp [addUnit, h]
  | none =>
    right
    have hc : createUnit w.unrestricted u = .error .value ∨
        createUnit w.unrestricted u = .ok u := by
      unfold createUnit
      repeat' split
      all_goals first | exact Or.inl rfl | exact Or.inr rfl
    rcases hc with hc | hc
    · left; refine ⟨rfl, hc, ?_⟩; simp [addUnit, h, hc]
    · right; refine ⟨rfl, hc, ?_⟩; simp [addUnit, h, hc, put_new u h]

/-- For names that are not reserved the singleton does not matter. -/
theorem createPkg_static {p : Pkg} (h : p.name ≠ "unpackaged") (a b : Bool) :
    createPkg a p = createPkg b p := by
  simp [createPkg, h]

theorem createUnit_static {u : TUnit} (h : u.name ≠ "unrestricted") (a b : Bool) :
    createUnit a u = createUnit b u := by
  simp [createUnit, h]

theorem createPkg_reserved {p : Pkg} (h : p.name = "unpackaged") :
    createPkg true p = .error .value := by
  unfold createPkg
  simp only [h]
  repeat' split
  all_goals first | rfl | simp_all

theorem createUnit_reserved {u : TUnit} (h : u.name = "unrestricted") :
    createUnit true u = .error .value := by
  unfold createUnit
  simp only [h]
  repeat' split
  all_goals first | rfl | simp_all

/-! ## Loading -/

theorem loadRecipes_spec (rows : List (String × ℕ)) : ∀ w : World,
    loadRecipes rows w = { w with
      recipes := rows.foldl (fun m r => put m r.1 r.2) w.recipes
      db := { w.db with recipes := w.db.recipes ++ rows } } := by
  induction rows with
  | nil => intro w; simp [loadRecipes]
  | cons r rs ih =>
    intro w
    have : loadRecipes (r :: rs) w = loadRecipes rs (addRecipe w r.1 r.2) := rfl
    rw [this, ih]
    simp [addRecipe]

theorem loadPackages_spec (dmax : ℚ) : ∀ (rows : List Pkg) (w : World),
    (w.pkgs.map Prod.fst ++ (rows.filter fun p => p.name ≠ "unpackaged").map Pkg.name).Nodup →
    (∀ p ∈ rows, p.name ≠ "unpackaged" → createPkg true p = .ok p) →
    (∀ p ∈ rows, p.name = "unpackaged" → p = unpackagedPkg dmax) →
    ∃ b, loadPackages dmax rows w = ({ w with
      pkgs := w.pkgs ++ (rows.filter fun p => p.name ≠ "unpackaged").map fun p => (p.name, p)
      db := { w.db with pkgs := w.db.pkgs ++ rows }
      unpackaged := b }, .ok ())
  | [], w, _, _, _ => ⟨w.unpackaged, by simp [loadPackages]⟩
  | p :: ps, w, hn, hv, hr => by
    by_cases hp : p.name = "unpackaged"
    · have hf : (p :: ps).filter (fun p => p.name ≠ "unpackaged") =
          ps.filter fun p => p.name ≠ "unpackaged" := by simp [hp]
      rw [hf] at hn
      obtain ⟨b, hb⟩ := loadPackages_spec dmax ps (recordUnpackaged dmax w) hn
        (fun q hq => hv q (List.mem_cons_of_mem _ hq)) (fun q hq => hr q (List.mem_cons_of_mem _ hq))
      refine ⟨b, ?_⟩
      have : loadPackages dmax (p :: ps) w = loadPackages dmax ps (recordUnpackaged dmax w) := by
        rw [loadPackages, if_neg (not_not.mpr hp)]
      rw [this, hb, hf]
      have := hr p List.mem_cons_self hp
      simp [recordUnpackaged, ← this]
    · have hf : (p :: ps).filter (fun p => p.name ≠ "unpackaged") =
          p :: ps.filter fun p => p.name ≠ "unpackaged" := by simp [hp]
      rw [hf] at hn ⊢
      have hg : get w.pkgs p.name = none := by
        rw [get_none]
        intro hc
        have := (List.nodup_append.mp hn).2.2 p.name hc p.name (by simp)
        exact this rfl
      have hok : createPkg w.unpackaged p = .ok p := by
        rw [createPkg_static hp _ true]; exact hv p List.mem_cons_self hp
      have hadd : addPackage w p = ({ w with
          pkgs := w.pkgs ++ [(p.name, p)]
          db := { w.db with pkgs := w.db.pkgs ++ [p] } }, .ok ()) := by
        rcases addPackage_cases w p with h | h | h
        · exact absurd hg h.1
        · rw [hok] at h; exact absurd h.2.1 (by simp)
        · exact h.2.2
      obtain ⟨b, hb⟩ := loadPackages_spec dmax ps ({ w with
          pkgs := w.pkgs ++ [(p.name, p)]
          db := { w.db with pkgs := w.db.pkgs ++ [p] } }) (by simpa using hn)
        (fun q hq => hv q (List.mem_cons_of_mem _ hq)) (fun q hq => hr q (List.mem_cons_of_mem _ hq))
      refine ⟨b, ?_⟩
      rw [loadPackages, if_pos hp, hadd]
      simp only [hb]
      simp

theorem loadUnits_spec : ∀ (rows : List TUnit) (w : World),
    (w.units.map Prod.fst ++ (rows.filter fun p => p.name ≠ "unrestricted").map TUnit.name).Nodup →
    (∀ p ∈ rows, p.name ≠ "unrestricted" → createUnit true p = .ok p) →
    (∀ p ∈ rows, p.name = "unrestricted" → p = unrestrictedUnit) →
    ∃ b, loadUnits rows w = ({ w with
      units := w.units ++ (rows.filter fun p => p.name ≠ "unrestricted").map fun p => (p.name, p)
      db := { w.db with units := w.db.units ++ rows }
      unrestricted := b }, .ok ())
  | [], w, _, _, _ => ⟨w.unrestricted, by simp [loadUnits]⟩
  | p :: ps, w, hn, hv, hr => by
    by_cases hp : p.name = "unrestricted"
    · have hf : (p :: ps).filter (fun p => p.name ≠ "unrestricted") =
          ps.filter fun p => p.name ≠ "unrestricted" := by simp [hp]
      rw [hf] at hn
      obtain ⟨b, hb⟩ := loadUnits_spec ps (recordUnrestricted w) hn
        (fun q hq => hv q (List.mem_cons_of_mem _ hq)) (fun q hq => hr q (List.mem_cons_of_mem _ hq))
      refine ⟨b, ?_⟩
      have : loadUnits (p :: ps) w = loadUnits ps (recordUnrestricted w) := by
        rw [loadUnits, if_neg (not_not.mpr hp)]
      rw [this, hb, hf]
      have := hr p List.mem_cons_self hp
      simp [recordUnrestricted, ← this]
    · have hf : (p :: ps).filter (fun p => p.name ≠ "unrestricted") =
          p :: ps.filter fun p => p.name ≠ "unrestricted" := by simp [hp]
      rw [hf] at hn ⊢
      have hg : get w.units p.name = none := by
        rw [get_none]
        intro hc
        have := (List.nodup_append.mp hn).2.2 p.name hc p.name (by simp)
        exact this rfl
      have hok : createUnit w.unrestricted p = .ok p := by
        rw [createUnit_static hp _ true]; exact hv p List.mem_cons_self hp
      have hadd : addUnit w p = ({ w with
          units := w.units ++ [(p.name, p)]
          db := { w.db with units := w.db.units ++ [p] } }, .ok ()) := by
        rcases addUnit_cases w p with h | h | h
        · exact absurd hg h.1
        · rw [hok] at h; exact absurd h.2.1 (by simp)
        · exact h.2.2
      obtain ⟨b, hb⟩ := loadUnits_spec ps ({ w with
          units := w.units ++ [(p.name, p)]
          db := { w.db with units := w.db.units ++ [p] } }) (by simpa using hn)
        (fun q hq => hv q (List.mem_cons_of_mem _ hq)) (fun q hq => hr q (List.mem_cons_of_mem _ hq))
      refine ⟨b, ?_⟩
      rw [loadUnits, if_pos hp, hadd]
      simp only [hb]
      simp

theorem loadPrototypes_spec (version : String → String) :
    ∀ (rows : List (String × ℕ × String)) (w : World),
    (w.protos.map Prod.fst).Nodup →
    ((w.protos.map Prod.fst ++ rows.map Prod.fst).Nodup →
      (loadPrototypes version rows w).2 = .ok () ∧
      (loadPrototypes version rows w).1.protos =
        w.protos ++ rows.map (fun r => (r.1, ⟨r.2.1, r.2.2, version r.2.2⟩)) ∧
      (loadPrototypes version rows w).1.db.protos = w.db.protos ++ rows) ∧
    (¬ (w.protos.map Prod.fst ++ rows.map Prod.fst).Nodup →
      (loadPrototypes version rows w).2 = .error .key) ∧
    ((loadPrototypes version rows w).1.recipes = w.recipes ∧
      (loadPrototypes version rows w).1.pkgs = w.pkgs ∧
      (loadPrototypes version rows w).1.units = w.units ∧
      (loadPrototypes version rows w).1.db.recipes = w.db.recipes ∧
      (loadPrototypes version rows w).1.db.pkgs = w.db.pkgs ∧
      (loadPrototypes version rows w).1.db.units = w.db.units)
  | [], w, h0 => by simp [loadPrototypes, h0]
  | r :: rs, w, h0 => by
    by_cases hg : get w.protos r.1 = none
    · have ho : ¬ (false = false ∧ get w.protos r.1 ≠ none) := fun h => h.2 hg
      obtain ⟨h1, h2, h3⟩ := addPrototype_ok (p := ⟨r.2.1, r.2.2, version r.2.2⟩) ho
      obtain ⟨t1, t2, t3, t4, t5, t6, _, _⟩ :=
        addPrototype_recipes w r.1 ⟨r.2.1, r.2.2, version r.2.2⟩ false
      have hl : loadPrototypes version (r :: rs) w = loadPrototypes version rs
          (addPrototype w r.1 ⟨r.2.1, r.2.2, version r.2.2⟩ false).1 := by
        rw [loadPrototypes]
        cases he : addPrototype w r.1 ⟨r.2.1, r.2.2, version r.2.2⟩ false with
        | mk a b =>
          rw [he] at h3
          simp only at h3
          subst h3
          rfl
      rw [put_new _ hg] at h1
      have hn1 : ((addPrototype w r.1 ⟨r.2.1, r.2.2, version r.2.2⟩ false).1.protos.map
          Prod.fst).Nodup := by
        rw [h1, List.map_append]
        refine List.Nodup.append h0 (by simp) ?_
        intro x hx hx'
        simp only [List.map_cons, List.map_nil, List.mem_singleton] at hx'
        subst hx'
        exact get_none.mp hg hx
      obtain ⟨i1, i2, i3, i4, i5, i6, i7, i8⟩ := loadPrototypes_spec version rs _ hn1
      rw [hl]
      rw [h1] at i1 i2
      have hl' : (w.protos ++ [(r.1, (⟨r.2.1, r.2.2, version r.2.2⟩ : Proto))]).map Prod.fst ++
          rs.map Prod.fst = w.protos.map Prod.fst ++ (r :: rs).map Prod.fst := by simp
      rw [hl'] at i1 i2
      refine ⟨fun hh => ?_, i2, by rw [i3, t1], by rw [i4, t3], by rw [i5, t5], by rw [i6, t2],
        by rw [i7, t4], by rw [i8, t6]⟩
      obtain ⟨j1, j2, j3⟩ := i1 hh
      refine ⟨j1, by rw [j2]; simp, by rw [j3, h2]; simp⟩
    · have he := addPrototype_err (p := (⟨r.2.1, r.2.2, version r.2.2⟩ : Proto))
        (show false = false ∧ get w.protos r.1 ≠ none from ⟨rfl, hg⟩)
      have hl : loadPrototypes version (r :: rs) w = (w, .error .key) := by
        rw [loadPrototypes, he]
      rw [hl]
      refine ⟨fun hh => ?_, fun _ => rfl, rfl, rfl, rfl, rfl, rfl, rfl⟩
      exfalso
      have : r.1 ∈ w.protos.map Prod.fst := by
        by_contra hc
        exact hg (get_none.mpr hc)
      exact (List.nodup_append.mp hh).2.2 r.1 this r.1 (by simp) rfl

end Cyclus.Registry
