import Verif.Lemmas.Registry
import Mathlib.Tactic.NormNum

/-!
# C94: the registries answer what was registered, and loading restores them

The specification speaks about the sequence of uses: which use registered a name.
-/

namespace Cyclus.Registry

/-- What a package type must satisfy. -/
structure ValidPkg (p : Pkg) : Prop where
  lo : 0 ≤ p.lo
  le : p.lo ≤ p.hi
  strategy : p.strategy ∈ ["first", "equal", "uniform", "normal"]
  normal : p.strategy = "normal" → p.lo ≠ p.hi

/-- What a transport unit type must satisfy. -/
structure ValidUnit (u : TUnit) : Prop where
  lo : 0 ≤ u.lo
  le : u.lo ≤ u.hi
  strategy : u.strategy ∈ ["first", "equal", "hybrid"]

/-- No use in the list adds a recipe of that name. -/
def NoRecipe (name : String) (ops : List Op) : Prop := ∀ q, Op.addRecipe name q ∉ ops

/-- No use in the list adds a valid package of that name. -/
def NoPackage (name : String) (ops : List Op) : Prop :=
  ∀ p, p.name = name → ValidPkg p → Op.addPackage p ∉ ops

/-- No use in the list adds a valid transport unit of that name. -/
def NoUnit (name : String) (ops : List Op) : Prop :=
  ∀ u, u.name = name → ValidUnit u → Op.addUnit u ∉ ops

/-- No use in the list adds a prototype of that name. -/
def NoProto (name : String) (ops : List Op) : Prop := ∀ p o, Op.addPrototype name p o ∉ ops

/-- No use in the list overwrites the prototype of that name. -/
def NoOverwrite (name : String) (ops : List Op) : Prop := ∀ p, Op.addPrototype name p true ∉ ops

theorem createPkg_valid {p : Pkg} (h : p.name ≠ "unpackaged") (b : Bool) :
    createPkg b p = .ok p ↔ ValidPkg p := by
  unfold createPkg
  constructor
  · intro hc
    split at hc
    · exact absurd hc (by simp)
    · split at hc
      · exact absurd hc (by simp)
      · split at hc
        · exact absurd hc (by simp)
        · split at hc
          · exact absurd hc (by simp)
          · split at hc
            · exact absurd hc (by simp)
            · rename_i h1 h2 h3 h4 h5
              push Not at h1 h2 h5
              rw [not_not] at h4
              exact ⟨h1.1, h2, by simpa using h4, h5⟩
  · intro hv
    have hs := hv.strategy
    simp only [List.mem_cons, List.not_mem_nil, or_false] at hs
    have h0 := le_trans hv.lo hv.le
    rw [if_neg (by push Not; exact ⟨hv.lo, h0⟩), if_neg (not_lt.mpr hv.le),
      if_neg (fun hh => h hh.1), if_neg (not_not.mpr hs), if_neg (fun hh => hv.normal hh.1 hh.2)]

theorem createUnit_valid {u : TUnit} (h : u.name ≠ "unrestricted") (b : Bool) :
    createUnit b u = .ok u ↔ ValidUnit u := by
  unfold createUnit
  constructor
  · intro hc
    split at hc
    · exact absurd hc (by simp)
    · split at hc
      · exact absurd hc (by simp)
      · split at hc
        · exact absurd hc (by simp)
        · split at hc
          · exact absurd hc (by simp)
          · rename_i h1 h2 h3 h4
            push Not at h1 h2
            rw [not_not] at h4
            exact ⟨h1.1, h2, by simpa using h4⟩
  · intro hv
    have hs := hv.strategy
    simp only [List.mem_cons, List.not_mem_nil, or_false] at hs
    have h0 := le_trans hv.lo hv.le
    rw [if_neg (by push Not; exact ⟨hv.lo, h0⟩), if_neg (not_lt.mpr hv.le),
      if_neg (fun hh => h hh.1), if_neg (not_not.mpr hs)]

/-! ## Lookups -/

theorem recipes_run (dmax : ℚ) (w : World) (op : Op) (name : String) :
    (∀ q, op = .addRecipe name q → get (op.run dmax w).recipes name = some q) ∧
    ((∀ q, op ≠ .addRecipe name q) → get (op.run dmax w).recipes name = get w.recipes name) := by
  cases op with
  | addRecipe n q =>
    constructor
    · intro q' h
      injection h with h1 h2
      subst h1; subst h2
      simp [Op.run, addRecipe, get_put]
    · intro h
      have hn : n ≠ name := fun hc => h q (by rw [hc])
      simp [Op.run, addRecipe, get_put, hn]
  | addPrototype n p o =>
    refine ⟨fun q h => by simp at h, fun _ => ?_⟩
    simp [Op.run]
  | addPackage p =>
    refine ⟨fun q h => by simp at h, fun _ => ?_⟩
    simp [Op.run, addPackage_touches]
  | addUnit u =>
    refine ⟨fun q h => by simp at h, fun _ => ?_⟩
    simp [Op.run, addUnit_touches]
  | recordUnpackaged =>
    refine ⟨fun q h => by simp at h, fun _ => rfl⟩
  | recordUnrestricted =>
    refine ⟨fun q h => by simp at h, fun _ => rfl⟩
  | getPackage n =>
    refine ⟨fun q h => by simp at h, fun _ => ?_⟩
    rcases getPackage_touches dmax w n with h | h <;> simp [Op.run, h]
  | getUnit n =>
    refine ⟨fun q h => by simp at h, fun _ => ?_⟩
    rcases getUnit_touches w n with h | h <;> simp [Op.run, h]

/-- C94 (recipes).  After any sequence of uses, `GetRecipe` returns exactly the composition that was
last added under the name, and throws a `KeyError` if none was; every recipe that was added is in the
table `Recipes`, in order. -/
theorem C94_recipes (dmax : ℚ) (a b : Bool) (ops : List Op) (name : String) :
    (∀ q, getRecipe (runOps dmax ops (fresh a b)) name = .ok q ↔
      ∃ pre post, ops = pre ++ .addRecipe name q :: post ∧ NoRecipe name post) ∧
    (getRecipe (runOps dmax ops (fresh a b)) name = .error .key ↔ NoRecipe name ops) ∧
    (runOps dmax ops (fresh a b)).db.recipes =
      ops.filterMap (fun op => match op with | .addRecipe n q => some (n, q) | _ => none) := by
  have key : (∀ q, get (runOps dmax ops (fresh a b)).recipes name = some q ↔
      ∃ pre post, ops = pre ++ .addRecipe name q :: post ∧ NoRecipe name post) ∧
      (get (runOps dmax ops (fresh a b)).recipes name = none ↔ NoRecipe name ops) ∧
      (runOps dmax ops (fresh a b)).db.recipes =
        ops.filterMap (fun op => match op with | .addRecipe n q => some (n, q) | _ => none) := by
    induction ops using List.reverseRecOn with
    | nil =>
      refine ⟨fun q => ⟨fun h => by simp [runOps, fresh, get] at h, ?_⟩, ?_, rfl⟩
      · rintro ⟨pre, post, h, _⟩; simp at h
      · simp [runOps, fresh, get, NoRecipe]
    | append_singleton ops op ih =>
      obtain ⟨ih1, ih2, ih3⟩ := ih
      rw [runOps_append]
      obtain ⟨hs, hn⟩ := recipes_run dmax (runOps dmax ops (fresh a b)) op name
      refine ⟨fun q => ?_, ?_, ?_⟩
      · by_cases hop : ∃ q', op = .addRecipe name q'
        · obtain ⟨q', rfl⟩ := hop
          rw [hs q' rfl]
          constructor
          · intro h
            injection h with h
            subst h
            exact ⟨ops, [], rfl, by simp [NoRecipe]⟩
          · rintro ⟨pre, post, h, hno⟩
            rcases (split_concat _ _ _ _ _).mp h with ⟨h1, _, _⟩ | ⟨post', h1, _⟩
            · injection h1 with _ h1; rw [h1]
            · exact absurd (by simp [h1]) (hno q')
        · push Not at hop
          rw [hn hop, ih1]
          constructor
          · rintro ⟨pre, post, h, hno⟩
            refine ⟨pre, post ++ [op], by rw [h]; simp, fun q' hq' => ?_⟩
            rcases List.mem_append.mp hq' with hq' | hq'
            · exact hno q' hq'
            · exact hop q' (List.mem_singleton.mp hq').symm
          · rintro ⟨pre, post, h, hno⟩
            rcases (split_concat _ _ _ _ _).mp h with ⟨h1, _, _⟩ | ⟨post', h1, h2⟩
            · exact absurd h1.symm (hop q)
            · exact ⟨pre, post', h2, fun q' hq' => hno q' (by rw [h1]; simp [hq'])⟩
      · by_cases hop : ∃ q', op = .addRecipe name q'
        · obtain ⟨q', rfl⟩ := hop
          rw [hs q' rfl]
          refine ⟨fun h => by simp at h, fun h => absurd (by simp) (h q')⟩
        · push Not at hop
          rw [hn hop, ih2]
          constructor
          · intro h q' hq'
            rcases List.mem_append.mp hq' with hq' | hq'
            · exact h q' hq'
            · exact hop q' (List.mem_singleton.mp hq').symm
          · exact fun h q' hq' => h q' (by simp [hq'])
      · rw [List.filterMap_append, ← ih3]
        cases op with
        | addRecipe n q => simp [Op.run, addRecipe]
        | addPrototype n p o => simp [Op.run]
        | addPackage p => simp [Op.run, addPackage_touches]
        | addUnit u => simp [Op.run, addUnit_touches]
        | recordUnpackaged => simp [Op.run, recordUnpackaged]
        | recordUnrestricted => simp [Op.run, recordUnrestricted]
        | getPackage n =>
          rcases getPackage_touches dmax (runOps dmax ops (fresh a b)) n with h | h <;>
            simp [Op.run, h]
        | getUnit n =>
          rcases getUnit_touches (runOps dmax ops (fresh a b)) n with h | h <;> simp [Op.run, h]
  refine ⟨fun q => ?_, ?_, key.2.2⟩
  · rw [← key.1 q]
    unfold getRecipe
    cases h : get (runOps dmax ops (fresh a b)).recipes name <;> simp
  · rw [← key.2.1]
    unfold getRecipe
    cases h : get (runOps dmax ops (fresh a b)).recipes name <;> simp

/-- A case of `C94_recipes`: a recipe that is added again. -/
example : (∃ pre post, [Op.addRecipe "fuel" 1, .addRecipe "waste" 2, .addRecipe "fuel" 3] =
      pre ++ Op.addRecipe "fuel" 3 :: post ∧ NoRecipe "fuel" post) ∧
    getRecipe (runOps 10 [.addRecipe "fuel" 1, .addRecipe "waste" 2, .addRecipe "fuel" 3]
      (fresh true true)) "fuel" = .ok 3 :=
  ⟨⟨[.addRecipe "fuel" 1, .addRecipe "waste" 2], [], rfl, by simp [NoRecipe]⟩, by decide +kernel⟩

theorem packages_run (dmax : ℚ) (w : World) (op : Op) (name : String) (hname : name ≠ "unpackaged") :
    get (op.run dmax w).pkgs name = (get w.pkgs name).or
      (match op with
        | .addPackage p => if p.name = name then (createPkg true p).toOption else none
        | _ => none) := by
  cases op with
  | addPackage p =>
    by_cases hp : p.name = name
    · have hst := createPkg_static (p := p) (by rw [hp]; exact hname) w.unpackaged true
      simp only [Op.run, if_pos hp]
      rcases addPackage_cases w p with ⟨h1, h2⟩ | ⟨h1, h2, h3⟩ | ⟨h1, h2, h3⟩
      · rw [h2]
        rw [hp] at h1
        cases hg : get w.pkgs name with
        | none => exact absurd hg h1
        | some x => simp
      · rw [h3, ← hst, h2]; simp [Except.toOption]
      · rw [h3, ← hst, h2]
        simp only [get_append, hp, Except.toOption, if_true]
    · simp only [Op.run, if_neg hp, Option.or_none]
      rcases addPackage_cases w p with ⟨h1, h2⟩ | ⟨h1, h2, h3⟩ | ⟨h1, h2, h3⟩
      · rw [h2]
      · rw [h3]
      · rw [h3]; simp [get_append, hp]
  | addRecipe n q => simp [Op.run, addRecipe]
  | addPrototype n p o => simp [Op.run]
  | addUnit u => simp [Op.run, addUnit_touches]
  | recordUnpackaged => simp [Op.run, recordUnpackaged]
  | recordUnrestricted => simp [Op.run, recordUnrestricted]
  | getPackage n => rcases getPackage_touches dmax w n with h | h <;> simp [Op.run, h]
  | getUnit n => rcases getUnit_touches w n with h | h <;> simp [Op.run, h]

theorem units_run (dmax : ℚ) (w : World) (op : Op) (name : String)
    (hname : name ≠ "unrestricted") :
    get (op.run dmax w).units name = (get w.units name).or
      (match op with
        | .addUnit p => if p.name = name then (createUnit true p).toOption else none
        | _ => none) := by
  cases op with
  | addUnit p =>
    by_cases hp : p.name = name
    · have hst := createUnit_static (u := p) (by rw [hp]; exact hname) w.unrestricted true
      simp only [Op.run, if_pos hp]
      rcases addUnit_cases w p with ⟨h1, h2⟩ | ⟨h1, h2, h3⟩ | ⟨h1, h2, h3⟩
      · rw [h2]
        rw [hp] at h1
        cases hg : get w.units name with
        | none => exact absurd hg h1
        | some x => simp
      · rw [h3, ← hst, h2]; simp [Except.toOption]
      · rw [h3, ← hst, h2]
        simp only [get_append, hp, Except.toOption, if_true]
    · simp only [Op.run, if_neg hp, Option.or_none]
      rcases addUnit_cases w p with ⟨h1, h2⟩ | ⟨h1, h2, h3⟩ | ⟨h1, h2, h3⟩
      · rw [h2]
      · rw [h3]
      · rw [h3]; simp [get_append, hp]
  | addRecipe n q => simp [Op.run, addRecipe]
  | addPrototype n p o => simp [Op.run]
  | addPackage u => simp [Op.run, addPackage_touches]
  | recordUnpackaged => simp [Op.run, recordUnpackaged]
  | recordUnrestricted => simp [Op.run, recordUnrestricted]
  | getPackage n => rcases getPackage_touches dmax w n with h | h <;> simp [Op.run, h]
  | getUnit n => rcases getUnit_touches w n with h | h <;> simp [Op.run, h]

theorem createPkg_toOption {p : Pkg} (h : p.name ≠ "unpackaged") :
    (ValidPkg p → (createPkg true p).toOption = some p) ∧
    (¬ ValidPkg p → (createPkg true p).toOption = none) := by
  constructor
  · intro hv; rw [(createPkg_valid h true).mpr hv]; rfl
  · intro hv
    cases hc : createPkg true p with
    | error e => rfl
    | ok q =>
      have : createPkg true p = .ok p := by
        rcases (show createPkg true p = .error .value ∨ createPkg true p = .ok p by
          unfold createPkg; repeat' split
          all_goals first | exact Or.inl rfl | exact Or.inr rfl) with h' | h'
        · rw [h'] at hc; exact absurd hc (by simp)
        · exact h'
      exact absurd ((createPkg_valid h true).mp this) hv

theorem createUnit_toOption {p : TUnit} (h : p.name ≠ "unrestricted") :
    (ValidUnit p → (createUnit true p).toOption = some p) ∧
    (¬ ValidUnit p → (createUnit true p).toOption = none) := by
  constructor
  · intro hv; rw [(createUnit_valid h true).mpr hv]; rfl
  · intro hv
    cases hc : createUnit true p with
    | error e => rfl
    | ok q =>
      have : createUnit true p = .ok p := by
        rcases (show createUnit true p = .error .value ∨ createUnit true p = .ok p by
          unfold createUnit; repeat' split
          all_goals first | exact Or.inl rfl | exact Or.inr rfl) with h' | h'
        · rw [h'] at hc; exact absurd hc (by simp)
        · exact h'
      exact absurd ((createUnit_valid h true).mp this) hv

theorem packages_key (dmax : ℚ) (a b : Bool) (ops : List Op) (name : String)
    (hname : name ≠ "unpackaged") :
    (∀ p, get (runOps dmax ops (fresh a b)).pkgs name = some p ↔
      p.name = name ∧ ValidPkg p ∧
      ∃ pre post, ops = pre ++ .addPackage p :: post ∧ NoPackage name pre) ∧
    (get (runOps dmax ops (fresh a b)).pkgs name = none ↔ NoPackage name ops) := by
  induction ops using List.reverseRecOn with
  | nil =>
    refine ⟨fun q => ⟨fun h => by simp [runOps, fresh, get] at h, ?_⟩, ?_⟩
    · rintro ⟨_, _, pre, post, h, _⟩; simp at h
    · simp [runOps, fresh, get, NoPackage]
  | append_singleton ops op ih =>
    obtain ⟨ih1, ih2⟩ := ih
    rw [runOps_append, packages_run dmax _ op name hname]
    cases hg : get (runOps dmax ops (fresh a b)).pkgs name with
    | some q =>
      obtain ⟨q1, q2, pre, post, q3, q4⟩ := (ih1 q).mp hg
      constructor
      · intro p
        simp only [Option.some_or]
        constructor
        · intro h
          injection h with h
          subst h
          exact ⟨q1, q2, pre, post ++ [op], by rw [q3]; simp, q4⟩
        · rintro ⟨p1, p2, pre', post', p3, p4⟩
          rcases (split_concat _ _ _ _ _).mp p3 with ⟨_, h1, _⟩ | ⟨post'', _, h2⟩
          · exact absurd (by rw [h1, q3]; simp) (p4 q q1 q2)
          · rw [← hg]
            exact (ih1 p).mpr ⟨p1, p2, pre', post'', h2, p4⟩
      · refine ⟨fun h => by simp at h, fun h => absurd ?_ (h q q1 q2)⟩
        rw [q3]; simp
    | none =>
      have hno := ih2.mp hg
      simp only [Option.none_or]
      by_cases hop : ∃ p, op = .addPackage p ∧ p.name = name ∧ ValidPkg p
      · obtain ⟨q, rfl, q1, q2⟩ := hop
        have hr := (createPkg_toOption (p := q) (by rw [q1]; exact hname)).1 q2
        simp only [if_pos q1, hr]
        constructor
        · intro p
          constructor
          · intro h
            injection h with h
            subst h
            exact ⟨q1, q2, ops, [], rfl, hno⟩
          · rintro ⟨p1, p2, pre', post', p3, p4⟩
            rcases (split_concat _ _ _ _ _).mp p3 with ⟨h1, _, _⟩ | ⟨post'', _, h2⟩
            · injection h1 with h1; rw [h1]
            · exact absurd (by rw [h2]; simp) (hno p p1 p2)
        · refine ⟨fun h => by simp at h, fun h => absurd (by simp) (h q q1 q2)⟩
      · have hnone : (match op with
            | .addPackage p => if p.name = name then (createPkg true p).toOption else none
            | _ => none) = none := by
          cases op with
          | addPackage p =>
            by_cases hp : p.name = name
            · simp only [if_pos hp]
              exact (createPkg_toOption (p := p) (by rw [hp]; exact hname)).2
                fun hv => hop ⟨p, rfl, hp, hv⟩
            · simp only [if_neg hp]
          | _ => rfl
        rw [hnone]
        constructor
        · intro p
          refine ⟨fun h => by simp at h, ?_⟩
          rintro ⟨p1, p2, pre', post', p3, p4⟩
          rcases (split_concat _ _ _ _ _).mp p3 with ⟨h1, _, _⟩ | ⟨post'', _, h2⟩
          · exact absurd ⟨p, h1.symm, p1, p2⟩ hop
          · exact absurd (by rw [h2]; simp) (hno p p1 p2)
        · refine ⟨fun _ p p1 p2 hm => ?_, fun _ => rfl⟩
          rcases List.mem_append.mp hm with hm | hm
          · exact hno p p1 p2 hm
          · exact hop ⟨p, (List.mem_singleton.mp hm).symm, p1, p2⟩

theorem units_key (dmax : ℚ) (a b : Bool) (ops : List Op) (name : String)
    (hname : name ≠ "unrestricted") :
    (∀ p, get (runOps dmax ops (fresh a b)).units name = some p ↔
      p.name = name ∧ ValidUnit p ∧
      ∃ pre post, ops = pre ++ .addUnit p :: post ∧ NoUnit name pre) ∧
    (get (runOps dmax ops (fresh a b)).units name = none ↔ NoUnit name ops) := by
  induction ops using List.reverseRecOn with
  | nil =>
    refine ⟨fun q => ⟨fun h => by simp [runOps, fresh, get] at h, ?_⟩, ?_⟩
    · rintro ⟨_, _, pre, post, h, _⟩; simp at h
    · simp [runOps, fresh, get, NoUnit]
  | append_singleton ops op ih =>
    obtain ⟨ih1, ih2⟩ := ih
    rw [runOps_append, units_run dmax _ op name hname]
    cases hg : get (runOps dmax ops (fresh a b)).units name with
    | some q =>
      obtain ⟨q1, q2, pre, post, q3, q4⟩ := (ih1 q).mp hg
      constructor
      · intro p
        simp only [Option.some_or]
        constructor
        · intro h
          injection h with h
          subst h
          exact ⟨q1, q2, pre, post ++ [op], by rw [q3]; simp, q4⟩
        · rintro ⟨p1, p2, pre', post', p3, p4⟩
          rcases (split_concat _ _ _ _ _).mp p3 with ⟨_, h1, _⟩ | ⟨post'', _, h2⟩
          · exact absurd (by rw [h1, q3]; simp) (p4 q q1 q2)
          · rw [← hg]
            exact (ih1 p).mpr ⟨p1, p2, pre', post'', h2, p4⟩
      · refine ⟨fun h => by simp at h, fun h => absurd ?_ (h q q1 q2)⟩
        rw [q3]; simp
    | none =>
      have hno := ih2.mp hg
      simp only [Option.none_or]
      by_cases hop : ∃ p, op = .addUnit p ∧ p.name = name ∧ ValidUnit p
      · obtain ⟨q, rfl, q1, q2⟩ := hop
        have hr := (createUnit_toOption (p := q) (by rw [q1]; exact hname)).1 q2
        simp only [if_pos q1, hr]
        constructor
        · intro p
          constructor
          · intro h
            injection h with h
            subst h
            exact ⟨q1, q2, ops, [], rfl, hno⟩
          · rintro ⟨p1, p2, pre', post', p3, p4⟩
            rcases (split_concat _ _ _ _ _).mp p3 with ⟨h1, _, _⟩ | ⟨post'', _, h2⟩
            · injection h1 with h1; rw [h1]
            · exact absurd (by rw [h2]; simp) (hno p p1 p2)
        · refine ⟨fun h => by simp at h, fun h => absurd (by simp) (h q q1 q2)⟩
      · have hnone : (match op with
            | .addUnit p => if p.name = name then (createUnit true p).toOption else none
            | _ => none) = none := by
          cases op with
          | addUnit p =>
            by_cases hp : p.name = name
            · simp only [if_pos hp]
              exact (createUnit_toOption (p := p) (by rw [hp]; exact hname)).2
                fun hv => hop ⟨p, rfl, hp, hv⟩
            · simp only [if_neg hp]
          | _ => rfl
        rw [hnone]
        constructor
        · intro p
          refine ⟨fun h => by simp at h, ?_⟩
          rintro ⟨p1, p2, pre', post', p3, p4⟩
          rcases (split_concat _ _ _ _ _).mp p3 with ⟨h1, _, _⟩ | ⟨post'', _, h2⟩
          · exact absurd ⟨p, h1.symm, p1, p2⟩ hop
          · exact absurd (by rw [h2]; simp) (hno p p1 p2)
        · refine ⟨fun _ p p1 p2 hm => ?_, fun _ => rfl⟩
          rcases List.mem_append.mp hm with hm | hm
          · exact hno p p1 p2 hm
          · exact hop ⟨p, (List.mem_singleton.mp hm).symm, p1, p2⟩

/-- C94 (packages and transport units).  After any sequence of uses, `GetPackage` and
`GetTransportUnit` return exactly the first valid type that was added under the name, and throw a
`KeyError` if there was none; the reserved names always give the unlimited type. -/
theorem C94_packages (dmax : ℚ) (a b : Bool) (ops : List Op) (name : String) :
    (name ≠ "unpackaged" →
      (∀ p, (getPackage dmax (runOps dmax ops (fresh a b)) name).2 = .ok p ↔
        p.name = name ∧ ValidPkg p ∧
        ∃ pre post, ops = pre ++ .addPackage p :: post ∧ NoPackage name pre) ∧
      ((getPackage dmax (runOps dmax ops (fresh a b)) name).2 = .error .key ↔
        NoPackage name ops)) ∧
    (name ≠ "unrestricted" →
      (∀ u, (getUnit (runOps dmax ops (fresh a b)) name).2 = .ok u ↔
        u.name = name ∧ ValidUnit u ∧
        ∃ pre post, ops = pre ++ .addUnit u :: post ∧ NoUnit name pre) ∧
      ((getUnit (runOps dmax ops (fresh a b)) name).2 = .error .key ↔ NoUnit name ops)) ∧
    (getPackage dmax (runOps dmax ops (fresh a b)) "unpackaged").2 =
      .ok ⟨"unpackaged", 0, dmax, "first"⟩ ∧
    (getUnit (runOps dmax ops (fresh a b)) "unrestricted").2 =
      .ok ⟨"unrestricted", 0, 2 ^ 31 - 1, "hybrid"⟩ := by
  refine ⟨fun hname => ?_, fun hname => ?_, rfl, rfl⟩
  · obtain ⟨k1, k2⟩ := packages_key dmax a b ops name hname
    generalize runOps dmax ops (fresh a b) = w at k1 k2 ⊢
    have hg : (getPackage dmax w name).2 =
        match get w.pkgs name with | none => .error .key | some p => .ok p := by
      unfold getPackage
      rw [if_neg hname]
      split
      · rename_i h
        rw [List.length_eq_zero_iff.mp h]; rfl
      · cases get w.pkgs name <;> rfl
    rw [hg]
    refine ⟨fun p => ?_, ?_⟩
    · rw [← k1 p]; cases get w.pkgs name <;> simp
    · rw [← k2]; cases get w.pkgs name <;> simp
  · obtain ⟨k1, k2⟩ := units_key dmax a b ops name hname
    generalize runOps dmax ops (fresh a b) = w at k1 k2 ⊢
    have hg : (getUnit w name).2 =
        match get w.units name with | none => .error .key | some p => .ok p := by
      unfold getUnit
      rw [if_neg hname]
      split
      · rename_i h
        rw [List.length_eq_zero_iff.mp h]; rfl
      · cases get w.units name <;> rfl
    rw [hg]
    refine ⟨fun p => ?_, ?_⟩
    · rw [← k1 p]; cases get w.units name <;> simp
    · rw [← k2]; cases get w.units name <;> simp

/-- A case of `C94_packages`: an invalid type, a valid one and a second of the same name. -/
example : ValidPkg ⟨"drum", 1, 2, "equal"⟩ ∧ ¬ ValidPkg ⟨"drum", 3, 2, "equal"⟩ ∧
    ValidUnit ⟨"truck", 1, 4, "hybrid"⟩ ∧
    (getPackage 10 (runOps 10 [.addPackage ⟨"drum", 3, 2, "equal"⟩,
      .addPackage ⟨"drum", 1, 2, "equal"⟩, .addPackage ⟨"drum", 0, 5, "first"⟩]
      (fresh true true)) "drum").2 = .ok ⟨"drum", 1, 2, "equal"⟩ := by
  refine ⟨⟨by norm_num, by norm_num, by simp, by simp⟩, fun h => ?_,
    ⟨by norm_num, by norm_num, by simp⟩, by decide +kernel⟩
  exact absurd h.le (by norm_num)

/-- How one use changes the prototype of a name. -/
def protoStep (name : String) (cur : Option Proto) : Op → Option Proto
  | .addPrototype n p o => if n = name ∧ (o = true ∨ cur = none) then some p else cur
  | _ => cur

theorem protos_run (dmax : ℚ) (w : World) (op : Op) (name : String) :
    get (op.run dmax w).protos name = protoStep name (get w.protos name) op := by
  cases op with
  | addPrototype n p o =>
    simp only [Op.run, protoStep]
    by_cases h : o = false ∧ get w.protos n ≠ none
    · rw [addPrototype_err h]
      rw [if_neg]
      rintro ⟨h1, h2⟩
      subst h1
      rcases h2 with h2 | h2
      · rw [h2] at h; simp at h
      · exact h.2 h2
    · rw [(addPrototype_ok h).1, get_put]
      by_cases hn : n = name
      · subst hn
        rw [if_pos rfl, if_pos]
        refine ⟨rfl, ?_⟩
        cases o
        · right
          by_contra hc
          exact h ⟨rfl, hc⟩
        · exact Or.inl rfl
      · rw [if_neg hn, if_neg (fun hh => hn hh.1)]
  | addRecipe n q => simp [protoStep, Op.run, addRecipe]
  | addPackage p => simp [protoStep, Op.run, addPackage_touches]
  | addUnit u => simp [protoStep, Op.run, addUnit_touches]
  | recordUnpackaged => simp [protoStep, Op.run, recordUnpackaged]
  | recordUnrestricted => simp [protoStep, Op.run, recordUnrestricted]
  | getPackage n => rcases getPackage_touches dmax w n with h | h <;> simp [protoStep, Op.run, h]
  | getUnit n => rcases getUnit_touches w n with h | h <;> simp [protoStep, Op.run, h]

/-- C94 (prototypes).  After any sequence of uses, the prototype of a name is the last one that was
added with permission to overwrite, or else the first one that was added; a name has no prototype
only if none was added. -/
theorem C94_prototypes (dmax : ℚ) (a b : Bool) (ops : List Op) (name : String) :
    (∀ p, get (runOps dmax ops (fresh a b)).protos name = some p ↔
      ∃ pre post o, ops = pre ++ .addPrototype name p o :: post ∧
        (o = true ∨ NoProto name pre) ∧ NoOverwrite name post) ∧
    (get (runOps dmax ops (fresh a b)).protos name = none ↔ NoProto name ops) := by
  induction ops using List.reverseRecOn with
  | nil =>
    refine ⟨fun q => ⟨fun h => by simp [runOps, fresh, get] at h, ?_⟩, ?_⟩
    · rintro ⟨pre, post, _, h, _⟩; simp at h
    · simp [runOps, fresh, get, NoProto]
  | append_singleton ops op ih =>
    obtain ⟨ih1, ih2⟩ := ih
    rw [runOps_append, protos_run dmax _ op name]
    by_cases hop : ∃ p o, op = .addPrototype name p o ∧
        (o = true ∨ get (runOps dmax ops (fresh a b)).protos name = none)
    · obtain ⟨q, o, rfl, hq⟩ := hop
      simp only [protoStep, true_and, if_pos hq]
      constructor
      · intro p
        constructor
        · intro h
          injection h with h
          subst h
          refine ⟨ops, [], o, rfl, ?_, by simp [NoOverwrite]⟩
          rcases hq with hq | hq
          · exact Or.inl hq
          · exact Or.inr (ih2.mp hq)
        · rintro ⟨pre, post, o', h, h1, h2⟩
          rcases (split_concat _ _ _ _ _).mp h with ⟨e1, _, _⟩ | ⟨post', e1, e2⟩
          · injection e1 with _ e1 _; rw [e1]
          · exfalso
            rcases hq with hq | hq
            · subst hq
              exact absurd (by simp [e1]) (h2 q)
            · exact absurd (by rw [e2]; simp) ((ih2.mp hq) p o')
      · exact ⟨fun h => by simp at h, fun h => absurd (by simp) (h q o)⟩
    · have hsame : protoStep name (get (runOps dmax ops (fresh a b)).protos name) op =
          get (runOps dmax ops (fresh a b)).protos name := by
        cases op with
        | addPrototype n p o =>
          simp only [protoStep]
          rw [if_neg]
          rintro ⟨rfl, h⟩
          exact hop ⟨p, o, rfl, h⟩
        | _ => rfl
      rw [hsame]
      constructor
      · intro p
        rw [ih1 p]
        constructor
        · rintro ⟨pre, post, o, h, h1, h2⟩
          refine ⟨pre, post ++ [op], o, by rw [h]; simp, h1, fun p' hp' => ?_⟩
          rcases List.mem_append.mp hp' with hp' | hp'
          · exact h2 p' hp'
          · exact hop ⟨p', true, (List.mem_singleton.mp hp').symm, Or.inl rfl⟩
        · rintro ⟨pre, post, o, h, h1, h2⟩
          rcases (split_concat _ _ _ _ _).mp h with ⟨e1, e2, _⟩ | ⟨post', e1, e2⟩
          · exfalso
            refine hop ⟨p, o, e1.symm, ?_⟩
            rcases h1 with h1 | h1
            · exact Or.inl h1
            · right
              rw [ih2]
              rw [e2] at h1
              exact h1
          · exact ⟨pre, post', o, e2, h1, fun p' hp' => h2 p' (by rw [e1]; simp [hp'])⟩
      · rw [ih2]
        constructor
        · intro h p o hp
          rcases List.mem_append.mp hp with hp | hp
          · exact h p o hp
          · exact hop ⟨p, o, (List.mem_singleton.mp hp).symm, Or.inr (ih2.mpr h)⟩
        · exact fun h p o hp => h p o (by simp [hp])

/-- A case of `C94_prototypes`: the second is refused, the third overwrites. -/
example : get (runOps 10 [.addPrototype "r" ⟨1, ":a:A", "1"⟩ false,
      .addPrototype "r" ⟨2, ":a:A", "1"⟩ false, .addPrototype "r" ⟨3, ":a:B", "1"⟩ true]
      (fresh true true)).protos "r" = some ⟨3, ":a:B", "1"⟩ := by decide +kernel

/-- C94 (refusals).  Adding throws exactly in these cases, and then leaves everything as it was: a
`KeyError` for a prototype whose name is taken and that may not overwrite; a `KeyError` for a package
or unit whose name is taken; a `ValueError` for one whose name is free, but that is invalid or has
the reserved name once the unlimited type exists. -/
theorem C94_refusals (w : World) :
    (∀ n p o, (addPrototype w n p o).2 = .error .key ↔ o = false ∧ get w.protos n ≠ none) ∧
    (∀ n p o e, (addPrototype w n p o).2 = .error e → addPrototype w n p o = (w, .error .key)) ∧
    (∀ p, (addPackage w p).2 = .error .key ↔ get w.pkgs p.name ≠ none) ∧
    (∀ p, p.name ≠ "unpackaged" →
      ((addPackage w p).2 = .error .value ↔ get w.pkgs p.name = none ∧ ¬ ValidPkg p)) ∧
    (∀ p, p.name = "unpackaged" → w.unpackaged = true → ∃ e, addPackage w p = (w, .error e)) ∧
    (∀ p e, (addPackage w p).2 = .error e → (addPackage w p).1 = w) ∧
    (∀ u, (addUnit w u).2 = .error .key ↔ get w.units u.name ≠ none) ∧
    (∀ u, u.name ≠ "unrestricted" →
      ((addUnit w u).2 = .error .value ↔ get w.units u.name = none ∧ ¬ ValidUnit u)) ∧
    (∀ u, u.name = "unrestricted" → w.unrestricted = true → ∃ e, addUnit w u = (w, .error e)) ∧
    (∀ u e, (addUnit w u).2 = .error e → (addUnit w u).1 = w) := by
  refine ⟨?_, ?_, ?_, ?_, ?_, ?_, ?_, ?_, ?_, ?_⟩
  · intro n p o
    by_cases h : o = false ∧ get w.protos n ≠ none
    · rw [addPrototype_err h]; simp only [true_iff]; exact h
    · rw [(addPrototype_ok h).2.2]
      exact ⟨fun h' => by simp at h', fun h' => absurd h' h⟩
  · intro n p o e
    by_cases h : o = false ∧ get w.protos n ≠ none
    · intro _; exact addPrototype_err h
    · rw [(addPrototype_ok h).2.2]
      exact fun h' => by simp at h'
  · intro p
    rcases addPackage_cases w p with h | h | h
    · rw [h.2]; simp [h.1]
    · rw [h.2.2]; simp [h.1]
    · rw [h.2.2]; simp [h.1]
  · intro p hp
    have hv := createPkg_valid hp w.unpackaged
    rcases addPackage_cases w p with h | h | h
    · rw [h.2]; simp [h.1]
    · rw [h.2.2]
      simp only [true_iff]
      refine ⟨h.1, fun hh => ?_⟩
      rw [hv.mpr hh] at h
      exact absurd h.2.1 (by simp)
    · rw [h.2.2]
      refine ⟨fun h' => by simp at h', fun h' => absurd (hv.mp h.2.1) h'.2⟩
  · intro p hp hu
    have hv := createPkg_reserved hp
    rcases addPackage_cases w p with h | h | h
    · exact ⟨_, h.2⟩
    · exact ⟨_, h.2.2⟩
    · rw [hu, hv] at h; exact absurd h.2.1 (by simp)
  · intro p e he
    rcases addPackage_cases w p with h | h | h
    · rw [h.2]
    · rw [h.2.2]
    · rw [h.2.2] at he; exact absurd he (by simp)
  · intro p
    rcases addUnit_cases w p with h | h | h
    · rw [h.2]; simp [h.1]
    · rw [h.2.2]; simp [h.1]
    · rw [h.2.2]; simp [h.1]
  · intro p hp
    have hv := createUnit_valid hp w.unrestricted
    rcases addUnit_cases w p with h | h | h
    · rw [h.2]; simp [h.1]
    · rw [h.2.2]
      simp only [true_iff]
      refine ⟨h.1, fun hh => ?_⟩
      rw [hv.mpr hh] at h
      exact absurd h.2.1 (by simp)
    · rw [h.2.2]
      refine ⟨fun h' => by simp at h', fun h' => absurd (hv.mp h.2.1) h'.2⟩
  · intro p hp hu
    have hv := createUnit_reserved hp
    rcases addUnit_cases w p with h | h | h
    · exact ⟨_, h.2⟩
    · exact ⟨_, h.2.2⟩
    · rw [hu, hv] at h; exact absurd h.2.1 (by simp)
  · intro p e he
    rcases addUnit_cases w p with h | h | h
    · rw [h.2]
    · rw [h.2.2]
    · rw [h.2.2] at he; exact absurd he (by simp)

/-- A case of `C94_refusals`: each of the errors occurs. -/
example :
    let w := runOps 10 [.addPrototype "r" ⟨1, ":a:A", "1"⟩ false,
      .addPackage ⟨"drum", 1, 2, "equal"⟩] (fresh true true)
    (addPrototype w "r" ⟨2, ":a:A", "1"⟩ false).2 = .error .key ∧
    (addPackage w ⟨"drum", 1, 2, "equal"⟩).2 = .error .key ∧
    (addPackage w ⟨"can", 3, 2, "equal"⟩).2 = .error .value ∧
    (addPackage w ⟨"unpackaged", 1, 2, "equal"⟩).2 = .error .value := by decide +kernel

theorem versions_step (w : World) (n : String) (p : Proto) (o : Bool)
    (h : w.db.versions.map Prod.fst = w.recVer ∧ w.recVer.Nodup ∧
      ∀ s, s ∈ w.recVer ↔ s ∈ w.db.protos.map fun r => r.2.2) :
    (addPrototype w n p o).1.db.versions.map Prod.fst = (addPrototype w n p o).1.recVer ∧
      (addPrototype w n p o).1.recVer.Nodup ∧
      ∀ s, s ∈ (addPrototype w n p o).1.recVer ↔
        s ∈ (addPrototype w n p o).1.db.protos.map fun r => r.2.2 := by
  unfold addPrototype
  split
  · exact h
  · dsimp only
    split
    · rename_i hm
      refine ⟨h.1, h.2.1, fun s => ?_⟩
      simp only [List.map_append, List.mem_append, List.map_cons, List.map_nil,
        List.mem_singleton]
      rw [← h.2.2 s]
      constructor
      · exact Or.inl
      · rintro (h' | h')
        · exact h'
        · rw [h']; exact hm
    · rename_i hm
      refine ⟨by simp [h.1], ?_, fun s => ?_⟩
      · refine List.Nodup.append h.2.1 (by simp) ?_
        intro x hx hx'
        rw [List.mem_singleton] at hx'
        rw [hx'] at hx
        exact hm hx
      · simp only [List.map_append, List.mem_append, List.map_cons, List.map_nil,
          List.mem_singleton]
        rw [h.2.2 s]

/-- C94 (versions).  After any sequence of uses, the table `AgentVersions` has exactly one row for
each archetype that occurs in the table `Prototypes`, with the version that one of the prototypes
added had. -/
theorem C94_versions (dmax : ℚ) (a b : Bool) (ops : List Op) :
    ((runOps dmax ops (fresh a b)).db.versions.map Prod.fst).Nodup ∧
    (∀ s, s ∈ (runOps dmax ops (fresh a b)).db.versions.map Prod.fst ↔
      ∃ n i, (n, i, s) ∈ (runOps dmax ops (fresh a b)).db.protos) ∧
    ∀ s v, (s, v) ∈ (runOps dmax ops (fresh a b)).db.versions →
      ∃ n p o, Op.addPrototype n p o ∈ ops ∧ p.spec = s ∧ p.version = v := by
  have hver : ∀ s v, (s, v) ∈ (runOps dmax ops (fresh a b)).db.versions →
      ∃ n p o, Op.addPrototype n p o ∈ ops ∧ p.spec = s ∧ p.version = v := by
    induction ops using List.reverseRecOn with
    | nil => simp [runOps, fresh]
    | append_singleton ops op ih =>
      rw [runOps_append]
      have hmono : ∀ s v, (s, v) ∈ (runOps dmax ops (fresh a b)).db.versions →
          ∃ n p o, Op.addPrototype n p o ∈ ops ++ [op] ∧ p.spec = s ∧ p.version = v := by
        intro s v h
        obtain ⟨n, p, o, h1, h2⟩ := ih s v h
        exact ⟨n, p, o, by simp [h1], h2⟩
      cases op with
      | addPrototype n p o =>
        intro s v h
        simp only [Op.run] at h
        unfold addPrototype at h
        split at h
        · exact hmono s v h
        · dsimp only at h
          split at h
          · exact hmono s v h
          · rcases List.mem_append.mp h with h | h
            · exact hmono s v h
            · simp only [List.mem_singleton, Prod.mk.injEq] at h
              exact ⟨n, p, o, by simp, h.1.symm, h.2.symm⟩
      | addRecipe n q => exact hmono
      | addPackage p =>
        simp only [Op.run, addPackage_touches]; exact hmono
      | addUnit u =>
        simp only [Op.run, addUnit_touches]; exact hmono
      | recordUnpackaged => exact hmono
      | recordUnrestricted => exact hmono
      | getPackage n =>
        rcases getPackage_touches dmax (runOps dmax ops (fresh a b)) n with h | h <;>
          simp only [Op.run, h] <;> exact hmono
      | getUnit n =>
        rcases getUnit_touches (runOps dmax ops (fresh a b)) n with h | h <;>
          simp only [Op.run, h] <;> exact hmono
  have key : (runOps dmax ops (fresh a b)).db.versions.map Prod.fst =
        (runOps dmax ops (fresh a b)).recVer ∧ (runOps dmax ops (fresh a b)).recVer.Nodup ∧
      ∀ s, s ∈ (runOps dmax ops (fresh a b)).recVer ↔
        s ∈ (runOps dmax ops (fresh a b)).db.protos.map fun r => r.2.2 := by
    clear hver
    induction ops using List.reverseRecOn with
    | nil => simp [runOps, fresh]
    | append_singleton ops op ih =>
      rw [runOps_append]
      cases op with
      | addPrototype n p o => exact versions_step _ n p o ih
      | addRecipe n q => exact ih
      | addPackage p =>
        simp only [Op.run, addPackage_touches]; exact ih
      | addUnit u =>
        simp only [Op.run, addUnit_touches]; exact ih
      | recordUnpackaged => exact ih
      | recordUnrestricted => exact ih
      | getPackage n =>
        rcases getPackage_touches dmax (runOps dmax ops (fresh a b)) n with h | h <;>
          simp only [Op.run, h] <;> exact ih
      | getUnit n =>
        rcases getUnit_touches (runOps dmax ops (fresh a b)) n with h | h <;>
          simp only [Op.run, h] <;> exact ih
  rw [key.1]
  refine ⟨key.2.1, fun s => ?_, hver⟩
  rw [key.2.2 s, List.mem_map]
  constructor
  · rintro ⟨⟨n, i, s'⟩, hr, rfl⟩; exact ⟨n, i, hr⟩
  · rintro ⟨n, i, hr⟩; exact ⟨_, hr, rfl⟩

/-- A case of `C94_versions`: three prototypes of two archetypes. -/
example : (runOps 10 [.addPrototype "r" ⟨1, ":a:A", "1"⟩ false,
      .addPrototype "s" ⟨2, ":a:A", "1"⟩ false, .addPrototype "t" ⟨3, ":a:B", "7"⟩ true]
      (fresh true true)).db.versions = [(":a:A", "1"), (":a:B", "7")] := by decide +kernel

/-! ## Loading -/

/-- The uses do not define types under the reserved names before the unlimited types exist. -/
def Reserving (a b : Bool) (ops : List Op) : Prop :=
  (a = true ∨ ∀ p, p.name = "unpackaged" → Op.addPackage p ∉ ops) ∧
  (b = true ∨ ∀ u, u.name = "unrestricted" → Op.addUnit u ∉ ops)

/-- What the uses keep true. -/
structure Inv (dmax : ℚ) (w : World) : Prop where
  recipes : w.recipes = w.db.recipes.foldl (fun m r => put m r.1 r.2) []
  pkgs : w.pkgs = (w.db.pkgs.filter fun p => p.name ≠ "unpackaged").map fun p => (p.name, p)
  pkgsNodup : ((w.db.pkgs.filter fun p => p.name ≠ "unpackaged").map Pkg.name).Nodup
  pkgsValid : ∀ p ∈ w.db.pkgs, p.name ≠ "unpackaged" → createPkg true p = .ok p
  pkgsReserved : ∀ p ∈ w.db.pkgs, p.name = "unpackaged" → p = unpackagedPkg dmax
  units : w.units = (w.db.units.filter fun p => p.name ≠ "unrestricted").map fun p => (p.name, p)
  unitsNodup : ((w.db.units.filter fun p => p.name ≠ "unrestricted").map TUnit.name).Nodup
  unitsValid : ∀ p ∈ w.db.units, p.name ≠ "unrestricted" → createUnit true p = .ok p
  unitsReserved : ∀ p ∈ w.db.units, p.name = "unrestricted" → p = unrestrictedUnit
  protos : (w.db.protos.map Prod.fst).Nodup →
    w.protos.map (fun e => (e.1, e.2.id, e.2.spec)) = w.db.protos

theorem Inv.of_eq {dmax : ℚ} {w w' : World} (h : Inv dmax w) (h1 : w'.recipes = w.recipes)
    (h2 : w'.pkgs = w.pkgs) (h3 : w'.units = w.units) (h4 : w'.protos = w.protos)
    (h5 : w'.db.recipes = w.db.recipes) (h6 : w'.db.pkgs = w.db.pkgs)
    (h7 : w'.db.units = w.db.units) (h8 : w'.db.protos = w.db.protos) : Inv dmax w' := by
  constructor
  · rw [h1, h5]; exact h.recipes
  · rw [h2, h6]; exact h.pkgs
  · rw [h6]; exact h.pkgsNodup
  · rw [h6]; exact h.pkgsValid
  · rw [h6]; exact h.pkgsReserved
  · rw [h3, h7]; exact h.units
  · rw [h7]; exact h.unitsNodup
  · rw [h7]; exact h.unitsValid
  · rw [h7]; exact h.unitsReserved
  · rw [h4, h8]; exact h.protos

theorem pkgs_fst {dmax : ℚ} {w : World} (h : Inv dmax w) :
    w.pkgs.map Prod.fst = (w.db.pkgs.filter fun p => p.name ≠ "unpackaged").map Pkg.name := by
  rw [h.pkgs, List.map_map]; rfl

theorem units_fst {dmax : ℚ} {w : World} (h : Inv dmax w) :
    w.units.map Prod.fst = (w.db.units.filter fun p => p.name ≠ "unrestricted").map TUnit.name := by
  rw [h.units, List.map_map]; rfl

theorem inv_run (dmax : ℚ) (w : World) (op : Op) (h : Inv dmax w)
    (hp : ∀ p, op = .addPackage p → p.name = "unpackaged" → w.unpackaged = true)
    (hu : ∀ u, op = .addUnit u → u.name = "unrestricted" → w.unrestricted = true) :
    Inv dmax (op.run dmax w) := by
  cases op with
  | addPrototype n p o =>
    obtain ⟨t1, t2, t3, t4, t5, t6, _, _⟩ := addPrototype_recipes w n p o
    by_cases ho : o = false ∧ get w.protos n ≠ none
    · simp only [Op.run]; rw [addPrototype_err ho]; exact h
    · obtain ⟨h1, h2, _⟩ := addPrototype_ok (p := p) ho
      constructor
      · simp only [Op.run]; rw [t1, t2]; exact h.recipes
      · simp only [Op.run]; rw [t3, t4]; exact h.pkgs
      · simp only [Op.run]; rw [t4]; exact h.pkgsNodup
      · simp only [Op.run]; rw [t4]; exact h.pkgsValid
      · simp only [Op.run]; rw [t4]; exact h.pkgsReserved
      · simp only [Op.run]; rw [t5, t6]; exact h.units
      · simp only [Op.run]; rw [t6]; exact h.unitsNodup
      · simp only [Op.run]; rw [t6]; exact h.unitsValid
      · simp only [Op.run]; rw [t6]; exact h.unitsReserved
      · simp only [Op.run]
        rw [h1, h2]
        intro hn
        rw [List.map_append] at hn
        have hn1 := (List.nodup_append.mp hn).1
        have hpr := h.protos hn1
        have hg : get w.protos n = none := by
          rw [get_none]
          intro hc
          have : n ∈ w.db.protos.map Prod.fst := by
            rw [← hpr, List.map_map]
            exact hc
          exact (List.nodup_append.mp hn).2.2 n this n (by simp) rfl
        rw [put_new p hg, List.map_append, hpr]
        rfl
  | addRecipe n q =>
    constructor
    · simp [Op.run, addRecipe, ← h.recipes]
    · exact h.pkgs
    · exact h.pkgsNodup
    · exact h.pkgsValid
    · exact h.pkgsReserved
    · exact h.units
    · exact h.unitsNodup
    · exact h.unitsValid
    · exact h.unitsReserved
    · exact h.protos
  | addPackage p =>
    rcases addPackage_cases w p with h' | h' | ⟨h1, h2, h3⟩
    · simp only [Op.run]; rw [h'.2]; exact h
    · simp only [Op.run]; rw [h'.2.2]; exact h
    · have hn : p.name ≠ "unpackaged" := by
        intro hn
        rw [hp p rfl hn, createPkg_reserved hn] at h2
        exact absurd h2 (by simp)
      simp only [Op.run]
      rw [h3]
      have hf : [p].filter (fun p => p.name ≠ "unpackaged") = [p] := by simp [hn]
      constructor
      · exact h.recipes
      · simp only [List.filter_append, hf]
        rw [List.map_append, ← h.pkgs]
        rfl
      · simp only [List.filter_append, hf]
        rw [List.map_append]
        refine List.Nodup.append h.pkgsNodup (by simp) ?_
        intro x hx hx'
        simp only [List.map_cons, List.map_nil, List.mem_singleton] at hx'
        subst hx'
        rw [← pkgs_fst h] at hx
        exact get_none.mp h1 hx
      · intro q hq hqn
        rcases List.mem_append.mp hq with hq | hq
        · exact h.pkgsValid q hq hqn
        · rw [List.mem_singleton.mp hq, createPkg_static hn true w.unpackaged]; exact h2
      · intro q hq hqn
        rcases List.mem_append.mp hq with hq | hq
        · exact h.pkgsReserved q hq hqn
        · rw [List.mem_singleton.mp hq] at hqn; exact absurd hqn hn
      · exact h.units
      · exact h.unitsNodup
      · exact h.unitsValid
      · exact h.unitsReserved
      · exact h.protos
  | addUnit u =>
    rcases addUnit_cases w u with h' | h' | ⟨h1, h2, h3⟩
    · simp only [Op.run]; rw [h'.2]; exact h
    · simp only [Op.run]; rw [h'.2.2]; exact h
    · have hn : u.name ≠ "unrestricted" := by
        intro hn
        rw [hu u rfl hn, createUnit_reserved hn] at h2
        exact absurd h2 (by simp)
      simp only [Op.run]
      rw [h3]
      have hf : [u].filter (fun p => p.name ≠ "unrestricted") = [u] := by simp [hn]
      constructor
      · exact h.recipes
      · exact h.pkgs
      · exact h.pkgsNodup
      · exact h.pkgsValid
      · exact h.pkgsReserved
      · simp only [List.filter_append, hf]
        rw [List.map_append, ← h.units]
        rfl
      · simp only [List.filter_append, hf]
        rw [List.map_append]
        refine List.Nodup.append h.unitsNodup (by simp) ?_
        intro x hx hx'
        simp only [List.map_cons, List.map_nil, List.mem_singleton] at hx'
        subst hx'
        rw [← units_fst h] at hx
        exact get_none.mp h1 hx
      · intro q hq hqn
        rcases List.mem_append.mp hq with hq | hq
        · exact h.unitsValid q hq hqn
        · rw [List.mem_singleton.mp hq, createUnit_static hn true w.unrestricted]; exact h2
      · intro q hq hqn
        rcases List.mem_append.mp hq with hq | hq
        · exact h.unitsReserved q hq hqn
        · rw [List.mem_singleton.mp hq] at hqn; exact absurd hqn hn
      · exact h.protos
  | recordUnpackaged =>
    have hf : [unpackagedPkg dmax].filter (fun p => p.name ≠ "unpackaged") = [] := by
      simp [unpackagedPkg]
    constructor
    · exact h.recipes
    · simp only [Op.run, recordUnpackaged, List.filter_append, hf, List.append_nil]; exact h.pkgs
    · simp only [Op.run, recordUnpackaged, List.filter_append, hf, List.append_nil]
      exact h.pkgsNodup
    · intro q hq hqn
      rcases List.mem_append.mp hq with hq | hq
      · exact h.pkgsValid q hq hqn
      · rw [List.mem_singleton.mp hq] at hqn; exact absurd rfl hqn
    · intro q hq hqn
      rcases List.mem_append.mp hq with hq | hq
      · exact h.pkgsReserved q hq hqn
      · exact List.mem_singleton.mp hq
    · exact h.units
    · exact h.unitsNodup
    · exact h.unitsValid
    · exact h.unitsReserved
    · exact h.protos
  | recordUnrestricted =>
    have hf : [unrestrictedUnit].filter (fun p => p.name ≠ "unrestricted") = [] := by
      simp [unrestrictedUnit]
    constructor
    · exact h.recipes
    · exact h.pkgs
    · exact h.pkgsNodup
    · exact h.pkgsValid
    · exact h.pkgsReserved
    · simp only [Op.run, recordUnrestricted, List.filter_append, hf, List.append_nil]
      exact h.units
    · simp only [Op.run, recordUnrestricted, List.filter_append, hf, List.append_nil]
      exact h.unitsNodup
    · intro q hq hqn
      rcases List.mem_append.mp hq with hq | hq
      · exact h.unitsValid q hq hqn
      · rw [List.mem_singleton.mp hq] at hqn; exact absurd rfl hqn
    · intro q hq hqn
      rcases List.mem_append.mp hq with hq | hq
      · exact h.unitsReserved q hq hqn
      · exact List.mem_singleton.mp hq
    · exact h.protos
  | getPackage n =>
    rcases getPackage_touches dmax w n with h' | h' <;> simp only [Op.run, h'] <;>
      exact h.of_eq rfl rfl rfl rfl rfl rfl rfl rfl
  | getUnit n =>
    rcases getUnit_touches w n with h' | h' <;> simp only [Op.run, h'] <;>
      exact h.of_eq rfl rfl rfl rfl rfl rfl rfl rfl

theorem static_run (dmax : ℚ) (w : World) (op : Op) :
    (w.unpackaged = true → (op.run dmax w).unpackaged = true) ∧
    (w.unrestricted = true → (op.run dmax w).unrestricted = true) := by
  cases op with
  | addPrototype n p o => simp [Op.run]
  | addRecipe n q => exact ⟨id, id⟩
  | addPackage p => simp [Op.run, addPackage_touches]
  | addUnit u => simp [Op.run, addUnit_touches]
  | recordUnpackaged => simp [Op.run, recordUnpackaged]
  | recordUnrestricted => simp [Op.run, recordUnrestricted]
  | getPackage n => rcases getPackage_touches dmax w n with h | h <;> simp [Op.run, h]
  | getUnit n => rcases getUnit_touches w n with h | h <;> simp [Op.run, h]

theorem inv_runOps (dmax : ℚ) (a b : Bool) (ops : List Op) (h : Reserving a b ops) :
    Inv dmax (runOps dmax ops (fresh a b)) ∧
      (a = true → (runOps dmax ops (fresh a b)).unpackaged = true) ∧
      (b = true → (runOps dmax ops (fresh a b)).unrestricted = true) := by
  induction ops using List.reverseRecOn with
  | nil =>
    refine ⟨?_, id, id⟩
    constructor <;> simp [runOps, fresh]
  | append_singleton ops op ih =>
    have h' : Reserving a b ops := by
      refine ⟨h.1.imp_right fun h1 p hp hm => h1 p hp (by simp [hm]),
        h.2.imp_right fun h1 p hp hm => h1 p hp (by simp [hm])⟩
    obtain ⟨i1, i2, i3⟩ := ih h'
    rw [runOps_append]
    obtain ⟨s1, s2⟩ := static_run dmax (runOps dmax ops (fresh a b)) op
    refine ⟨inv_run dmax _ op i1 ?_ ?_, fun ha => s1 (i2 ha), fun hb => s2 (i3 hb)⟩
    · rintro p rfl hp
      rcases h.1 with h1 | h1
      · exact i2 h1
      · exact absurd (by simp) (h1 p hp)
    · rintro u rfl hu
      rcases h.2 with h1 | h1
      · exact i3 h1
      · exact absurd (by simp) (h1 u hu)

/-- C94 (loading).  For every sequence of uses that leaves the reserved names alone: filling a new
context from the database that the uses have written gives back all recipes, packages, transport
units and prototypes (the latter with the versions that the modules now have), and writes the same
rows, exactly if no name occurs twice in the table `Prototypes`.  The full statement has no such
condition; see `C94_fails_overwrite`. -/
theorem C94_load_partial (dmax : ℚ) (version : String → String) (a b a' b' : Bool) (ops : List Op)
    (h : Reserving a b ops) :
    let w := runOps dmax ops (fresh a b)
    ((w.db.protos.map Prod.fst).Nodup →
      ∃ w', load dmax version w.db (fresh a' b') = (w', .ok ()) ∧
        w'.recipes = w.recipes ∧ w'.pkgs = w.pkgs ∧ w'.units = w.units ∧
        w'.protos = w.protos.map (fun e => (e.1, ⟨e.2.id, e.2.spec, version e.2.spec⟩)) ∧
        w'.db.recipes = w.db.recipes ∧ w'.db.pkgs = w.db.pkgs ∧ w'.db.units = w.db.units ∧
        w'.db.protos = w.db.protos) ∧
    (¬ (w.db.protos.map Prod.fst).Nodup →
      (load dmax version w.db (fresh a' b')).2 = .error .key) := by
  intro w
  have hi : Inv dmax w := (inv_runOps dmax a b ops h).1
  clear_value w
  obtain ⟨b1, h1⟩ := loadPackages_spec dmax w.db.pkgs (loadRecipes w.db.recipes (fresh a' b'))
    (by rw [loadRecipes_spec]; simpa [fresh] using hi.pkgsNodup) hi.pkgsValid hi.pkgsReserved
  rw [loadRecipes_spec] at h1
  obtain ⟨b2, h2⟩ := loadUnits_spec w.db.units _
    (show ((World.units (Prod.fst (loadPackages dmax w.db.pkgs
      (loadRecipes w.db.recipes (fresh a' b'))))).map Prod.fst ++ _).Nodup by
        rw [loadRecipes_spec, h1]; simpa [fresh] using hi.unitsNodup) hi.unitsValid hi.unitsReserved
  rw [loadRecipes_spec, h1] at h2
  have hl : load dmax version w.db (fresh a' b') = loadPrototypes version w.db.protos
      (loadUnits w.db.units (loadPackages dmax w.db.pkgs
        (loadRecipes w.db.recipes (fresh a' b'))).1).1 := by
    rw [load, loadRecipes_spec, h1]
    simp only [h2]
  rw [hl, loadRecipes_spec, h1]
  simp only [h2]
  obtain ⟨p1, p2, p3, p4, p5, p6, p7, p8⟩ := loadPrototypes_spec version w.db.protos
    (Prod.fst (loadUnits w.db.units (loadPackages dmax w.db.pkgs
        (loadRecipes w.db.recipes (fresh a' b'))).1)) (by
      rw [loadRecipes_spec, h1]; simp only [h2]; simp [fresh])
  rw [loadRecipes_spec, h1] at p1 p2 p3 p4 p5 p6 p7 p8
  simp only [h2] at p1 p2 p3 p4 p5 p6 p7 p8
  constructor
  · intro hn
    obtain ⟨q1, q2, q3⟩ := p1 (by simpa [fresh] using hn)
    refine ⟨_, Prod.ext rfl q1, ?_, ?_, ?_, ?_, ?_, ?_, ?_, ?_⟩
    · rw [p3]; exact hi.recipes.symm
    · rw [p4]; simp only [fresh, List.nil_append]; exact hi.pkgs.symm
    · rw [p5]; simp only [fresh, List.nil_append]; exact hi.units.symm
    · rw [q2, ← hi.protos hn]
      simp [fresh]
    · rw [p6]; simp [fresh]
    · rw [p7]; simp [fresh]
    · rw [p8]; simp [fresh]
    · rw [q3]; simp [fresh]
  · intro hn
    exact p2 (by simpa [fresh] using hn)

/-- A case of `C94_load_partial`: recipes, packages, units and prototypes of different names. -/
example : Reserving true false [.recordUnpackaged, .addRecipe "fuel" 1, .addRecipe "fuel" 2,
      .addPackage ⟨"drum", 1, 2, "equal"⟩, .addUnit ⟨"truck", 1, 4, "hybrid"⟩,
      .addPrototype "r" ⟨1, ":a:A", "1"⟩ false, .addPrototype "s" ⟨2, ":a:A", "1"⟩ false] ∧
    ((runOps 10 [.recordUnpackaged, .addRecipe "fuel" 1, .addRecipe "fuel" 2,
      .addPackage ⟨"drum", 1, 2, "equal"⟩, .addUnit ⟨"truck", 1, 4, "hybrid"⟩,
      .addPrototype "r" ⟨1, ":a:A", "1"⟩ false, .addPrototype "s" ⟨2, ":a:A", "1"⟩ false]
      (fresh true false)).db.protos.map Prod.fst).Nodup := by
  refine ⟨⟨Or.inl rfl, Or.inr ?_⟩, by decide +kernel⟩
  intro u hu hm
  simp at hm
  rw [hm] at hu
  simp at hu

/-- C94 (faulty tables).  Loading packages or transport units succeeds only if the rows with other
than reserved names are valid and have different names that are not taken; it stops with an error
otherwise. -/
theorem C94_load_refuses (dmax : ℚ) (pkgs : List Pkg) (units : List TUnit) (w : World) :
    ((loadPackages dmax pkgs w).2 = .ok () ↔
      ((pkgs.filter fun p => p.name ≠ "unpackaged").map Pkg.name).Nodup ∧
      ∀ p ∈ pkgs, p.name ≠ "unpackaged" → ValidPkg p ∧ get w.pkgs p.name = none) ∧
    ((loadUnits units w).2 = .ok () ↔
      ((units.filter fun u => u.name ≠ "unrestricted").map TUnit.name).Nodup ∧
      ∀ u ∈ units, u.name ≠ "unrestricted" → ValidUnit u ∧ get w.units u.name = none) := by
  constructor
  · induction pkgs generalizing w with
    | nil => simp [loadPackages]
    | cons p ps ih =>
      by_cases hp : p.name = "unpackaged"
      · rw [loadPackages, if_neg (not_not.mpr hp), ih]
        have hf : (p :: ps).filter (fun p => p.name ≠ "unpackaged") =
          ps.filter fun p => p.name ≠ "unpackaged" := by simp [hp]
        rw [hf]
        simp [recordUnpackaged, hp]
      · have hf : (p :: ps).filter (fun p => p.name ≠ "unpackaged") =
          p :: ps.filter fun p => p.name ≠ "unpackaged" := by simp [hp]
        rw [hf, loadPackages, if_pos hp]
        have hv := createPkg_valid hp w.unpackaged
        rcases addPackage_cases w p with h | h | h
        · rw [h.2]
          simp only [reduceCtorEq, false_iff, not_and]
          intro _ hh
          exact h.1 (hh p (by simp) hp).2
        · rw [h.2.2]
          simp only [reduceCtorEq, false_iff, not_and]
          intro _ hh
          rw [hv.mpr (hh p (by simp) hp).1] at h
          exact absurd h.2.1 (by simp)
        · rw [h.2.2]
          simp only [ih, List.map_cons, List.nodup_cons, get_append]
          have hvp := hv.mp h.2.1
          constructor
          · rintro ⟨h1, h2⟩
            refine ⟨⟨fun hm => ?_, h1⟩, fun q hq hqn => ?_⟩
            · obtain ⟨q, hq, hqp⟩ := List.mem_map.mp hm
              rw [List.mem_filter] at hq
              have hqn : q.name ≠ "unpackaged" := by rw [hqp]; exact hp
              have := (h2 q hq.1 hqn).2
              rw [hqp, h.1] at this
              simp at this
            · rcases List.mem_cons.mp hq with rfl | hq
              · exact ⟨hvp, h.1⟩
              · refine ⟨(h2 q hq hqn).1, ?_⟩
                have := (h2 q hq hqn).2
                cases hg : get w.pkgs q.name with
                | none => rfl
                | some x => rw [hg] at this; simp at this
          · rintro ⟨⟨h1, h2⟩, h3⟩
            refine ⟨h2, fun q hq hqn => ?_⟩
            obtain ⟨v1, v2⟩ := h3 q (List.mem_cons_of_mem _ hq) hqn
            refine ⟨v1, ?_⟩
            rw [v2, if_neg]
            · rfl
            · intro hc
              refine h1 (List.mem_map.mpr ⟨q, ?_, hc.symm⟩)
              rw [List.mem_filter]
              exact ⟨hq, by simpa using hqn⟩
  · induction units generalizing w with
    | nil => simp [loadUnits]
    | cons p ps ih =>
      by_cases hp : p.name = "unrestricted"
      · rw [loadUnits, if_neg (not_not.mpr hp), ih]
        have hf : (p :: ps).filter (fun p => p.name ≠ "unrestricted") =
          ps.filter fun p => p.name ≠ "unrestricted" := by simp [hp]
        rw [hf]
        simp [recordUnrestricted, hp]
      · have hf : (p :: ps).filter (fun p => p.name ≠ "unrestricted") =
          p :: ps.filter fun p => p.name ≠ "unrestricted" := by simp [hp]
        rw [hf, loadUnits, if_pos hp]
        have hv := createUnit_valid hp w.unrestricted
        rcases addUnit_cases w p with h | h | h
        · rw [h.2]
          simp only [reduceCtorEq, false_iff, not_and]
          intro _ hh
          exact h.1 (hh p (by simp) hp).2
        · rw [h.2.2]
          simp only [reduceCtorEq, false_iff, not_and]
          intro _ hh
          rw [hv.mpr (hh p (by simp) hp).1] at h
          exact absurd h.2.1 (by simp)
        · rw [h.2.2]
          simp only [ih, List.map_cons, List.nodup_cons, get_append]
          have hvp := hv.mp h.2.1
          constructor
          · rintro ⟨h1, h2⟩
            refine ⟨⟨fun hm => ?_, h1⟩, fun q hq hqn => ?_⟩
            · obtain ⟨q, hq, hqp⟩ := List.mem_map.mp hm
              rw [List.mem_filter] at hq
              have hqn : q.name ≠ "unrestricted" := by rw [hqp]; exact hp
              have := (h2 q hq.1 hqn).2
              rw [hqp, h.1] at this
              simp at this
            · rcases List.mem_cons.mp hq with rfl | hq
              · exact ⟨hvp, h.1⟩
              · refine ⟨(h2 q hq hqn).1, ?_⟩
                have := (h2 q hq hqn).2
                cases hg : get w.units q.name with
                | none => rfl
                | some x => rw [hg] at this; simp at this
          · rintro ⟨⟨h1, h2⟩, h3⟩
            refine ⟨h2, fun q hq hqn => ?_⟩
            obtain ⟨v1, v2⟩ := h3 q (List.mem_cons_of_mem _ hq) hqn
            refine ⟨v1, ?_⟩
            rw [v2, if_neg]
            · rfl
            · intro hc
              refine h1 (List.mem_map.mpr ⟨q, ?_, hc.symm⟩)
              rw [List.mem_filter]
              exact ⟨hq, by simpa using hqn⟩

/-- A case of `C94_load_refuses`: two rows of one name. -/
example : ¬ (([⟨"drum", 1, 2, "equal"⟩, ⟨"drum", 0, 2, "first"⟩] : List Pkg).map Pkg.name).Nodup ∧
    (loadPackages 10 [⟨"drum", 1, 2, "equal"⟩, ⟨"drum", 0, 2, "first"⟩] (fresh true true)).2 =
      .error .key := by decide +kernel

/-- C94 (input file).  A package of the input file that is accepted is found under its name, with the
limits and the strategy given there, and with the documented default for what is absent; the same
holds for a transport unit whose limits are integers. -/
theorem C94_input (eps dmax : ℚ) (name strategy : Option String) (lo hi : Option ℚ) (l h : ℤ)
    (w : World) :
    ((xmlPackage eps dmax name lo hi strategy w).2 = .ok () → name ≠ some "unpackaged" →
      (getPackage dmax (xmlPackage eps dmax name lo hi strategy w).1 (name.getD "default")).2 =
        .ok ⟨name.getD "default", lo.getD eps, hi.getD dmax, strategy.getD "first"⟩) ∧
    (∀ r, xmlUnit eps dmax name (some l) (some h) strategy w = some r → r.2 = .ok () →
      name ≠ some "unrestricted" →
      (getUnit r.1 (name.getD "default")).2 =
        .ok ⟨name.getD "default", l, h, strategy.getD "first"⟩) := by
  constructor
  · intro hok hn
    have hn' : name.getD "default" ≠ "unpackaged" := by
      cases name with
      | none => simp
      | some n => simpa using hn
    unfold xmlPackage orElse at *
    rcases addPackage_cases w ⟨name.getD "default", lo.getD eps, hi.getD dmax,
      strategy.getD "first"⟩ with h | h | h
    · rw [h.2] at hok; exact absurd hok (by simp)
    · rw [h.2.2] at hok; exact absurd hok (by simp)
    · rw [h.2.2]
      unfold getPackage
      rw [if_neg hn', if_neg (by simp)]
      simp only [get_append]
      have := h.1
      simp only at this
      rw [this]
      simp
  · intro r hr hok hn
    have hn' : name.getD "default" ≠ "unrestricted" := by
      cases name with
      | none => simp
      | some n => simpa using hn
    have hint : ∀ i j : ℤ, toInt (orElse (some (i : ℚ)) dmax) = some j → j = i := by
      intro i j hij
      simp only [orElse, Option.getD_some, toInt, Int.floor_intCast, Int.ceil_intCast, ite_self]
        at hij
      split at hij
      · injection hij with hij; exact hij.symm
      · exact absurd hij (by simp)
    have hint' : ∀ i j : ℤ, toInt (orElse (some (i : ℚ)) eps) = some j → j = i := by
      intro i j hij
      exact hint i j hij
    unfold xmlUnit at hr
    cases h1 : toInt (orElse (some (l : ℚ)) eps) with
    | none => rw [h1] at hr; exact absurd hr (by simp)
    | some l' =>
      cases h2 : toInt (orElse (some (h : ℚ)) dmax) with
      | none => rw [h1, h2] at hr; exact absurd hr (by simp)
      | some h' =>
        rw [h1, h2] at hr
        simp only [Option.some.injEq] at hr
        rw [hint' l l' h1, hint h h' h2] at hr
        subst hr
        unfold orElse at *
        rcases addUnit_cases w ⟨name.getD "default", l, h, strategy.getD "first"⟩ with h | h | h
        · rw [h.2] at hok; exact absurd hok (by simp)
        · rw [h.2.2] at hok; exact absurd hok (by simp)
        · rw [h.2.2]
          unfold getUnit
          rw [if_neg hn', if_neg (by simp)]
          simp only [get_append]
          have := h.1
          simp only at this
          rw [this]
          simp

/-- A case of `C94_input`: a package without name and limits, and a unit. -/
example : (xmlPackage (1 / 1000000) 10 none none none none (fresh true true)).2 = .ok () ∧
    (xmlUnit (1 / 1000000) 10 (some "truck") (some (1 : ℤ)) (some (4 : ℤ)) none
      (fresh true true)).map (fun r => r.2) = some (.ok ()) := by decide +kernel

/-! ## Disagreements -/

/-- C94 fails: a database written while a prototype was overwritten cannot be loaded: `LoadPrototypes`
adds every row without permission to overwrite, and throws a `KeyError` at the second one. -/
theorem C94_fails_overwrite :
    let w := runOps 10 [.recordUnpackaged, .addPrototype "r" ⟨1, ":a:A", "1"⟩ false,
      .addPrototype "r" ⟨2, ":a:B", "1"⟩ true] (fresh true false)
    get w.protos "r" = some ⟨2, ":a:B", "1"⟩ ∧
    (load 10 (fun _ => "1") w.db (fresh true false)).2 = .error .key := by decide +kernel

/-- C94 fails: as long as the unlimited type has not been used, a type can be added under its name
without an error; it is recorded, but the name never leads to it, and it is lost on loading. -/
theorem C94_fails_reserved :
    (addUnit (fresh true false) ⟨"unrestricted", 2, 3, "first"⟩).2 = .ok () ∧
    (getUnit (addUnit (fresh true false) ⟨"unrestricted", 2, 3, "first"⟩).1 "unrestricted").2 ≠
      .ok ⟨"unrestricted", 2, 3, "first"⟩ ∧
    (load 10 (fun _ => "1") (addUnit (fresh true false) ⟨"unrestricted", 2, 3, "first"⟩).1.db
      (fresh true false)).1.units = [] := by decide +kernel

/-- C94 fails: the input file may leave out the upper limit of a transport unit, for which the loader
substitutes the largest double; its conversion to `int` is undefined, for every size of the largest
double beyond an `int`.  A package without a limit is accepted. -/
theorem C94_fails_default_limit (eps dmax : ℚ) (h0 : 0 ≤ eps) (h1 : 2 ^ 31 ≤ dmax) (h2 : eps ≤ dmax)
    (name : String) (lo : Option ℚ) (w : World) (hn : name ≠ "unpackaged")
    (hw : get w.pkgs name = none) :
    xmlUnit eps dmax (some name) lo none none w = none ∧
    (xmlPackage eps dmax (some name) none none none w).2 = .ok () := by
  constructor
  · unfold xmlUnit
    have : toInt (orElse none dmax) = none := by
      have hd : (0 : ℚ) ≤ dmax := le_trans (by norm_num) h1
      have hf : (2 : ℤ) ^ 31 ≤ ⌊dmax⌋ := by
        rw [Int.le_floor]; exact_mod_cast h1
      have ho : orElse none dmax = dmax := rfl
      rw [ho]
      simp only [toInt, hd, if_true]
      rw [if_neg]
      rintro ⟨_, h⟩
      unfold intMax at h
      omega
    cases toInt (orElse lo eps) with
    | none => rfl
    | some l => simp only [this]
  · unfold xmlPackage
    simp only [orElse, Option.getD_some, Option.getD_none]
    rcases addPackage_cases w ⟨name, eps, dmax, "first"⟩ with h | h | h
    · exact absurd hw h.1
    · rw [(createPkg_valid hn _).mpr ⟨h0, h2, by simp, by simp⟩] at h
      exact absurd h.2.1 (by simp)
    · rw [h.2.2]

/-- A case of `C94_fails_default_limit`. -/
example : (0 : ℚ) ≤ 1 / 1000000 ∧ (2 : ℚ) ^ 31 ≤ 2 ^ 1023 ∧ (1 / 1000000 : ℚ) ≤ 2 ^ 1023 ∧
    get (fresh true true).pkgs "drum" = none := by
  refine ⟨by norm_num, by decide +kernel, by decide +kernel, rfl⟩

end Cyclus.Registry
