import Verif.Spec.PyMain
import Mathlib.Data.List.TakeWhile
import Mathlib.Tactic.Convert

/-!
# Lemmas about running simulations from Python
-/

namespace Cyclus.PyMain

theorem perform_append (a b : List Step) :
    perform (a ++ b) = match (perform a).2 with
      | .error e => ((perform a).1, .error e)
      | .ok _ => ((perform a).1 ++ (perform b).1, (perform b).2) := by
  induction a with
  | nil => simp [perform]
  | cons x a ih =>
    obtain ⟨e, r⟩ := x
    cases r with
    | error x => simp [perform]
    | ok u =>
      simp only [List.cons_append, perform, ih]
      cases (perform a).2 <;> simp

/-- A computation does some steps, and its result has a property if none fails. -/
def Does {α : Type} (x : M α) (steps : List Step) (Q : α → Prop) : Prop :=
  x.1 = (perform steps).1 ∧
    ((∃ a, x.2 = .ok a ∧ (perform steps).2 = .ok () ∧ Q a) ∨ ∃ e, x.2 = .error e ∧ (perform steps).2 = .error e)

theorem Does.bind {α β : Type} {x : M α} {f : α → M β} {s t : List Step} {Q : α → Prop} {R : β → Prop}
    (h : Does x s Q) (hf : ∀ a, Q a → Does (f a) t R) : Does (andThen x f) (s ++ t) R := by
  obtain ⟨h1, h2⟩ := h
  unfold Does andThen
  rw [perform_append]
  rcases h2 with ⟨a, ha, hp, hq⟩ | ⟨e, ha, hp⟩
  · obtain ⟨g1, g2⟩ := hf a hq
    rw [ha, hp]
    refine ⟨?_, ?_⟩
    · simp [h1, g1]
    · exact g2
  · rw [ha, hp]
    exact ⟨h1, Or.inr ⟨e, rfl, rfl⟩⟩

theorem Does.mono {α : Type} {x : M α} {s : List Step} {Q R : α → Prop} (h : Does x s Q) (hi : ∀ a, Q a → R a) :
    Does x s R := by
  obtain ⟨h1, h2⟩ := h
  refine ⟨h1, ?_⟩
  rcases h2 with ⟨a, ha, hp, hq⟩ | h2
  · exact Or.inl ⟨a, ha, hp, hi a hq⟩
  · exact Or.inr h2

theorem does_ret {α : Type} {a : α} {Q : α → Prop} (h : Q a) : Does (ret a) [] Q :=
  ⟨rfl, Or.inl ⟨a, rfl, rfl, h⟩⟩

theorem andThen_ret {α β : Type} (a : α) (f : α → M β) : andThen (ret a) f = f a := by
  simp [andThen, ret]

theorem does_raise {α : Type} {e : Err} {Q : α → Prop} : Does (raise e : M α) [fails e] Q :=
  ⟨rfl, Or.inr ⟨e, rfl, rfl⟩⟩

theorem does_try {α : Type} {e : Ev} {r : Except Err α} {Q : α → Prop} (h : ∀ a, r = .ok a → Q a) :
    Does (try_ e r) [(e, forget r)] Q := by
  cases r with
  | error x => exact ⟨rfl, Or.inr ⟨x, rfl, rfl⟩⟩
  | ok a => exact ⟨rfl, Or.inl ⟨a, rfl, rfl, h a rfl⟩⟩

theorem forget_unit (r : Except Err Unit) : forget r = r := by cases r <;> rfl

theorem does_step {e : Ev} {r : Except Err Unit} : Does (try_ e r) [(e, r)] fun _ => True := by
  have := does_try (e := e) (r := r) (Q := fun _ => True) (fun _ _ => trivial)
  rwa [forget_unit] at this

/-- A failing first part is all that happens. -/
theorem Does.stop {α β : Type} {x : M α} {f : α → M β} {s : List Step} {Q : α → Prop} {R : β → Prop}
    (h : Does x s Q) (hf : ∀ a, x.2 ≠ .ok a) : Does (andThen x f) s R := by
  obtain ⟨h1, h2⟩ := h
  rcases h2 with ⟨a, ha, _⟩ | ⟨e, ha, hp⟩
  · exact absurd ha (hf a)
  · refine ⟨?_, Or.inr ⟨e, ?_, hp⟩⟩ <;> simp [andThen, ha, h1]

theorem Does.eq {x : M Unit} {s : List Step} {Q : Unit → Prop} (h : Does x s Q) : x = perform s := by
  obtain ⟨h1, h2⟩ := h
  rcases h2 with ⟨a, ha, hp, _⟩ | ⟨e, ha, hp⟩
  · exact Prod.ext h1 (ha.trans hp.symm)
  · exact Prod.ext h1 (ha.trans hp.symm)

/-! ## Paths -/

theorem takeWhile_append_stop {α : Type} (p : α → Bool) (a b : List α) (c : α) (ha : ∀ x ∈ a, p x = true) (hc : p c = false) :
    (a ++ c :: b).takeWhile p = a ∧ (a ++ c :: b).dropWhile p = c :: b := by
  induction a with
  | nil => simp [hc]
  | cons x a ih =>
    have hx := ha x (by simp)
    have := ih fun y hy => ha y (by simp [hy])
    simp [hx, this.1, this.2]

theorem takeWhile_all {α : Type} (p : α → Bool) (a : List α) (ha : ∀ x ∈ a, p x = true) :
    a.takeWhile p = a ∧ a.dropWhile p = [] := by
  induction a with
  | nil => simp
  | cons x a ih =>
    have := ih fun y hy => ha y (by simp [hy])
    simp [ha x (by simp), this.1, this.2]

/-- A path is cut at its last slash. -/
theorem cut (d b : Txt) (hb : '/' ∉ b) (hd : d = [] ∨ d.getLast? = some '/') : basename (d ++ b) = b ∧ before (d ++ b) = d := by
  unfold basename before
  have hb' : ∀ x ∈ b.reverse, (x != '/') = true := by
    intro x hx
    simp only [bne_iff_ne]
    rintro rfl
    exact hb (List.mem_reverse.mp hx)
  rcases hd with rfl | hd
  · have := takeWhile_all (· != '/') b.reverse hb'
    simp [this.1, this.2]
  · obtain ⟨d', rfl⟩ : ∃ d', d = d' ++ ['/'] := by
      have hne : d ≠ [] := by rintro rfl; simp at hd
      refine ⟨d.dropLast, ?_⟩
      have h1 := List.dropLast_append_getLast hne
      rw [List.getLast?_eq_some_getLast hne] at hd
      rw [← Option.some.inj hd]
      exact h1.symm
    have := takeWhile_append_stop (· != '/') b.reverse d'.reverse '/' hb' rfl
    simp only [List.append_assoc, List.reverse_append, List.reverse_cons, List.reverse_nil, List.nil_append,
      List.singleton_append]
    rw [this.1, this.2]
    simp

theorem parts (p : Txt) : p = before p ++ basename p ∧ '/' ∉ basename p ∧ (before p = [] ∨ (before p).getLast? = some '/') := by
  unfold basename before
  refine ⟨?_, ?_, ?_⟩
  · rw [← List.reverse_append, List.takeWhile_append_dropWhile, List.reverse_reverse]
  · intro h
    have := List.mem_takeWhile_imp (List.mem_reverse.mp h)
    simp at this
  · cases h : p.reverse.dropWhile (· != '/') with
    | nil => exact Or.inl rfl
    | cons c r =>
      right
      have hc : c = '/' := by
        have := List.head_dropWhile_not (· != '/') (l := p.reverse) (by rw [h]; simp)
        simp only [h, List.head_cons] at this
        simpa using this
      simp [hc]

theorem splitext_of_isExt {p e : Txt} (h : IsExt p e) : (splitext p).2 = e := by
  obtain ⟨d, b, x, rfl, rfl, hx, hxs, hb, hd, c, hc, hcd⟩ := h
  have hn : '/' ∉ b ++ '.' :: x := by
    simp only [List.mem_append, List.mem_cons, not_or]
    exact ⟨hb, by decide, hxs⟩
  have hcut := cut d (b ++ '.' :: x) hn hd
  unfold splitext
  rw [List.append_assoc, hcut.1, hcut.2]
  have hr : (b ++ '.' :: x).reverse = x.reverse ++ '.' :: b.reverse := by simp
  have := takeWhile_append_stop (· != '.') x.reverse b.reverse '.' (by
    intro y hy
    simp only [bne_iff_ne]
    rintro rfl
    exact hx (List.mem_reverse.mp hy)) rfl
  rw [hr, this.1, this.2]
  have ha : b.reverse.any (· != '.') = true := by
    rw [List.any_eq_true]
    exact ⟨c, List.mem_reverse.mpr hc, by simpa using hcd⟩
  simp [ha]

theorem isExt_of_splitext {p e : Txt} (h : (splitext p).2 = e) (he : e ≠ []) : IsExt p e := by
  obtain ⟨hp, hb, hd⟩ := parts p
  unfold splitext at h
  cases hc : (basename p).reverse.dropWhile (· != '.') with
  | nil => rw [hc] at h; exact absurd h.symm he
  | cons c stem =>
    rw [hc] at h
    have hdot : c = '.' := by
      have := List.head_dropWhile_not (· != '.') (l := (basename p).reverse) (by rw [hc]; simp)
      simp only [hc, List.head_cons] at this
      simpa using this
    have hsplit : basename p = stem.reverse ++ '.' :: ((basename p).reverse.takeWhile (· != '.')).reverse := by
      have := List.takeWhile_append_dropWhile (p := (· != '.')) (l := (basename p).reverse)
      rw [hc] at this
      have := congrArg List.reverse this
      rw [List.reverse_reverse] at this
      rw [hdot] at this
      refine this.symm.trans ?_
      simp
    dsimp only at h
    by_cases ha : stem.any (· != '.') = true
    · rw [if_pos ha] at h
      subst h
      rw [List.any_eq_true] at ha
      obtain ⟨y, hy, hyd⟩ := ha
      refine ⟨before p, stem.reverse, _, ?_, rfl, ?_, ?_, ?_, hd, y, List.mem_reverse.mpr hy, by simpa using hyd⟩
      · rw [List.append_assoc, ← hsplit]; exact hp
      · intro hm
        have := List.mem_takeWhile_imp (List.mem_reverse.mp hm)
        simp at this
      · intro hm
        exact hb (by rw [hsplit]; simp [List.mem_reverse.mp hm])
      · intro hm
        exact hb (by rw [hsplit]; simp [List.mem_reverse.mp hm])
    · rw [if_neg ha] at h
      exact absurd h.symm he

theorem splitext_iff {p e : Txt} (he : e ≠ []) : (splitext p).2 = e ↔ IsExt p e :=
  ⟨fun h => isExt_of_splitext h he, splitext_of_isExt⟩

/-! ## Loading -/

theorem getSchemaPath_eq (w : World) (flat : Bool) (o : Option Txt) : getSchemaPath w flat o = schemaOf w flat o := by
  cases flat <;> cases o <;> rfl

/-- The backends in memory that are registered. -/
def memList : Mem → List Mem
  | .none => []
  | m => [m]

theorem does_register (m : Mem) : Does (register m) ((memList m).map fun m => done (.memory m)) fun _ => True := by
  cases m with
  | none => exact does_ret trivial
  | flag b => exact does_step
  | given n => exact does_step
  | made r k p => exact does_step

theorem does_loadBackend (w : World) (s : SimState) (k : Kind) :
    Does (loadBackend w s k) ((.opened k s.output, w.opens k s.output) :: done .file ::
      (memList (memOf s k)).map fun m => done (.memory m)) fun s' => s' = { s with file := some (k, s.output), mem := memOf s k } := by
  have h1 := Does.bind (R := fun s' => s' = { s with file := some (k, s.output), mem := memOf s k })
    (does_step (e := .opened k s.output) (r := w.opens k s.output)) (fun _ _ =>
    Does.bind (does_step (e := .file) (r := .ok ())) (fun _ _ =>
      Does.bind (does_register (memOf s k)) (fun _ _ => does_ret rfl)))
  simpa [loadBackend, done] using h1

/-- The steps after the backends. -/
def tailSteps (w : World) (input : Option Txt) (format : Txt) (schema : Option Txt) (flat print : Bool) : List Step :=
  match input with
  | none => [fails .runtime]
  | some f => (.read f format, forget (w.parse f format)) ::
    match w.parse f format with
    | .error _ => []
    | .ok t =>
      let fl := flat || t == "flat".toList
      [(.load fl (schemaOf w fl schema) f format print, w.load fl (schemaOf w fl schema) f format print),
        (.init, w.init)]

/-- What is left of a state that was loaded. -/
def Loaded (w : World) (s : SimState) (k : Kind) (s' : SimState) : Prop :=
  ∃ f t, s.input = some f ∧ w.parse f (formatOf s.format) = .ok t ∧
    s' = { s with
      recd := true, si := true, file := some (k, s.output), mem := memOf s k
      flat := s.flat || t == "flat".toList, schema := some (schemaOf w (s.flat || t == "flat".toList) s.schema) }

theorem does_tail (w : World) (s : SimState) :
    Does (andThen (loadSchemaPath w s) fun s => andThen (loadInputFile w s) fun _ =>
      andThen (try_ .init w.init) fun _ => ret { s with si := true })
      (tailSteps w s.input (formatOf s.format) s.schema s.flat s.print)
      fun s' => ∃ f t, s.input = some f ∧ w.parse f (formatOf s.format) = .ok t ∧
        s' = { s with
          si := true, flat := s.flat || t == "flat".toList
          schema := some (schemaOf w (s.flat || t == "flat".toList) s.schema) } := by
  obtain ⟨input, format, output, mem, registry, schema, flat, print, recd, file, si⟩ := s
  cases input with
  | none => exact Does.stop (Q := fun _ => True) does_raise (by intro a h; cases h)
  | some f =>
    cases hp : w.parse f (formatOf format) with
    | error e =>
      simp only [loadSchemaPath, tailSteps, hp]
      refine Does.stop (Q := fun _ => True) ?_ ?_
      · exact Does.stop (Q := fun _ => True) (does_try fun _ _ => trivial) (by intro a h; cases h)
      · intro a h
        cases h
    | ok t =>
      simp only [loadSchemaPath, tailSteps, hp]
      have hfl : (if t = "flat".toList ∧ flat = false then true else flat) = (flat || t == "flat".toList) := by
        cases flat <;> by_cases ht : t = "flat".toList
        · simp [ht]
        · rw [if_neg fun h => ht h.1, Bool.false_or]
          exact (beq_eq_false_iff_ne.mpr ht).symm
        · simp
        · simp
      refine Does.bind (s := [_]) (t := [_, _]) (Q := fun s' => s' = ⟨some f, format, output, mem, registry,
        some (schemaOf w (flat || t == "flat".toList) schema), (flat || t == "flat".toList), print, recd, file, si⟩) ?_ ?_
      · refine Does.bind (s := [_]) (t := []) (Q := fun t' => t' = t) (does_try (by intro a h; cases h; rfl)) ?_
        rintro _ rfl
        refine does_ret ?_
        rw [hfl, getSchemaPath_eq]
      · rintro _ rfl
        simp only [loadInputFile]
        refine Does.bind (s := [_]) (t := [_]) (Q := fun _ => True) ?_ ?_
        · generalize (flat || t == "flat".toList) = fl
          cases fl <;> exact does_step
        · intro _ _
          refine Does.bind (s := [_]) (t := []) does_step ?_
          intro _ _
          exact does_ret ⟨f, t, rfl, hp, rfl⟩

theorem kindOf_hdf5 {p : Txt} (h : (splitext p).2 = ".h5".toList) : kindOf p = some .hdf5 := by
  unfold kindOf
  rw [if_pos ((splitext_iff (by simp)).mp h)]

theorem kindOf_sqlite {p : Txt} (h : (splitext p).2 = ".sqlite".toList) : kindOf p = some .sqlite := by
  have h1 := (splitext_iff (by simp)).mp h
  have h2 : ¬ IsExt p ".h5".toList := by
    intro hc
    have := splitext_of_isExt hc
    rw [h] at this
    exact absurd this (by decide)
  unfold kindOf
  rw [if_neg h2, if_pos h1]

theorem kindOf_none {p : Txt} (h1 : (splitext p).2 ≠ ".h5".toList) (h2 : (splitext p).2 ≠ ".sqlite".toList) : kindOf p = none := by
  unfold kindOf
  rw [if_neg fun h => h1 (splitext_of_isExt h), if_neg fun h => h2 (splitext_of_isExt h)]

theorem does_load (w : World) (s : SimState) :
    Does (load w s) (loadSteps w s.input (formatOf s.format) s.output (fun k => memList (memOf s k)) s.schema s.flat s.print)
      fun s' => ∃ k, kindOf s.output = some k ∧ Loaded w s k s' := by
  have key : ∀ k, kindOf s.output = some k →
      Does (andThen (loadBackend w { s with recd := true } k) fun s => andThen (loadSchemaPath w s) fun s =>
        andThen (loadInputFile w s) fun _ => andThen (try_ .init w.init) fun _ => ret { s with si := true })
      (loadSteps w s.input (formatOf s.format) s.output (fun k => memList (memOf s k)) s.schema s.flat s.print)
      fun s' => ∃ k, kindOf s.output = some k ∧ Loaded w s k s' := by
    intro k hk
    have hb := does_loadBackend w { s with recd := true } k
    have := Does.bind hb (R := fun s' => ∃ f t, s.input = some f ∧ w.parse f (formatOf s.format) = .ok t ∧
        s' = { s with
          recd := true, si := true, file := some (k, s.output), mem := memOf s k
          flat := s.flat || t == "flat".toList, schema := some (schemaOf w (s.flat || t == "flat".toList) s.schema) })
      (t := tailSteps w s.input (formatOf s.format) s.schema s.flat s.print) (f := fun s => andThen (loadSchemaPath w s) fun s =>
        andThen (loadInputFile w s) fun _ => andThen (try_ .init w.init) fun _ => ret { s with si := true }) (by
      rintro s' rfl
      exact does_tail w _)
    unfold loadSteps
    rw [hk]
    refine Does.mono this ?_
    rintro s' ⟨f, t, h1, h2, h3⟩
    exact ⟨k, rfl, f, t, h1, h2, h3⟩
  unfold load loadBackends
  dsimp only
  by_cases h1 : (splitext s.output).2 = ".h5".toList
  · rw [if_pos h1]
    exact key _ (kindOf_hdf5 h1)
  · rw [if_neg h1]
    by_cases h2 : (splitext s.output).2 = ".sqlite".toList
    · rw [if_pos h2]
      exact key _ (kindOf_sqlite h2)
    · rw [if_neg h2]
      unfold loadSteps
      rw [kindOf_none h1 h2]
      exact Does.stop (Q := fun _ => True) does_raise (by intro a h; cases h)

theorem does_run (w : World) (s : SimState) (h : s.si = true) : Does (run w s) [(.run, w.sim), done .flush] fun _ => True := by
  unfold run
  rw [if_pos h]
  exact Does.bind (s := [_]) (t := [_]) does_step fun _ _ => does_step

/-! ## Arguments -/

theorem lastOf_snoc {α : Type} (f : Item → Option α) (l : List Item) (i : Item) :
    lastOf f (l ++ [i]) = match f i with
      | some a => some a
      | none => lastOf f l := by
  unfold lastOf
  rw [List.filterMap_append]
  cases h : f i <;> simp [h]

/-- The namespace after some arguments, of which the last named input counts whether or not it is positional; options that
print may have fixed the path of the schema. -/
structure After (w : World) (prev : List Item) (ns : Ns) (seen extra : Bool) : Prop where
  out : ns.output = (lastOf outputOf prev).getD "cyclus.sqlite".toList
  fmt : ns.format = lastOf formatsOf prev
  flat : ns.flat = prev.contains .flat
  rng : ns.rng = prev.contains .rngPrint
  sch : ∀ fl : Bool, (prev.contains .flat = true → fl = true) → schemaOf w fl ns.schema = schemaOf w fl (lastOf pathOf prev)
  seen : seen = decide (0 < (prev.filterMap posOf).length)
  extra : extra = decide (1 < (prev.filterMap posOf).length)
  input : (prev.filterMap posOf).length ≤ 1 → ns.input = lastOf nameOf prev

theorem contains_snoc (l : List Item) (i j : Item) : (l ++ [i]).contains j = (l.contains j || j == i) := by
  rw [List.contains_eq_any_beq, List.contains_eq_any_beq, List.any_append]
  simp only [List.any_cons, List.any_nil, Bool.or_false]

theorem After.snoc {w : World} {prev : List Item} {ns ns' : Ns} {seen extra : Bool} {i : Item} (h : After w prev ns seen extra)
    (ho : ns'.output = (outputOf i).getD ns.output) (hf : ns'.format = (formatsOf i).or ns.format)
    (hl : ns'.flat = (ns.flat || Item.flat == i)) (hr : ns'.rng = (ns.rng || Item.rngPrint == i))
    (hs : ns'.schema = (pathOf i).or ns.schema ∨ (pathOf i = none ∧ ns'.schema = some (schemaOf w ns.flat ns.schema)))
    (hp : posOf i = none) (hi : ns'.input = (nameOf i).or ns.input) : After w (prev ++ [i]) ns' seen extra := by
  have hpos : (prev ++ [i]).filterMap posOf = prev.filterMap posOf := by simp [List.filterMap_append, hp]
  constructor
  · rw [ho, lastOf_snoc, h.out]; cases outputOf i <;> rfl
  · rw [hf, lastOf_snoc, h.fmt]; cases formatsOf i <;> rfl
  · rw [hl, contains_snoc, h.flat]
  · rw [hr, contains_snoc, h.rng]
  · intro fl hfl
    rw [contains_snoc] at hfl
    have hold := h.sch fl (fun hc => hfl (by rw [hc]; rfl))
    rw [lastOf_snoc]
    rcases hs with hs | ⟨hn, hs⟩
    · rw [hs]
      cases pathOf i with
      | none => exact hold
      | some p => rfl
    · rw [hs, hn]
      dsimp only
      rw [← hold]
      cases fl with
      | true => rfl
      | false =>
        have : ns.flat = false := by
          rw [h.flat]
          cases hc : prev.contains .flat with
          | false => rfl
          | true => exact absurd (hfl (by rw [hc]; rfl)) (by simp)
        rw [this]
        rfl
  · rw [hpos]; exact h.seen
  · rw [hpos]; exact h.extra
  · rw [hpos]
    intro hle
    rw [hi, lastOf_snoc, h.input hle]
    cases nameOf i <;> rfl

theorem shownPath {w : World} {prev : List Item} {ns : Ns} {seen extra : Bool} (h : After w prev ns seen extra) :
    getSchemaPath w ns.flat ns.schema = schemaOf w (prev.contains .flat) (lastOf pathOf prev) := by
  rw [getSchemaPath_eq, h.flat]
  exact h.sch _ id

theorem path_twice (w : World) (ns : Ns) :
    getSchemaPath w (setSchemaPath w ns).flat (setSchemaPath w ns).schema = getSchemaPath w ns.flat ns.schema := by
  unfold setSchemaPath getSchemaPath
  cases ns.flat <;> cases ns.schema <;> rfl

theorem does_act {w : World} {prev : List Item} {ns : Ns} {seen extra : Bool} (h : After w prev ns seen extra) (i : Item)
    (hp : posOf i = none) : Does (act w ns i) (shown w prev i) fun ns' => After w (prev ++ [i]) ns' seen extra := by
  have hset : ∀ i, posOf i = none → pathOf i = none → outputOf i = none → formatsOf i = none → nameOf i = none →
      (Item.flat == i) = false → (Item.rngPrint == i) = false → After w (prev ++ [i]) (setSchemaPath w ns) seen extra := by
    intro i h1 h2 h3 h4 h5 h6 h7
    refine h.snoc ?_ ?_ ?_ ?_ (Or.inr ⟨h2, ?_⟩) h1 ?_
    · rw [h3]; rfl
    · rw [h4]; rfl
    · rw [h6, Bool.or_false]; rfl
    · rw [h7, Bool.or_false]; rfl
    · rw [← getSchemaPath_eq]; rfl
    · rw [h5]; rfl
  cases i with
  | pos s => exact absurd hp (by simp [posOf])
  | inputFile s => exact does_ret (h.snoc rfl rfl (by simp) (by simp) (Or.inl rfl) rfl rfl)
  | output s => exact does_ret (h.snoc rfl rfl (by simp) (by simp) (Or.inl rfl) rfl rfl)
  | format s => exact does_ret (h.snoc rfl rfl (by simp) (by simp) (Or.inl rfl) rfl rfl)
  | schemaPath s => exact does_ret (h.snoc rfl rfl (by simp) (by simp) (Or.inl rfl) rfl rfl)
  | flat => exact does_ret (h.snoc rfl rfl (by simp) (by simp) (Or.inl rfl) rfl rfl)
  | rngPrint => exact does_ret (h.snoc rfl rfl (by simp) (by simp) (Or.inl rfl) rfl rfl)
  | restart s => exact does_raise
  | info n =>
    exact Does.bind (s := [_]) (t := []) does_step fun _ _ =>
      does_ret (h.snoc rfl rfl (by simp) (by simp) (Or.inl rfl) rfl rfl)
  | schema =>
    simp only [act, shown]
    rw [path_twice, shownPath h]
    cases ht : w.text (schemaOf w (prev.contains .flat) (lastOf pathOf prev)) with
    | error e =>
      exact Does.stop (Q := fun _ => True) (does_try (r := Except.error e) fun _ _ => trivial) (by intro a h; cases h)
    | ok t =>
      refine Does.bind (s := [_]) (t := [_]) (Q := fun t' => t' = t) (does_try (r := Except.ok t) (by intro a h; cases h; rfl)) ?_
      rintro _ rfl
      exact Does.bind (s := [_]) (t := []) does_step fun _ _ => does_ret (hset _ rfl rfl rfl rfl rfl rfl rfl)
  | rngSchema =>
    simp only [act, shown]
    rw [path_twice, shownPath h]
    exact Does.bind (s := [_]) (t := []) does_step fun _ _ => does_ret (hset _ rfl rfl rfl rfl rfl rfl rfl)

theorem After.pos_first {w : World} {prev : List Item} {ns : Ns} {extra : Bool} (h : After w prev ns false extra) (s : Txt) :
    After w (prev ++ [.pos s]) { ns with input := some s } true extra := by
  have h0 : (prev.filterMap posOf).length = 0 := by
    have := h.seen
    by_contra hc
    rw [decide_eq_true (Nat.pos_of_ne_zero hc)] at this
    cases this
  have hpos : ((prev ++ [Item.pos s]).filterMap posOf).length = 1 := by simp [List.filterMap_append, posOf, h0]
  constructor
  · rw [lastOf_snoc]; exact h.out
  · rw [lastOf_snoc]; exact h.fmt
  · rw [contains_snoc, h.flat]; exact (Bool.or_false _).symm
  · rw [contains_snoc, h.rng]; exact (Bool.or_false _).symm
  · intro fl hfl
    rw [lastOf_snoc]
    exact h.sch fl fun hc => hfl (by rw [contains_snoc, hc]; rfl)
  · rw [hpos]; rfl
  · rw [hpos, h.extra, h0]; rfl
  · intro _
    rw [lastOf_snoc]
    rfl

theorem After.pos_more {w : World} {prev : List Item} {ns : Ns} {extra : Bool} (h : After w prev ns true extra) (s : Txt) :
    After w (prev ++ [.pos s]) ns true true := by
  have h0 : 0 < (prev.filterMap posOf).length := of_decide_eq_true h.seen.symm
  have hpos : ((prev ++ [Item.pos s]).filterMap posOf).length = (prev.filterMap posOf).length + 1 := by
    simp [List.filterMap_append, posOf]
  constructor
  · rw [lastOf_snoc]; exact h.out
  · rw [lastOf_snoc]; exact h.fmt
  · rw [contains_snoc, h.flat]; exact (Bool.or_false _).symm
  · rw [contains_snoc, h.rng]; exact (Bool.or_false _).symm
  · intro fl hfl
    rw [lastOf_snoc]
    exact h.sch fl fun hc => hfl (by rw [contains_snoc, hc]; rfl)
  · rw [hpos]; simp
  · rw [hpos]; simp [h0]
  · rw [hpos]
    intro hle
    omega

theorem does_parseLoop {w : World} (items : List Item) : ∀ {prev : List Item} {ns : Ns} {seen extra : Bool},
    After w prev ns seen extra → Does (parseLoop w ns seen extra items) (shownAll w prev items)
      fun x => After w (prev ++ items) x.1 x.2.1 x.2.2 := by
  induction items with
  | nil =>
    intro prev ns seen extra h
    refine does_ret ?_
    rw [List.append_nil]
    exact h
  | cons i r ih =>
    intro prev ns seen extra h
    have hcons : prev ++ i :: r = prev ++ [i] ++ r := by simp
    rw [hcons]
    have other : posOf i = none → Does (andThen (act w ns i) fun ns => parseLoop w ns seen extra r) (shownAll w prev (i :: r))
        fun x => After w (prev ++ [i] ++ r) x.1 x.2.1 x.2.2 :=
      fun hp => Does.bind (does_act h i hp) fun ns' hn => ih hn
    cases i with
    | pos s =>
      cases seen with
      | false => exact ih (h.pos_first s)
      | true => exact ih (h.pos_more s)
    | inputFile s => exact other rfl
    | output s => exact other rfl
    | format s => exact other rfl
    | schemaPath s => exact other rfl
    | flat => exact other rfl
    | rngPrint => exact other rfl
    | schema => exact other rfl
    | rngSchema => exact other rfl
    | restart s => exact other rfl
    | info n => exact other rfl

theorem after_nil (w : World) : After w [] {} false false :=
  ⟨rfl, rfl, rfl, rfl, fun _ _ => rfl, rfl, rfl, fun _ => rfl⟩

/-- A namespace stands for the arguments. -/
structure Stands (w : World) (items : List Item) (ns : Ns) : Prop where
  out : ns.output = (lastOf outputOf items).getD "cyclus.sqlite".toList
  fmt : ns.format = lastOf formatsOf items
  flat : ns.flat = items.contains .flat
  rng : ns.rng = items.contains .rngPrint
  sch : ∀ fl : Bool, (items.contains .flat = true → fl = true) → schemaOf w fl ns.schema = schemaOf w fl (lastOf pathOf items)
  input : ns.input = inputOf items

theorem does_job {w : World} {items : List Item} {ns : Ns} (h : Stands w items ns) (print : Bool) :
    Does (load w ⟨ns.input, ns.format, ns.output, .flag false, 0, ns.schema, ns.flat, print, false, none, false⟩)
      (loadSteps w (inputOf items) ((lastOf formatsOf items).getD "none".toList) ((lastOf outputOf items).getD "cyclus.sqlite".toList)
        (fun _ => []) (lastOf pathOf items) (items.contains .flat) print) fun s => s.si = true := by
  have := does_load w ⟨ns.input, ns.format, ns.output, .flag false, 0, ns.schema, ns.flat, print, false, none, false⟩
  refine Does.mono (Q := fun s' => ∃ k, kindOf ns.output = some k ∧ Loaded w ⟨ns.input, ns.format, ns.output, .flag false, 0, ns.schema, ns.flat, print, false, none, false⟩ k s') ?_ ?_
  · convert this using 1
    unfold loadSteps
    dsimp only
    rw [h.out, h.input, h.flat, formatOf, h.fmt]
    cases kindOf ((lastOf outputOf items).getD "cyclus.sqlite".toList) with
    | none => rfl
    | some k =>
      dsimp only
      cases inputOf items with
      | none => rfl
      | some f =>
        dsimp only
        cases w.parse f ((lastOf formatsOf items).getD "none".toList) with
        | error e => rfl
        | ok t =>
          dsimp only
          rw [h.sch _ (by intro hc; rw [hc]; rfl)]
          rfl
  · rintro s' ⟨k, _, f, t, _, _, rfl⟩
    rfl

theorem main_eq (w : World) (items : List Item) : main w items = perform (mainSteps w items) := by
  have hl := does_parseLoop (w := w) items (after_nil w)
  rw [List.nil_append] at hl
  unfold main mainSteps parseArgs
  dsimp only
  have hassoc : ∀ {α β γ : Type} (x : M α) (f : α → M β) (g : β → M γ),
      andThen (andThen x f) g = andThen x fun a => andThen (f a) g := by
    intro α β γ x f g
    unfold andThen
    cases x.2 with
    | error e => rfl
    | ok a =>
      dsimp only
      cases (f a).2 with
      | error e => rfl
      | ok b => simp
  rw [hassoc]
  refine Does.eq (Q := fun _ => True) (Does.bind hl ?_)
  rintro ⟨ns, seen, extra⟩ h
  dsimp only at h ⊢
  by_cases hx : 1 < (items.filterMap posOf).length
  · rw [if_pos (by rw [h.extra]; simpa using hx), if_pos hx]
    exact Does.stop (Q := fun _ => True) does_raise (by intro a h; cases h)
  · have hne : extra = false := by rw [h.extra]; simpa using hx
    rw [if_neg (by rw [hne]; simp), if_neg hx]
    have hst : Stands w items (if seen = true then ns else { ns with input := none }) := by
      have hin := h.input (by omega)
      cases hs : seen with
      | true =>
        rw [if_pos rfl]
        refine ⟨h.out, h.fmt, h.flat, h.rng, h.sch, ?_⟩
        rw [hin]
        have : 0 < (items.filterMap posOf).length := of_decide_eq_true (h.seen ▸ hs)
        unfold inputOf
        cases hc : items.filterMap posOf with
        | nil => rw [hc] at this; simp at this
        | cons a b => rfl
      | false =>
        rw [if_neg (by simp)]
        refine ⟨h.out, h.fmt, h.flat, h.rng, h.sch, ?_⟩
        have : ¬ 0 < (items.filterMap posOf).length := of_decide_eq_false (h.seen ▸ hs)
        unfold inputOf
        cases hc : items.filterMap posOf with
        | nil => rfl
        | cons a b => rw [hc] at this; simp at this
    generalize (if seen = true then ns else { ns with input := none }) = n at hst
    rw [andThen_ret, hst.rng]
    by_cases hr : items.contains .rngPrint = true
    · rw [if_pos hr, if_pos hr]
      unfold printMainSchema create
      dsimp only
      rw [andThen_ret]
      have := Does.bind (does_job hst true) (t := []) (f := fun _ => ret ()) (R := fun _ => True) fun _ _ => does_ret trivial
      rwa [List.append_nil] at this
    · rw [if_neg hr, if_neg hr, hst.input]
      cases hi : inputOf items with
      | none => exact does_ret trivial
      | some f =>
        dsimp only
        unfold runSimulation create
        dsimp only
        rw [andThen_ret]
        rw [← hi]
        refine Does.bind (does_job hst false) fun s hs => ?_
        refine Does.bind (s := [_, _]) (t := [_]) (does_run w s hs) fun _ _ => ?_
        rw [hst.out]
        exact does_step

end Cyclus.PyMain
