import Verif.Lemmas.PyMain
import Mathlib.Logic.Function.Iterate

/-!
# C134: running simulations from Python does what the arguments say

For all arguments of the command line, in every order and number, and all behaviour of the other parts, exactly the steps
happen that the arguments ask for, in order, up to the first that fails (`C134_main`, `C134_load`); success is announced only
after all of them (`C134_success`); options that print do not change what is run (`C134_display`); without a path the output is
an HDF5 file named after the input (`C134_default_partial`); closing of libraries is registered once (`C134_once`).

The code violates the intent: `--input-file` has no effect (`C134_fails_input`), inputs whose name has only dots have no default output (`C134_fails_default`),
other extensions are refused although the program in C++ takes them for SQLite (`C134_fails_extension`), the output
is made before it is known whether there is an input (`C134_fails_created`), what options print depends on later options (`C134_fails_order`), a state
loaded again keeps falling back on the old file (`C134_fails_reload`), and a state that was never loaded fails when it is deleted
(`C134_fails_del`).
-/

namespace Cyclus.PyMain

/-- **C134** for the command line: exactly the steps that the arguments ask for happen, up to the first that fails. -/
theorem C134_main (w : World) (items : List Item) : main w items = perform (mainSteps w items) := main_eq w items

/-- Everything works, and input files are of the type given. -/
def fine (t : Txt) : World where
  std := fun b => if b then "/flat.rng".toList else "/std.rng".toList
  opens := fun _ _ => .ok ()
  parse := fun _ _ => .ok t
  load := fun _ _ _ _ _ => .ok ()
  init := .ok ()
  sim := .ok ()
  text := fun _ => .ok "<grammar/>".toList
  info := fun _ => .ok ()

example : main (fine "flat".toList) [.rngSchema, .output "a.h5".toList, .info 3, .schemaPath "/my.rng".toList, .pos "in.xml".toList, .output "b.h5".toList] =
    ([.say "/std.rng".toList, .info 3, .opened .hdf5 "b.h5".toList, .file, .read "in.xml".toList "none".toList,
      .load true "/flat.rng".toList "in.xml".toList "none".toList false, .init, .run, .flush, .success "b.h5".toList], .ok ()) := by
  decide +kernel

/-- **C134** for `SimState.load`: what happens, and what the state is afterwards. -/
theorem C134_load (w : World) (s : SimState) :
    (load w s).1 = (perform (loadSteps w s.input (formatOf s.format) s.output (fun k => memList (memOf s k)) s.schema s.flat s.print)).1 ∧
    (∀ e, (load w s).2 = .error e ↔ (perform (loadSteps w s.input (formatOf s.format) s.output (fun k => memList (memOf s k))
      s.schema s.flat s.print)).2 = .error e) ∧
    ∀ s', (load w s).2 = .ok s' → ∃ k f t, kindOf s.output = some k ∧ s.input = some f ∧ w.parse f (s.format.getD "none".toList) = .ok t ∧
      s'.si = true ∧ s'.recd = true ∧ s'.file = some (k, s.output) ∧ s'.mem = memOf s k ∧
      (s'.flat = true ↔ s.flat = true ∨ t = "flat".toList) ∧ s'.schema = some (schemaOf w s'.flat s.schema) ∧
      s'.input = s.input ∧ s'.format = s.format ∧ s'.output = s.output := by
  obtain ⟨h1, h2⟩ := does_load w s
  refine ⟨h1, ?_, ?_⟩
  · intro e
    rcases h2 with ⟨a, ha, hp, _⟩ | ⟨x, ha, hp⟩
    · rw [ha, hp]
      exact ⟨fun h => (nomatch h), fun h => (nomatch h)⟩
    · rw [ha, hp]
      exact ⟨fun h => by cases h; rfl, fun h => by cases h; rfl⟩
  · intro s' hs'
    rcases h2 with ⟨a, ha, _, k, hk, f, t, hf, ht, rfl⟩ | ⟨x, ha, _⟩
    · rw [ha] at hs'
      cases hs'
      refine ⟨k, f, t, hk, hf, ht, rfl, rfl, rfl, rfl, ?_, rfl, rfl, rfl, rfl⟩
      simp
    · rw [ha] at hs'
      cases hs'

example : (load (fine []) ⟨some "a.xml".toList, none, "a.h5".toList, .flag true, 7, none, false, false, false, none, false⟩) =
    ([.opened .hdf5 "a.h5".toList, .file, .memory (.made 7 .hdf5 "a.h5".toList), .read "a.xml".toList "none".toList,
      .load false "/std.rng".toList "a.xml".toList "none".toList false, .init],
      .ok ⟨some "a.xml".toList, none, "a.h5".toList, .made 7 .hdf5 "a.h5".toList, 7, some "/std.rng".toList, false, false, true,
        some (.hdf5, "a.h5".toList), true⟩) := by decide +kernel

/-- The backends in memory: none is registered unless it is asked for; the user's own is taken as it is; one that is made
falls back on the file that was just opened. -/
theorem C134_memory (s : SimState) (k : Kind) :
    (s.mem = .none ∨ s.mem = .flag false → memList (memOf s k) = []) ∧
    (∀ n, s.mem = .given n → memList (memOf s k) = [.given n]) ∧
    (s.mem = .flag true → memList (memOf s k) = [.made s.registry k s.output]) := by
  refine ⟨?_, ?_, ?_⟩
  · rintro (h | h) <;> simp [memOf, h, memList]
  · intro n h
    simp [memOf, h, memList]
  · intro h
    simp [memOf, h, memList]

/-- The extension of a path is what the library calls so. -/
theorem C134_extension (p e : Txt) (he : e ≠ []) : (splitext p).2 = e ↔ IsExt p e := splitext_iff he

example : IsExt "runs.1/.a.b.h5".toList ".h5".toList ∧ ¬ IsExt "runs/...h5".toList ".h5".toList ∧ ¬ IsExt "a.h5/b".toList ".h5".toList :=
  ⟨(splitext_iff (by simp)).mp (by decide +kernel), fun h => absurd (splitext_of_isExt h) (by decide +kernel),
    fun h => absurd (splitext_of_isExt h) (by decide +kernel)⟩

theorem perform_prefix (l : List Step) : (perform l).1 <+: l.map Prod.fst := by
  induction l with
  | nil => exact List.prefix_refl _
  | cons x l ih =>
    obtain ⟨e, r⟩ := x
    cases r with
    | error x => exact ⟨l.map Prod.fst, rfl⟩
    | ok u =>
      obtain ⟨t, ht⟩ := ih
      exact ⟨t, by simp [perform, ht]⟩

theorem perform_ok {l : List Step} (h : (perform l).2 = .ok ()) : (perform l).1 = l.map Prod.fst ∧ ∀ x ∈ l, x.2 = .ok () := by
  induction l with
  | nil => simp [perform]
  | cons x l ih =>
    obtain ⟨e, r⟩ := x
    cases r with
    | error x => cases h
    | ok u =>
      obtain ⟨h1, h2⟩ := ih h
      refine ⟨by simp [perform, h1], ?_⟩
      intro y hy
      rcases List.mem_cons.mp hy with rfl | hy
      · rfl
      · exact h2 y hy

/-- An event that only the last step has, and that was reached: all steps were done. -/
theorem perform_last {l : List Step} {e : Ev} (hl : e ∉ l.map Prod.fst) (h : e ∈ (perform (l ++ [done e])).1) :
    perform (l ++ [done e]) = (l.map Prod.fst ++ [e], .ok ()) ∧ ∀ x ∈ l, x.2 = .ok () := by
  rw [perform_append] at h ⊢
  cases hp : (perform l).2 with
  | error x =>
    rw [hp] at h
    exact absurd ((perform_prefix l).subset h) hl
  | ok u =>
    obtain ⟨h1, h2⟩ := perform_ok hp
    refine ⟨?_, h2⟩
    simp [perform, done, h1]

theorem success_shown (w : World) (p : Txt) (items : List Item) : ∀ prev, Ev.success p ∉ (shownAll w prev items).map Prod.fst := by
  induction items with
  | nil => intro prev h; simp [shownAll] at h
  | cons i r ih =>
    intro prev h
    rw [shownAll, List.map_append, List.mem_append] at h
    rcases h with h | h
    · cases i with
      | schema =>
        simp only [shown] at h
        cases ht : w.text (schemaOf w (prev.contains .flat) (lastOf pathOf prev)) <;> rw [ht] at h <;> simp [done] at h
      | pos s => simp [shown] at h
      | inputFile s => simp [shown] at h
      | output s => simp [shown] at h
      | format s => simp [shown] at h
      | schemaPath s => simp [shown] at h
      | flat => simp [shown] at h
      | rngPrint => simp [shown] at h
      | rngSchema => simp [shown, done] at h
      | restart s => simp [shown, fails] at h
      | info n => simp [shown] at h
    · exact ih _ h

theorem success_load (w : World) (p : Txt) (input : Option Txt) (format output : Txt) (schema : Option Txt) (flat print : Bool) :
    Ev.success p ∉ (loadSteps w input format output (fun _ => []) schema flat print).map Prod.fst := by
  unfold loadSteps
  cases kindOf output with
  | none => simp [fails]
  | some k =>
    cases input with
    | none => simp [fails, done]
    | some f =>
      dsimp only
      cases ht : w.parse f format <;> simp [done]

/-- **C134**: success is announced only if there was one input, and it was read, loaded, initialised and run, and everything was flushed to the
output that is named, in this order, after all options were acted on. -/
theorem C134_success (w : World) (items : List Item) (p : Txt) (h : .success p ∈ (main w items).1) :
    ∃ k f t, p = (lastOf outputOf items).getD "cyclus.sqlite".toList ∧ kindOf p = some k ∧ inputOf items = some f ∧
      (items.filterMap posOf).length = 1 ∧ items.contains .rngPrint = false ∧
      w.parse f ((lastOf formatsOf items).getD "none".toList) = .ok t ∧ w.opens k p = .ok () ∧
      (let fl := items.contains .flat || t == "flat".toList
       let g := (lastOf formatsOf items).getD "none".toList
       let sch := schemaOf w fl (lastOf pathOf items)
       w.load fl sch f g false = .ok () ∧ w.init = .ok () ∧ w.sim = .ok () ∧
       main w items = ((shownAll w [] items).map Prod.fst ++ [.opened k p, .file, .read f g, .load fl sch f g false, .init, .run, .flush,
        .success p], .ok ())) := by
  rw [C134_main] at h ⊢
  have hm : ∀ x, Ev.success p ∉ x.map Prod.fst → Ev.success p ∉ (perform x).1 := fun x hx hc => hx ((perform_prefix x).subset hc)
  unfold mainSteps at h ⊢
  dsimp only at h ⊢
  by_cases hx : 1 < (items.filterMap posOf).length
  · rw [if_pos hx] at h
    exact absurd h (hm _ (by 
      rw [List.map_append, List.mem_append]
      rintro (hc | hc)
      · exact success_shown w p items [] hc
      · simp [fails] at hc))
  · rw [if_neg hx] at h ⊢
    by_cases hr : items.contains .rngPrint = true
    · rw [if_pos hr] at h
      refine absurd h (hm _ ?_)
      rw [List.map_append, List.mem_append]
      rintro (hc | hc)
      · exact success_shown w p items [] hc
      · exact success_load w p _ _ _ _ _ _ hc
    · rw [if_neg hr] at h ⊢
      cases hi : inputOf items with
      | none =>
        rw [hi] at h
        simp only [List.append_nil] at h
        exact absurd h (hm _ (success_shown w p items []))
      | some f =>
        rw [hi] at h
        dsimp only at h
        generalize hout : (lastOf outputOf items).getD "cyclus.sqlite".toList = out at h ⊢
        generalize hfmt : (lastOf formatsOf items).getD "none".toList = g at h ⊢
        have hpos : (items.filterMap posOf).length = 1 := by
          unfold inputOf at hi
          cases hc : items.filterMap posOf with
          | nil => rw [hc] at hi; cases hi
          | cons a b => rw [hc] at hx; simp at hx ⊢; omega
        have hassoc : ∀ J : List Step, shownAll w [] items ++ (J ++ [(Ev.run, w.sim), done Ev.flush, done (Ev.success out)]) =
            (shownAll w [] items ++ (J ++ [(Ev.run, w.sim), done Ev.flush])) ++ [done (Ev.success out)] := by
          intro J; simp
        have hnot : ∀ q, Ev.success q ∉ (shownAll w [] items ++ (loadSteps w (some f) g out (fun _ => []) (lastOf pathOf items)
            (items.contains .flat) false ++ [(Ev.run, w.sim), done Ev.flush])).map Prod.fst := by
          intro q
          rw [List.map_append, List.map_append]
          simp only [List.mem_append, not_or]
          exact ⟨success_shown w q items [], success_load w q _ _ _ _ _ _, by simp [done]⟩
        rw [hassoc] at h
        have hp : p = out := by
          have := (perform_prefix _).subset h
          rw [List.map_append, List.mem_append] at this
          rcases this with hc | hc
          · exact absurd hc (hnot p)
          · simpa [done] using hc
        subst hp
        obtain ⟨he, ha⟩ := perform_last (hnot p) h
        cases hk : kindOf p with
        | none =>
          exfalso
          have := ha (fails .runtime) (by simp [loadSteps, hk])
          cases this
        | some k =>
          cases ht : w.parse f g with
          | error e =>
            exfalso
            have := ha (.read f g, forget (w.parse f g)) (by simp [loadSteps, hk])
            rw [ht] at this
            cases this
          | ok t =>
            refine ⟨k, f, t, rfl, rfl, rfl, hpos, by simpa using hr, ht, ?_, ?_, ?_, ?_, ?_⟩
            · exact ha (.opened k p, w.opens k p) (by simp [loadSteps, hk])
            · exact ha (_, w.load (items.contains .flat || t == "flat".toList)
                (schemaOf w (items.contains .flat || t == "flat".toList) (lastOf pathOf items)) f g false) (by
                  unfold loadSteps
                  rw [hk]
                  dsimp only
                  rw [ht]
                  exact List.mem_append_right _ (List.mem_append_left _ (List.mem_append_right _ (List.mem_cons_of_mem _ List.mem_cons_self))))
            · exact ha (.init, w.init) (by
                  unfold loadSteps
                  rw [hk]
                  dsimp only
                  rw [ht]
                  exact List.mem_append_right _ (List.mem_append_left _ (List.mem_append_right _
                    (List.mem_cons_of_mem _ (List.mem_cons_of_mem _ List.mem_cons_self)))))
            · exact ha (.run, w.sim) (by simp)
            · dsimp only
              rw [hassoc, he]
              unfold loadSteps
              rw [hk]
              dsimp only
              rw [ht]
              simp [done]

example : Ev.success "cyclus.sqlite".toList ∈ (main (fine []) [.pos "in.xml".toList]).1 := by decide +kernel

/-- The options that only print or set something when they are met. -/
def Item.shows : Item → Bool
  | .schema | .rngSchema | .restart _ | .info _ => true
  | _ => false

theorem lastOf_plain {α : Type} (f : Item → Option α) (items : List Item) (h : ∀ i, i.shows = true → f i = none) :
    (items.filter fun i => !i.shows).filterMap f = items.filterMap f := by
  induction items with
  | nil => rfl
  | cons i r ih =>
    cases hi : i.shows with
    | true => simp [hi, h i hi, ih]
    | false =>
      simp only [List.filter_cons, hi, Bool.not_false, if_true, List.filterMap_cons, ih]

theorem shown_plain (w : World) (items : List Item) : ∀ prev, shownAll w prev (items.filter fun i => !i.shows) = [] := by
  induction items with
  | nil => intro _; rfl
  | cons i r ih =>
    intro prev
    cases hi : i.shows with
    | true =>
      rw [List.filter_cons_of_neg (by simp [hi])]
      exact ih prev
    | false =>
      rw [List.filter_cons_of_pos (by simp [hi]), shownAll, ih, List.append_nil]
      cases i <;> first | rfl | cases hi

theorem contains_plain (items : List Item) (j : Item) (h : j.shows = false) :
    (items.filter fun i => !i.shows).contains j = items.contains j := by
  rw [Bool.eq_iff_iff, List.contains_iff_mem, List.contains_iff_mem, List.mem_filter]
  simp [h]

/-- **C134**: if the options that print something succeed, then the simulation is the one without them. -/
theorem C134_display (w : World) (items : List Item) (h : (perform (shownAll w [] items)).2 = .ok ()) :
    main w items = ((shownAll w [] items).map Prod.fst ++ (main w (items.filter fun i => !i.shows)).1,
      (main w (items.filter fun i => !i.shows)).2) := by
  rw [C134_main, C134_main]
  have e1 : ∀ {α : Type} (f : Item → Option α), (∀ i, i.shows = true → f i = none) →
      lastOf f (items.filter fun i => !i.shows) = lastOf f items := by
    intro α f hf
    unfold lastOf
    rw [lastOf_plain f items hf]
  have o1 := e1 outputOf (by intro i hi; cases i <;> simp_all [Item.shows, outputOf])
  have o2 := e1 formatsOf (by intro i hi; cases i <;> simp_all [Item.shows, formatsOf])
  have o3 := e1 pathOf (by intro i hi; cases i <;> simp_all [Item.shows, pathOf])
  have o4 := e1 nameOf (by intro i hi; cases i <;> simp_all [Item.shows, nameOf])
  have o5 := lastOf_plain posOf items (by intro i hi; cases i <;> simp_all [Item.shows, posOf])
  have o6 : inputOf (items.filter fun i => !i.shows) = inputOf items := by
    unfold inputOf
    rw [o5, o4]
  have key : mainSteps w items = shownAll w [] items ++ mainSteps w (items.filter fun i => !i.shows) := by
    unfold mainSteps
    dsimp only
    rw [o1, o2, o3, o5, o6, shown_plain, contains_plain _ _ rfl, contains_plain _ _ rfl, List.nil_append]
  rw [key, perform_append, h, (perform_ok h).1]

example : (perform (shownAll (fine []) [] [.flat, .schema, .pos "a".toList, .info 1])).2 = .ok () := by decide +kernel

/-- **C134**: with one input, given as the positional argument, it is the input of the simulation. -/
theorem C134_input_partial (items : List Item) (f : Txt) (hp : items.filterMap posOf = [f]) (hn : items.filterMap nameOf = [f]) :
    inputOf items = some f := by
  unfold inputOf lastOf
  rw [hp, hn]
  rfl

example : ([Item.flat, .pos "a".toList, .output "b".toList].filterMap posOf = ["a".toList]) ∧
    [Item.flat, .pos "a".toList, .output "b".toList].filterMap nameOf = ["a".toList] := ⟨rfl, rfl⟩

/-- The full statement: an input that is named once, in either way, is the input of the simulation. -/
def C134 : Prop := ∀ (items : List Item) (f : Txt), items.filterMap nameOf = [f] → inputOf items = some f

/-- **C134 fails**: `--input-file` is overwritten by the default of the positional argument; nothing is run and nothing is said. -/
theorem C134_fails_input (w : World) (f : Txt) : ¬ C134 ∧ main w [.inputFile f] = ([], .ok ()) := by
  refine ⟨fun h => ?_, rfl⟩
  have := h [.inputFile []] [] rfl
  cases this

/-- Without an input nothing is run, whatever else is given. -/
theorem C134_no_input (w : World) (items : List Item) (h : items.filterMap posOf = []) (e : Ev) (he : e = .run ∨ ∃ a b c d f, e = .load a b c d f) :
    e ∉ (main w items).1 := by
  rw [C134_main]
  intro hc
  have hin : inputOf items = none := by unfold inputOf; rw [h]
  have hs : ∀ prev, e ∉ (shownAll w prev items).map Prod.fst := by
    clear h hin hc
    induction items with
    | nil => intro prev hc; simp [shownAll] at hc
    | cons i r ih =>
      intro prev hc
      rw [shownAll, List.map_append, List.mem_append] at hc
      rcases hc with hc | hc
      · cases i with
        | schema =>
          simp only [shown] at hc
          cases ht : w.text (schemaOf w (prev.contains .flat) (lastOf pathOf prev)) <;> rw [ht] at hc <;>
            rcases he with rfl | ⟨a, b, c, d, f, rfl⟩ <;> simp [done] at hc
        | _ => rcases he with rfl | ⟨a, b, c, d, f, rfl⟩ <;> simp [shown, done, fails] at hc
      · exact ih _ hc
  have := (perform_prefix _).subset hc
  unfold mainSteps at this
  dsimp only at this
  rw [List.map_append, List.mem_append, hin, h] at this
  rcases this with hc | hc
  · exact hs [] hc
  · rw [if_neg (by simp)] at hc
    by_cases hr : items.contains .rngPrint = true
    · rw [if_pos hr] at hc
      unfold loadSteps at hc
      cases hk : kindOf ((lastOf outputOf items).getD "cyclus.sqlite".toList) <;> rw [hk] at hc <;>
        rcases he with rfl | ⟨a, b, c, d, f, rfl⟩ <;> simp [done, fails] at hc
    · rw [if_neg hr] at hc
      simp at hc

/-- **C134 fails**: with `--rng-print` and no input, and with an input that cannot be read, the output is opened all the same. -/
theorem C134_fails_created : main (fine []) [.rngPrint] = ([.opened .sqlite "cyclus.sqlite".toList, .file, .raised .runtime], .error .runtime) ∧
    main { fine [] with parse := fun _ _ => .error (.other 0) } [.pos "nofile".toList] =
      ([.opened .sqlite "cyclus.sqlite".toList, .file, .read "nofile".toList "none".toList], .error (.other 0)) := by
  decide +kernel

/-- **C134 fails**: an output with another extension, or none, is refused. -/
theorem C134_fails_extension (w : World) : main w [.pos "a.xml".toList, .output "a.db".toList] = ([.raised .runtime], .error .runtime) ∧
    main w [.pos "a.xml".toList, .output "out".toList] = ([.raised .runtime], .error .runtime) := ⟨rfl, rfl⟩

/-- **C134 fails**: what `--rng-schema` prints depends on whether `--flat-schema` comes before or after it. -/
theorem C134_fails_order : main (fine []) [.flat, .rngSchema] = ([.say "/flat.rng".toList], .ok ()) ∧
    main (fine []) [.rngSchema, .flat] = ([.say "/std.rng".toList], .ok ()) := by decide +kernel

/-- Two positional arguments are an error, and no file is opened; but it comes after all options were acted on. -/
theorem C134_too_many (w : World) (items : List Item) (h : 1 < (items.filterMap posOf).length) :
    main w items = perform (shownAll w [] items ++ [fails .exit]) := by
  rw [C134_main]
  unfold mainSteps
  dsimp only
  rw [if_pos h]

example : 1 < ([Item.pos [], .flat, .pos []].filterMap posOf).length := by decide

/-- **C134**: without a path the output is in the current directory, named after the input without its extension, and an HDF5 file. -/
theorem C134_default_partial (d b e : Txt) (format : Option Txt) (mem : Mem) (r : ℕ) (schema : Option Txt) (flat print : Bool)
    (hd : d = [] ∨ d.getLast? = some '/') (hb : '/' ∉ b) (hc : ∃ c ∈ b, c ≠ '.')
    (he : (e = [] ∧ '.' ∉ b) ∨ ∃ x, e = '.' :: x ∧ '.' ∉ x ∧ '/' ∉ x) (hf : format = none ∨ format = some "none".toList) :
    ∃ s, create (some (d ++ b ++ e)) format none mem r schema flat print = ([], .ok s) ∧ s.output = b ++ ".h5".toList ∧
      kindOf s.output = some .hdf5 := by
  have hslash : '/' ∉ b ++ e := by
    rw [List.mem_append, not_or]
    refine ⟨hb, ?_⟩
    rcases he with ⟨rfl, _⟩ | ⟨x, rfl, _, hx⟩
    · simp
    · simp only [List.mem_cons, not_or]
      exact ⟨by decide, hx⟩
  have hbase : basename (d ++ b ++ e) = b ++ e := by
    rw [List.append_assoc]
    exact (cut d (b ++ e) hslash hd).1
  have hself := cut [] (b ++ e) hslash (Or.inl rfl)
  rw [List.nil_append] at hself
  have hstem : (splitext (b ++ e)).1 = b := by
    unfold splitext
    rw [hself.1, hself.2]
    rcases he with ⟨rfl, hn⟩ | ⟨x, rfl, hx, _⟩
    · have := (takeWhile_all (· != '.') b.reverse (by
        intro y hy
        simp only [bne_iff_ne]
        rintro rfl
        exact hn (List.mem_reverse.mp hy))).2
      rw [List.append_nil, this]
    · have hr : (b ++ '.' :: x).reverse = x.reverse ++ '.' :: b.reverse := by simp
      have := takeWhile_append_stop (· != '.') x.reverse b.reverse '.' (by
        intro y hy
        simp only [bne_iff_ne]
        rintro rfl
        exact hx (List.mem_reverse.mp hy)) rfl
      rw [hr, this.2]
      obtain ⟨c, hcb, hcd⟩ := hc
      have ha : b.reverse.any (· != '.') = true := by
        rw [List.any_eq_true]
        exact ⟨c, List.mem_reverse.mpr hcb, by simpa using hcd⟩
      simp [ha]
  have hdef : defaultOutput (some (d ++ b ++ e)) format = .ok (b ++ ".h5".toList) := by
    rcases hf with rfl | rfl
    · unfold defaultOutput
      dsimp only
      rw [hbase, hstem]
    · unfold defaultOutput
      dsimp only
      rw [if_pos rfl, hbase, hstem]
  refine ⟨⟨some (d ++ b ++ e), format, b ++ ".h5".toList, mem, r, schema, flat, print, false, none, false⟩, ?_, rfl, ?_⟩
  · unfold create
    dsimp only
    rw [hdef]
    rfl
  · refine kindOf_hdf5 (splitext_of_isExt ⟨[], b, "h5".toList, rfl, rfl, by decide, by decide, hb, Or.inl rfl, hc⟩)

example : ("runs/".toList = [] ∨ "runs/".toList.getLast? = some '/') ∧ '/' ∉ "a.b".toList ∧ (∃ c ∈ "a.b".toList, c ≠ '.') ∧
    (∃ x, ".xml".toList = '.' :: x ∧ '.' ∉ x ∧ '/' ∉ x) :=
  ⟨Or.inr rfl, by decide, ⟨'a', by decide, by decide⟩, "xml".toList, rfl, by decide, by decide⟩

/-- With a text as input the output is `cyclus.h5`; without input and format there is no default. -/
theorem C134_default_text (input : Option Txt) (g : Txt) (hg : g ≠ "none".toList) :
    defaultOutput input (some g) = .ok "cyclus.h5".toList ∧ defaultOutput none none = .error .type := by
  refine ⟨?_, rfl⟩
  unfold defaultOutput
  dsimp only
  rw [if_neg hg]
  rfl

/-- The full statement: the default output can be opened. -/
def C134_default : Prop := ∀ f : Txt, ∃ o, defaultOutput (some f) none = .ok o ∧ kindOf o = some .hdf5

/-- **C134 fails**: the default output for an input whose name has only dots has no extension. -/
theorem C134_fails_default : ¬ C134_default := by
  intro h
  obtain ⟨o, ho, hk⟩ := h "...".toList
  have : o = "....h5".toList := by
    have hd : defaultOutput (some "...".toList) none = .ok "....h5".toList := by decide +kernel
    rw [hd] at ho
    cases ho
    rfl
  rw [this, kindOf_none (by decide +kernel) (by decide +kernel)] at hk
  cases hk

/-- Running and flushing: a state that was loaded is run, then flushed; if the simulation fails it is not flushed here. -/
theorem C134_run (w : World) (s : SimState) (h : s.si = true) : run w s = perform [(.run, w.sim), done .flush] :=
  (does_run w s h).eq

example : ∃ s : SimState, s.si = true :=
  ⟨⟨some [], none, [], .none, 0, none, false, false, true, none, true⟩, rfl⟩

/-- **C134 fails**: a state that was made but not loaded fails when it is run or deleted. -/
theorem C134_fails_del (w : World) : ∃ s, create (some "a.xml".toList) none none .none 0 none false false = ([], .ok s) ∧
    (run w s).2 = .error .attribute ∧ (del s).2 = .error .attribute := ⟨_, rfl, rfl, rfl⟩

/-- **C134 fails**: a state that is loaded again with another output keeps the backend in memory that falls back on the first one. -/
theorem C134_fails_reload : ∃ s s1 s2, create (some "a.xml".toList) none (some "one.h5".toList) (.flag true) 0 none false false = ([], .ok s) ∧
    (load (fine []) s).2 = .ok s1 ∧ (load (fine []) { s1 with output := "two.h5".toList }).2 = .ok s2 ∧
    s2.file = some (.hdf5, "two.h5".toList) ∧ s2.mem = .made 0 .hdf5 "one.h5".toList := by
  refine ⟨_, ⟨some "a.xml".toList, none, "one.h5".toList, .made 0 .hdf5 "one.h5".toList, 0, some "/std.rng".toList, false, false, true,
    some (.hdf5, "one.h5".toList), true⟩, ⟨some "a.xml".toList, none, "two.h5".toList, .made 0 .hdf5 "one.h5".toList, 0,
    some "/std.rng".toList, false, false, true, some (.hdf5, "two.h5".toList), true⟩, rfl, ?_, ?_, rfl, rfl⟩
  · decide +kernel
  · decide +kernel

/-- **C134**: however many states are made, the function that closes the libraries is registered once. -/
theorem C134_once (n k : ℕ) : ensureClose^[n + 1] (false, k) = (true, k + 1) := by
  induction n with
  | zero => rfl
  | succ n ih =>
    rw [Function.iterate_succ_apply', ih]
    rfl

end Cyclus.PyMain
