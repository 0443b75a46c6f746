import Verif.Model.Cli
import Verif.Props.Recorder
import Verif.Props.Loader

/-!
# C103: the command line

Every use of `cyclus` does what its help says: it prints what is asked for, or runs the simulation of the
input file or of the snapshot, puts all its data into the output file, and tells by its exit code whether
it succeeded.
-/

namespace Cyclus.Cli

/-! ## Specification -/

/-- The order of the options that only print something. -/
def place : Info → ℕ
  | .help => 0 | .version => 1 | .path => 2 | .includeDir => 3 | .installPath => 4 | .cmakeModulePath => 5
  | .buildPath => 6 | .rngSchema => 7 | .nucData => 8 | .schema => 9 | .agentSchema => 10
  | .agentVersion => 11 | .agentAnnotations => 12 | .agentListing => 13 | .allAgentListing => 14
  | .jsonToXml => 15 | .xmlToJson => 16 | .jsonToPy => 17 | .pyToJson => 18 | .pyToXml => 19
  | .xmlToPy => 20 | .metadata => 21

/-- The option is the first of those given. -/
def First (o : Opts) (i : Info) : Prop := o.infos i = true ∧ ∀ j, o.infos j = true → place i ≤ place j

/-- No option is given that only prints something. -/
def Quiet (o : Opts) : Prop := ∀ i, o.infos i = false

/-- What the backend gets for entries recorded with a simulation id. -/
def data (sid : ℕ) (es : List Entry) : List (Rec.Datum ℕ) := es.map fun e => Rec.meant true sid e.title e.vals

/-- The output file: the given one or `cyclus.sqlite`. -/
def OutFile (o : Opts) (p : Text) : Prop := o.output = some p ∨ (o.output = none ∧ p = ['c', 'y', 'c',
    'l', 'u', 's', '.', 's', 'q', 'l', 'i', 't', 'e'])

/-- The flat schema is meant: by the option or by the input file. -/
def Flat (o : Opts) (ty : Text) (b : Bool) : Prop := b = true ↔ o.flat = true ∨ ty = ['f', 'l', 'a', 't']

/-- The schema that is meant: the given one or the default one of its kind. -/
def Schema (w : World) (o : Opts) (b : Bool) (s : Text) : Prop :=
  o.schemaPath = some s ∨ (o.schemaPath = none ∧ s = w.rngSchema b)

/-- A given schema path is replaced. -/
def Replaced (o : Opts) (ty : Text) : Prop :=
  ty = ['f', 'l', 'a', 't'] ∧ o.flat = false ∧ o.schemaPath ≠ none

/-! ## Proof -/

open Rec in
/-- One entry. -/
theorem record_one {r : Recorder ℕ} (h : Good r) (hi : r.inject = true) (e : Entry) :
    ∃ r', r.exec (.datum e.title e.vals) = some r' ∧ Good r' ∧ r'.backs = r.backs ∧ r'.uuid = r.uuid ∧
      r'.inject = true ∧ r'.dumpCount = r.dumpCount ∧
      (∀ b ∈ r.backs, r'.got b ++ r'.pending = r.got b ++ r.pending ++ data r.uuid [e]) ∧
      (∀ b, b ∉ r.backs → r'.got b = r.got b) ∧
      (r.pending.length + 1 < r.dumpCount → r'.pending = r.pending ++ data r.uuid [e]) ∧
      r'.pending.length = (r.pending.length + 1) % r.dumpCount := by
  obtain ⟨r', e1, e2, e3, e4, e5, e6, e7⟩ := datum_spec h e.title e.vals
  have hlen := h.len
  have hlt := h.lt
  have hpl : r.pending.length = r.index := by
    simp only [Recorder.pending, List.length_take]; omega
  have hidx : r'.index = if r.index + 1 ≥ r.data.length then 0 else r.index + 1 := by
    obtain ⟨d, hd⟩ : ∃ d, r.data[r.index]? = some d := ⟨_, List.getElem?_eq_getElem (by omega)⟩
    simp only [Recorder.exec, Recorder.newDatum, hd, Option.map_some] at e1
    rw [addVals_data] at e1
    simp only [Option.some.injEq] at e1
    rw [← e1]
    unfold Recorder.record
    simp only [List.length_modify, List.length_set]
    split_ifs <;> rfl
  have hpl' : r'.pending.length = r'.index := by
    have h1 := e2.len
    have h2 := e2.lt
    simp only [Recorder.pending, List.length_take]; omega
  have hm : meant r.inject r.uuid e.title e.vals = meant true r.uuid e.title e.vals := by rw [hi]
  rw [hm] at e7
  refine ⟨r', e1, e2, e3, e4, e5.trans hi, e6, ?_, ?_, ?_, ?_⟩
  · intro b hb
    rcases e7 with ⟨e7, e8⟩ | ⟨e7, e8⟩
    · rw [e7, e8]; simp [data]
    · rw [e7, e8, notifyAll_mem h.nodup hb]; simp [data]
  · intro b hb
    rcases e7 with ⟨_, e8⟩ | ⟨_, e8⟩
    · rw [e8]
    · rw [e8, notifyAll_not_mem hb]
  · intro hl
    rcases e7 with ⟨e7, e8⟩ | ⟨e7, e8⟩
    · rw [e7]; rfl
    · exfalso
      rw [e7, List.length_nil, hidx, if_neg (by omega)] at hpl'
      omega
  · rw [hpl', hidx, hpl]
    split_ifs with hf
    · have : r.index + 1 = r.dumpCount := by omega
      rw [this, Nat.mod_self]
    · rw [Nat.mod_eq_of_lt (by omega)]

open Rec in
/-- Recording entries. -/
theorem record_spec {r : Recorder ℕ} (h : Good r) (hi : r.inject = true) (es : List Entry) :
    Good (record r es) ∧ (record r es).backs = r.backs ∧ (record r es).uuid = r.uuid ∧
      (record r es).inject = true ∧ (record r es).dumpCount = r.dumpCount ∧
      (∀ b ∈ r.backs, (record r es).got b ++ (record r es).pending =
        r.got b ++ r.pending ++ data r.uuid es) ∧
      (∀ b, b ∉ r.backs → (record r es).got b = r.got b) ∧
      (r.pending.length + es.length < r.dumpCount → (record r es).pending = r.pending ++ data r.uuid es) ∧
      (record r es).pending.length = (r.pending.length + es.length) % r.dumpCount := by
  induction es generalizing r with
  | nil =>
    refine ⟨h, rfl, rfl, hi, rfl, fun b _ => by simp [record, data], fun _ _ => rfl,
      fun _ => by simp [record, data], ?_⟩
    have hlen := h.len
    have hlt := h.lt
    have hpl : r.pending.length = r.index := by
      simp only [Recorder.pending, List.length_take]; omega
    change r.pending.length = (r.pending.length + 0) % r.dumpCount
    rw [hpl, Nat.add_zero, Nat.mod_eq_of_lt hlt]
  | cons e es ih =>
    obtain ⟨r', e1, e2, e3, e4, e5, e6, e7, e8, e9, e10⟩ := record_one h hi e
    have hr : record r (e :: es) = record r' es := by rw [record, e1]; rfl
    obtain ⟨k1, k2, k3, k4, k5, k6, k7, k8, k9⟩ := ih e2 e5
    rw [hr]
    refine ⟨k1, k2.trans e3, k3.trans e4, k4, k5.trans e6, ?_, ?_, ?_, ?_⟩
    · intro b hb
      rw [k6 b (e3 ▸ hb), e7 b hb, e4]
      simp [data]
    · intro b hb
      rw [k7 b (e3 ▸ hb), e8 b hb]
    · intro hl
      simp only [List.length_cons] at hl
      have hp := e9 (by omega)
      rw [k8 (by rw [hp, e6]; simp [data]; omega), hp, e4]
      simp [data]
    · rw [k9, e10, e6, List.length_cons, Nat.mod_add_mod]
      congr 1
      omega

open Rec in
/-- After a flush. -/
theorem record_flush {r : Recorder ℕ} (h : Good r) (hi : r.inject = true) (es : List Entry) {b : ℕ}
    (hb : b ∈ r.backs) : Good (record r es).flush ∧ (record r es).flush.backs = r.backs ∧
      (record r es).flush.uuid = r.uuid ∧ (record r es).flush.inject = true ∧
      (record r es).flush.pending = [] ∧ (record r es).flush.dumpCount = r.dumpCount ∧
      (record r es).flush.got b = r.got b ++ r.pending ++ data r.uuid es := by
  obtain ⟨k1, k2, k3, k4, k5, k6, -, -, -⟩ := record_spec h hi es
  obtain ⟨f1, f2, f3, f4, f5, f6⟩ := flush_spec (record r es)
  refine ⟨k1.flush, f3.trans k2, f4.trans k3, f5.trans k4, f1, f6.trans k5, ?_⟩
  rw [f2, notifyAll_mem k1.nodup (k2 ▸ hb), k6 b hb]

open Rec in
theorem start (sid : ℕ) : Good ((Recorder.new dumpCount true sid).register 0) ∧
    ((Recorder.new dumpCount true sid).register 0).inject = true ∧
    ((Recorder.new dumpCount true sid).register 0).uuid = sid ∧
    ((Recorder.new dumpCount true sid).register 0).pending = [] ∧
    ((Recorder.new dumpCount true sid).register 0).got 0 = [] ∧
    0 ∈ ((Recorder.new dumpCount true sid).register 0).backs := by
  have h := Good.new (α := ℕ) (n := dumpCount) (by decide) true sid
  refine ⟨⟨h.len, h.lt, h.slot, ?_⟩, rfl, rfl, rfl, rfl, ?_⟩ <;>
    simp [Recorder.register, Recorder.new, Recorder.setDumpCount]

theorem data_append (s : ℕ) (a b : List Entry) : data s (a ++ b) = data s a ++ data s b := by simp [data]

theorem split_cons {c : Char} {s a : List Char} {l : List (List Char)} (h : Load.split c s = a :: l) :
    c ∉ a ∧ (l = [] → s = a) ∧ (l ≠ [] → ∃ t, s = a ++ c :: t ∧ Load.split c t = l) := by
  induction s generalizing a l with
  | nil =>
    simp only [Load.split, List.cons.injEq] at h
    obtain ⟨rfl, rfl⟩ := h
    exact ⟨by simp, fun _ => rfl, fun h => absurd rfl h⟩
  | cons x xs ih =>
    unfold Load.split at h
    split_ifs at h with hx
    · simp only [List.cons.injEq] at h
      obtain ⟨rfl, h⟩ := h
      refine ⟨by simp, fun hl => absurd (h.trans hl) (Load.split_ne c xs), fun _ => ⟨xs, by simp [hx], h⟩⟩
    · cases hs : Load.split c xs with
      | nil => exact absurd hs (Load.split_ne c xs)
      | cons y ys =>
        rw [hs] at h
        simp only [List.cons.injEq] at h
        obtain ⟨rfl, rfl⟩ := h
        obtain ⟨i1, i2, i3⟩ := ih hs
        refine ⟨?_, fun hl => by rw [i2 hl], fun hl => ?_⟩
        · simp only [List.mem_cons, not_or]; exact ⟨fun e => hx e.symm, i1⟩
        · obtain ⟨t, e1, e2⟩ := i3 hl
          exact ⟨t, by rw [e1]; rfl, e2⟩

theorem split_three {c : Char} {s d i t : List Char} (h : Load.split c s = [d, i, t]) :
    s = d ++ c :: (i ++ c :: t) ∧ c ∉ d ∧ c ∉ i ∧ c ∉ t := by
  obtain ⟨a1, -, a3⟩ := split_cons h
  obtain ⟨s1, e1, f1⟩ := a3 (by simp)
  obtain ⟨b1, -, b3⟩ := split_cons f1
  obtain ⟨s2, e2, f2⟩ := b3 (by simp)
  obtain ⟨c1, c2, -⟩ := split_cons f2
  rw [e1, e2, c2 rfl]
  exact ⟨rfl, a1, b1, c1⟩

theorem find_none {o : Opts} (h : Quiet o) : tests.find? o.infos = none := by
  rw [List.find?_eq_none]; intro i _; simp [h i]

theorem find_first {o : Opts} {i : Info} (h : First o i) : tests.find? o.infos = some i := by
  have key : ∀ l : List Info, (l.Pairwise fun a b => place a < place b) → i ∈ l → l.find? o.infos = some i := by
    intro l
    induction l with
    | nil => intro _ hm; cases hm
    | cons a l ih =>
      intro hp hm
      rw [List.pairwise_cons] at hp
      rcases List.mem_cons.1 hm with rfl | hm
      · simp [List.find?, h.1]
      · have : o.infos a = false := by
          by_contra hc
          have h1 := h.2 a (by simpa using hc)
          have h2 := hp.1 i hm
          omega
        simp only [List.find?, this]
        exact ih hp.2 hm
  exact key tests (by decide) (by cases i <;> decide)

/-! ## Theorems -/

/-- **C103**.  If options are given that only print something, no simulation is run and no output file is
opened.  The first of them, in the fixed order, prints its text and the exit code is 0.
Partial: if its text cannot be made, the exit code may be 0 as well. -/
theorem C103_information_partial {w : World} {o : Opts} {i : Info} (h : First o i) :
    (main w (.ok o)).ran = none ∧ (main w (.ok o)).out = none ∧
    (∀ t, w.info i = .ok t → (main w (.ok o)).exit = .code 0 ∧ (main w (.ok o)).said = some t) ∧
    (∀ e, w.info i = .error e → (main w (.ok o)).said = none) := by
  have hm : main w (.ok o) = (early w o).getD (simulate w o) := rfl
  rw [hm]
  unfold early
  rw [find_first h]
  simp only
  rcases hi : w.info i with (e | e) | t
  · cases e <;> simp
  · simp
  · simp

/-- **C103**.  Without an input file and a snapshot, and with invalid arguments, the exit code is 1, no output
file is opened and nothing is run. -/
theorem C103_usage {w : World} {o : Opts} (h : Quiet o) (hi : o.input = none) (hr : o.restart = []) :
    main w (.ok o) = { exit := .code 1 } ∧ main w .invalid = { exit := .code 1 } := by
  refine ⟨?_, rfl⟩
  simp [main, early, find_none h, simulate, hi, hr]

theorem schema_eq {w : World} {o : Opts} {ty s : Text} {b : Bool} (hb : Flat o ty b) (hs : Schema w o b s)
    (hn : ¬ Replaced o ty) :
    (o.flat || (decide (ty = ['f', 'l', 'a', 't']) && !o.flat)) = b ∧
    (if (decide (ty = ['f', 'l', 'a', 't']) && !o.flat) = true then w.rngSchema true
      else o.schemaPath.getD (w.rngSchema o.flat)) = s := by
  unfold Flat at hb
  unfold Replaced at hn
  unfold Schema at hs
  have hb' : (o.flat || (decide (ty = ['f', 'l', 'a', 't']) && !o.flat)) = b := by
    cases hf : o.flat <;> by_cases ht : ty = ['f', 'l', 'a', 't'] <;> simp [hf, ht] at hb ⊢ <;> exact hb
  refine ⟨hb', ?_⟩
  rcases hs with hs | ⟨hs, rfl⟩
  · cases hf : o.flat <;> by_cases ht : ty = ['f', 'l', 'a', 't'] <;> simp [hf, ht, hs] at hn ⊢
  · rw [← hb']
    cases hf : o.flat <;> by_cases ht : ty = ['f', 'l', 'a', 't'] <;> simp [hf, ht, hs]

theorem fresh_eq {w : World} {o : Opts} {f p ty s : Text} {b : Bool} (h : Quiet o) (hi : o.input = some f)
    (hr : o.restart = []) (hp : OutFile o p) (ho : w.opens p = true) (hty : w.read f o.format = .ok ty)
    (hb : Flat o ty b) (hs : Schema w o b s) (hn : ¬ Replaced o ty) :
    main w (.ok o) = runFresh w p ((Rec.Recorder.new dumpCount true w.sid).register 0)
      (.fresh b s f o.format) (o.rngPrint || w.junk) (w.load b s f o.format) := by
  have hp' : o.output.getD ['c', 'y', 'c', 'l', 'u', 's', '.', 's', 'q', 'l', 'i', 't', 'e'] = p := by
    rcases hp with hp | ⟨hp, rfl⟩ <;> simp [hp]
  obtain ⟨h1, h2⟩ := schema_eq hb hs hn
  simp only [main, early, find_none h, Option.getD_none, simulate, hi, hr, hp', ho]
  rw [if_neg (by simp), if_neg (by simp)]
  simp only [Option.getD_some, hty]
  rw [if_pos trivial, h1, h2]

/-- **C103**.  With an input file and without other requests: if the file can be read, the exit code is 0 if and
only if the simulation is loaded, initialised and run without an exception.  Then the simulation that is run
is that of the file, with the flat schema if it is meant, the schema that is meant and the format given; and
the output file has got exactly the data recorded by the loader and by the simulation, each once and in
order.
Partial: a given schema path may not be replaced. -/
theorem C103_run_partial {w : World} {o : Opts} {f p ty s : Text} {b : Bool} (h : Quiet o)
    (hi : o.input = some f) (hr : o.restart = []) (hp : OutFile o p) (ho : w.opens p = true)
    (hty : w.read f o.format = .ok ty) (hb : Flat o ty b) (hs : Schema w o b s) (hn : ¬ Replaced o ty) :
    ((main w (.ok o)).exit = .code 0 ↔ (w.load b s f o.format).2 = .ok () ∧
      (w.init (.fresh b s f o.format)).2 = .ok () ∧ (w.run (.fresh b s f o.format)).2 = .ok ()) ∧
    ((main w (.ok o)).exit = .code 0 →
      (main w (.ok o)).ran = some (.fresh b s f o.format) ∧
      (main w (.ok o)).out = some (p, data w.sid
        ((w.load b s f o.format).1 ++ (w.run (.fresh b s f o.format)).1))) ∧
    (o.rngPrint = true → (main w (.ok o)).schema = true) := by
  rw [fresh_eq h hi hr hp ho hty hb hs hn]
  obtain ⟨g1, g2, g3, g4, g5, g6⟩ := start w.sid
  obtain ⟨k1, k2, k3, k4, k5, -, k7⟩ := record_flush g1 g2 (w.load b s f o.format).1 g6
  obtain ⟨m1, m2, m3, m4, m5, -, m7⟩ :=
    record_flush k1 k4 (w.run (.fresh b s f o.format)).1 (k2 ▸ g6)
  rw [k7, k5, k3, g3, g4, g5, List.append_nil, List.append_nil, List.nil_append] at m7
  unfold runFresh
  simp only
  cases (w.load b s f o.format).2 with
  | error e => cases e <;> simp_all
  | ok u =>
    cases (w.init (.fresh b s f o.format)).2 with
    | error e => simp_all
    | ok u =>
      cases (w.run (.fresh b s f o.format)).2 with
      | ok u => simp_all [guard, data_append]
      | error e =>
        cases e with
        | other => simp_all [guard]
        | cyclus e => cases hc : w.noCatch <;> simp_all [guard]

/-- **C103**.  An error of the loader, or of the simulation if `CYCLUS_NO_CATCH` is not set, gives the exit code
1, and everything recorded before is in the output file.
Partial: other exceptions, and errors while the simulation is initialised, end the program abnormally. -/
theorem C103_errors_partial {w : World} {o : Opts} {f p ty s : Text} {b : Bool} (h : Quiet o)
    (hi : o.input = some f) (hr : o.restart = []) (hp : OutFile o p) (ho : w.opens p = true)
    (hty : w.read f o.format = .ok ty) (hb : Flat o ty b) (hs : Schema w o b s) (hn : ¬ Replaced o ty)
    (e : Err) :
    ((w.load b s f o.format).2 = .error (.cyclus e) → (main w (.ok o)).exit = .code 1 ∧
      (main w (.ok o)).ran = none ∧
      (main w (.ok o)).out = some (p, data w.sid (w.load b s f o.format).1)) ∧
    ((w.load b s f o.format).2 = .ok () → (w.init (.fresh b s f o.format)).2 = .ok () →
      (w.run (.fresh b s f o.format)).2 = .error (.cyclus e) → w.noCatch = none →
      (main w (.ok o)).exit = .code 1 ∧
      (main w (.ok o)).out = some (p, data w.sid
        ((w.load b s f o.format).1 ++ (w.run (.fresh b s f o.format)).1))) := by
  rw [fresh_eq h hi hr hp ho hty hb hs hn]
  obtain ⟨g1, g2, g3, g4, g5, g6⟩ := start w.sid
  obtain ⟨k1, k2, k3, k4, k5, -, k7⟩ := record_flush g1 g2 (w.load b s f o.format).1 g6
  obtain ⟨m1, m2, m3, m4, m5, -, m7⟩ :=
    record_flush k1 k4 (w.run (.fresh b s f o.format)).1 (k2 ▸ g6)
  rw [k7, k5, k3, g3, g4, g5, List.append_nil, List.append_nil, List.nil_append] at m7
  refine ⟨fun hl => ?_, fun hl h2 h3 h4 => ?_⟩
  · unfold runFresh
    simp only [hl]
    exact ⟨trivial, trivial, by rw [k7, g3, g4, g5]; rfl⟩
  · unfold runFresh
    simp only [hl, h2, h3, guard, h4]
    simp [m7, data_append]

theorem again_eq {w : World} {o : Opts} {f p ty d i t : Text} {u : ℕ} {z : ℤ} (h : Quiet o)
    (hi : o.input = some f) (hp : OutFile o p) (ho : w.opens p = true) (hty : w.read f o.format = .ok ty)
    (hr : o.restart = d ++ ':' :: (i ++ ':' :: t)) (hd : ':' ∉ d) (hi' : ':' ∉ i) (ht : ':' ∉ t)
    (hu : w.uuid i = some u) (hz : Infile.lexicalInt t = some z) :
    main w (.ok o) = runAgain w p (.again d u z) := by
  have hp' : o.output.getD ['c', 'y', 'c', 'l', 'u', 's', '.', 's', 'q', 'l', 'i', 't', 'e'] = p := by
    rcases hp with hp | ⟨hp, rfl⟩ <;> simp [hp]
  have hne : o.restart ≠ [] := by rw [hr]; simp
  have hsp : Load.split ':' o.restart = [d, i, t] := by
    rw [hr, Load.split_append hd, Load.split_append hi', Load.split_none ht]
  simp only [main, early, find_none h, Option.getD_none, simulate, hi, hp', ho]
  simp [hty, hne, hsp, hu, hz]

/-- **C103**.  With a snapshot `db:id:time` and a readable input file: the exit code is 0 if and only if the
simulation is restarted and run without an exception, and the simulation that is run is that of the snapshot.
If fewer than 10000 data are recorded before the backend is registered, the output file gets the data of the
restarted simulation in blocks of 10000; the remainder is missing.
Partial: an input file must be given, and the last data are missing. -/
theorem C103_restart_partial {w : World} {o : Opts} {f p ty d i t : Text} {u : ℕ} {z : ℤ} (h : Quiet o)
    (hi : o.input = some f) (hp : OutFile o p) (ho : w.opens p = true) (hty : w.read f o.format = .ok ty)
    (hr : o.restart = d ++ ':' :: (i ++ ':' :: t)) (hd : ':' ∉ d) (hi' : ':' ∉ i) (ht : ':' ∉ t)
    (hu : w.uuid i = some u) (hz : Infile.lexicalInt t = some z) :
    ((main w (.ok o)).exit = .code 0 ↔
      (w.init (.again d u z)).2 = .ok () ∧ (w.run (.again d u z)).2 = .ok ()) ∧
    ((main w (.ok o)).exit = .code 0 → (main w (.ok o)).ran = some (.again d u z)) ∧
    ((main w (.ok o)).exit = .code 0 → (w.init (.again d u z)).1.length < 10000 →
      ∃ got lost, (main w (.ok o)).out = some (p, got) ∧
        lost.length = ((w.init (.again d u z)).1.length + (w.run (.again d u z)).1.length) % 10000 ∧
        got ++ lost = data w.sid' ((w.init (.again d u z)).1 ++ (w.run (.again d u z)).1)) := by
  rw [again_eq h hi hp ho hty hr hd hi' ht hu hz]
  have g := Rec.Good.new (α := ℕ) (n := dumpCount) (by decide) true w.sid'
  obtain ⟨k1, k2, k3, k4, k5, -, k7, k8, k9⟩ := record_spec g rfl (w.init (.again d u z)).1
  have hg : Rec.Good ((record (Rec.Recorder.new dumpCount true w.sid') (w.init (.again d u z)).1).register 0) := by
    refine ⟨k1.len, k1.lt, k1.slot, ?_⟩
    change ((record _ _).backs ++ [0]).Nodup
    rw [k2]
    simp [Rec.Recorder.new, Rec.Recorder.setDumpCount]
  obtain ⟨m1, m2, m3, m4, m5, m6, -, -, m7⟩ := record_spec hg (by exact k4) (w.run (.again d u z)).1
  have hk : (w.init (.again d u z)).1.length < 10000 →
      (Rec.Recorder.new dumpCount true w.sid').pending.length + (w.init (.again d u z)).1.length <
        (Rec.Recorder.new dumpCount true w.sid').dumpCount := by
    intro hl
    have e1 : (Rec.Recorder.new dumpCount true w.sid').pending.length = 0 := by
      simp [Rec.Recorder.pending, Rec.Recorder.new, Rec.Recorder.setDumpCount]
    have e2 : (Rec.Recorder.new dumpCount true w.sid').dumpCount = 10000 := rfl
    omega
  unfold runAgain
  cases h1 : (w.init (.again d u z)).2 with
  | error e => simp
  | ok _ =>
    cases h2 : (w.run (.again d u z)).2 with
    | ok _ =>
      simp only [guard]
      refine ⟨by simp, fun _ => by simp, fun _ hl => ⟨_, (record ((record (Rec.Recorder.new dumpCount true
        w.sid') (w.init (.again d u z)).1).register 0) (w.run (.again d u z)).1).pending, rfl, ?_, ?_⟩⟩
      · rw [m7]
        have e1 : ((record (Rec.Recorder.new dumpCount true w.sid')
            (w.init (.again d u z)).1).register 0).pending.length = (w.init (.again d u z)).1.length := by
          change (record _ _).pending.length = _
          rw [k8 (hk hl)]
          simp [Rec.Recorder.pending, Rec.Recorder.new, Rec.Recorder.setDumpCount, data]
        have e2 : ((record (Rec.Recorder.new dumpCount true w.sid')
            (w.init (.again d u z)).1).register 0).dumpCount = 10000 := k5
        rw [e1, e2]
      · rw [m6 0 (by simp [Rec.Recorder.register])]
        have e1 : ((record (Rec.Recorder.new dumpCount true w.sid')
            (w.init (.again d u z)).1).register 0).pending = data w.sid' (w.init (.again d u z)).1 := by
          change (record _ _).pending = _
          rw [k8 (hk hl)]
          simp [Rec.Recorder.pending, Rec.Recorder.new, Rec.Recorder.setDumpCount]
        have e2 : ((record (Rec.Recorder.new dumpCount true w.sid')
            (w.init (.again d u z)).1).register 0).got 0 = [] := by
          change (record _ _).got 0 = _
          rw [k7 0 (by simp [Rec.Recorder.new, Rec.Recorder.setDumpCount])]
          rfl
        have e3 : ((record (Rec.Recorder.new dumpCount true w.sid')
            (w.init (.again d u z)).1).register 0).uuid = w.sid' := k3
        rw [e1, e2, e3, data_append]
        rfl
    | error e =>
      cases e with
      | other => simp [guard]
      | cyclus e => cases hc : w.noCatch <;> simp [guard, hc]

/-- **C103**.  A snapshot that is not of the form `db:id:time` with a valid id and an integer is refused with the
exit code 1; nothing is run. -/
theorem C103_restart_spec {w : World} {o : Opts} {f p ty : Text} (h : Quiet o) (hi : o.input = some f)
    (hp : OutFile o p) (ho : w.opens p = true) (hty : w.read f o.format = .ok ty) (hr : o.restart ≠ [])
    (hbad : ∀ d i t, o.restart = d ++ ':' :: (i ++ ':' :: t) → ':' ∉ d → ':' ∉ i → ':' ∉ t →
      w.uuid i = none ∨ Infile.lexicalInt t = none) :
    main w (.ok o) = { exit := .code 1, out := some (p, []) } := by
  have hp' : o.output.getD ['c', 'y', 'c', 'l', 'u', 's', '.', 's', 'q', 'l', 'i', 't', 'e'] = p := by
    rcases hp with hp | ⟨hp, rfl⟩ <;> simp [hp]
  have hm : main w (.ok o) = match Load.split ':' o.restart with
      | [db, sim, t] =>
        match w.uuid sim, Infile.lexicalInt t with
        | some s, some z => runAgain w p (.again db s z)
        | _, _ => { exit := .code 1, out := some (p, []) }
      | _ => { exit := .code 1, out := some (p, []) } := by
    simp only [main, early, find_none h, Option.getD_none, simulate, hi, hp', ho]
    simp [hty, hr]
    rfl
  rw [hm]
  split
  · rename_i d i t hsp
    obtain ⟨e1, e2, e3, e4⟩ := split_three hsp
    rcases hbad d i t e1 e2 e3 e4 with hb | hb
    · rw [hb]
    · rw [hb]; cases w.uuid i <;> rfl
  · rfl

/-! ## Examples -/

/-- A world: an input file that loads one datum, and a simulation that records two. -/
def w0 : World where
  rngSchema b := if b then ['f', 'l', 'a', 't', '.', 'r', 'n', 'g'] else ['m', 'a', 'i', 'n', '.',
      'r', 'n', 'g']
  opens _ := true
  read f _ := if f = ['a', '.', 'x', 'm', 'l'] then .ok [] else if f = ['f', '.', 'x', 'm',
      'l'] then .ok ['f', 'l', 'a', 't'] else .error (.cyclus .io)
  load _ _ _ _ := ([⟨"InputFiles", []⟩], .ok ())
  init _ := ([⟨"Info", []⟩], .ok ())
  run _ := ([⟨"TimeStep", []⟩, ⟨"Finish", []⟩], .ok ())
  uuid s := if s = ['x'] then some 7 else none
  info i := if i = .agentSchema then .error (.cyclus .io) else .ok ['t', 'e', 'x', 't']
  noCatch := none
  junk := false
  sid := 1
  sid' := 2

/-- `cyclus a.xml`. -/
def o0 : Opts := ⟨fun _ => false, false, none, [], some ['a', '.', 'x', 'm', 'l'], ['n', 'o', 'n',
    'e'], none, false⟩

/-- `cyclus a.xml --restart db:x:12`. -/
def o1 : Opts := { o0 with restart := ['d', 'b', ':', 'x', ':', '1', '2'] }

example : First { o0 with infos := fun i => i == .version || i == .metadata } .version :=
  ⟨by decide, fun j hj => by cases j <;> first | (exact absurd hj (by decide)) | decide⟩

example : Quiet { o0 with input := none } ∧ { o0 with input := none }.restart = [] := ⟨fun _ => rfl, rfl⟩

example : Quiet o0 ∧ OutFile o0 ['c', 'y', 'c', 'l', 'u', 's', '.', 's', 'q', 'l', 'i', 't',
    'e'] ∧ w0.read ['a', '.', 'x', 'm', 'l'] ['n', 'o', 'n', 'e'] = .ok [] ∧ Flat o0 [] false ∧
    Schema w0 o0 false ['m', 'a', 'i', 'n', '.', 'r', 'n', 'g'] ∧ ¬ Replaced o0 [] :=
  ⟨fun _ => rfl, Or.inr ⟨rfl, rfl⟩, rfl, by simp [Flat, o0], Or.inr ⟨rfl, rfl⟩, fun h => absurd h.1 (by decide)⟩

example : o1.restart = ['d', 'b'] ++ ':' :: (['x'] ++ ':' :: ['1', '2']) ∧ w0.uuid ['x'] = some 7 ∧
    Infile.lexicalInt ['1', '2'] = some 12 := ⟨rfl, rfl, by decide⟩

example : Load.split ':' ['d', 'b', ':', 'x'] = [['d', 'b'], ['x']] := by decide

/-! ## Disagreements -/

/-- **C103, negation**.  A simulation restarted from the command line that records fewer than 10000 data succeeds
with the exit code 0, but nothing of it is in the output file: the recorder that `SimInit::Restart` makes is
never flushed. -/
theorem C103_fails_restart_lost {w : World} {o : Opts} {f p ty d i t : Text} {u : ℕ} {z : ℤ} (h : Quiet o)
    (hi : o.input = some f) (hp : OutFile o p) (ho : w.opens p = true) (hty : w.read f o.format = .ok ty)
    (hr : o.restart = d ++ ':' :: (i ++ ':' :: t)) (hd : ':' ∉ d) (hi' : ':' ∉ i) (ht : ':' ∉ t)
    (hu : w.uuid i = some u) (hz : Infile.lexicalInt t = some z)
    (h1 : (w.init (.again d u z)).2 = .ok ()) (h2 : (w.run (.again d u z)).2 = .ok ())
    (hl : (w.init (.again d u z)).1.length + (w.run (.again d u z)).1.length < 10000) :
    (main w (.ok o)).exit = .code 0 ∧ (main w (.ok o)).out = some (p, []) := by
  obtain ⟨a, -, c⟩ := C103_restart_partial h hi hp ho hty hr hd hi' ht hu hz
  have he := a.2 ⟨h1, h2⟩
  obtain ⟨got, lost, k1, k2, k3⟩ := c he (by omega)
  refine ⟨he, ?_⟩
  have hlen := congrArg List.length k3
  rw [Nat.mod_eq_of_lt hl] at k2
  simp only [List.length_append, data, List.length_map] at hlen
  have : got = [] := List.length_eq_zero_iff.1 (by omega)
  rw [k1, this]

example : Quiet o1 ∧ (w0.init (.again ['d', 'b'] 7 12)).1.length + (w0.run (.again ['d',
    'b'] 7 12)).1.length = 3 :=
  ⟨fun _ => rfl, rfl⟩

/-- **C103, negation**.  A restart without an input file, which its help and usage allow, ends abnormally after the
output file has been opened: the input file with the empty name is read first. -/
theorem C103_fails_restart_no_input : ∃ (w : World) (o : Opts), Quiet o ∧ o.input = none ∧
    (main { w with read := fun _ _ => .ok [] } (.ok o)).exit = .code 0 ∧
    main w (.ok o) = { exit := .terminate, out := some (['c', 'y', 'c', 'l', 'u', 's', '.', 's', 'q',
        'l', 'i', 't', 'e'], []) } :=
  ⟨w0, { o1 with input := none }, fun _ => rfl, rfl, rfl, rfl⟩

/-- **C103, negation**.  A schema given by `--schema-path` is not used if the input file asks for the flat
schema. -/
theorem C103_fails_schema_path : ∃ (w : World) (o : Opts) (s : Text), Quiet o ∧ o.schemaPath = some s ∧
    (main w (.ok o)).exit = .code 0 ∧ ∃ b f t s', (main w (.ok o)).ran = some (.fresh b s' f t) ∧ s' ≠ s :=
  ⟨w0, { o0 with input := some ['f', '.', 'x', 'm', 'l'], schemaPath := some ['m', 'i', 'n', 'e', '.',
      'r', 'n', 'g'] }, ['m', 'i', 'n', 'e', '.', 'r', 'n', 'g'], fun _ => rfl, rfl,
    rfl, true, ['f', '.', 'x', 'm', 'l'], ['n', 'o', 'n', 'e'], ['f', 'l', 'a', 't', '.', 'r', 'n',
        'g'], rfl, by decide⟩

/-- **C103, negation**.  With `CYCLUS_NO_CATCH=0` in the environment, errors of the simulation are not caught,
although this value is to switch catching on. -/
theorem C103_fails_no_catch : ∃ (w : World) (o : Opts), Quiet o ∧ w.noCatch = some ['0'] ∧
    (main { w with noCatch := none } (.ok o)).exit = .code 1 ∧ (main w (.ok o)).exit = .terminate :=
  ⟨{ w0 with run := fun _ => ([], .error (.cyclus .state)), noCatch := some ['0'] }, o0, fun _ => rfl, rfl, rfl, rfl⟩

/-- **C103, negation**.  If the schema of an agent is asked for and the agent cannot be found, the exit code is
0. -/
theorem C103_fails_information : ∃ (w : World) (o : Opts), First o .agentSchema ∧
    w.info .agentSchema = .error (.cyclus .io) ∧ (main w (.ok o)).exit = .code 0 :=
  ⟨w0, { o0 with infos := fun i => i == .agentSchema },
    ⟨by decide, fun j hj => by cases j <;> first | (exact absurd hj (by decide)) | decide⟩, rfl, rfl⟩

/-- **C103, negation**.  An input file that cannot be read, an output file that cannot be created, too many input
files, and an error while the simulation is initialised end the program abnormally instead of with an exit code; a file that cannot be read
does so after the output file has been opened. -/
theorem C103_fails_uncaught : ∃ (w : World) (o : Opts), Quiet o ∧ w.read ['b', '.', 'x', 'm',
    'l'] o.format = .error (.cyclus .io) ∧
    main w (.ok { o with input := some ['b', '.', 'x', 'm', 'l'] }) =
      { exit := .terminate, out := some (['c', 'y', 'c', 'l', 'u', 's', '.', 's', 'q', 'l', 'i', 't',
          'e'], []) } ∧
    main w .tooMany = { exit := .terminate } ∧
    main { w with opens := fun _ => false } (.ok o) = { exit := .terminate } ∧
    (main { w with init := fun _ => ([], .error (.cyclus .value)) } (.ok o)).exit = .terminate :=
  ⟨w0, o0, fun _ => rfl, rfl, rfl, rfl, rfl, rfl⟩

/-- **C103, negation**.  The schema may be printed although this was not asked for: the flag is not
initialised. -/
theorem C103_fails_rng_print : ∃ (w : World) (o : Opts), Quiet o ∧ o.rngPrint = false ∧
    (main w (.ok o)).exit = .code 0 ∧ (main w (.ok o)).schema = true :=
  ⟨{ w0 with junk := true }, o0, fun _ => rfl, rfl, rfl, rfl⟩

end Cyclus.Cli
