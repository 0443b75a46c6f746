import Verif.Model.Recorder
import Mathlib.Data.List.Basic

/-!
# C29: every recorded datum reaches every backend exactly once and in order
-/

namespace Cyclus.Rec

variable {α : Type}

/-! ## Specification -/

/-- The datum a client means: the simulation id if it is injected, then the given values. -/
def meant (inject : Bool) (uuid : α) (title : String) (vals : List (Name × α × Option (List ℤ))) :
    Datum α :=
  vals.foldl (fun d v => d.addVal v.1 v.2.1 v.2.2)
    ⟨title, if inject then [(some "SimId", uuid)] else [], if inject then [[]] else [],
      if inject then ["SimId"] else []⟩

/-- The data recorded by a sequence of acts, in order; the first argument tells whether the simulation
id is injected at the beginning. -/
def recorded (uuid : α) : Bool → List (Act α) → List (Datum α)
  | _, [] => []
  | i, .datum t vs :: as => meant i uuid t vs :: recorded uuid i as
  | _, .setInject x :: as => recorded uuid x as
  | i, _ :: as => recorded uuid i as

/-- Whether the simulation id is injected after a sequence of acts. -/
def injectAfter : Bool → List (Act α) → Bool
  | i, [] => i
  | _, .setInject x :: as => injectAfter x as
  | i, _ :: as => injectAfter i as

/-- Acts that are used as documented: no backend is registered twice at a time, and the dump count is
set only to a positive number while nothing is buffered ("this deletes all buffered data"). -/
def ValidAct (r : Recorder α) : Act α → Prop
  | .register b => b ∉ r.backs
  | .setDumpCount n => 1 ≤ n ∧ r.index = 0
  | _ => True

/-- A program of valid acts. -/
def Program (r : Recorder α) : List (Act α) → Prop
  | [] => True
  | a :: as => ValidAct r a ∧ ∀ r', r.exec a = some r' → Program r' as

/-- The acts contain no `Close`. -/
def Open (as : List (Act α)) : Prop := Act.close ∉ as

/-! ## Proof -/

/-- The buffered data. -/
def Recorder.pending (r : Recorder α) : List (Datum α) := r.data.take r.index

structure Good (r : Recorder α) : Prop where
  len : r.data.length = r.dumpCount
  lt : r.index < r.dumpCount
  slot : ∀ d ∈ r.data, r.inject = true → d.vals.take 1 = [(some "SimId", r.uuid)] ∧
    d.shapes.take 1 = [[]] ∧ d.fields.take 1 = ["SimId"]
  nodup : r.backs.Nodup

theorem notifyAll_not_mem {backs : List ℕ} {data : List (Datum α)} {b : ℕ} (h : b ∉ backs)
    (g : ℕ → List (Datum α)) : notifyAll backs data g b = g b := by
  induction backs generalizing g with
  | nil => rfl
  | cons a l ih =>
    simp only [List.mem_cons, not_or] at h
    change notifyAll l data _ b = _
    rw [ih h.2]; exact Function.update_of_ne h.1 _ _

theorem notifyAll_mem {backs : List ℕ} {data : List (Datum α)} {b : ℕ} (hn : backs.Nodup)
    (h : b ∈ backs) (g : ℕ → List (Datum α)) : notifyAll backs data g b = g b ++ data := by
  induction backs generalizing g with
  | nil => cases h
  | cons a l ih =>
    rw [List.nodup_cons] at hn
    change notifyAll l data _ b = _
    rcases List.mem_cons.1 h with rfl | h
    · rw [notifyAll_not_mem hn.1]; exact Function.update_self _ _ _
    · have hne : b ≠ a := fun e => hn.1 (e ▸ h)
      rw [ih hn.2 h]; exact congrArg (· ++ data) (Function.update_of_ne hne _ _)

theorem Good.new {n : ℕ} (hn : 1 ≤ n) (i : Bool) (u : α) : Good (Recorder.new n i u) := by
  refine ⟨by simp [Recorder.new, Recorder.setDumpCount], (by simp [Recorder.new, Recorder.setDumpCount]; omega),
    ?_, by simp [Recorder.new, Recorder.setDumpCount]⟩
  intro d hd hi
  simp only [Recorder.new, Recorder.setDumpCount, List.mem_replicate] at hd hi
  rw [hd.2]
  simp [freshDatum, hi, Datum.addVal, Recorder.new, Recorder.setDumpCount]

theorem Good.flush {r : Recorder α} (h : Good r) : Good r.flush := by
  unfold Recorder.flush
  split_ifs with h0
  · exact h
  · exact ⟨h.len, by have := h.lt; simp; omega, h.slot, h.nodup⟩

/-- The first fields of a datum that has been added to. -/
theorem addVal_take (d : Datum α) (f : Name) (v : α) (s : Option (List ℤ)) :
    (d.vals.length = 0 ∨ (d.addVal f v s).vals.take 1 = d.vals.take 1) ∧
    (d.shapes.length = 0 ∨ (d.addVal f v s).shapes.take 1 = d.shapes.take 1) ∧
    (d.fields.length = 0 ∨ (d.addVal f v s).fields.take 1 = d.fields.take 1) := by
  obtain ⟨t, a, b, c⟩ := d
  cases f <;> cases a <;> cases b <;> cases c <;> simp [Datum.addVal]

theorem addVals_slot {i : Bool} {u : α} {vals : List (Name × α × Option (List ℤ))} {d : Datum α}
    (h : i = true → d.vals.take 1 = [(some "SimId", u)] ∧ d.shapes.take 1 = [[]] ∧
      d.fields.take 1 = ["SimId"]) (hi : i = true) :
    (vals.foldl (fun d v => d.addVal v.1 v.2.1 v.2.2) d).vals.take 1 = [(some "SimId", u)] ∧
    (vals.foldl (fun d v => d.addVal v.1 v.2.1 v.2.2) d).shapes.take 1 = [[]] ∧
    (vals.foldl (fun d v => d.addVal v.1 v.2.1 v.2.2) d).fields.take 1 = ["SimId"] := by
  induction vals generalizing d with
  | nil => exact h hi
  | cons v vs ih =>
    refine ih (fun _ => ?_)
    obtain ⟨h1, h2, h3⟩ := h hi
    obtain ⟨k1, k2, k3⟩ := addVal_take d v.1 v.2.1 v.2.2
    refine ⟨?_, ?_, ?_⟩
    · rcases k1 with k | k
      · rw [List.length_eq_zero_iff] at k; rw [k] at h1; cases h1
      · rw [k, h1]
    · rcases k2 with k | k
      · rw [List.length_eq_zero_iff] at k; rw [k] at h2; cases h2
      · rw [k, h2]
    · rcases k3 with k | k
      · rw [List.length_eq_zero_iff] at k; rw [k] at h3; cases h3
      · rw [k, h3]

/-- All `AddVal` calls of a datum act on its slot only. -/
theorem addVals_data (vals : List (Name × α × Option (List ℤ))) (p : ℕ) (r : Recorder α) :
    vals.foldl (fun r v => r.addVal p v.1 v.2.1 v.2.2) r =
      { r with data := r.data.modify p fun d =>
        vals.foldl (fun d v => d.addVal v.1 v.2.1 v.2.2) d } := by
  induction vals generalizing r with
  | nil =>
    have : r.data.modify p (fun d => d) = r.data := by
      apply List.ext_getElem?
      intro k
      simp only [List.getElem?_modify]
      cases r.data[k]? <;> simp
    simp only [List.foldl_nil, this]
  | cons v vs ih =>
    rw [List.foldl_cons, ih]
    simp only [Recorder.addVal]
    congr 1
    apply List.ext_getElem?
    intro k
    simp only [List.getElem?_modify]
    cases r.data[k]? with
    | none => simp
    | some d => by_cases hk : p = k <;> simp [hk]

/-- What one datum does. -/
theorem datum_spec {r : Recorder α} (h : Good r) (title : String)
    (vals : List (Name × α × Option (List ℤ))) :
    ∃ r', r.exec (.datum title vals) = some r' ∧ Good r' ∧ r'.backs = r.backs ∧
      r'.uuid = r.uuid ∧ r'.inject = r.inject ∧ r'.dumpCount = r.dumpCount ∧
      ((r'.pending = r.pending ++ [meant r.inject r.uuid title vals] ∧ r'.got = r.got) ∨
       (r'.pending = [] ∧ r'.got = notifyAll r.backs
          (r.pending ++ [meant r.inject r.uuid title vals]) r.got)) := by
  have hlt : r.index < r.data.length := by rw [h.len]; exact h.lt
  obtain ⟨d, hd⟩ : ∃ d, r.data[r.index]? = some d := ⟨_, List.getElem?_eq_getElem hlt⟩
  have hdm : d ∈ r.data := List.mem_of_getElem? hd
  set d0 : Datum α := ⟨title, d.vals.take (if r.inject then 1 else 0),
    d.shapes.take (if r.inject then 1 else 0), d.fields.take (if r.inject then 1 else 0)⟩ with hd0
  have hd0' : d0 = ⟨title, if r.inject then [(some "SimId", r.uuid)] else [],
      if r.inject then [[]] else [], if r.inject then ["SimId"] else []⟩ := by
    cases hi : r.inject with
    | true =>
      obtain ⟨h1, h2, h3⟩ := h.slot d hdm hi
      simp [hd0, hi, h1, h2, h3]
    | false => simp [hd0, hi]
  have hm : vals.foldl (fun d v => d.addVal v.1 v.2.1 v.2.2) d0 =
      meant r.inject r.uuid title vals := by rw [hd0']; rfl
  have hmod : (r.data.set r.index d0).modify r.index (fun d =>
      vals.foldl (fun d v => d.addVal v.1 v.2.1 v.2.2) d) =
      r.data.set r.index (meant r.inject r.uuid title vals) := by
    apply List.ext_getElem?
    intro k
    simp only [List.getElem?_modify, List.getElem?_set]
    by_cases hk : r.index = k
    · subst hk; simp [hlt, hm]
    · simp [hk]
  have hex : r.exec (.datum title vals) = some (Recorder.record
      { r with data := r.data.set r.index (meant r.inject r.uuid title vals),
               index := r.index + 1 }) := by
    simp only [Recorder.exec, Recorder.newDatum, hd, Option.map_some]
    rw [addVals_data]
    simp only
    rw [← hd0, hmod]
  have hslot : ∀ x ∈ r.data.set r.index (meant r.inject r.uuid title vals), r.inject = true →
      x.vals.take 1 = [(some "SimId", r.uuid)] ∧ x.shapes.take 1 = [[]] ∧
      x.fields.take 1 = ["SimId"] := by
    intro x hx hi
    rcases List.mem_or_eq_of_mem_set hx with hx | rfl
    · exact h.slot x hx hi
    · rw [← hm]
      refine addVals_slot (i := r.inject) ?_ hi
      intro hi; rw [hd0']; simp [hi]
  have htake : (r.data.set r.index (meant r.inject r.uuid title vals)).take (r.index + 1) =
      r.pending ++ [meant r.inject r.uuid title vals] := by
    rw [List.take_add_one, List.take_set_of_le (le_refl _), List.getElem?_set_self hlt]
    rfl
  refine ⟨_, hex, ?_⟩
  unfold Recorder.record
  simp only [List.length_set]
  split_ifs with hfull
  · have hlen : r.data.length = r.index + 1 := by omega
    refine ⟨⟨by simpa using h.len, by have := h.lt; simp; omega, hslot, h.nodup⟩, rfl, rfl, rfl, rfl, Or.inr
      ⟨by simp [Recorder.pending], ?_⟩⟩
    simp only
    rw [← htake, List.take_of_length_le (by simp [hlen])]
  · refine ⟨⟨by simpa using h.len, by have := h.len; simp; omega, hslot, h.nodup⟩, rfl, rfl, rfl, rfl,
      Or.inl ⟨?_, rfl⟩⟩
    exact htake

theorem flush_spec (r : Recorder α) : r.flush.pending = [] ∧
    r.flush.got = notifyAll r.backs r.pending r.got ∧ r.flush.backs = r.backs ∧
    r.flush.uuid = r.uuid ∧ r.flush.inject = r.inject ∧ r.flush.dumpCount = r.dumpCount := by
  unfold Recorder.flush
  split_ifs with h
  · refine ⟨by simp [Recorder.pending, h], ?_, rfl, rfl, rfl, rfl⟩
    have : r.pending = [] := by simp [Recorder.pending, h]
    rw [this]
    funext b
    have : ∀ (l : List ℕ) (g : ℕ → List (Datum α)), notifyAll l [] g = g := by
      intro l
      induction l with
      | nil => intro g; rfl
      | cons a l ih =>
        intro g
        change notifyAll l [] _ = g
        rw [ih]; simp
    rw [this]
  · refine ⟨by simp [Recorder.pending], rfl, rfl, rfl, rfl, rfl⟩

/-- Everything about one act. -/
theorem exec_spec {r : Recorder α} (h : Good r) {a : Act α} (hv : ValidAct r a) :
    ∃ r', r.exec a = some r' ∧ Good r' ∧ r'.uuid = r.uuid ∧ r'.inject = injectAfter r.inject [a] ∧
      (∀ b, b ∈ r.backs → a ≠ .close → b ∈ r'.backs) ∧
      (∀ b, b ∉ r.backs → r'.got b = r.got b) ∧
      (∀ b, b ∈ r.backs → r'.got b ++ r'.pending =
        r.got b ++ r.pending ++ recorded r.uuid r.inject [a]) ∧
      r'.pending <:+ r.pending ++ recorded r.uuid r.inject [a] := by
  obtain ⟨f1, f2, f3, f4, f5, f6⟩ := flush_spec r
  cases a with
  | datum t vs =>
    obtain ⟨r', h1, h2, h3, h4, h5, h6, h7⟩ := datum_spec h t vs
    refine ⟨r', h1, h2, h4, h5, fun b hb _ => by rw [h3]; exact hb, ?_, ?_, ?_⟩
    · intro b hb
      rcases h7 with ⟨_, h7⟩ | ⟨_, h7⟩
      · rw [h7]
      · rw [h7, notifyAll_not_mem hb]
    · intro b hb
      rcases h7 with ⟨h8, h7⟩ | ⟨h8, h7⟩
      · rw [h7, h8]; simp [recorded]
      · rw [h7, h8, notifyAll_mem h.nodup hb]; simp [recorded]
    · rcases h7 with ⟨h8, _⟩ | ⟨h8, _⟩
      · rw [h8]; exact List.suffix_refl _
      · rw [h8]; exact List.nil_suffix
  | flush =>
    refine ⟨_, rfl, h.flush, f4, f5, fun b hb _ => by rw [f3]; exact hb, ?_, ?_, ?_⟩
    · intro b hb; rw [f2, notifyAll_not_mem hb]
    · intro b hb; rw [f2, f1, notifyAll_mem h.nodup hb]; simp [recorded]
    · rw [f1]; exact List.nil_suffix
  | register b' =>
    refine ⟨_, rfl, ⟨h.len, h.lt, h.slot, ?_⟩, rfl, rfl, ?_, ?_, ?_, ?_⟩
    · simp only [Recorder.register, List.nodup_append]
      refine ⟨h.nodup, by simp, ?_⟩
      intro x hx y hy
      rw [List.mem_singleton] at hy
      rw [hy]
      exact fun e => hv (e ▸ hx)
    · intro b hb _; simp [Recorder.register, hb]
    · intro b _; rfl
    · intro b _; simp [recorded, Recorder.register, Recorder.pending]
    · simp [recorded, Recorder.register, Recorder.pending]
  | close =>
    refine ⟨_, rfl, ⟨h.flush.len, h.flush.lt, h.flush.slot, by simp [Recorder.close]⟩, f4, f5, ?_, ?_,
      ?_, ?_⟩
    · intro b _ hc; exact absurd rfl hc
    · intro b hb; simp only [Recorder.close]; rw [f2, notifyAll_not_mem hb]
    · intro b hb
      change r.flush.got b ++ r.flush.pending = _
      rw [f2, f1, notifyAll_mem h.nodup hb]; simp [recorded]
    · change r.flush.pending <:+ _
      rw [f1]; exact List.nil_suffix
  | setDumpCount n =>
    obtain ⟨hn, h0⟩ := hv
    refine ⟨_, rfl, ⟨by simp [Recorder.setDumpCount], by simp [Recorder.setDumpCount, h0]; omega, ?_,
      h.nodup⟩, rfl, rfl, fun b hb _ => hb, fun b _ => rfl, ?_, ?_⟩
    · intro d hd hi
      simp only [Recorder.setDumpCount, List.mem_replicate] at hd hi
      rw [hd.2]
      simp [freshDatum, hi, Datum.addVal, Recorder.setDumpCount]
    · intro b _
      simp [recorded, Recorder.setDumpCount, Recorder.pending, h0]
    · simp [Recorder.setDumpCount, Recorder.pending, h0]
  | setInject x =>
    simp only [Recorder.exec, Recorder.setInject]
    split_ifs with hx
    · refine ⟨_, rfl, h, rfl, hx.symm, fun b hb _ => hb, fun b _ => rfl, ?_, ?_⟩
      · intro b _; simp [recorded]
      · simp [recorded]
    · have hg := h.flush
      have hi0 : r.flush.index = 0 := by
        unfold Recorder.flush
        split_ifs with h0 <;> simp [h0]
      refine ⟨_, rfl, ⟨by simp [Recorder.setDumpCount], ?_, ?_, ?_⟩, f4, rfl, ?_, ?_, ?_, ?_⟩
      · have := hg.lt
        simp only [Recorder.setDumpCount]; omega
      · intro d hd hi
        simp only [Recorder.setDumpCount, List.mem_replicate] at hd hi
        rw [hd.2]
        simp [freshDatum, hi, Datum.addVal, Recorder.setDumpCount]
      · simp only [Recorder.setDumpCount]; exact hg.nodup
      · intro b hb _
        simp only [Recorder.setDumpCount]; rw [f3]; exact hb
      · intro b hb
        simp only [Recorder.setDumpCount]; rw [f2, notifyAll_not_mem hb]
      · intro b hb
        simp only [Recorder.setDumpCount, Recorder.pending]
        rw [f2, notifyAll_mem h.nodup hb, hi0]
        simp [recorded, Recorder.pending]
      · simp only [Recorder.setDumpCount, Recorder.pending]
        rw [hi0]; simp

theorem recorded_append (u : α) (i : Bool) (as bs : List (Act α)) :
    recorded u i (as ++ bs) = recorded u i as ++ recorded u (injectAfter i as) bs := by
  induction as generalizing i with
  | nil => rfl
  | cons a as ih => cases a <;> simp [recorded, injectAfter, ih]

theorem injectAfter_append (i : Bool) (as bs : List (Act α)) :
    injectAfter i (as ++ bs) = injectAfter (injectAfter i as) bs := by
  induction as generalizing i with
  | nil => rfl
  | cons a as ih => cases a <;> simp [injectAfter, ih]

theorem program_append {r r' : Recorder α} {as bs : List (Act α)} (h : Program r (as ++ bs))
    (hr : r.run as = some r') : Program r' bs := by
  induction as generalizing r with
  | nil => cases hr; exact h
  | cons a as ih =>
    simp only [Recorder.run, Option.bind_eq_some_iff] at hr
    obtain ⟨r1, h1, h2⟩ := hr
    exact ih (h.2 r1 h1) h2

theorem program_left {r : Recorder α} {as bs : List (Act α)} (h : Program r (as ++ bs)) :
    Program r as := by
  induction as generalizing r with
  | nil => trivial
  | cons a as ih => exact ⟨h.1, fun r' hr => ih (h.2 r' hr)⟩

theorem run_append (r : Recorder α) (as bs : List (Act α)) :
    r.run (as ++ bs) = (r.run as).bind fun r' => r'.run bs := by
  induction as generalizing r with
  | nil => rfl
  | cons a as ih =>
    simp only [List.cons_append, Recorder.run]
    cases r.exec a with
    | none => rfl
    | some r1 => exact ih r1

/-- Everything about a program. -/
theorem run_spec {r : Recorder α} (h : Good r) {as : List (Act α)} (hp : Program r as) :
    ∃ r', r.run as = some r' ∧ Good r' ∧ r'.uuid = r.uuid ∧ r'.inject = injectAfter r.inject as ∧
      r'.pending <:+ r.pending ++ recorded r.uuid r.inject as ∧
      (∀ b, b ∈ r.backs → Open as → b ∈ r'.backs ∧ r'.got b ++ r'.pending =
        r.got b ++ r.pending ++ recorded r.uuid r.inject as) := by
  induction as generalizing r with
  | nil =>
    refine ⟨r, rfl, h, rfl, rfl, by simp [recorded], ?_⟩
    intro b hb _; exact ⟨hb, by simp [recorded]⟩
  | cons a as ih =>
    obtain ⟨r1, e1, e2, e3, e4, e5, _, e7, e8⟩ := exec_spec h hp.1
    obtain ⟨r2, k1, k2, k3, k4, k5, k6⟩ := ih e2 (hp.2 r1 e1)
    have hrec : recorded r.uuid r.inject (a :: as) = recorded r.uuid r.inject [a] ++
        recorded r.uuid r1.inject as := by
      rw [e4, ← recorded_append]; rfl
    refine ⟨r2, ?_, k2, k3.trans e3, ?_, ?_, ?_⟩
    · simp only [Recorder.run, e1, Option.bind_some]; exact k1
    · rw [k4, e4, ← injectAfter_append]; rfl
    · rw [hrec, ← List.append_assoc]
      rw [e3] at k5
      obtain ⟨x, hx⟩ := e8
      refine k5.trans ⟨x, ?_⟩
      rw [← List.append_assoc, hx]
    · intro b hb ho
      have ho' : Act.close ∉ as := fun hm => ho (List.mem_cons_of_mem _ hm)
      have hne : a ≠ .close := fun e => ho (e ▸ List.mem_cons_self)
      obtain ⟨m1, m2⟩ := k6 b (e5 b hb hne) ho'
      refine ⟨m1, ?_⟩
      rw [m2, e7 b hb, hrec, e3]
      simp

/-- **C29**.  For every dump count of at least one and every valid sequence of acts that registers the
backend `b` after `pre`, goes on with `post` and then closes the recorder: nothing goes wrong, and
during and after its registration `b` is sent all data recorded by `post`, each once and in order,
preceded only by data of `pre` that were still in the buffer when it was registered (fewer than the dump
count). -/
theorem C29_exact {n : ℕ} (hn : 1 ≤ n) (i : Bool) (u : α) {pre post : List (Act α)} {b : ℕ}
    (hp : Program (Recorder.new n i u) (pre ++ .register b :: post ++ [.close])) (ho : Open post) :
    ∃ r1 r2, (Recorder.new n i u).run pre = some r1 ∧
      (Recorder.new n i u).run (pre ++ .register b :: post ++ [.close]) = some r2 ∧
      ∃ early, early <:+ recorded u i pre ∧ early.length < r1.dumpCount ∧
        r2.got b = r1.got b ++ early ++ recorded u (injectAfter i pre) post := by
  have hg := Good.new hn i u
  rw [List.append_assoc] at hp
  obtain ⟨r1, a1, a2, a3, a4, a5, _⟩ := run_spec hg (program_left hp)
  have hp1 := program_append hp a1
  obtain ⟨r1', b1, b2, b3, b4, b5, b6, b7, b8⟩ := exec_spec (a := .register b) a2 hp1.1
  have hp2 := hp1.2 r1' b1
  obtain ⟨r3, c1, c2, c3, c4, c5, c6⟩ := run_spec b2 (program_left hp2)
  have hp3 := program_append hp2 c1
  obtain ⟨r4, d1, d2, d3, d4, d5, d6, d7, d8⟩ := exec_spec (a := .close) c2 hp3.1
  have hb1 : b ∈ r1'.backs := by
    simp only [Recorder.exec, Option.some.injEq] at b1
    rw [← b1]; simp [Recorder.register]
  obtain ⟨hb3, hgot⟩ := c6 b hb1 ho
  have e1 : r1'.got = r1.got ∧ r1'.pending = r1.pending := by
    simp only [Recorder.exec, Option.some.injEq] at b1
    rw [← b1]; exact ⟨rfl, rfl⟩
  have hrun : (Recorder.new n i u).run (pre ++ .register b :: post ++ [.close]) = some r4 := by
    rw [List.append_assoc, run_append, a1, Option.bind_some, List.cons_append]
    simp only [Recorder.run, b1, Option.bind_some]
    rw [run_append, c1, Option.bind_some]
    simp only [Recorder.run, d1, Option.bind_some]
  have hnew : (Recorder.new n i u).uuid = u ∧ (Recorder.new n i u).inject = i ∧
      (Recorder.new n i u).pending = [] := by
    simp [Recorder.new, Recorder.setDumpCount, Recorder.pending]
  rw [hnew.1, hnew.2.1, hnew.2.2, List.nil_append] at a5
  have hfin := d7 b hb3
  have hp4 : r4.pending = [] := by
    simp only [Recorder.exec, Option.some.injEq] at d1
    rw [← d1]; exact (flush_spec r3).1
  rw [hp4, hgot, e1.1, e1.2] at hfin
  refine ⟨r1, r4, a1, hrun, r1.pending, a5, ?_, ?_⟩
  · have h1 := a2.lt
    have h2 := a2.len
    simp only [Recorder.pending, List.length_take]; omega
  · rw [b3, b4, a3, a4, hnew.1, hnew.2.1] at hfin
    simpa [recorded, injectAfter] using hfin

/-- **C29**, the usual case: backends registered before anything is recorded receive exactly the
recorded data, each once and in order. -/
theorem C29_all {n : ℕ} (hn : 1 ≤ n) (i : Bool) (u : α) {bs : List ℕ}
    {as : List (Act α)} (hp : Program (Recorder.new n i u) (bs.map Act.register ++ as ++ [.close]))
    (ho : Open as) : ∃ r, (Recorder.new n i u).run (bs.map Act.register ++ as ++ [.close]) = some r ∧
      ∀ b ∈ bs, r.got b = recorded u i as := by
  have hreg : ∀ (l : List ℕ) (i : Bool), recorded u i (l.map Act.register) = [] ∧
      injectAfter i (l.map (Act.register (α := α))) = i := by
    intro l i
    induction l with
    | nil => exact ⟨rfl, rfl⟩
    | cons a l ih => exact ih
  obtain ⟨r, hr, _⟩ := run_spec (Good.new hn i u) hp
  refine ⟨r, hr, ?_⟩
  intro b hb
  obtain ⟨l1, l2, rfl⟩ := List.append_of_mem hb
  have heq : (l1 ++ b :: l2).map Act.register ++ as ++ [.close] =
      l1.map Act.register ++ .register b :: (l2.map Act.register ++ as) ++ [.close] := by simp
  rw [heq] at hp hr
  have hopen : Open (l2.map Act.register ++ as) := by
    unfold Open
    simp only [List.mem_append, List.mem_map, not_or]
    exact ⟨(by rintro ⟨x, _, hx⟩; cases hx), ho⟩
  obtain ⟨r1, r2, h1, h2, early, h3, _, h5⟩ := C29_exact hn i u hp hopen
  rw [hr] at h2
  cases h2
  rw [(hreg l1 i).1, List.suffix_nil] at h3
  subst h3
  have hgot1 : r1.got b = [] := by
    have : ∀ (l : List ℕ) (r r' : Recorder α), r.run (l.map Act.register) = some r' →
        r'.got = r.got := by
      intro l
      induction l with
      | nil => intro r r' h; cases h; rfl
      | cons a l ih =>
        intro r r' h
        simp only [List.map_cons, Recorder.run, Recorder.exec, Option.bind_some] at h
        exact (ih (r.register a) r' h).trans rfl
    rw [this l1 _ _ h1]
    rfl
  rw [h5, hgot1, (hreg l1 i).2, recorded_append, (hreg l2 i).1, (hreg l2 i).2]
  simp

/-! ## Disagreements -/

/-- Documented (`recorder.h:62-64`): with dump count 0 data "will be flushed immediately as they come".
In fact the first `NewDatum` reads beyond the end of an empty vector. -/
theorem C29_fails_zero (i : Bool) (u : α) (title : String) :
    (Recorder.new 0 i u).newDatum title = none := by
  simp [Recorder.newDatum, Recorder.new, Recorder.setDumpCount]

/-- Setting the dump count while data are buffered does not reset the index: the backend is sent empty
data without a title that nobody recorded, and the recorded one is lost. -/
theorem C29_fails_dump_count : ∃ r, (Recorder.new 5 false 0).run
    [.register 7, .datum "t" [(.lit "f", 1, none)], .setDumpCount 3, .close] = some r ∧
    r.got 7 = [⟨"", [], [], []⟩] := ⟨_, rfl, by decide +kernel⟩

/-- ... and if the new count is not larger than the index, the next datum is undefined behaviour. -/
theorem C29_fails_dump_count_small : ((Recorder.new 5 false 0).run
    [.register 7, .datum "t" [(.lit "f", 1, none)], .setDumpCount 1,
      .datum "t" [(.lit "f", 2, none)]]).isNone = true := by decide +kernel

/-- A datum that was created but not recorded (say, because of an exception) is sent to the backends
all the same. -/
theorem C29_fails_unrecorded : ∃ r p, ((Recorder.new 5 false (0 : ℕ)).register 7).newDatum "t" =
    some (r, p) ∧ (r.addVal p (.lit "f") 1 none).close.got 7 = [⟨"t", [(some "f", 1)], [[]], ["f"]⟩] :=
  ⟨_, _, rfl, by decide +kernel⟩

/-- Two data under construction at the same time: recording the first sends the second half-built, and
its later values are lost. -/
theorem C29_fails_interleaved : ∃ r1 p1 r2 p2,
    ((Recorder.new 2 false (0 : ℕ)).register 7).newDatum "a" = some (r1, p1) ∧
    r1.newDatum "b" = some (r2, p2) ∧
    ((r2.addVal p1 (.lit "x") 1 none).record.addVal p2 (.lit "y") 2 none).record.close.got 7 =
      [⟨"a", [(some "x", 1)], [[]], ["x"]⟩, ⟨"b", [], [], []⟩] :=
  ⟨_, _, _, _, rfl, rfl, by decide +kernel⟩

/-- `Flush` is documented to flush all backends (`recorder.h:111`), but does not if nothing is
buffered. -/
theorem C29_fails_flush : ((Recorder.new 2 false (0 : ℕ)).register 7).flush.flushed 7 = 0 := by
  decide +kernel

/-- Names given as `std::string` are not kept: the entry has a dangling pointer as name. -/
theorem C29_fails_name (s : String) (v : α) (d : Datum α) (sh : Option (List ℤ)) :
    ((d.addVal (.str s) v sh).vals.map Prod.fst).getLast? = some none ∧
    (d.addVal (.str s) v sh).fields.getLast? = some s := by
  simp [Datum.addVal]

/-! ## Examples -/

-- C29_exact: dump count 2, a backend registered late
example : ∃ pre post : List (Act ℕ), Program (Recorder.new 2 true 9)
      (pre ++ .register 1 :: post ++ [.close]) ∧ Open post ∧ recorded 9 true pre ≠ [] ∧
      (recorded 9 true post).length = 3 :=
  ⟨[.register 0, .datum "a" [(.lit "x", 1, none)]],
    [.datum "b" [(.lit "x", 2, none)], .datum "c" [], .flush, .datum "d" [(.lit "y", 3, some [4])]],
    by simp [Program, ValidAct, Recorder.exec, Recorder.new, Recorder.setDumpCount, Recorder.register,
      Recorder.newDatum, Recorder.record, Recorder.addVal],
    by simp [Open], by simp [recorded], by simp [recorded]⟩

-- C29_all: two backends
example : ∃ as : List (Act ℕ), Program (Recorder.new 1 false 9)
      ([3, 4].map Act.register ++ as ++ [.close]) ∧ Open as ∧ (recorded 9 false as).length = 2 :=
  ⟨[.datum "a" [(.lit "x", 1, none)], .datum "b" []],
    by simp [Program, ValidAct, Recorder.exec, Recorder.new, Recorder.setDumpCount, Recorder.register,
      Recorder.newDatum, Recorder.record, Recorder.addVal],
    by simp [Open], by simp [recorded]⟩

end Cyclus.Rec
