import Verif.Lemmas.PySource

/-!
# C135: input files in Python and the formats of input

An input in Python is exactly the simulation it defines (`C135_value_partial`), JSON converted to Python is read back
(`C135_back_partial`), the format decides how an input is read (`C135_file`, `C135_text`), and texts without a format are parsed as they are
(`C135_raw_partial`).

The code violates the rest: texts are cut at a character 0 (`C135_fails_nul`), errors in the Python file arrive in C++ as an empty text
(`C135_fails_error`), JSON whose top is not an object does not come back (`C135_fails_back`), a raw text with a format is
replaced by the empty text (`C135_fails_raw`), unknown formats are taken for XML (`C135_fails_format`), and with a format a
path is taken for the text (`C135_fails_path`).
-/

namespace Cyclus.PySource

/-- The full statement: an input in Python gives the text of the simulation it defines. -/
def C135 (V : Type) : Prop := ∀ (P : Py V) (s t : Txt), Gives P s t → toCpp (pyToJson P s) = t

/-- **C135**: an input in Python gives exactly the text of the simulation that it defines, if there is no character 0 in it. -/
theorem C135_value_partial {V : Type} (P : Py V) (s t : Txt) (hn : NoNul t) :
    (Gives P s t → pyToJson P s = .ok t ∧ toCpp (pyToJson P s) = t) ∧
    (pyToJson P s = .ok t → ∃ t', Gives P s t' ∧ t = strPyToCpp t') := by
  refine ⟨fun h => ?_, fun h => (pyToJson_iff P s t).mp h⟩
  have := (pyToJson_iff P s t).mpr ⟨t, h, (strPyToCpp_eq hn).symm⟩
  exact ⟨this, by rw [this]; rfl⟩

/-- Values of a small Python: texts, mappings with their text in JSON, lists, functions. -/
inductive Small where
  | str (t : Txt)
  | map (json : Txt)
  | list
  | fn (json : Txt)
  deriving DecidableEq

/-- A Python in which each program defines the names of `ctx`, and fails if it is "!" and a line break. -/
def small (ctx : Txt → Option Small) : Py Small where
  exec := fun s => if s = "!\n".toList then .error (.other 0) else .ok ctx
  call := fun v => match v with
    | .fn j => some (.ok (.map j))
    | _ => none
  str := fun v => match v with
    | .str t => some t
    | _ => none
  bytes := fun _ => none
  mapping := fun v => match v with
    | .map j => some (.ok j)
    | _ => none
  loads := fun s => if s = "[]".toList then .ok .list else .ok (.map s)
  pformat := fun v => match v with
    | .map j => j
    | .list => "[]".toList
    | _ => []

/-- One name is defined. -/
def only (n : String) (v : Small) : Txt → Option Small := fun m => if m = n.toList then some v else none

example : Gives (small (only "Simulation" (.fn "{}".toList))) "x".toList "{}".toList ∧ NoNul "{}".toList :=
  ⟨⟨"x\n".toList, _, .map "{}".toList, Or.inr rfl, rfl, fun h => absurd h (by decide), rfl,
    ⟨.fn "{}".toList, Or.inr (Or.inr ⟨by decide, by decide, by decide⟩), Or.inr rfl⟩, Or.inr (Or.inr ⟨rfl, rfl, rfl⟩)⟩, by unfold NoNul; decide⟩

/-- **C135 fails**: a text is cut at its first character 0. -/
theorem C135_fails_nul : ¬ C135 Small := by
  intro h
  have := h (small (only "simulation" (.str ['a', Char.ofNat 0, 'b']))) [] ['a', Char.ofNat 0, 'b']
    ⟨['\n'], _, .str ['a', Char.ofNat 0, 'b'], Or.inr rfl, rfl, fun h => absurd h (by decide), rfl,
      ⟨_, Or.inl (by decide), Or.inl ⟨rfl, rfl⟩⟩, Or.inl rfl⟩
  exact absurd this (by decide)

/-- Of several definitions, `simulation` counts before `SIMULATION`, and this before `Simulation`. -/
theorem C135_first {V : Type} (P : Py V) (ctx : Txt → Option V) (u v : V) (h : Simulation P ctx v) (hu : ctx "simulation".toList = some u)
    (hc : P.call u = none) : v = u := by
  obtain ⟨x, hx, hv⟩ := h
  have : x = u := by
    rcases hx with hx | hx | hx
    · rw [hu] at hx
      exact (Option.some.inj hx).symm
    · rw [hu] at hx
      exact (nomatch hx.1)
    · rw [hu] at hx
      exact (nomatch hx.1)
  subst this
  rcases hv with ⟨_, hv⟩ | hv
  · exact hv
  · rw [hc] at hv
    cases hv

example : ∃ (ctx : Txt → Option Small) (v : Small), Simulation (small ctx) ctx v ∧ ctx "simulation".toList = some v ∧ ctx "SIMULATION".toList ≠ none :=
  ⟨fun _ => some .list, .list, ⟨.list, Or.inl rfl, Or.inl ⟨rfl, rfl⟩⟩, rfl, by simp⟩

/-- **C135**: a value that comes from no name, or is neither a text, nor bytes, nor a mapping, is an error in Python. -/
theorem C135_none {V : Type} (P : Py V) (s : Txt) (h : ∀ t, ¬ Gives P s t) : ∃ e, pyToJson P s = .error e := by
  cases hr : pyToJson P s with
  | error e => exact ⟨e, rfl⟩
  | ok r =>
    obtain ⟨t, ht, _⟩ := (pyToJson_iff P s r).mp hr
    exact absurd ht (h t)

example : ∀ t, ¬ Gives (small fun _ => none) [] t := by
  rintro t ⟨src, ctx, v, h1, h2, h3, he, ⟨u, hu, _⟩, _⟩
  have hc : (fun _ => none) = ctx := by
    have hs : src ≠ "!\n".toList := by
      rintro rfl
      rcases h1 with h1 | h1 <;> exact absurd h1 (by decide)
    simp only [small, if_neg hs] at he
    exact Except.ok.inj he
  subst hc
  rcases hu with hu | ⟨_, hu⟩ | ⟨_, _, hu⟩ <;> cases hu

/-- **C135 fails**: C++ cannot tell a Python file with an error from one that defines the empty text. -/
theorem C135_fails_error : pyToJson (small (only "simulation" (.str []))) "!".toList = .error (.other 0) ∧
    Gives (small (only "simulation" (.str []))) [] [] ∧
    ∀ w : World, pyToXml (small (only "simulation" (.str []))) w "!".toList = pyToXml (small (only "simulation" (.str []))) w [] := by
  refine ⟨rfl, ⟨['\n'], _, .str [], Or.inr rfl, rfl, fun h => absurd h (by decide), rfl,
      ⟨_, Or.inl (by decide), Or.inl ⟨rfl, rfl⟩⟩, Or.inl rfl⟩, fun w => rfl⟩

/-- **C135**: an object in JSON that is converted to Python is read back as the JSON that Python writes for it, if Python reads what it
printed. -/
theorem C135_back_partial {V : Type} (P : Py V) (j t : Txt) (v : V) (ctx : Txt → Option V) (hl : P.loads j = .ok v) (hn : NoNul (P.pformat v))
    (hx : P.exec ("SIMULATION = ".toList ++ P.pformat v ++ ['\n']) = .ok ctx) (h0 : ctx "simulation".toList = none)
    (h1 : ctx "SIMULATION".toList = some v) (hc : P.call v = none) (hs : P.str v = none) (hb : P.bytes v = none)
    (hm : P.mapping v = some (.ok t)) (ht : NoNul t) :
    toCpp (pyToJson P (toCpp (jsonToPy P j))) = t := by
  have hp : NoNul ("SIMULATION = ".toList ++ P.pformat v ++ ['\n']) := by
    unfold NoNul
    simp only [List.mem_append, not_or]
    exact ⟨⟨by decide, hn⟩, by decide⟩
  have hj : toCpp (jsonToPy P j) = "SIMULATION = ".toList ++ P.pformat v ++ ['\n'] := by
    unfold jsonToPy
    rw [hl]
    exact strPyToCpp_eq hp
  rw [hj]
  refine ((C135_value_partial P _ t ht).1 ⟨_, ctx, v, Or.inl rfl, List.getLast?_concat, fun _ => rfl, hx, ⟨v, Or.inr (Or.inl ⟨h0, h1⟩), Or.inl ⟨hc, rfl⟩⟩,
    Or.inr (Or.inr ⟨hs, hb, hm⟩)⟩).2

example : ∃ (P : Py Small) (ctx : Txt → Option Small) (v : Small), P.loads "{}".toList = .ok v ∧ NoNul (P.pformat v) ∧
    P.exec ("SIMULATION = ".toList ++ P.pformat v ++ ['\n']) = .ok ctx ∧ ctx "simulation".toList = none ∧ ctx "SIMULATION".toList = some v ∧
    P.call v = none ∧ P.str v = none ∧ P.bytes v = none ∧ P.mapping v = some (.ok "{}".toList) :=
  ⟨small (only "SIMULATION" (.map "{}".toList)), only "SIMULATION" (.map "{}".toList), .map "{}".toList, rfl, by unfold NoNul; decide, rfl, by decide,
    by decide, rfl, rfl, rfl, rfl⟩

/-- **C135 fails**: a list in JSON is converted to Python, but the result is not an input. -/
theorem C135_fails_back : ∃ P : Py Small, jsonToPy P "[]".toList = .ok "SIMULATION = []\n".toList ∧
    pyToJson P "SIMULATION = []\n".toList = .error .runtime :=
  ⟨small (only "SIMULATION" .list), by decide, by decide⟩

/-- **C135**: without a format the extension of the file decides: its text is converted from JSON or Python, or taken as it is. -/
theorem C135_file {V : Type} (P : Py V) (w : World) (f s : Txt) (hr : w.read f = some s) :
    (w.ext f = ".json".toList → loadString P w f "none".toList = w.jsonToXml s) ∧
    (w.ext f = ".py".toList → loadString P w f "none".toList = w.jsonToXml (toCpp (pyToJson P s))) ∧
    (w.ext f ≠ ".json".toList → w.ext f ≠ ".py".toList → loadString P w f "none".toList = .ok s) := by
  unfold loadString convert pyToXml
  rw [if_pos rfl, hr]
  dsimp only
  refine ⟨fun h => ?_, fun h => ?_, fun h h' => ?_⟩
  · rw [if_pos (Or.inl h)]
  · rw [if_neg (by rw [h]; decide), if_pos (Or.inl h)]
  · rw [if_neg, if_neg]
    · rintro (hc | hc)
      · exact h' hc
      · exact absurd hc (by decide)
    · rintro (hc | hc)
      · exact h hc
      · exact absurd hc (by decide)

example : ∃ w : World, w.read "a.py".toList = some [] ∧ w.ext "a.py".toList = ".py".toList :=
  ⟨⟨fun _ => some [], fun _ => ".py".toList, fun _ => .ok [], fun _ => .ok []⟩, rfl, rfl⟩

/-- A file that cannot be read is an error. -/
theorem C135_missing {V : Type} (P : Py V) (w : World) (f : Txt) (hr : w.read f = none) : loadString P w f "none".toList = .error .io := by
  unfold loadString
  rw [if_pos rfl, hr]

example : ∃ w : World, w.read "a.py".toList = none := ⟨⟨fun _ => none, fun _ => [], fun _ => .ok [], fun _ => .ok []⟩, rfl⟩

/-- **C135**: with a format the input is the text itself, and no file is read. -/
theorem C135_text {V : Type} (P : Py V) (w : World) (s : Txt) :
    loadString P w s "json".toList = w.jsonToXml s ∧ loadString P w s "py".toList = w.jsonToXml (toCpp (pyToJson P s)) ∧
    loadString P w s "xml".toList = .ok s := ⟨rfl, rfl, rfl⟩

/-- Conversions from XML to Python go through JSON. -/
theorem C135_xml {V : Type} (P : Py V) (w : World) (s j : Txt) (h : w.xmlToJson s = .ok j) : xmlToPy P w s = .ok (toCpp (jsonToPy P j)) := by
  unfold xmlToPy
  rw [h]

example : ∃ w : World, w.xmlToJson [] = .ok "{}".toList := ⟨⟨fun _ => none, fun _ => [], fun _ => .ok [], fun _ => .ok "{}".toList⟩, rfl⟩

/-- **C135 fails**: a format that is not known is taken for XML. -/
theorem C135_fails_format {V : Type} (P : Py V) (w : World) (s g : Txt) (hg : g ≠ "none".toList ∧ g ≠ "json".toList ∧ g ≠ "py".toList) :
    loadString P w s g = .ok s := by
  unfold loadString convert
  rw [if_neg hg.1, if_neg, if_neg]
  · rintro (hc | hc)
    · exact absurd hc (by decide)
    · exact hg.2.2 hc
  · rintro (hc | hc)
    · exact absurd hc (by decide)
    · exact hg.2.1 hc

example : "JSON".toList ≠ "none".toList ∧ "JSON".toList ≠ "json".toList ∧ "JSON".toList ≠ "py".toList := by decide

/-- **C135 fails**: with a format, the path of a file that exists is converted instead of the file. -/
theorem C135_fails_path {V : Type} (P : Py V) : ∃ w : World, w.read "in.json".toList = some "{}".toList ∧
    loadString P w "in.json".toList "json".toList = w.jsonToXml "in.json".toList ∧
    w.jsonToXml "in.json".toList ≠ w.jsonToXml "{}".toList :=
  ⟨⟨fun _ => some "{}".toList, fun _ => ".json".toList, fun s => if s = "{}".toList then .ok [] else .error (.other 1), fun _ => .ok []⟩, rfl, rfl,
    by decide⟩

/-- The full statement: a raw text is read in its format. -/
def C135_raw (V : Type) : Prop := ∀ (P : Py V) (w : World) (r : Txt) (g : Option Txt), g ≠ some "none".toList →
  xmlParser P w none g (some r) = match g with
    | none => .ok r
    | some g => loadString P w r g

/-- **C135**: `XMLParser` reads a file in its format, and parses a raw text without a format as it is; without either it raises. -/
theorem C135_raw_partial {V : Type} (P : Py V) (w : World) (f r : Txt) (g raw : Option Txt) :
    xmlParser P w (some f) g raw = loadString P w f (g.getD "none".toList) ∧ xmlParser P w none none (some r) = .ok r ∧
    xmlParser P w none g none = .error .runtime := ⟨rfl, rfl, rfl⟩

/-- **C135 fails**: a raw text with a format is replaced by the empty text. -/
theorem C135_fails_raw : ¬ C135_raw Small ∧ ∀ (P : Py Small) (w : World) (r r' : Txt) (g : Txt),
    xmlParser P w none (some g) (some r) = xmlParser P w none (some g) (some r') := by
  refine ⟨fun h => ?_, fun _ _ _ _ _ => rfl⟩
  have := h (small fun _ => none) ⟨fun _ => none, fun _ => [], fun _ => .ok [], fun _ => .ok []⟩ "<a/>".toList (some "xml".toList) (by decide)
  exact absurd this (by decide)

end Cyclus.PySource
