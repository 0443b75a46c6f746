import Verif.Model.Diag
import Mathlib.Tactic.IntervalCases
import Mathlib.Tactic.Linarith
import Mathlib.Data.List.GetD

/-!
# C102: warnings and log messages appear exactly when they are enabled
-/

namespace Cyclus.Diag

/-! ## Specification -/

/-- The words for a kind of warning. -/
def words : List (Kind × List Char) := [
  (.warning, ['W', 'a', 'r', 'n', 'i', 'n', 'g']), (.value, ['V', 'a', 'l', 'u', 'e', ' ', 'W', 'a',
      'r', 'n', 'i', 'n', 'g']),
  (.key, ['K', 'e', 'y', ' ', 'W', 'a', 'r', 'n', 'i', 'n', 'g']), (.state, ['S', 't', 'a', 't', 'e',
      ' ', 'W', 'a', 'r', 'n', 'i', 'n', 'g']),
  (.io, ['I', '/', 'O', ' ', 'W', 'a', 'r', 'n', 'i', 'n', 'g']), (.cast, ['C', 'a', 's', 't', ' ',
      'W', 'a', 'r', 'n', 'i', 'n', 'g']),
  (.validation, ['V', 'a', 'l', 'i', 'd', 'a', 't', 'i', 'o', 'n', ' ', 'W', 'a', 'r', 'n', 'i', 'n', 'g']),
  (.deprecation, ['D', 'e', 'p', 'r', 'e', 'c', 'a', 't', 'i', 'o', 'n', ' ', 'W', 'a', 'r', 'n', 'i',
      'n', 'g']),
  (.pending, ['P', 'e', 'n', 'd', 'i', 'n', 'g', ' ', 'D', 'e', 'p', 'r', 'e', 'c', 'a', 't', 'i',
      'o', 'n', ' ', 'W', 'a', 'r', 'n', 'i', 'n', 'g']),
  (.experimental, ['E', 'x', 'p', 'e', 'r', 'i', 'm', 'e', 'n', 't', 'a', 'l', ' ', 'W', 'a', 'r',
      'n', 'i', 'n', 'g'])]

/-- The number of warnings of a kind. -/
def howMany (k : Kind) (ws : List (Kind × List Char)) : ℕ := (ws.filter fun w => w.1 = k).length

/-- The line of a warning. -/
def IsLine (k : Kind) (msg out : List Char) : Prop :=
  ∃ t, (k, t) ∈ words ∧ out = t ++ [':', ' '] ++ msg ++ ['\n']

/-- The notice that warnings of a kind are no longer shown. -/
def IsNotice (k : Kind) (out : List Char) : Prop :=
  ∃ t, (k, t) ∈ words ∧ out = ['F', 'u', 'r', 't', 'h', 'e', 'r', ' '] ++ t ++ ['s', ' ', 'w', 'i',
      'l', 'l', ' ', 'b', 'e', ' ', 's', 'u', 'p', 'p', 'r', 'e', 's', 's', 'e', 'd', '.', '\n']

/-- What a warning writes after `n` others of its kind: the first `limit` are shown, the next one is
replaced with the notice unless none is shown at all, and the others are not shown. -/
def Shows (limit n : ℕ) (k : Kind) (msg out : List Char) : Prop :=
  (n < limit → IsLine k msg out) ∧ (n = limit → 0 < limit → IsNotice k out) ∧
  (limit < n ∨ limit = 0 → out = [])

/-- The error that stands for a warning. -/
def ErrorOf (k : Kind) (e : Err) : Prop :=
  (k, e) ∈ [(.value, .value), (.key, .key), (.state, .state), (.io, .io), (.cast, Err.cast),
    (.validation, Err.valid), (.warning, .generic), (.deprecation, .generic), (.pending, .generic),
    (.experimental, .generic)]

/-! ## Warnings -/

theorem title_words (k : Kind) : (k, k.title) ∈ words := by
  cases k <;> decide +kernel

theorem warnings_length (limit : ℕ) (b : Bool) (ws : List (Kind × List Char)) (c : Counts) :
    (warnings limit b c ws).length = ws.length := by
  induction ws generalizing c with
  | nil => rfl
  | cons w ws ih => simp [warnings, ih]

theorem warnings_get (limit : ℕ) (ws : List (Kind × List Char)) (c : Counts) (hc : ∀ k, c k < 2 ^ 32) (i : ℕ)
    (k : Kind) (msg : List Char) (hi : ws[i]? = some (k, msg)) :
    (warnings limit false c ws)[i]? =
      some (warn limit false (fun k => (c k + howMany k (ws.take i)) % 2 ^ 32) k msg).2 := by
  induction ws generalizing c i with
  | nil => simp at hi
  | cons w ws ih =>
    cases i with
    | zero =>
      simp only [List.getElem?_cons_zero, Option.some.injEq] at hi
      subst hi
      simp only [warnings, List.getElem?_cons_zero]
      congr 2
      have h1 : ∀ k' : Kind, (c k' + howMany k' (List.take 0 ((k, msg) :: ws))) % 2 ^ 32 = c k' := fun j => by
        have : howMany j (List.take 0 ((k, msg) :: ws)) = 0 := rfl
        rw [this, Nat.add_zero, Nat.mod_eq_of_lt (hc j)]
      simp only [h1]
    | succ i =>
      simp only [List.getElem?_cons_succ] at hi
      simp only [warnings, List.getElem?_cons_succ]
      rw [ih _ _ i hi]
      · congr 3
        funext j
        simp only [warn, Bool.false_eq_true, if_false, List.take_succ_cons]
        unfold howMany
        by_cases hj : j = w.1
        · subst hj
          simp only [Function.update_self, List.filter_cons, decide_true, if_true, List.length_cons]
          rw [Nat.mod_add_mod]
          congr 1
          omega
        · have : ¬ w.1 = j := fun h => hj h.symm
          simp [Function.update_of_ne hj, List.filter_cons, this]
      · intro j
        simp only [warn, Bool.false_eq_true, if_false]
        by_cases hj : j = w.1
        · subst hj
          simp only [Function.update_self]
          exact Nat.mod_lt _ (by decide)
        · rw [Function.update_of_ne hj]
          exact hc j

theorem warn_shows (limit : ℕ) (c : Counts) (k : Kind) (msg : List Char) :
    ∃ out, (warn limit false c k msg).2 = .ok out ∧ Shows limit (c k) k msg out := by
  refine ⟨_, rfl, ?_, ?_, ?_⟩
  · intro h
    exact ⟨_, title_words k, by rw [if_pos h]⟩
  · intro h h0
    exact ⟨_, title_words k, by rw [if_neg (by omega), if_neg (by omega), if_pos h]⟩
  · intro h
    rw [if_neg (by omega)]
    split_ifs
    · rfl
    · omega
    · rfl

/-- C102 (warnings).  Of the warnings of each kind the first `limit` are written, with the words for the
kind in front, then once that further ones are suppressed, and then nothing; independently of those of
other kinds, for every sequence of fewer than 2^32 warnings.  If warnings are errors, each throws the
error of its kind and none is counted. -/
theorem C102_warnings (limit : ℕ) (ws : List (Kind × List Char)) :
    (ws.length < 2 ^ 32 → ∀ (i : ℕ) k msg, ws[i]? = some (k, msg) →
      ∃ out, (warnings limit false (fun _ => 0) ws)[i]? = some (.ok out) ∧
        Shows limit (howMany k (ws.take i)) k msg out) ∧
    (∀ (c : Counts) (i : ℕ) k msg, ws[i]? = some (k, msg) →
      ∃ e, (warnings limit true c ws)[i]? = some (.error e) ∧ ErrorOf k e) ∧
    (∀ c k msg, (warn limit true c k msg).1 = c) := by
  refine ⟨fun hl i k msg hi => ?_, fun c i k msg hi => ?_, fun c k msg => rfl⟩
  · rw [warnings_get limit ws _ (by simp) i k msg hi]
    obtain ⟨out, h1, h2⟩ := warn_shows limit (fun k => (0 + howMany k (ws.take i)) % 2 ^ 32) k msg
    refine ⟨out, by rw [h1], ?_⟩
    have hb : howMany k (ws.take i) < 2 ^ 32 := by
      unfold howMany
      refine lt_of_le_of_lt (List.length_filter_le _ _) (lt_of_le_of_lt ?_ hl)
      rw [List.length_take]
      exact Nat.min_le_right _ _
    simpa only [Nat.zero_add, Nat.mod_eq_of_lt hb] using h2
  · induction ws generalizing i with
    | nil => simp at hi
    | cons w ws ih =>
      cases i with
      | zero =>
        simp only [List.getElem?_cons_zero, Option.some.injEq] at hi
        subst hi
        refine ⟨k.thrown, rfl, ?_⟩
        cases k <;> simp [ErrorOf, Kind.thrown]
      | succ i => exact ih i hi

/-- A case of `C102_warnings`: the third value warning with a limit of 2, after a key warning. -/
example : warnings 2 false (fun _ => 0) [(.value, ['a']), (.key, ['b']), (.value, ['c']), (.value, ['d']),
      (.value, ['e'])] = [.ok (['V', 'a', 'l', 'u', 'e', ' ', 'W', 'a', 'r', 'n', 'i', 'n', 'g', ':',
          ' ', 'a', '\n']), .ok (['K', 'e', 'y', ' ', 'W', 'a', 'r', 'n', 'i', 'n', 'g', ':', ' ',
              'b', '\n']),
      .ok (['V', 'a', 'l', 'u', 'e', ' ', 'W', 'a', 'r', 'n', 'i', 'n', 'g', ':', ' ', 'c',
          '\n']), .ok (['F', 'u', 'r', 't', 'h', 'e', 'r', ' ', 'V', 'a', 'l', 'u', 'e', ' ', 'W',
              'a', 'r', 'n', 'i', 'n', 'g', 's', ' ', 'w', 'i', 'l', 'l', ' ', 'b', 'e', ' ', 's',
                  'u', 'p', 'p', 'r', 'e', 's', 's', 'e', 'd', '.', '\n']), .ok []] := by
  simp [warnings, warn, Kind.title, Function.update]

/-- C102 is false for 2^32 warnings of a kind and more: the count starts again from 0, and the warnings are
shown again. -/
theorem C102_fails_wrap : ∃ ws : List (Kind × List Char), ∃ i out,
    howMany .value (ws.take i) = 2 ^ 32 ∧ ws[i]? = some (.value, []) ∧
    (warnings 1 false (fun _ => 0) ws)[i]? = some (.ok out) ∧ IsLine .value [] out := by
  refine ⟨List.replicate (2 ^ 32 + 1) (.value, []), 2 ^ 32, Kind.title .value ++ [':',
      ' '] ++ [] ++ ['\n'], ?_, ?_, ?_,
    ⟨_, title_words _, rfl⟩⟩
  · simp only [howMany, List.take_replicate, List.filter_replicate, decide_true, if_true, List.length_replicate]
    omega
  · rw [List.getElem?_replicate, if_pos (by omega)]
  · rw [warnings_get 1 _ _ (by simp) _ .value [] (by rw [List.getElem?_replicate, if_pos (by omega)])]
    have : (0 + howMany .value ((List.replicate (2 ^ 32 + 1) ((.value, []) : Kind × List Char)).take (2 ^ 32))) %
        2 ^ 32 = 0 := by
      simp only [howMany, List.take_replicate, List.filter_replicate, decide_true, if_true,
        List.length_replicate]
      omega
    simp only [warn, Bool.false_eq_true, if_false, this, Nat.zero_lt_one, if_true]

/-! ## Log messages -/

/-- The levels, from the least verbose one. -/
def levels : List (List Char) := [
  ['E', 'R', 'R', 'O', 'R'], ['W', 'A', 'R', 'N'], ['I', 'N', 'F', 'O', '1'], ['I', 'N', 'F', 'O',
      '2'], ['I', 'N', 'F', 'O', '3'],
  ['I', 'N', 'F', 'O', '4'], ['I', 'N', 'F', 'O', '5'], ['D', 'E', 'B', 'U', 'G', '1'], ['D', 'E',
      'B', 'U', 'G', '2'],
  ['D', 'E', 'B', 'U', 'G', '3'], ['D', 'E', 'B', 'U', 'G', '4'], ['D', 'E', 'B', 'U', 'G', '5']]

/-- C102 (verbosity).  `-v` with the number of a level or with its name makes it the level of the report;
any other text of more than two characters makes that the level of errors.  Nothing else is changed. -/
theorem C102_verbosity (l : Log) :
    (∀ (n : ℕ) (name : List Char), levels[n]? = some name →
      l.verb (['L', 'E', 'V', '_'] ++ name) = { l with report := n }) ∧
    (∀ n : ℕ, n < 10 → l.verb [Char.ofNat (n + 48)] = { l with report := n } ∧
      l.verb ['0', Char.ofNat (n + 48)] = { l with report := n } ∧
      l.verb ['1', Char.ofNat (n + 48)] = { l with report := 10 + n }) ∧
    (∀ v : List Char, 2 < v.length → (∀ name ∈ levels, v ≠ ['L', 'E', 'V', '_'] ++ name) →
      l.verb v = { l with report := 0 }) := by
  refine ⟨fun n name h => ?_, fun n hn => ?_, fun v hv h => ?_⟩
  · have hn : n < 12 := by
      by_contra hc
      rw [List.getElem?_eq_none (by simp [levels]; omega)] at h
      simp at h
    have key : ∀ n : ℕ, n < 12 → ∀ name ∈ levels[n]?, toLogLevel (['L', 'E', 'V', '_'] ++ name) = n ∧
        ¬ (['L', 'E', 'V', '_'] ++ name).length < 3 := by decide +kernel
    have := key n hn name h
    unfold Log.verb
    rw [if_neg this.2, this.1]
  · have key : ∀ n : ℕ, n < 10 → Info.castLong (Info.strtol [Char.ofNat (n + 48)]) = n ∧
        Info.castLong (Info.strtol ['0', Char.ofNat (n + 48)]) = n ∧
        Info.castLong (Info.strtol ['1', Char.ofNat (n + 48)]) = 10 + n := by decide +kernel
    obtain ⟨h1, h2, h3⟩ := key n hn
    unfold Log.verb
    simp only [List.length_cons, List.length_nil, h1, h2, h3]
    simp
  · unfold Log.verb
    rw [if_neg (by omega)]
    have : names.findIdx? (fun n => decide (['L', 'E', 'V', '_'] ++ n = v)) = none := by
      rw [List.findIdx?_eq_none_iff]
      intro n hn
      have : n ∈ levels := hn
      simpa using fun hc => h n this hc.symm
    unfold toLogLevel
    rw [this]

/-- A case of `C102_verbosity`. -/
example : levels[4]? = some ['I', 'N', 'F', 'O', '3'] ∧ (Log.start.verb ['L', 'E', 'V', '_', 'I', 'N',
    'F', 'O', '3']).report = 4 ∧
    (Log.start.verb ['1', '1']).report = 11 ∧ (Log.start.verb ['l', 'o', 'u',
        'd']).report = 0 := by decide +kernel

/-- The word for a source: at most six characters of it are shown. -/
def Source.word : Source → List Char
  | .agent pre => pre
  | .core => ['c', 'o', 'r', 'e']
  | .memory => ['m', 'e', 'm', 'o', 'r', 'y']

/-- The source is switched off. -/
def Off (l : Log) : Source → Prop
  | .agent _ => l.noAgent = true
  | .core => False
  | .memory => l.noMem = true

/-- C102 (messages).  A message of one of the levels is written if its level is at most that of the report
and its source is not switched off, and else nothing is; a higher level of the report shows at least the
same messages. -/
theorem C102_messages (l : Log) (src : Source) (level : ℤ) (text : List Char) :
    (l.put src level text ≠ [] ↔ level ≤ l.report ∧ ¬ Off l src) ∧
    ∀ r : ℤ, l.report ≤ r → l.put src level text ≠ [] →
      ({ l with report := r } : Log).put src level text = l.put src level text := by
  have hh : ∀ p, header level p ++ text ++ ['\n'] ≠ [] := fun p => by simp
  constructor
  · cases src with
    | agent p =>
      simp only [Log.put, Off]
      split_ifs with h
      · simp only [ne_eq, not_true_eq_false, false_iff]
        rcases h with h | h
        · exact fun hc => absurd hc.1 (by omega)
        · exact fun hc => hc.2 h
      · push Not at h
        simp [h.1, h.2]
    | core =>
      simp only [Log.put, Off]
      split_ifs with h
      · simp; omega
      · simp; omega
    | memory =>
      simp only [Log.put, Off]
      split_ifs with h
      · simp only [ne_eq, not_true_eq_false, false_iff]
        rcases h with h | h
        · exact fun hc => absurd hc.1 (by omega)
        · exact fun hc => hc.2 h
      · push Not at h
        simp [h.1, h.2]
  · intro r hr
    cases src with
    | agent p =>
      simp only [Log.put]
      split_ifs with h h' h' <;> simp_all
      omega
    | core =>
      simp only [Log.put]
      split_ifs with h h' h' <;> simp_all
      omega
    | memory =>
      simp only [Log.put]
      split_ifs with h h' h' <;> simp_all
      omega

/-- A case of `C102_messages`. -/
example : (⟨4, true, false⟩ : Log).put .core 4 ['x'] ≠ [] ∧ (⟨4, true, false⟩ : Log).put (.agent ['S']) 4 ['x'] = [] := by
  decide +kernel

/-- C102 (form of messages).  A message that is written consists of the level in six places, right
aligned, the word for the source in six places in parentheses, left aligned and cut off if it is longer,
a colon, two blanks for each level above `INFO1`, the text and the end of the line. -/
theorem C102_form (l : Log) (src : Source) (n : ℕ) (name text : List Char) (hn : levels[n]? = some name)
    (hl : (n : ℤ) ≤ l.report) (ho : ¬ Off l src) :
    ∃ b c : ℕ, b + name.length = 6 ∧
      l.put src n text = List.replicate b ' ' ++ name ++ ['('] ++
        (src.word.take 6 ++ List.replicate c ' ') ++ [')',
            ':'] ++ List.replicate (2 * (n - 2)) ' ' ++ text ++
        ['\n'] ∧
      (src.word.take 6).length + c = 6 := by
  have hlt : n < 12 := by
    by_contra hc
    rw [List.getElem?_eq_none (by simp [levels]; omega)] at hn
    simp at hn
  have hlen : ∀ m ∈ levels, m.length ≤ 6 := by decide +kernel
  have hle := hlen name (List.mem_of_getElem? hn)
  have hp : l.put src n text = header n src.word ++ text ++ ['\n'] := by
    cases src with
    | agent p =>
      simp only [Log.put]
      rw [if_neg]
      · rfl
      · rintro (h | h)
        · omega
        · exact ho h
    | core =>
      simp only [Log.put]
      rw [if_neg (by omega)]
      rfl
    | memory =>
      simp only [Log.put]
      rw [if_neg]
      · rfl
      · rintro (h | h)
        · omega
        · exact ho h
  refine ⟨6 - name.length, 6 - (src.word.take 6).length, by omega, ?_, ?_⟩
  · rw [hp]
    have h1 : levelText n = List.replicate (6 - name.length) ' ' ++ name := by
      unfold levelText
      rw [if_neg (by omega)]
      have : names[(n : ℤ).toNat]? = some name := hn
      rw [this]
      rfl
    have h2 : ((if (n : ℤ) - 2 < 0 then 0 else (n : ℤ) - 2) * 2).toNat = 2 * (n - 2) := by
      split_ifs <;> omega
    unfold header
    simp only [h1, h2]
  · have := List.length_take_le 6 src.word
    omega

/-- A case of `C102_form`. -/
example : (⟨4, false, false⟩ : Log).put (.agent ['R', 'e', 'a', 'c', 't', 'o', 'r']) 3 ['x'] = [' ',
    'I', 'N', 'F', 'O', '2', '(', 'R', 'e', 'a', 'c', 't', 'o', ')', ':', ' ', ' ', 'x',
        '\n'] := by decide +kernel

/-- C102 (switches).  The options of the command line and `SetNoAgent` switch off the messages of their
source and leave the others as they are. -/
theorem C102_switches (l : Log) (src : Source) :
    (Off l.optNoAgent src ↔ Off l src ∨ ∃ p, src = .agent p) ∧
    (Off l.optNoMem src ↔ Off l src ∨ src = .memory) ∧
    (∀ b, Off (l.setNoAgent b) src ↔ (∃ p, src = .agent p) ∧ b = true ∨ (¬ ∃ p, src = .agent p) ∧ Off l src) ∧
    l.optNoAgent.report = l.report ∧ l.optNoMem.report = l.report ∧ (∀ b, (l.setNoAgent b).report = l.report) := by
  refine ⟨?_, ?_, fun b => ?_, rfl, rfl, fun _ => rfl⟩ <;>
    cases src <;> simp [Off, Log.optNoAgent, Log.optNoMem, Log.setNoAgent]

/-- C102 is false for `SetNoMem`, which Python's `--no-mem` calls: it switches off the messages of agents
and not those of the memory. -/
theorem C102_fails_no_mem : (Log.start.setNoMem true).put .memory 0 ['x'] ≠ [] ∧
    (Log.start.setNoMem true).put (.agent ['S']) 0 ['x'] = [] := by decide +kernel

/-- C102 is false for Python's constant `LEV_DEBUG1`, which is the level `INFO5`; the other constants are
right. -/
theorem C102_fails_debug1 : (['D', 'E', 'B', 'U', 'G', '1'], 6) ∈ pyLevel ∧ levels[6]? = some ['I',
    'N', 'F', 'O', '5'] ∧
    ∀ e ∈ pyLevel, e.1 ≠ ['D', 'E', 'B', 'U', 'G', '1'] → levels[e.2.toNat]? = some e.1 := by decide +kernel

/-- C102 is false for short texts of `-v` that are no levels: `-1` suppresses the messages of errors, and
`1x` is taken for 1. -/
theorem C102_fails_verb : (Log.start.verb ['-', '1']).put .core 0 ['x'] = [] ∧
    (Log.start.verb ['1', 'x']).report = 1 := by decide +kernel

end Cyclus.Diag
