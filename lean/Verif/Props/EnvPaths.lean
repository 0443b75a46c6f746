import Verif.Lemmas.EnvPaths

/-!
# C137: the environment of a process

The installation is the one whose program is found (`C137_found`), or the one fixed when Cyclus was built (`C137_fixed`), and it is
decided once (`C137_once`); schemas are searched in order (`C137_schema`), mixed integer programs are switched off by exactly four values in any case
(`C137_milps`), lists of paths are split without loss (`C137_split`, `C137_empty`), `PathBase` is the directory of a path with a slash
(`C137_base_partial`), and nuclear data are set to a file that exists (`C137_set_partial`).

The code violates the rest: a program found through a relative path is ignored (`C137_fails_relative`), the message for a missing schema
names the other schema (`C137_fails_message`), the variable for the schema replaces both schemas (`C137_fails_flat`), an empty item at the end of a list
is lost (`C137_fails_trailing`), a path without a slash is its own directory (`C137_fails_base`), and a missing file stays set after the
exception (`C137_fails_set`).
-/

namespace Cyclus.EnvPaths

/-- **C137**: if the program is found in a directory of an existing directory, this is the installation. -/
theorem C137_found (w : World) (d b f : Txt) (hd : Dir d) (hb : Name b) (hf : '/' ∉ f) (hw : w.which = d ++ '/' :: (b ++ '/' :: f))
    (he : w.exists d = true) (hn : Char.ofNat 0 ∉ d) : (getInstallPath w []).1 = d := by
  unfold getInstallPath
  have h1 : parent (parent w.which) = d := by
    have : w.which = (d ++ '/' :: b) ++ '/' :: f := by rw [hw]; simp
    rw [this, parent_dir _ f (dir_name d b hb) hf, parent_dir d b hd hb.2]
  have h0 : w.which ≠ [] := by rw [hw]; simp
  simp only [ne_eq, not_true_eq_false, if_false, h0, h1, he, if_true]
  exact cut_eq hn

/-- A system with the program in a directory. -/
def sys (which : String) : World where
  which := which.toList
  «exists» := fun p => p = "/usr/local".toList || p = "/opt/c/share/cyclus/cyclus.rng.in".toList
  installDir := "/opt/c".toList
  buildDir := "/build".toList
  env := fun v => if v = "ALLOW_MILPS".toList then some "False".toList else none
  milps := true
  nucData := none

example : Dir "/usr/local".toList ∧ Name "bin".toList ∧ '/' ∉ "cyclus\n".toList ∧ (getInstallPath (sys "/usr/local/bin/cyclus\n") []).1 = "/usr/local".toList := by
  unfold Dir Name
  decide

/-- **C137**: otherwise it is the directory fixed when Cyclus was built, without the characters 0 that fill it up. -/
theorem C137_fixed (w : World) (h : w.which = [] ∨ w.exists (parent (parent w.which)) = false) (d : Txt) (n : ℕ) (hd : Char.ofNat 0 ∉ d)
    (hi : w.installDir = d ++ List.replicate n (Char.ofNat 0)) : (getInstallPath w []).1 = d := by
  have hc : cut w.installDir = d := by
    rw [hi]
    exact cut_pad hd n
  unfold getInstallPath
  simp only [ne_eq, not_true_eq_false, if_false]
  rcases h with h | h
  · rw [if_pos h, ite_self]
    exact hc
  · by_cases h0 : w.which = []
    · rw [if_pos h0, ite_self]
      exact hc
    · rw [if_neg h0, h]
      exact hc

example : (sys "").which = [] ∧ (sys "").installDir = "/opt/c".toList ++ List.replicate 0 (Char.ofNat 0) ∧ (getInstallPath (sys "") []).1 = "/opt/c".toList := by
  decide

/-- **C137**: the directory is decided once: later calls give the same, whatever the system says then. -/
theorem C137_once (w w' : World) (s : Txt) (h : (getInstallPath w s).1 ≠ []) :
    getInstallPath w' (getInstallPath w s).2 = getInstallPath w s := by
  have h2 : ∀ (w : World) s, (getInstallPath w s).2 = (getInstallPath w s).1 := by
    intro w s
    unfold getInstallPath
    split <;> rfl
  have : getInstallPath w s = ((getInstallPath w s).1, (getInstallPath w s).1) := Prod.ext rfl (h2 w s)
  have h3 : ∀ x : Txt, x ≠ [] → getInstallPath w' x = (x, x) := by
    intro x hx
    unfold getInstallPath
    rw [if_pos hx]
  rw [h2 w s, h3 _ h]
  exact this.symm

example : (getInstallPath (sys "/usr/local/bin/cyclus\n") []).1 ≠ [] := by decide

/-- **C137 fails**: a program that is found through a relative path does not say where the installation is. -/
theorem C137_fails_relative (w : World) (b f : Txt) (hb : Name b) (hf : '/' ∉ f) (hw : w.which = b ++ '/' :: f) (he : w.exists [] = false) :
    (getInstallPath w []).1 = cut w.installDir := by
  have hd : Dir b := ⟨hb.1, fun h => hb.2 (List.mem_of_getLast? h)⟩
  have h1 : parent (parent w.which) = [] := by
    rw [hw, parent_dir b f hd hf]
    unfold parent
    rw [drop_none b hb.2]
  have h0 : w.which ≠ [] := by rw [hw]; simp
  unfold getInstallPath
  simp only [ne_eq, not_true_eq_false, if_false, h0, h1, he, Bool.false_eq_true]

example : Name "bin".toList ∧ (sys "bin/cyclus\n").exists [] = false ∧ (getInstallPath (sys "bin/cyclus\n") []).1 = "/opt/c".toList := by
  unfold Name
  decide

/-- **C137**: the schema is the one of the variable if it exists, else that of the installation, else that of the build,
whose directory is used without the characters 0 that fill it up. -/
theorem C137_schema (w : World) (install build : Txt) (flat : Bool) (n : ℕ) (hb : w.buildDir = build ++ List.replicate n (Char.ofNat 0)) (hn : Char.ofNat 0 ∉ build) :
    (∀ p, w.env "CYCLUS_RNG_SCHEMA".toList = some p → p ≠ [] → w.exists p = true → rngSchema w install flat = .ok p) ∧
    ((w.env "CYCLUS_RNG_SCHEMA".toList = none ∨ w.env "CYCLUS_RNG_SCHEMA".toList = some [] ∨
        ∃ p, w.env "CYCLUS_RNG_SCHEMA".toList = some p ∧ w.exists p = false) →
      (w.exists (install ++ "/share/cyclus/".toList ++ schemaName flat) = true →
        rngSchema w install flat = .ok (install ++ "/share/cyclus/".toList ++ schemaName flat)) ∧
      (w.exists (install ++ "/share/cyclus/".toList ++ schemaName flat) = false → w.exists (build ++ "/share/cyclus/".toList ++ schemaName flat) = true →
        rngSchema w install flat = .ok (build ++ "/share/cyclus/".toList ++ schemaName flat)) ∧
      (w.exists (install ++ "/share/cyclus/".toList ++ schemaName flat) = false → w.exists (build ++ "/share/cyclus/".toList ++ schemaName flat) = false →
        ∃ m, rngSchema w install flat = .error m)) := by
  constructor
  · intro p hp h0 he
    unfold rngSchema getEnv
    rw [hp]
    dsimp only
    rw [if_pos ⟨h0, he⟩]
  · intro hv
    have hne : ¬ (getEnv w "CYCLUS_RNG_SCHEMA".toList ≠ [] ∧ w.exists (getEnv w "CYCLUS_RNG_SCHEMA".toList) = true) := by
      unfold getEnv
      rcases hv with h | h | ⟨p, h, h'⟩
      · rw [h]
        exact fun hc => hc.1 rfl
      · rw [h]
        exact fun hc => hc.1 rfl
      · rw [h]
        dsimp only
        rw [h']
        exact fun hc => nomatch hc.2
    have hcut : cut w.buildDir = build := by rw [hb]; exact cut_pad hn n
    have e1 : ∀ x : Txt, x ++ "/share/cyclus/".toList ++ schemaName true = x ++ "/share/cyclus/cyclus-flat.rng.in".toList := by
      intro x
      rw [List.append_assoc]
      rfl
    have e2 : ∀ x : Txt, x ++ "/share/cyclus/".toList ++ schemaName false = x ++ "/share/cyclus/cyclus.rng.in".toList := by
      intro x
      rw [List.append_assoc]
      rfl
    cases flat with
    | true =>
      rw [e1, e1]
      have hu : rngSchema w install true = if w.exists (install ++ "/share/cyclus/cyclus-flat.rng.in".toList) then .ok (install ++ "/share/cyclus/cyclus-flat.rng.in".toList)
          else if w.exists (build ++ "/share/cyclus/cyclus-flat.rng.in".toList) then .ok (build ++ "/share/cyclus/cyclus-flat.rng.in".toList)
          else .error "cyclus.rng.in not found".toList := by
        unfold rngSchema
        dsimp only
        rw [if_neg hne, hcut]
        rfl
      rw [hu]
      refine ⟨fun h => ?_, fun h h' => ?_, fun h h' => ⟨"cyclus.rng.in not found".toList, ?_⟩⟩
      · rw [if_pos h]
      · rw [if_neg (by rw [h]; exact Bool.false_ne_true), if_pos h']
      · rw [if_neg (by rw [h]; exact Bool.false_ne_true), if_neg (by rw [h']; exact Bool.false_ne_true)]
    | false =>
      rw [e2, e2]
      have hu : rngSchema w install false = if w.exists (install ++ "/share/cyclus/cyclus.rng.in".toList) then .ok (install ++ "/share/cyclus/cyclus.rng.in".toList)
          else if w.exists (build ++ "/share/cyclus/cyclus.rng.in".toList) then .ok (build ++ "/share/cyclus/cyclus.rng.in".toList)
          else .error "cyclus-flat.rng.in not found".toList := by
        unfold rngSchema
        dsimp only
        rw [if_neg hne, hcut]
        rfl
      rw [hu]
      refine ⟨fun h => ?_, fun h h' => ?_, fun h h' => ⟨"cyclus-flat.rng.in not found".toList, ?_⟩⟩
      · rw [if_pos h]
      · rw [if_neg (by rw [h]; exact Bool.false_ne_true), if_pos h']
      · rw [if_neg (by rw [h]; exact Bool.false_ne_true), if_neg (by rw [h']; exact Bool.false_ne_true)]

example : (sys "").env "CYCLUS_RNG_SCHEMA".toList = none ∧ (sys "").exists ("/opt/c".toList ++ "/share/cyclus/".toList ++ schemaName false) = true ∧
    (sys "").exists ("/opt/c".toList ++ "/share/cyclus/".toList ++ schemaName true) = false := by decide

/-- **C137 fails**: the message for a schema that is missing names the other one. -/
theorem C137_fails_message : rngSchema (sys "") "/opt/c".toList false = .ok "/opt/c/share/cyclus/cyclus.rng.in".toList ∧
    rngSchema (sys "") "/opt/c".toList true = .error "cyclus.rng.in not found".toList := by decide

/-- **C137 fails**: the variable replaces the schema for flat inputs and the other one alike. -/
theorem C137_fails_flat (w : World) (i i' p : Txt) (h : w.env "CYCLUS_RNG_SCHEMA".toList = some p) (h0 : p ≠ []) (he : w.exists p = true) :
    rngSchema w i true = rngSchema w i' false := by
  unfold rngSchema getEnv
  rw [h]
  dsimp only
  rw [if_pos ⟨h0, he⟩, if_pos ⟨h0, he⟩]

example : ∃ w : World, w.env "CYCLUS_RNG_SCHEMA".toList = some "/a".toList ∧ w.exists "/a".toList = true :=
  ⟨⟨[], fun _ => true, [], [], fun _ => some "/a".toList, true, none⟩, rfl, rfl⟩

/-- **C137**: mixed integer programs are allowed as fixed when Cyclus was built, or unless the variable is one of the four values, in any
case. -/
theorem C137_milps (w : World) : (w.env "ALLOW_MILPS".toList = none → allowMilps w = w.milps) ∧
    ∀ v, w.env "ALLOW_MILPS".toList = some v → (allowMilps w = false ↔ Off v) := by
  unfold allowMilps Off
  refine ⟨fun h => by rw [h], fun v h => ?_⟩
  rw [h]
  simp only [Bool.not_eq_false', Bool.or_eq_true, beq_iff_eq]
  constructor
  · rintro (((h | h) | h) | h)
    · exact Or.inl h
    · exact Or.inr (Or.inl h)
    · exact Or.inr (Or.inr (Or.inl h))
    · exact Or.inr (Or.inr (Or.inr h))
  · rintro (h | h | h | h)
    · exact Or.inl (Or.inl (Or.inl h))
    · exact Or.inl (Or.inl (Or.inr h))
    · exact Or.inl (Or.inr h)
    · exact Or.inr h

example : (sys "").env "ALLOW_MILPS".toList = some "False".toList ∧ allowMilps (sys "") = false := by decide

/-- **C137**: a list of paths is split into items without the delimiter which, written with it, give the list again, but for one
delimiter at its end. -/
theorem C137_split (s : Txt) (d : Char) : (∀ x ∈ splitPath s d, d ∉ x) ∧
    (s.getLast? ≠ some d → join d (splitPath s d) = s) ∧ (s.getLast? = some d → join d (splitPath s d) ++ [d] = s) := by
  have h := lines_join d s [] (by simp)
  refine ⟨lines_mem d s [] (by simp), fun hl => ?_, fun hl => ?_⟩
  · rw [if_neg hl] at h
    exact h
  · rw [if_pos hl] at h
    exact h

/-- An empty list has no items. -/
theorem C137_empty (d : Char) : splitPath [] d = [] := rfl

example : splitPath "/a:b::c".toList ':' = ["/a".toList, "b".toList, [], "c".toList] ∧ "/a:b::c".toList.getLast? ≠ some ':' := by decide

/-- **C137 fails**: an empty item at the end of a list is lost. -/
theorem C137_fails_trailing : join ':' ["a".toList, []] = "a:".toList ∧ splitPath "a:".toList ':' = ["a".toList] ∧
    splitPath "a:".toList ':' = splitPath "a".toList ':' := by decide

/-- **C137**: the base of a path with a slash is what comes before its last slash. -/
theorem C137_base_partial (b f : Txt) (hf : '/' ∉ f) : pathBase (b ++ '/' :: f) = b := by
  unfold pathBase
  rw [drop_last b f hf]
  exact List.reverse_reverse b

example : '/' ∉ "c".toList ∧ pathBase "/a/b/c".toList = "/a/b".toList := by decide

/-- **C137 fails**: a path without a slash is its own base, whatever it is. -/
theorem C137_fails_base (p : Txt) (hp : '/' ∉ p) : pathBase p = p := by
  unfold pathBase
  rw [drop_none p hp]

example : '/' ∉ "input.xml".toList := by decide

/-- The full statement: the path of the nuclear data is a file that exists, or unchanged. -/
def C137_set : Prop := ∀ (w : World) (old p : Txt), (w.exists p = true → setNucData w old p = (p, false)) ∧
  (w.exists p = false → setNucData w old p = (old, true))

/-- **C137**: a file that exists is set, a file that does not throws, and the default is only set if it was found. -/
theorem C137_set_partial (w : World) (old p : Txt) : (w.exists p = true → setNucData w old p = (p, false)) ∧
    (w.exists p = false → (setNucData w old p).2 = true) ∧ (w.nucData = none → setDefault w old = (old, true)) ∧
    (w.nucData = some p → setDefault w old = (p, false)) := by
  unfold setNucData setDefault
  refine ⟨fun h => by rw [h]; rfl, fun h => by rw [h]; rfl, fun h => by rw [h], fun h => by rw [h]⟩

example : (sys "").exists "/usr/local".toList = true ∧ (sys "").exists "/x".toList = false ∧ (sys "").nucData = none := by decide

/-- **C137 fails**: after the exception for a file that does not exist, the path is set to it all the same. -/
theorem C137_fails_set : ¬ C137_set := by
  intro h
  have := (h (sys "") "/usr/local".toList "/x".toList).2 (by decide)
  exact absurd this (by decide)

end Cyclus.EnvPaths
