import Verif.Lemmas.VLFiles

/-!
# C110: values of variable-length types survive in the file

The full statement is: a value for which `VLWrite` has returned is read back by its digest, in the same
session or after the file is opened again, whichever variation of its C++ type the column has; and each digest
is listed once among the keys. The vocabulary (`Holds`, `Apart`, `Reach`, `Covers`) is in
`Verif/Spec/VLFiles.lean`.

`VLWrite` appends the digest before it stores the value, so after an exception a value may be listed that is
not there, and it is never stored afterwards (`C110_fails_lost`, `C110_fails_index`). Opening an existing file
gives a HDF5 type only to the variation that opens the data set first (`C110_fails_variation`).
-/

namespace Cyclus.VLFiles.C110

variable {T N D : Type} [DecidableEq T] [DecidableEq N]
variable {ty : Types T N D} {H : Val N D → Digest} {U : Val N D → Prop}

/-- The digest is inside the value array: no component is `UINT_MAX`. -/
def Inside (k : Digest) : Prop := ∀ i, (k i).val ≠ 4294967295

theorem fits_iff (k : Digest) : fits k = true ↔ Inside k := by
  simp only [fits, Inside, decide_eq_true_eq]
  refine forall_congr' fun i => ?_
  have := (k i).isLt
  omega

/-- As long as no write ends with an exception, the file holds every value that was written, in whichever
variation and whether or not it was opened again since; reads that fail do no harm. -/
theorem C110_holds_partial (hU : Apart H U) (hfull : ∀ n, ty.fam (ty.full n) = n)
    {w : List (T × Val N D)} {s : Back T N D} (h : Reach ty H U w s) {t : T} {v : Val N D}
    (hv : (t, v) ∈ w) : Holds H s.file v :=
  (h.inv hU hfull).2 (t, v) hv

/-- The file is opened again and the tables for the types `ts` are created. The values written before are
read back, in any order and each in any variation `t` of its C++ type, if each type that is used is among
`ts`, or is entered by the constructor, or is the only one used of its C++ type. -/
theorem C110_read_partial (hU : Apart H U) (hfull : ∀ n, ty.fam (ty.full n) = n)
    {w : List (T × Val N D)} {s : Back T N D} (h : Reach ty H U w s) (used ts : List T)
    (hts : ∀ t ∈ used, t ∈ ts ∨ ty.preset t = true ∨ ∀ t' ∈ used, ty.fam t' = ty.fam t → t' = t)
    (rs : List (T × Val N D)) (hrs : ∀ p ∈ rs, (∃ t, (t, p.2) ∈ w) ∧ Covers ty used p.1 p.2)
    (hfit : ∀ p ∈ rs, ∀ x ∈ p.2.subs, Inside (H x)) :
    ∃ f₀, ∀ f, f₀ ≤ f → ∃ s',
      readAll ty f (rs.map fun p => (p.1, H p.2)) (.create (.open ty s.file) ts) =
        some (s', .ok (rs.map Prod.snd)) := by
  simp only [← fits_iff] at hfit
  have hh := (h.inv hU hfull).2
  obtain ⟨a, _, _, d⟩ := create_file (.open ty s.file : Back T N D) ts
  have hu : Usable ty (· ∈ used) (.create (.open ty s.file) ts) := by
    intro t ht
    rw [d, create_dts]
    by_cases hp : ty.preset t = true
    · exact .inl (by simp [Back.open, hp])
    · by_cases htt : t ∈ ts
      · exact .inl (by simp [Back.open, hp, htt])
      · refine .inr ⟨by simp [Back.open, hp, htt], rfl, fun t' ht' hf => ?_⟩
        rcases hts t ht with h | h | h
        · exact absurd h htt
        · exact absurd h hp
        · exact h t' ht' hf
  refine ⟨(rs.map fun p => p.2.subs.length).sum, fun f hf => ?_⟩
  obtain ⟨s', h1, _⟩ := readAll_usable (P := (· ∈ used)) (H := H) hfull f rs
    (.create (.open ty s.file) ts) (fun p hp => by
      obtain ⟨⟨t, ht⟩, c1, c2, c3⟩ := hrs p hp
      refine ⟨?_, c1, c2, c3, hfit p hp, ?_⟩
      · refine le_trans ?_ hf
        exact length_le_sum hp
      · rw [a]; exact hh (t, p.2) ht) hu
  exact ⟨s', h1⟩

/-- A session on a new or existing file that creates the tables for all types it uses: no write fails, the
digests are returned, and afterwards all values written in this session or before are read back. -/
theorem C110_session_partial (hU : Apart H U) (hfull : ∀ n, ty.fam (ty.full n) = n)
    {w : List (T × Val N D)} {s : Back T N D} (h : Reach ty H U w s) (ts : List T)
    (ws : List (T × Val N D)) (hws : ∀ p ∈ ws, U p.2 ∧ Covers ty ts p.1 p.2)
    (hfit : ∀ p ∈ ws ++ w, ∀ x ∈ p.2.subs, Inside (H x))
    (rs : List (T × Val N D)) (hrs : ∀ p ∈ rs, (∃ t, (t, p.2) ∈ ws ++ w) ∧ Covers ty ts p.1 p.2) :
    ∃ s', writeAll ty H ws (.create (.open ty s.file) ts) = (s', .ok (ws.map fun p => H p.2)) ∧
      Reach ty H U (ws.reverse ++ w) s' ∧
      ∃ f₀, ∀ f, f₀ ≤ f → ∃ s'', readAll ty f (rs.map fun p => (p.1, H p.2)) s' =
        some (s'', .ok (rs.map Prod.snd)) := by
  simp only [← fits_iff] at hfit
  obtain ⟨_, _, _, d⟩ := create_file (.open ty s.file : Back T N D) ts
  have hu : Ready ty (· ∈ ts) (.create (.open ty s.file) ts) := by
    intro t ht
    rw [d, create_dts]
    by_cases hp : ty.preset t = true <;> simp [Back.open, hp, ht]
  obtain ⟨s', h1, h2⟩ := writeAll_ready (P := (· ∈ ts)) (H := H) ws (.create (.open ty s.file) ts)
    (fun p hp => ⟨(hws p hp).2.2.1, (hws p hp).2.2.2, hfit p (by simp [hp])⟩) hu
  have hr := writeAll_reach ws _ _ _ _ (.create ts (.reopen h))
    (fun p hp => ⟨(hws p hp).1, (hws p hp).2.1⟩) h1
  refine ⟨s', h1, hr, (rs.map fun p => p.2.subs.length).sum, fun f hf => ?_⟩
  have hh := (hr.inv hU hfull).2
  obtain ⟨s'', h3, _⟩ := readAll_usable (P := (· ∈ ts)) (H := H) hfull f rs s' (fun p hp => by
      obtain ⟨⟨t, ht⟩, c1, c2, c3⟩ := hrs p hp
      refine ⟨?_, c1, c2, c3, ?_, hh (t, p.2) (by simpa using ht)⟩
      · refine le_trans ?_ hf
        exact length_le_sum hp
      · exact hfit (t, p.2) ht) h2.usable
  exact ⟨s'', h3⟩

/-- If only one variation of each C++ type is used, each digest is listed once among the keys of its data
set, also when the file is opened again in between. -/
theorem C110_keys_partial {pick : N → T} (hpick : ∀ n, ty.fam (pick n) = n) (hU : Apart H U)
    (hk : ∀ x, U x → ∀ y ∈ x.kids, ty.full y.type = pick y.type) {w : List (T × Val N D)}
    {s : Back T N D} (h : Reach ty H U w s) (hw : ∀ p ∈ w, p.1 = pick (ty.fam p.1)) (n : N)
    {ks : List Digest} (hks : s.file.keys n = some ks) : ks.Nodup := by
  have := (h.keyInv hpick hU hk hw n).1
  rw [hks] at this
  exact this

/-! ### Where the statement fails -/

/-- An existing file is opened and a value without parts is read in the variation `t`. From then on every read
in another variation `t'` of the same C++ type that is not among the tables created so far fails, also after
a table for `t'` is created. -/
theorem C110_fails_variation (hU : Apart H U) (hfull : ∀ n, ty.fam (ty.full n) = n)
    {w : List (T × Val N D)} {s : Back T N D} (h : Reach ty H U w s) {t t' tw : T} {ts : List T}
    {v : Val N D} (hv : (tw, v) ∈ w) (hkids : v.kids = []) (hfit : Inside (H v))
    (ht : ty.fam t = v.type) (htt : t ≠ t') (ht' : ty.fam t' = v.type) (hts : t' ∉ ts)
    (hp : ty.preset t' = false) (f : ℕ) :
    ∃ s₁, read ty (f + 1) t (H v) (.create (.open ty s.file) ts) = some (s₁, .ok v) ∧ ∀ f' k,
      (∃ s₂, read ty (f' + 1) t' k s₁ = some (s₂, .error .io) ∧
        ∃ s₃, read ty (f' + 1) t' k (s₂.create [t']) = some (s₃, .error .io)) := by
  rw [← fits_iff] at hfit
  have hh := (h.inv hU hfull).2 _ hv _ (self_mem_subs _)
  obtain ⟨a, _, _, d⟩ := create_file (.open ty s.file : Back T N D) ts
  have hd := create_dts (.open ty s.file : Back T N D) ts
  have hd0 : (Back.create (.open ty s.file) ts).dts t' = none := by rw [hd]; simp [Back.open, hp, hts]
  have hdt : (Back.create (.open ty s.file) ts).dts t ≠ some false := by
    rw [hd]
    simp only [Back.open]
    by_cases h1 : ty.preset t = true
    · simp [h1]
    · by_cases h2 : t ∈ ts <;> simp [h1, h2]
  have hvo : (Back.create (.open ty s.file) ts).vopen v.type = none := by rw [d]; rfl
  generalize (Back.create (.open ty s.file) ts) = s0 at *
  change s0.file = s.file at a
  rw [← a] at hh
  obtain ⟨n, dd, kids⟩ := v
  simp only [Val.kids] at hkids
  subst hkids
  simp only [Val.type, Val.data, Val.kids, List.map_nil] at hh ht ht' hvo
  unfold File.cell at hh
  cases hc : s0.file.cells n with
  | none => rw [hc] at hh; simp at hh
  | some cs =>
    rw [hc] at hh
    simp only [Option.bind_some] at hh
    let s1 : Back T N D :=
      { s0 with dts := if s0.dts t = none then Function.update s0.dts t (some true) else s0.dts,
                vopen := Function.update s0.vopen n (some true) }
    have ho : s0.openVals ty t = (s1, true) := by
      unfold Back.openVals
      simp only [ht, hvo, hc]
      rfl
    have hs1d : s1.dts t = some true := by
      simp only [s1]
      cases hx : s0.dts t with
      | none => simp
      | some b => cases b with
        | false => exact absurd hx hdt
        | true => simp [hx]
    have hs1d' : s1.dts t' = none := by
      simp only [s1]
      split
      · rw [Function.update_of_ne htt.symm]; exact hd0
      · exact hd0
    have hs1v : s1.vopen n = some true := by simp [s1]
    have hs1c : s1.file.cells n = some cs := hc
    refine ⟨s1, ?_, fun f' k => ?_⟩
    · simp only [read]
      rw [ho]
      dsimp only
      rw [access_ok hs1d hfit]
      simp only [ht, hs1c, Option.getD_some]
      rw [hh]
      rfl
    · have ho' : s1.openVals ty t' = (s1, true) := by
        unfold Back.openVals
        simp only [ht', hs1v]
      let s2 : Back T N D := { s1 with dts := Function.update s1.dts t' (some false) }
      have hacc : s1.access t' k true = (s2, .error .io) := by
        unfold Back.access
        have : s1.index t' = s2 := by unfold Back.index; rw [if_pos hs1d']
        simp [this, s2]
      have h2 : s2.create [t'] = s2 := by simp [Back.create, s2]
      have hs2d : s2.dts t' = some false := by simp [s2]
      have ho2 : s2.openVals ty t' = (s2, true) := by
        have : s2.vopen n = some true := hs1v
        unfold Back.openVals
        simp only [ht', this]
      have hacc2 : s2.access t' k true = (s2, .error .io) := by
        unfold Back.access
        have : s2.index t' = s2 := by unfold Back.index; simp [hs2d]
        simp [this, hs2d]
      refine ⟨s2, ?_, s2, ?_⟩
      · simp only [read]
        rw [ho']
        dsimp only
        rw [hacc]
      · simp only [read]
        rw [h2, ho2]
        dsimp only
        rw [hacc2]

/-- A value without parts whose digest has a component `UINT_MAX`, the extent of the value array: writing it
fails, writing it again returns its digest, and reading it fails. -/
theorem C110_fails_index {v : Val N D} {t : T} (hkids : v.kids = []) (hfit : ¬ Inside (H v))
    (hp : ty.preset t = false) (f : ℕ) :
    ∃ s₁ s₂ s₃, write ty H t v (.create (.open ty .new) [t]) = (s₁, .error .io) ∧
      write ty H t v s₁ = (s₂, .ok (H v)) ∧ read ty (f + 1) t (H v) s₂ = some (s₃, .error .io) := by
  rw [← fits_iff, Bool.not_eq_true] at hfit
  obtain ⟨n, dd, kids⟩ := v
  simp only [Val.kids] at hkids
  subst hkids
  simp [write, writeKids, read, Back.create, Back.open, Back.openKeys, Back.openVals, Back.index,
    Back.appendKey, Back.insertVal, Back.access, File.new, hfit, hp]

/-! A concrete case: the C++ type `0` (`std::vector<std::string>`) with the variations `0` and `1`, the C++ type
`1` (`std::vector<int>`) with the type `2`, the C++ type `2` (`std::string`) with the type `3`; a value of the
type `0` may contain values of the types `1` and `2`. -/

/-- The types. -/
def cTy : Types (Fin 4) (Fin 3) ℕ where
  fam t := if t.val ≤ 1 then 0 else if t = 2 then 1 else 2
  full n := if n = 0 then 1 else if n = 1 then 2 else 3
  preset t := t = 3
  blank _ := 0

/-- The digest. -/
def cH : Val (Fin 3) ℕ → Digest
  | .node n d kids => fun _ => Fin.ofNat _ (100 * n.val + 10 * kids.length + d)

/-- A string. -/
def cStr : Val (Fin 3) ℕ := .node 2 5 []
/-- A list of numbers. -/
def cNums : Val (Fin 3) ℕ := .node 1 7 []
/-- A container without parts. -/
def cEmpty : Val (Fin 3) ℕ := .node 0 0 []
/-- A container with one string. -/
def cList : Val (Fin 3) ℕ := .node 0 1 [cStr]
/-- A container with one list of numbers. -/
def cNest : Val (Fin 3) ℕ := .node 0 2 [cNums]

/-- The values of the concrete cases. -/
def cU (v : Val (Fin 3) ℕ) : Prop := v ∈ [cStr, cNums, cEmpty, cList, cNest]

theorem cApart : Apart cH cU := by
  constructor
  · intro x hx y hy
    simp only [cU, List.mem_cons, List.not_mem_nil, or_false] at hx
    rcases hx with rfl | rfl | rfl | rfl | rfl <;>
      simp only [cStr, cNums, cEmpty, cList, cNest, Val.kids, List.mem_cons, List.not_mem_nil,
        or_false] at hy <;> subst hy <;> simp [cU, cStr, cNums]
  · intro x y hx hy ht hh
    have h0 : (cH x 0).val = (cH y 0).val := by rw [hh]
    simp only [cU, List.mem_cons, List.not_mem_nil, or_false] at hx hy
    rcases hx with rfl | rfl | rfl | rfl | rfl <;> rcases hy with rfl | rfl | rfl | rfl | rfl <;>
      first
        | rfl
        | exact absurd h0 (by decide +kernel)

theorem cFull : ∀ n, cTy.fam (cTy.full n) = n := by decide +kernel

/-- The container with a string is written as `0` and as `1`, in two sessions. -/
theorem cReach : ∃ s, Reach cTy cH cU [(1, cList), (0, cList)] s := by
  obtain ⟨s1, _, h1, _⟩ := C110_session_partial cApart cFull .new [0, 3] [(0, cList)]
    (by
      intro p hp
      simp only [List.mem_singleton] at hp
      subst hp
      exact ⟨by simp [cU], by decide +kernel, by simp, by
        intro x hx
        simp only [cList, Val.kids, subsKids, cStr, Val.subs, List.append_nil, List.mem_singleton] at hx
        subst hx
        simp [Val.type, cTy]⟩)
    (by
      intro p hp x hx
      simp only [List.append_nil, List.mem_singleton] at hp
      subst hp
      simp only [cList, Val.subs, subsKids, cStr, List.append_nil, List.mem_cons, List.not_mem_nil,
        or_false] at hx
      rcases hx with rfl | rfl <;> (rw [← fits_iff]; decide +kernel)) [] (by simp)
  obtain ⟨s2, _, h2, _⟩ := C110_session_partial cApart cFull h1 [1, 3] [(1, cList)]
    (by
      intro p hp
      simp only [List.mem_singleton] at hp
      subst hp
      exact ⟨by simp [cU], by decide +kernel, by simp, by
        intro x hx
        simp only [cList, Val.kids, subsKids, cStr, Val.subs, List.append_nil, List.mem_singleton] at hx
        subst hx
        simp [Val.type, cTy]⟩)
    (by
      intro p hp x hx
      have : p.2 = cList := by
        simp only [List.reverse_cons, List.reverse_nil, List.nil_append, List.append_nil, List.cons_append,
          List.mem_cons, List.not_mem_nil, or_false] at hp
        rcases hp with rfl | rfl <;> rfl
      rw [this] at hx
      simp only [cList, Val.subs, subsKids, cStr, List.append_nil, List.mem_cons, List.not_mem_nil,
        or_false] at hx
      rcases hx with rfl | rfl <;> (rw [← fits_iff]; decide +kernel)) [] (by simp)
  exact ⟨s2, h2⟩

/-- The hypotheses of `C110_holds_partial`, `C110_session_partial` and `C110_read_partial` are met: after two
sessions the container is read as `1` from a file that is opened again without creating tables. -/
example : ∃ s : Back (Fin 4) (Fin 3) ℕ, Holds cH s.file cList ∧ ∃ f₀, ∀ f, f₀ ≤ f → ∃ s',
    readAll cTy f [(1, cH cList)] (.create (.open cTy s.file) []) = some (s', .ok [cList]) := by
  obtain ⟨s, h⟩ := cReach
  refine ⟨s, C110_holds_partial cApart cFull h (t := 0) (by simp), ?_⟩
  exact C110_read_partial cApart cFull h [1, 3] [] (by decide +kernel) [(1, cList)]
    (by
      intro p hp
      simp only [List.mem_singleton] at hp
      subst hp
      refine ⟨⟨0, by simp⟩, by decide +kernel, by simp, ?_⟩
      intro x hx
      simp only [cList, Val.kids, subsKids, cStr, Val.subs, List.append_nil, List.mem_singleton] at hx
      subst hx
      simp [Val.type, cTy])
    (by
      intro p hp x hx
      simp only [List.mem_singleton] at hp
      subst hp
      simp only [cList, Val.subs, subsKids, cStr, List.append_nil, List.mem_cons, List.not_mem_nil,
        or_false] at hx
      rcases hx with rfl | rfl <;> (rw [← fits_iff]; decide +kernel))

/-- The hypotheses of `C110_keys_partial` are met. -/
example : ∃ (s : Back (Fin 4) (Fin 3) ℕ) (pick : Fin 3 → Fin 4), Reach cTy cH cU [(1, cEmpty)] s ∧
    (∀ n, cTy.fam (pick n) = n) ∧ (∀ x, cU x → ∀ y ∈ x.kids, cTy.full y.type = pick y.type) ∧
    (∀ p ∈ [((1 : Fin 4), cEmpty)], p.1 = pick (cTy.fam p.1)) ∧
    s.file.keys 0 = some [cH cEmpty] :=
  ⟨_, cTy.full, .write (k := cH cEmpty) 1 cEmpty (.create [1] .new) (by simp [cU]) (by decide +kernel) rfl,
    cFull, fun _ _ _ _ => rfl, by decide +kernel, rfl⟩

/-- The hypotheses of `C110_fails_variation` are met. -/
example : ∃ (w : List (Fin 4 × Val (Fin 3) ℕ)) (s : Back (Fin 4) (Fin 3) ℕ), Reach cTy cH cU w s ∧
    (0, cEmpty) ∈ w ∧ cEmpty.kids = [] ∧ Inside (cH cEmpty) ∧ cTy.fam 0 = cEmpty.type ∧
    (0 : Fin 4) ≠ 1 ∧ cTy.fam 1 = cEmpty.type ∧ cTy.preset 1 = false :=
  ⟨_, _, .write (k := cH cEmpty) 0 cEmpty (.create [0] .new) (by simp [cU]) (by decide +kernel) rfl,
    by simp, rfl, by rw [← fits_iff]; decide +kernel, by decide +kernel, by decide +kernel,
    by decide +kernel, by decide +kernel⟩

/-- The hypotheses of `C110_fails_index` are met. -/
example : ∃ H : Val (Fin 3) ℕ → Digest, ¬ Inside (H cEmpty) ∧ cTy.preset 0 = false :=
  ⟨fun _ _ => Fin.ofNat _ (2 ^ 32 - 1), by rw [← fits_iff]; decide +kernel, by decide +kernel⟩

/-- The data of a value and of its parts. -/
def shape : Option (Outcome (Back (Fin 4) (Fin 3) ℕ) (Val (Fin 3) ℕ)) → Option (Except Err (ℕ × List ℕ)) :=
  Option.map fun r => r.2.map fun v => (v.data, v.kids.map Val.data)

/-- A file contains an empty container of the type `0`; it is opened again and a container with a list of
numbers is written to the same table. The data set of lists of numbers does not exist and its HDF5 type is
not known: the write fails, after the digest of the list was appended. In a third session the table for the
list of numbers is created and the container is written once more, without an exception; it is read back
with an empty list. -/
theorem C110_fails_lost :
    let s₁ := (write cTy cH 0 cEmpty (.create (.open cTy .new) [0, 2])).1
    let r₂ := write cTy cH 0 cNest (.open cTy s₁.file)
    let r₃ := write cTy cH 0 cNest (.create (.open cTy r₂.1.file) [0, 2])
    r₂.2 = .error .io ∧ r₃.2 = .ok (cH cNest) ∧
      shape (read cTy 3 0 (cH cNest) r₃.1) = some (.ok (2, [0])) ∧
      cNest.kids.map Val.data = [7] := by
  decide +kernel

/-- In the second session of such a history the data set of a C++ type could not be created for a part; then
every write of a value of this C++ type fails, also in another variation whose table is created. In a session
of its own the same write succeeds. -/
theorem C110_fails_handle :
    let s₁ := (write cTy cH 2 cNums (.create (.open cTy .new) [2, 1])).1
    let r₂ := write cTy cH 2 (.node 1 8 [cEmpty]) (.open cTy s₁.file)
    let r₃ := write cTy cH 0 cList (r₂.1.create [0])
    r₂.2 = .error .io ∧ r₃.2 = .error .io ∧
      (write cTy cH 0 cList (.create (.open cTy r₂.1.file) [0])).2 = .ok (cH cList) := by
  decide +kernel

/-- The same value written as `0` and as `1`, in one session or in two: its digest is listed twice. -/
theorem C110_fails_keys :
    let s₁ := (write cTy cH 0 cEmpty (.create (.open cTy .new) [0, 1])).1
    let s₂ := (write cTy cH 1 cEmpty s₁).1
    s₂.file.keys 0 = some [cH cEmpty, cH cEmpty] ∧
    (write cTy cH 1 cEmpty (write cTy cH 0 cEmpty (.create (.open cTy s₁.file) [0, 1])).1).1.file.keys 0 =
      some [cH cEmpty, cH cEmpty] := by
  decide +kernel

end Cyclus.VLFiles.C110
