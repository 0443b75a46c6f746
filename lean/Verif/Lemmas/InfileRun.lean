import Verif.Lemmas.InfileDflt
import Verif.Lemmas.InfileSchema

/-!
# Runs of the generated function
-/

namespace Cyclus.InfileGen

open Infile (Node Tree Query Step)

theorem set_lookup_eq {x : Str} {v : Val} {s : Scope} {b : Bind} (h : s.lookup x = some b) :
    (s.set x v).lookup x = some ⟨b.ty, some v⟩ := by
  induction s with
  | nil => simp at h
  | cons p s ih =>
    obtain ⟨y, c⟩ := p
    by_cases hy : y = x
    · subst hy
      rw [scope_cons_eq] at h
      obtain rfl := Option.some.inj h
      simp [Scope.set]
    · rw [scope_cons_ne (Ne.symm hy)] at h
      simp only [Scope.set, hy, if_false]
      rw [scope_cons_ne (Ne.symm hy), ih h]

theorem set_lookup_ne {x y : Str} {v : Val} {s : Scope} (h : y ≠ x) : (s.set x v).lookup y = s.lookup y := by
  induction s with
  | nil => rfl
  | cons p s ih =>
    obtain ⟨z, c⟩ := p
    by_cases hz : z = x
    · subst hz
      simp only [Scope.set, if_true]
      rw [scope_cons_ne h, scope_cons_ne h]
    · simp only [Scope.set, hz, if_false]
      by_cases hzy : y = z
      · subst hzy; rw [scope_cons_eq, scope_cons_eq]
      · rw [scope_cons_ne hzy, scope_cons_ne hzy, ih]

theorem named_selects (n : Str) (cs : List Node) : cs.filter (Step.named n).selects = named n cs := by
  unfold named
  refine List.filter_congr fun c _ => ?_
  cases c <;> simp [Step.selects, eq_comm]

/-- The code for a default. -/
theorem dflt_spec (L : Lib) (v : Var) (d : PyVal) (val : Val) (s : Scope) (ρ : Env) (b : Option Val)
    (hs : Stands L v.ty v.ui d val) (hu : Unnested v.ty) (ht : s.lookup (v.name ++ sTmp) = none)
    (hn : s.lookup v.name = none) (hb : lookup v.name ρ = some ⟨.val v.ty, b⟩) :
    execs L (dfltCode v d) (s :: ρ) =
      (Res.ofOption (update v.name val ρ)).bind fun ρ' =>
        .ok (((v.name ++ sTmp, ⟨dTy v.ty, some val⟩) :: s) :: ρ') := by
  have hne : v.name ≠ v.name ++ sTmp := by
    intro h
    have := congrArg List.length h
    simp [sTmp] at this
  rw [dfltCode, execs_append, val_spec L v.ty v.ui d _ val s ρ hs hu (nameOk_under _ (by simp [sTmp])) ht, ok_bind,
    execs_one, exec, eval, valueOf_here scope_cons_eq, ofOption_some, ok_bind]
  rw [lookup_skip (by rw [scope_cons_ne hne]; exact hn), hb]
  simp only [stands_coerce hs, ofOption_some, ok_bind]
  rw [update_skip (by rw [scope_cons_ne hne]; exact hn)]
  cases update v.name val ρ <;> rfl

/-- The code that reads a variable. -/
theorem read_spec (L : Lib) (v : Var) (val : Val) (x : Node) (T : Tree) (ρ : Env) (b : Option Val)
    (hf : Fit v.ty v.names) (hp : Proper' v.names) (hr : Readable true v.ty) (hfree : v.name ∉ own)
    (hT : treeOf sSub ρ = some T) (hx : named v.names.root T.cur.children = [x])
    (hs : Says L v.ty v.names v.ui x val) (hb : lookup v.name ρ = some ⟨.val v.ty, b⟩) :
    exec L (readCode v) ρ = Res.ofOption (update v.name val ρ) := by
  have hne : v.name ≠ v.name ++ sUVal := by
    intro h
    have := congrArg List.length h
    simp [sUVal] at this
  have hloc : ∀ y ∈ locals v.ty .dflt 0, v.name ≠ y := by
    intro y hy
    have : y ∈ own := by
      revert hy
      cases v.ty <;> simp only [locals, List.mem_cons, List.not_mem_nil, or_false, false_imp_iff] <;>
        rintro hy <;> (rcases hy with rfl | rfl | rfl | rfl) <;> decide
    rintro rfl
    exact hfree this
  rw [readCode, exec_block, reader_spec L v.ty v.names v.ui _ v.name .dflt [] 0 true ρ T 0 b hf hr (fun _ => rfl)
    (by simp [sUVal]) (by decide) hne hloc hT rfl hb]
  have hd : direct L v.ty v.names v.ui T [] ((0 : ℕ) : ℤ) = .ok val :=
    direct_says L v.ty v.names v.ui true T [] ⟨false, [.named v.names.root]⟩ 0 x val hf hp hr
      (by rw [List.nil_append]; exact parse_name (proper_root hp))
      (by rw [find_child, named_selects, hx]; rfl) (by norm_num) hs
  rw [Nat.cast_zero] at hd
  rw [hd, ok_bind]

/-- The scope of the function after the code of a variable. -/
def after (v : Var) (val : Val) (F : Scope) : Scope :=
  if v.internal then (v.name ++ sTmp, ⟨dTy v.ty, some val⟩) :: F else F

/-- The code of one variable. -/
theorem var_spec (L : Lib) (v : Var) (val : Val) (T : Tree) (F P M : Scope) (b : Option Val)
    (hf : Fit v.ty v.names) (hp : Proper' v.names) (hr : Readable true v.ty) (hfree : v.name ∉ own)
    (hu : v.dflt ≠ none → Unnested v.ty) (hsub : F.lookup sSub = some ⟨.tree, some (.tree T)⟩)
    (htmp : F.lookup (v.name ++ sTmp) = none) (hF : F.lookup v.name = none) (hP : P.lookup v.name = none)
    (hM : M.lookup v.name = some ⟨.val v.ty, b⟩) (hg : Gets L T.cur.children v val) :
    ∃ c, varCode v = .ok c ∧
      execs L c [F, P, M] = .ok [after v val F, P, M.set v.name val] := by
  have hl : lookup v.name [P, M] = some ⟨.val v.ty, b⟩ := by rw [lookup_skip hP, lookup_here hM]
  have hl' : lookup v.name [F, P, M] = some ⟨.val v.ty, b⟩ := by rw [lookup_skip hF, hl]
  have hup : update v.name val [P, M] = some [P, M.set v.name val] := by
    rw [update_skip hP, update, hM]; rfl
  have hup' : update v.name val [F, P, M] = some [F, P, M.set v.name val] := by
    rw [update_skip hF, hup]; rfl
  have hn0 : ∀ x : Str, List.lookup x ([] : Scope) = none := fun _ => rfl
  have hnm : ∀ ρ : Env, treeOf sSub ρ = some T → eval L ρ (.nMatches sSub v.names.root) =
      .ok (int', .int (named v.names.root T.cur.children).length) := by
    intro ρ h
    rw [eval, h, ofOption_some, ok_bind, parse_name (proper_root hp), ok_bind]
    simp [Tree.nMatches, find_child, named_selects]
  unfold varCode
  rcases hg with ⟨hi, x, hx, hs⟩ | ⟨hi, d, hd, hs⟩
  · rw [hi, if_neg (by simp)]
    have hread : ∀ b', exec L (readCode v) (b' ++ [F, P, M]) = Res.ofOption (update v.name val (b' ++ [F, P, M])) ∨
        b' ≠ [] ∧ b' ≠ [[]] := by
      intro b'
      by_cases h1 : b' = []
      · subst h1
        exact .inl (read_spec L v val x T _ b hf hp hr hfree (treeOf_here hsub) hx hs hl')
      · by_cases h2 : b' = [[]]
        · subst h2
          exact .inl (read_spec L v val x T _ b hf hp hr hfree
            (by rw [List.cons_append, treeOf_skip (hn0 _)]; exact treeOf_here hsub) hx hs
            (by rw [List.cons_append, lookup_skip (hn0 _)]; exact hl'))
        · exact .inr ⟨h1, h2⟩
    cases hd : v.dflt with
    | none =>
      refine ⟨_, rfl, ?_⟩
      rw [execs_one]
      rcases hread [] with h | h
      · rw [List.nil_append, hup'] at h
        rw [h]; simp [after, hi]
      · exact absurd rfl h.1
    | some d =>
      refine ⟨_, rfl, ?_⟩
      rw [execs_one, exec, hnm _ (treeOf_here hsub), ok_bind]
      simp only [hx, List.length_singleton, Nat.cast_one, zero_lt_one, if_true]
      rw [execs_one]
      rcases hread [[]] with h | h
      · rw [List.cons_append, List.nil_append, update_skip (hn0 _), hup'] at h
        rw [h]; simp [after, hi]
      · exact absurd rfl h.2
  · have hu := hu (by rw [hd]; simp)
    cases hi' : v.internal with
    | true =>
      rw [if_pos rfl, hd]
      refine ⟨_, rfl, ?_⟩
      rw [dflt_spec L v d val F [P, M] b hs hu htmp hF hl, hup]
      simp [after, hi']
    | false =>
      rw [if_neg (by simp), hd]
      refine ⟨_, rfl, ?_⟩
      have hnone : named v.names.root T.cur.children = [] := by
        rcases hi with h | h
        · rw [hi'] at h; exact absurd h (by simp)
        · exact h
      rw [execs_one, exec, hnm _ (treeOf_here hsub), ok_bind]
      simp only [hnone, List.length_nil, Nat.cast_zero, lt_irrefl, if_false]
      rw [dflt_spec L v d val [] [F, P, M] b hs hu (hn0 _) (hn0 _) hl', hup']
      simp [after, hi']

/-- The code of all variables. -/
theorem vars_spec (L : Lib) (val : Var → Val) (T : Tree) (P : Scope) (vs : List Var) : ∀ (F M : Scope),
    Sound vs → (∀ v ∈ vs, Gets L T.cur.children v (val v)) →
    F.lookup sSub = some ⟨.tree, some (.tree T)⟩ →
    (∀ v ∈ vs, F.lookup (v.name ++ sTmp) = none ∧ F.lookup v.name = none ∧ P.lookup v.name = none ∧
      ∃ b, M.lookup v.name = some ⟨.val v.ty, b⟩) →
    ∃ c F' M', varsCode vs = .ok c ∧ execs L c [F, P, M] = .ok [F', P, M'] ∧
      (∀ v ∈ vs, M'.lookup v.name = some ⟨.val v.ty, some (val v)⟩) ∧
      (∀ x, (∀ v ∈ vs, x ≠ v.name) → M'.lookup x = M.lookup x) ∧
      (∀ x, (∀ v ∈ vs, v.internal = true → x ≠ v.name ++ sTmp) → F'.lookup x = F.lookup x) := by
  induction vs with
  | nil =>
    intro F M _ _ _ _
    exact ⟨[], F, M, rfl, rfl, by simp, fun _ _ => rfl, fun _ _ => rfl⟩
  | cons v vs ih =>
    intro F M hs hg hsub hall
    obtain ⟨ht, hF, hP, b, hM⟩ := hall v (by simp)
    obtain ⟨c, hc, hx⟩ := var_spec L v (val v) T F P M b (hs.fit v (by simp)) (hs.proper v (by simp))
      (hs.readable v (by simp)) (hs.free v (by simp)) (hs.unnested v (by simp)) hsub ht hF hP hM (hg v (by simp))
    have hd := List.pairwise_cons.mp hs.distinct
    have hs' : Sound vs := ⟨hd.2, fun w hw => hs.free w (by simp [hw]),
      fun w hw hi u hu => hs.temp w (by simp [hw]) hi u (by simp [hu]), fun w hw => hs.fit w (by simp [hw]),
      fun w hw => hs.proper w (by simp [hw]), fun w hw => hs.readable w (by simp [hw]),
      fun w hw => hs.unnested w (by simp [hw]), fun w hw => hs.given w (by simp [hw])⟩
    have hafter : ∀ x, (v.internal = true → x ≠ v.name ++ sTmp) → (after v (val v) F).lookup x = F.lookup x := by
      intro x hx
      unfold after
      cases hi : v.internal with
      | false => rfl
      | true => rw [if_pos rfl, scope_cons_ne (hx hi)]
    have hsub' : (after v (val v) F).lookup sSub = some ⟨.tree, some (.tree T)⟩ := by
      rw [hafter sSub fun _ h => ne_of_plain (m := v.name ++ sTmp) (x := sSub) (by simp [sTmp]) (by decide) h.symm,
        hsub]
    obtain ⟨cs, F', M', hcs, hxs, h1, h2, h3⟩ := ih (after v (val v) F) (M.set v.name (val v)) hs'
      (fun w hw => hg w (by simp [hw])) hsub' (fun w hw => by
        obtain ⟨ht', hF', hP', b', hM'⟩ := hall w (by simp [hw])
        refine ⟨?_, ?_, hP', b', ?_⟩
        · rw [hafter _ fun _ h => hd.1 w hw (List.append_cancel_right h).symm, ht']
        · rw [hafter _ fun hi => hs.temp v (by simp) hi w (by simp [hw]), hF']
        · rw [set_lookup_ne (hd.1 w hw).symm, hM'])
    refine ⟨c ++ cs, F', M', ?_, ?_, ?_, ?_, ?_⟩
    · simp only [varsCode, hc, hcs]
    · rw [execs_append, hx, ok_bind, hxs]
    · intro w hw
      rcases List.mem_cons.mp hw with rfl | hw
      · rw [h2 _ fun u hu => hd.1 u hu, set_lookup_eq hM]
      · exact h1 w hw
    · intro x hx
      rw [h2 x fun u hu => hx u (by simp [hu]), set_lookup_ne (hx v (by simp))]
    · intro x hx
      rw [h3 x fun u hu hi => hx u (by simp [hu]) hi, hafter x fun hi => hx v (by simp) hi]

theorem members_lookup (vs : List Var) (hd : vs.Pairwise fun v w => v.name ≠ w.name) (v : Var) (hv : v ∈ vs) :
    (members vs).lookup v.name = some ⟨.val v.ty, initial (.val v.ty)⟩ := by
  induction vs with
  | nil => simp at hv
  | cons w vs ih =>
    have hd := List.pairwise_cons.mp hd
    unfold members at ih ⊢
    rw [List.map_cons]
    rcases List.mem_cons.mp hv with rfl | hv
    · exact scope_cons_eq
    · rw [scope_cons_ne (hd.1 v hv).symm, ih hd.2 hv]

theorem record_spec (ρ : Env) (val : Var → Val) (vs : List Var)
    (h : ∀ v ∈ vs, valueOf v.name ρ = some (.val v.ty, val v)) :
    record vs ρ = .ok (vs.map fun v => (v.name, .val v.ty, val v)) := by
  induction vs with
  | nil => rfl
  | cons v vs ih =>
    rw [record, h v (by simp), ofOption_some, ok_bind, ih fun w hw => h w (by simp [hw]), ok_bind, List.map_cons]

theorem parse_config : parsePath sConfig =
    .ok ⟨false, [.named ['c', 'o', 'n', 'f', 'i', 'g'], .any]⟩ := by
  rw [parse_eq (by rintro ⟨r, h⟩; exact absurd h (by simp [sConfig]))]
  have : stepsOf (Cycpp.pySplit '/' sConfig) = some [.named ['c', 'o', 'n', 'f', 'i', 'g'], .any] := by
    decide +kernel
  rw [this]

/-- The function records the values of the variables. -/
theorem run_spec (L : Lib) (vs : List Var) (hs : Sound vs) (T : Tree) (m : Str) (cs : List Node)
    (hT : (T.find ⟨false, [.named ['c', 'o', 'n', 'f', 'i', 'g'], .any]⟩)[0]? = some (.element m cs))
    (val : Var → Val) (hg : ∀ v ∈ vs, Gets L cs v (val v)) :
    run L vs T = .ok (.ok (vs.map fun v => (v.name, .val v.ty, val v))) := by
  let T' : Tree := ⟨T.root, .element m cs⟩
  let F : Scope := [(sN, ⟨int', none⟩), (sI, ⟨int', none⟩), (sSub, ⟨.tree, some (.tree T')⟩)]
  have hFfree : ∀ x, x ∉ own → F.lookup x = none := by
    intro x hx
    simp only [own, List.mem_cons, not_or] at hx
    show List.lookup x [_, _, _] = none
    rw [scope_cons_ne hx.2.2.2.2.1, scope_cons_ne hx.2.2.2.1, scope_cons_ne hx.2.2.1]; rfl
  have hFtmp : ∀ y : Str, F.lookup (y ++ sTmp) = none := by
    intro y
    have hu : '_' ∈ y ++ sTmp := by simp [sTmp]
    show List.lookup _ [_, _, _] = none
    rw [scope_cons_ne (ne_of_plain hu (by decide)), scope_cons_ne (ne_of_plain hu (by decide)),
      scope_cons_ne (ne_of_plain hu (by decide))]; rfl
  have hPfree : ∀ x, x ∉ own → (params T).lookup x = none := by
    intro x hx
    simp only [own, List.mem_cons, not_or] at hx
    unfold params
    rw [scope_cons_ne hx.1, scope_cons_ne hx.2.1]; rfl
  obtain ⟨c, F', M', hc, hx, h1, _, h3⟩ := vars_spec L val T' (params T) vs F (members vs) hs hg
    (by show List.lookup sSub [_, _, _] = _
        rw [scope_cons_ne (by decide), scope_cons_ne (by decide), scope_cons_eq])
    (fun v hv => ⟨hFtmp _, hFfree _ (hs.free v hv), hPfree _ (hs.free v hv), _, members_lookup vs hs.distinct v hv⟩)
  have hrec : record vs [F', params T, M'] = .ok (vs.map fun v => (v.name, .val v.ty, val v)) := by
    refine record_spec _ val vs fun v hv => ?_
    rw [valueOf_skip (by rw [h3 _ fun w hw hi => hs.temp w hw hi v hv]; exact hFfree _ (hs.free v hv)),
      valueOf_skip (hPfree _ (hs.free v hv)), valueOf_here (h1 v hv)]
  have hsubT : T.subTree ⟨false, [.named ['c', 'o', 'n', 'f', 'i', 'g'], .any]⟩ ((0 : ℕ) : ℤ) = .ok T' :=
    subTree_at T _ 0 m cs hT (by norm_num)
  have hstart : execs L [.decl .tree sSub (some (.subTree sTree sConfig .dflt)), .decl int' sI none,
      .decl int' sN none] ([] :: start vs T) = .ok [F, params T, members vs] := by
    have h0 : treeOf sTree ([] :: start vs T) = some T := by
      rw [treeOf_skip rfl, start, params]; exact treeOf_here scope_cons_eq
    rw [Nat.cast_zero] at hsubT
    rw [execs, exec, eval, h0, ofOption_some, ok_bind, Idx.eval, ofOption_some, ok_bind, parse_config, ok_bind, hsubT]
    simp only [Res.ofExcept, ok_bind, coerce_same, ofOption_some]
    rw [declare_new rfl, ofOption_some, ok_bind, execs, exec,
      declare_new (by rw [scope_cons_ne (by decide)]; rfl), ofOption_some, ok_bind, execs_one, exec,
      declare_new (by rw [scope_cons_ne (by decide), scope_cons_ne (by decide)]; rfl), ofOption_some]
    rfl
  have hcode : infileToDb vs = .ok ([.decl .tree sSub (some (.subTree sTree sConfig .dflt)), .decl int' sI none,
      .decl int' sN none] ++ c) := by
    simp only [infileToDb, hc]
  simp only [run, hcode]
  rw [execs_append, hstart, ok_bind, hx, ok_bind, hrec]

end Cyclus.InfileGen
