import Verif.Lemmas.InfileGen

/-!
# Running the generated readers
-/

namespace Cyclus.InfileGen

open Infile (Node Tree Query)

/-- The first two declarations of a container: the subtree in `bub` and `sub`. -/
theorem descend_spec (L : Lib) (path : Str) (idx : Idx) (ρ : Env) (T : Tree) (i : ℤ)
    (hT : treeOf sSub ρ = some T) (hi : idx.eval ρ = some i) :
    execs L [.decl .tree sBub (some (.subTree sSub path idx)), .decl .tree sSub (some (.var sBub))] ([] :: ρ) =
      (parsePath path).bind fun q => (Res.ofExcept (T.subTree q i)).bind fun T' =>
        .ok ([(sSub, ⟨.tree, some (.tree T')⟩), (sBub, ⟨.tree, some (.tree T')⟩)] :: ρ) := by
  have hi' : idx.eval ([] :: ρ) = some i := by
    cases idx with
    | dflt => exact hi
    | zero => exact hi
    | var x => rw [← hi]; simp only [Idx.eval, valueOf_skip (show List.lookup x [] = none from rfl)]
  rw [execs, exec, eval, treeOf_skip rfl, hT, hi']
  simp only [ofOption_some, ok_bind]
  rw [bind_assoc, bind_assoc]
  refine bind_congr _ _ _ fun q => ?_
  rw [bind_assoc]
  refine bind_congr _ _ _ fun T' => ?_
  rw [ok_bind, coerce_same, ofOption_some, ok_bind, declare_new rfl, ofOption_some, ok_bind, execs_one, exec,
    eval, valueOf_here scope_cons_eq, ofOption_some, ok_bind, coerce_same, ofOption_some, ok_bind,
    declare_new (by rw [scope_cons_ne (by decide)]; rfl), ofOption_some]

/-- The index of a turn. -/
theorem eval_iName (k : ℕ) (x : Str) (s : Scope) (ρ : Env) (hs : s.lookup x = none) :
    (Idx.var x).eval (s :: [(x, ⟨int', some (.int k)⟩)] :: ρ) = some (k : ℤ) := by
  simp only [Idx.eval, valueOf_skip hs, valueOf_here scope_cons_eq]

theorem store_spec (L : Lib) (k : Seq) (m i : Str) (e : Ty) (v : Val) (l : List Val) (j : ℕ) (s : Scope)
    (ρ : Env) (hme : m ≠ sElem) (hmi : m ≠ i) (hei : i ≠ sElem) :
    exec L (store k m i) ([(sElem, ⟨.val e, some v⟩)] :: [(i, ⟨int', some (.int j)⟩)] ::
      ((m, ⟨.val (.seq k e), some (.seq l)⟩) :: s) :: ρ) =
    if k = .vector then
      (if j < l.length then .ok ([(sElem, ⟨.val e, some v⟩)] :: [(i, ⟨int', some (.int j)⟩)] ::
        ((m, ⟨.val (.seq k e), some (.seq (l.set j v))⟩) :: s) :: ρ) else .rejected)
    else .ok ([(sElem, ⟨.val e, some v⟩)] :: [(i, ⟨int', some (.int j)⟩)] ::
        ((m, ⟨.val (.seq k e), some (.seq (l ++ [v]))⟩) :: s) :: ρ) := by
  have h1 : List.lookup m [(sElem, (⟨.val e, some v⟩ : Bind))] = none := by
    rw [scope_cons_ne hme]; rfl
  have h2 : List.lookup m [(i, (⟨int', some (.int j)⟩ : Bind))] = none := by
    rw [scope_cons_ne hmi]; rfl
  have h3 : List.lookup i [(sElem, (⟨.val e, some v⟩ : Bind))] = none := by
    rw [scope_cons_ne hei]; rfl
  cases k with
  | vector =>
    simp only [store, exec, eval, valueOf_skip h3, valueOf_here scope_cons_eq, ofOption_some, ok_bind, withVar,
      modify, valueOf_skip h1, valueOf_skip h2, coerce_same, Int.toNat_natCast, if_true, Option.map_some]
    by_cases hj : j < l.length
    · simp only [hj, if_true, update_skip h1, update_skip h2, update_head, Option.map_some, ofOption_some]
    · simp only [hj, if_false]
  | set =>
    simp only [store, exec, valueOf_here scope_cons_eq, withVar,
      modify, valueOf_skip h1, valueOf_skip h2, coerce_same, Option.map_some,
      update_skip h1, update_skip h2, update_head, ofOption_some, reduceCtorEq, if_false]
  | list =>
    simp only [store, exec, valueOf_here scope_cons_eq, withVar,
      modify, valueOf_skip h1, valueOf_skip h2, coerce_same, Option.map_some,
      update_skip h1, update_skip h2, update_head, ofOption_some, reduceCtorEq, if_false]

theorem setKey_spec (L : Lib) (m i : Str) (a b : Ty) (vk vv : Val) (l : List (Val × Val)) (j : ℕ) (s : Scope)
    (ρ : Env) (hmk : m ≠ sKey) (hmv : m ≠ sVal) (hmi : m ≠ i) :
    exec L (.setKey m sKey sVal) ([(sVal, ⟨.val b, some vv⟩), (sKey, ⟨.val a, some vk⟩)] ::
      [(i, ⟨int', some (.int j)⟩)] :: ((m, ⟨.val (.map a b), some (.map l)⟩) :: s) :: ρ) =
    .ok ([(sVal, ⟨.val b, some vv⟩), (sKey, ⟨.val a, some vk⟩)] :: [(i, ⟨int', some (.int j)⟩)] ::
        ((m, ⟨.val (.map a b), some (.map (l ++ [(vk, vv)]))⟩) :: s) :: ρ) := by
  have h1 : List.lookup m [(sVal, (⟨.val b, some vv⟩ : Bind)), (sKey, ⟨.val a, some vk⟩)] = none := by
    rw [scope_cons_ne hmv, scope_cons_ne hmk]; rfl
  have h2 : List.lookup m [(i, (⟨int', some (.int j)⟩ : Bind))] = none := by
    rw [scope_cons_ne hmi]; rfl
  have h3 : List.lookup sKey [(sVal, (⟨.val b, some vv⟩ : Bind)), (sKey, ⟨.val a, some vk⟩)] =
      some ⟨.val a, some vk⟩ := by
    rw [scope_cons_ne (by decide), scope_cons_eq]
  simp only [exec, valueOf_here h3, valueOf_here scope_cons_eq, withVar, modify, valueOf_skip h1,
    valueOf_skip h2, coerce_same, Option.map_some, Option.bind_some, update_skip h1, update_skip h2, update_head,
    ofOption_some]

theorem sub_plain : '_' ∉ sSub := by decide
theorem bub_plain : '_' ∉ sBub := by decide
theorem elem_plain : '_' ∉ sElem := by decide
theorem key_plain : '_' ∉ sKey := by decide
theorem val_plain : '_' ∉ sVal := by decide

theorem zero_plain : '_' ∉ Idx.zero.text := by decide

theorem first_plain {idx : Idx} (h : '_' ∉ idx.text) : '_' ∉ sFirst ++ idx.text := by
  simp [sFirst, h]

theorem second_plain {idx : Idx} (h : '_' ∉ idx.text) : '_' ∉ sSecond ++ idx.text := by
  simp [sSecond, h]

theorem locals_elem (t : Ty) (idx : Idx) (lev : ℕ) : ∀ x ∈ locals t idx lev, sElem ≠ x := by
  cases t <;> simp [locals, sElem, sBub, sSub, nName, sFirst, sSecond]

theorem locals_key (t : Ty) (idx : Idx) (lev : ℕ) : ∀ x ∈ locals t idx lev, sKey ≠ x := by
  cases t <;> simp [locals, sKey, sBub, sSub, nName, sFirst, sSecond]

theorem locals_val (t : Ty) (idx : Idx) (lev : ℕ) : ∀ x ∈ locals t idx lev, sVal ≠ x := by
  cases t <;> simp [locals, sVal, sBub, sSub, nName, sFirst, sSecond]

theorem locals_first (t : Ty) (idx idx' : Idx) (lev : ℕ) (h : t.isPair = true → idx.text ≠ idx'.text) :
    ∀ x ∈ locals t idx' lev, sFirst ++ idx.text ≠ x := by
  cases t <;> simp [locals, sBub, sSub, nName, sFirst, sSecond]
  simpa [Ty.isPair] using h

theorem locals_second (t : Ty) (idx idx' : Idx) (lev : ℕ) (h : t.isPair = true → idx.text ≠ idx'.text) :
    ∀ x ∈ locals t idx' lev, sSecond ++ idx.text ≠ x := by
  cases t <;> simp [locals, sBub, sSub, nName, sFirst, sSecond]
  simpa [Ty.isPair] using h

theorem iName_ne_zero (k : ℕ) : (Idx.var (iName k)).text ≠ Idx.zero.text := by
  simp [Idx.text, iName]

theorem reader_spec (L : Lib) (t : Ty) : ∀ (nm : Names) (ui : Ann) (m y : Str) (idx : Idx) (path : Str) (lev : ℕ)
    (z : Bool) (ρ : Env) (T : Tree) (i : ℤ) (b : Option Val), Fit t nm → Readable z t →
    (idx.text = Idx.zero.text → z = true) → '_' ∈ m → '_' ∉ idx.text → y ≠ m →
    (∀ x ∈ locals t idx lev, y ≠ x) →
    treeOf sSub ρ = some T → idx.eval ρ = some i → lookup y ρ = some ⟨.val t, b⟩ →
    leave (execs L (reader t nm ui m idx path lev ++ [.assign y (.var m)]) ([] :: ρ)) =
      (direct L t nm ui T path i).bind fun v => .ofOption (update y v ρ) := by
  induction t with
  | prim p =>
    intro nm ui m y idx path lev z ρ T i b hf hr hz hm hidx hym hloc hT hi hy
    cases nm <;> simp only [Fit] at hf
    rename_i n
    have hi' : idx.eval ([] :: ρ) = some i := by
      cases idx with
      | dflt => exact hi
      | zero => exact hi
      | var x => rw [← hi]; simp only [Idx.eval, valueOf_skip (show List.lookup x [] = none from rfl)]
    rw [reader, direct, execs_append, execs_one]
    have fin : ∀ v : Val, leave (exec L (.assign y (.var m)) ([(m, ⟨.val (.prim p), some v⟩)] :: ρ)) =
        .ofOption (update y v ρ) := fun v =>
      assign_spec L m y (.prim p) v b _ ρ scope_cons_eq (by rw [scope_cons_ne hym]; rfl) hy
    have hx : execs L [.assign y (.var m)] = exec L (.assign y (.var m)) := by
      funext ρ; exact execs_one L _ ρ
    rw [hx]
    unfold queryOf
    by_cases hn : ui.isNuclide = true
    · rw [if_pos hn, exec, eval, treeOf_skip rfl, hT, hi']
      simp only [ofOption_some, ok_bind, bind_assoc, leave_bind, hn, if_true]
      refine bind_congr _ _ _ fun q => bind_congr _ _ _ fun s => bind_congr _ _ _ fun w => ?_
      cases coerce (.val (.prim p)) int' (.int w) with
      | none => rfl
      | some v => simp only [ofOption_some, ok_bind, declare_new (show List.lookup m [] = none from rfl), fin]
    · rw [if_neg hn, exec, eval, treeOf_skip rfl, hT, hi']
      simp only [ofOption_some, ok_bind, bind_assoc, leave_bind, hn, if_false, Bool.false_eq_true]
      refine bind_congr _ _ _ fun q => bind_congr _ _ _ fun w => ?_
      simp only [coerce_same, ofOption_some, ok_bind,
        declare_new (show List.lookup m [] = none from rfl), fin]
  | seq k e ih =>
    intro nm ui m y idx path lev z ρ T i b hf hr hz hm hidx hym hloc hT hi hy
    cases nm <;> simp only [Fit] at hf
    rename_i n ne
    have hms : m ≠ sSub := ne_of_plain hm sub_plain
    have hmb : m ≠ sBub := ne_of_plain hm bub_plain
    have hmn : m ≠ nName (lev + 1) := ne_of_plain hm (nName_plain _)
    have hmi : m ≠ iName (lev + 1) := ne_of_plain hm (iName_plain _)
    have hme : m ≠ sElem := ne_of_plain hm elem_plain
    have hns : nName (lev + 1) ≠ sSub := by simp [nName, sSub]
    have hnb : nName (lev + 1) ≠ sBub := by simp [nName, sBub]
    have hie : iName (lev + 1) ≠ sElem := by simp [iName, sElem]
    simp only [locals, List.mem_cons, List.not_mem_nil, or_false, forall_eq_or_imp, forall_eq] at hloc
    obtain ⟨hyb, hys, hyn⟩ := hloc
    rw [reader, direct]
    -- the subtree
    rw [show ([Stmt.decl .tree sBub (some (.subTree sSub (path ++ n) idx)), .decl .tree sSub (some (.var sBub)),
        .decl int' (nName (lev + 1)) (some (.nMatches sSub ne.head)), .decl (.val (.seq k e)) m none] :
          List Stmt) = [.decl .tree sBub (some (.subTree sSub (path ++ n) idx)),
          .decl .tree sSub (some (.var sBub))] ++ [.decl int' (nName (lev + 1)) (some (.nMatches sSub ne.head)),
          .decl (.val (.seq k e)) m none] from rfl]
    rw [List.append_assoc, List.append_assoc, List.append_assoc, execs_append,
      descend_spec L (path ++ n) idx ρ T i hT hi]
    simp only [bind_assoc, leave_bind]
    refine bind_congr _ _ _ fun q => bind_congr _ _ _ fun T' => ?_
    rw [ok_bind, execs_append, execs, exec, eval, treeOf_here scope_cons_eq, ofOption_some, ok_bind]
    simp only [bind_assoc, leave_bind, ok_bind]
    refine bind_congr _ _ _ fun q' => ?_
    rw [coerce_same, ofOption_some, ok_bind,
      declare_new (by rw [scope_cons_ne hns, scope_cons_ne hnb]; rfl), ofOption_some, ok_bind, execs_one, exec,
      declare_new (by rw [scope_cons_ne hmn, scope_cons_ne hms, scope_cons_ne hmb]; rfl), ofOption_some,
      ok_bind]
    set N := T'.nMatches q' with hN
    -- the scope of the reader, with the values so far
    set S : Scope := [(nName (lev + 1), ⟨int', some (.int N)⟩), (sSub, ⟨.tree, some (.tree T')⟩),
      (sBub, ⟨.tree, some (.tree T')⟩)] with hS
    let E : List Val → Env := fun l => ((m, ⟨.val (.seq k e), some (.seq l)⟩) :: S) :: ρ
    have hE : ∀ l, List.lookup (nName (lev + 1)) ((m, (⟨.val (.seq k e), some (.seq l)⟩ : Bind)) :: S) =
        some ⟨int', some (.int N)⟩ := by
      intro l
      rw [scope_cons_ne (Ne.symm hmn), hS, scope_cons_eq]
    have hroom : execs L (room k m (nName (lev + 1))) (E []) =
        .ok (E (if k = .vector then List.replicate N e.zero else [])) := by
      cases k with
      | vector =>
        rw [room, execs_one, exec, eval, valueOf_here (hE []), ofOption_some, ok_bind]
        simp only [modify, E, valueOf_here scope_cons_eq, update_head, ofOption_some, resizeTo,
          Int.toNat_natCast, if_true]
        simp
      | set => rfl
      | list => rfl
    rw [show initial (.val (.seq k e)) = some (.seq []) from rfl, execs_append]
    rw [show execs L (room k m (nName (lev + 1)))
      (((m, (⟨.val (.seq k e), some (.seq [])⟩ : Bind)) :: S) :: ρ) = _ from hroom, ok_bind, execs_append,
      execs_one, exec]
    rw [show valueOf (nName (lev + 1)) (E (if k = .vector then List.replicate N e.zero else [])) =
      some (int', .int N) from valueOf_here (hE _)]
    simp only [Int.toNat_natCast]
    -- one turn
    have turn : ∀ (j : ℕ) (l : List Val), leave (leave (execs L
        (readMember sElem e (fun m' => reader e ne (ui.part 1) m' (.var (iName (lev + 1))) [] (lev + 1)) ++
          [store k m (iName (lev + 1))]) ([] :: [(iName (lev + 1), ⟨int', some (.int j)⟩)] :: E l))) =
        (direct L e ne (ui.part 1) T' [] j).bind fun v =>
          if k = .vector then (if j < l.length then .ok (E (l.set j v)) else .rejected)
          else .ok (E (l ++ [v])) := by
      intro j l
      have hmem := readMember_spec L
        (fun m' => reader e ne (ui.part 1) m' (.var (iName (lev + 1))) [] (lev + 1)) sElem e
        (direct L e ne (ui.part 1) T' [] j) [] ([(iName (lev + 1), ⟨int', some (.int j)⟩)] :: E l) rfl
        (ih ne (ui.part 1) (sElem ++ sIn) sElem (.var (iName (lev + 1))) [] (lev + 1) false _ T' j
          (initial (.val e)) hf hr.2 (fun h => absurd h (iName_ne_zero _)) (under_in _) (iName_plain _)
          (self_ne_in _) (locals_elem _ _ _)
          (by
            rw [treeOf_skip (by rw [scope_cons_ne (by decide)]; rfl),
              treeOf_skip (by rw [scope_cons_ne (by simp [sSub, iName])]; rfl),
              treeOf_here (by
                rw [scope_cons_ne (Ne.symm hms), hS, scope_cons_ne (Ne.symm hns), scope_cons_eq])])
          (eval_iName j _ _ _ (by rw [scope_cons_ne hie]; rfl))
          (lookup_here scope_cons_eq))
      rw [execs_append, hmem]
      simp only [bind_assoc, leave_bind]
      refine bind_congr _ _ _ fun v => ?_
      rw [ok_bind, execs_one, store_spec L k m (iName (lev + 1)) e v l j S ρ hme hmi hie]
      cases k with
      | vector =>
        simp only [if_true]
        split <;> rfl
      | set => rfl
      | list => rfl
    -- all turns
    have fin : ∀ l : List Val, leave (execs L [.assign y (.var m)] (E l)) = .ofOption (update y (.seq l) ρ) := by
      intro l
      rw [execs_one]
      exact assign_spec L m y (.seq k e) (.seq l) b _ ρ scope_cons_eq (by
        rw [scope_cons_ne hym, hS, scope_cons_ne hyn, scope_cons_ne hys, scope_cons_ne hyb]; rfl) hy
    by_cases hk : k = .vector
    · rw [if_pos hk, turns_set _ (fun j => direct L e ne (ui.part 1) T' [] j) E (by
        intro j l hj
        refine (turn j l).trans (bind_congr _ _ _ fun v => ?_)
        rw [if_pos hk, if_pos hj]) N 0 (List.replicate N e.zero) (by simp)]
      simp only [bind_assoc, leave_bind, ok_bind, List.take_zero, List.nil_append]
      exact bind_congr _ _ _ fun vs => fin vs
    · rw [if_neg hk, turns_append _ (fun j => direct L e ne (ui.part 1) T' [] j) E (by
        intro j l
        refine (turn j l).trans (bind_congr _ _ _ fun v => ?_)
        rw [if_neg hk]) N 0 []]
      simp only [bind_assoc, leave_bind, ok_bind, List.nil_append]
      exact bind_congr _ _ _ fun vs => fin vs
  | pair a c iha ihc =>
    intro nm ui m y idx path lev z ρ T i b hf hr hz hm hidx hym hloc hT hi hy
    cases nm <;> simp only [Fit] at hf
    rename_i n na nc
    have hms : m ≠ sSub := ne_of_plain hm sub_plain
    have hmb : m ≠ sBub := ne_of_plain hm bub_plain
    have hmf : m ≠ sFirst ++ idx.text := ne_of_plain hm (first_plain hidx)
    have hmc : m ≠ sSecond ++ idx.text := ne_of_plain hm (second_plain hidx)
    have hfs : sFirst ++ idx.text ≠ sSub := by simp [sFirst, sSub]
    have hfb : sFirst ++ idx.text ≠ sBub := by simp [sFirst, sBub]
    have hcs : sSecond ++ idx.text ≠ sSub := by simp [sSecond, sSub]
    have hcb : sSecond ++ idx.text ≠ sBub := by simp [sSecond, sBub]
    have hcf : sSecond ++ idx.text ≠ sFirst ++ idx.text := by simp [sSecond, sFirst]
    simp only [locals, List.mem_cons, List.not_mem_nil, or_false, forall_eq_or_imp, forall_eq] at hloc
    obtain ⟨hyb, hys, hyf, hyc⟩ := hloc
    obtain ⟨hp, hra, hrc⟩ := hr
    rw [reader, direct, List.append_assoc, List.append_assoc, List.append_assoc, execs_append,
      descend_spec L (path ++ n) idx ρ T i hT hi]
    simp only [bind_assoc, leave_bind]
    refine bind_congr _ _ _ fun q => bind_congr _ _ _ fun T' => ?_
    rw [ok_bind, execs_append]
    set S : Scope := [(sSub, ⟨.tree, some (.tree T')⟩), (sBub, ⟨.tree, some (.tree T')⟩)] with hS
    have h1 := readMember_spec L (fun m' => reader a na (ui.part 1) m' .zero [] lev) (sFirst ++ idx.text) a
      (direct L a na (ui.part 1) T' [] 0) S ρ (by rw [hS, scope_cons_ne hfs, scope_cons_ne hfb]; rfl)
      (iha na (ui.part 1) _ (sFirst ++ idx.text) .zero [] lev true _ T' 0 (initial (.val a)) hf.1 hra
        (fun _ => rfl) (under_in _) zero_plain (self_ne_in _)
        (locals_first a idx .zero lev (fun h he => by
          have := (hp (hz he)).1
          rw [h] at this; exact absurd this (by decide)))
        (treeOf_here (by rw [scope_cons_ne (Ne.symm hfs), hS, scope_cons_eq])) rfl
        (lookup_here scope_cons_eq))
    rw [h1]
    simp only [bind_assoc, leave_bind]
    refine bind_congr _ _ _ fun v => ?_
    rw [ok_bind, execs_append]
    have h2 := readMember_spec L (fun m' => reader c nc (ui.part 2) m' .zero [] lev) (sSecond ++ idx.text) c
      (direct L c nc (ui.part 2) T' [] 0) ((sFirst ++ idx.text, ⟨.val a, some v⟩) :: S) ρ
      (by rw [scope_cons_ne hcf, hS, scope_cons_ne hcs, scope_cons_ne hcb]; rfl)
      (ihc nc (ui.part 2) _ (sSecond ++ idx.text) .zero [] lev true _ T' 0 (initial (.val c)) hf.2 hrc
        (fun _ => rfl) (under_in _) zero_plain (self_ne_in _)
        (locals_second c idx .zero lev (fun h he => by
          have := (hp (hz he)).2
          rw [h] at this; exact absurd this (by decide)))
        (treeOf_here (by
          rw [scope_cons_ne (Ne.symm hcs), scope_cons_ne (Ne.symm hfs), hS, scope_cons_eq])) rfl
        (lookup_here scope_cons_eq))
    rw [h2]
    simp only [bind_assoc, leave_bind]
    refine bind_congr _ _ _ fun w => ?_
    rw [ok_bind, execs_append, execs_one, exec, eval,
      valueOf_here (t := .val a) (v := v) (by rw [scope_cons_ne (Ne.symm hcf), scope_cons_eq]),
      valueOf_here (t := .val c) (v := w) scope_cons_eq]
    simp only [ok_bind, coerce_same, ofOption_some]
    rw [declare_new (by
      rw [scope_cons_ne hmc, scope_cons_ne hmf, hS, scope_cons_ne hms, scope_cons_ne hmb]; rfl),
      ofOption_some, ok_bind, execs_one]
    exact assign_spec L m y (.pair a c) (.pair v w) b _ ρ scope_cons_eq (by
      rw [scope_cons_ne hym, scope_cons_ne hyc, scope_cons_ne hyf, hS, scope_cons_ne hys,
        scope_cons_ne hyb]; rfl) hy
  | map k w ihk ihw =>
    intro nm ui m y idx path lev z ρ T i b hf hr hz hm hidx hym hloc hT hi hy
    cases nm <;> simp only [Fit] at hf
    rename_i n item nk nw
    have hms : m ≠ sSub := ne_of_plain hm sub_plain
    have hmb : m ≠ sBub := ne_of_plain hm bub_plain
    have hmn : m ≠ nName (lev + 1) := ne_of_plain hm (nName_plain _)
    have hmi : m ≠ iName (lev + 1) := ne_of_plain hm (iName_plain _)
    have hmk : m ≠ sKey := ne_of_plain hm key_plain
    have hmv : m ≠ sVal := ne_of_plain hm val_plain
    have hns : nName (lev + 1) ≠ sSub := by simp [nName, sSub]
    have hnb : nName (lev + 1) ≠ sBub := by simp [nName, sBub]
    have hik : iName (lev + 1) ≠ sKey := by simp [iName, sKey]
    have hiv : iName (lev + 1) ≠ sVal := by simp [iName, sVal]
    simp only [locals, List.mem_cons, List.not_mem_nil, or_false, forall_eq_or_imp, forall_eq] at hloc
    obtain ⟨hyb, hys, hyn⟩ := hloc
    rw [reader, direct]
    rw [show ∀ x : Stmt, ([Stmt.decl .tree sBub (some (.subTree sSub (path ++ n) idx)), .decl .tree sSub (some (.var sBub)),
        .decl int' (nName (lev + 1)) (some (.nMatches sSub item)), .decl (.val (.map k w)) m none, x] :
          List Stmt) = [.decl .tree sBub (some (.subTree sSub (path ++ n) idx)),
          .decl .tree sSub (some (.var sBub))] ++ ([.decl int' (nName (lev + 1)) (some (.nMatches sSub item)),
          .decl (.val (.map k w)) m none] ++ [x]) from fun _ => rfl]
    rw [List.append_assoc, List.append_assoc, execs_append,
      descend_spec L (path ++ n) idx ρ T i hT hi]
    simp only [bind_assoc, leave_bind]
    refine bind_congr _ _ _ fun q => bind_congr _ _ _ fun T' => ?_
    rw [ok_bind, execs_append, execs, exec, eval, treeOf_here scope_cons_eq, ofOption_some, ok_bind]
    simp only [bind_assoc, leave_bind, ok_bind]
    refine bind_congr _ _ _ fun q' => ?_
    rw [coerce_same, ofOption_some, ok_bind,
      declare_new (by rw [scope_cons_ne hns, scope_cons_ne hnb]; rfl), ofOption_some, ok_bind, execs_one, exec,
      declare_new (by rw [scope_cons_ne hmn, scope_cons_ne hms, scope_cons_ne hmb]; rfl), ofOption_some,
      ok_bind]
    set N := T'.nMatches q' with hN
    set S : Scope := [(nName (lev + 1), ⟨int', some (.int N)⟩), (sSub, ⟨.tree, some (.tree T')⟩),
      (sBub, ⟨.tree, some (.tree T')⟩)] with hS
    let E : List (Val × Val) → Env := fun l => ((m, ⟨.val (.map k w), some (.map l)⟩) :: S) :: ρ
    have hE : ∀ l, List.lookup (nName (lev + 1)) ((m, (⟨.val (.map k w), some (.map l)⟩ : Bind)) :: S) =
        some ⟨int', some (.int N)⟩ := by
      intro l
      rw [scope_cons_ne (Ne.symm hmn), hS, scope_cons_eq]
    rw [show initial (.val (.map k w)) = some (.map []) from rfl, execs_append, execs_one, exec,
      valueOf_here (hE [])]
    simp only [Int.toNat_natCast]
    have turn : ∀ (j : ℕ) (l : List (Val × Val)), leave (leave (execs L
        (readMember sKey k (fun m' =>
            reader k nk (ui.part 1) m' (.var (iName (lev + 1))) (item ++ ['/']) (lev + 1)) ++
          readMember sVal w (fun m' =>
            reader w nw (ui.part 2) m' (.var (iName (lev + 1))) (item ++ ['/']) (lev + 1)) ++
          [.setKey m sKey sVal]) ([] :: [(iName (lev + 1), ⟨int', some (.int j)⟩)] :: E l))) =
        ((direct L k nk (ui.part 1) T' (item ++ ['/']) j).bind fun key =>
              (direct L w nw (ui.part 2) T' (item ++ ['/']) j).bind fun val => .ok (key, val)).bind fun kv =>
          .ok (E (l ++ [kv])) := by
      intro j l
      have h1 := readMember_spec L
        (fun m' => reader k nk (ui.part 1) m' (.var (iName (lev + 1))) (item ++ ['/']) (lev + 1)) sKey k
        (direct L k nk (ui.part 1) T' (item ++ ['/']) j) [] ([(iName (lev + 1), ⟨int', some (.int j)⟩)] :: E l) rfl
        (ihk nk (ui.part 1) (sKey ++ sIn) sKey (.var (iName (lev + 1))) (item ++ ['/']) (lev + 1) false _ T' j
          (initial (.val k)) hf.1 hr.1 (fun h => absurd h (iName_ne_zero _)) (under_in _) (iName_plain _)
          (self_ne_in _) (locals_key _ _ _)
          (by
            rw [treeOf_skip (by rw [scope_cons_ne (by decide)]; rfl),
              treeOf_skip (by rw [scope_cons_ne (by simp [sSub, iName])]; rfl),
              treeOf_here (by
                rw [scope_cons_ne (Ne.symm hms), hS, scope_cons_ne (Ne.symm hns), scope_cons_eq])])
          (eval_iName j _ _ _ (by rw [scope_cons_ne hik]; rfl))
          (lookup_here scope_cons_eq))
      rw [List.append_assoc, execs_append, h1]
      simp only [bind_assoc, leave_bind]
      refine bind_congr _ _ _ fun v => ?_
      have h2 := readMember_spec L
        (fun m' => reader w nw (ui.part 2) m' (.var (iName (lev + 1))) (item ++ ['/']) (lev + 1)) sVal w
        (direct L w nw (ui.part 2) T' (item ++ ['/']) j) [(sKey, ⟨.val k, some v⟩)]
        ([(iName (lev + 1), ⟨int', some (.int j)⟩)] :: E l) (by rw [scope_cons_ne (by decide)]; rfl)
        (ihw nw (ui.part 2) (sVal ++ sIn) sVal (.var (iName (lev + 1))) (item ++ ['/']) (lev + 1) false _ T' j
          (initial (.val w)) hf.2 hr.2 (fun h => absurd h (iName_ne_zero _)) (under_in _) (iName_plain _)
          (self_ne_in _) (locals_val _ _ _)
          (by
            rw [treeOf_skip (by rw [scope_cons_ne (by decide), scope_cons_ne (by decide)]; rfl),
              treeOf_skip (by rw [scope_cons_ne (by simp [sSub, iName])]; rfl),
              treeOf_here (by
                rw [scope_cons_ne (Ne.symm hms), hS, scope_cons_ne (Ne.symm hns), scope_cons_eq])])
          (eval_iName j _ _ _ (by rw [scope_cons_ne hiv, scope_cons_ne hik]; rfl))
          (lookup_here scope_cons_eq))
      rw [ok_bind, execs_append, h2]
      simp only [bind_assoc, leave_bind]
      refine bind_congr _ _ _ fun u => ?_
      rw [ok_bind, execs_one, setKey_spec L m (iName (lev + 1)) k w v u l j S ρ hmk hmv hmi]
      rfl
    have fin : ∀ l, leave (execs L [.assign y (.var m)] (E l)) = .ofOption (update y (.map l) ρ) := by
      intro l
      rw [execs_one]
      exact assign_spec L m y (.map k w) (.map l) b _ ρ scope_cons_eq (by
        rw [scope_cons_ne hym, hS, scope_cons_ne hyn, scope_cons_ne hys, scope_cons_ne hyb]; rfl) hy
    rw [show (((m, (⟨.val (.map k w), some (.map [])⟩ : Bind)) :: S) :: ρ) = E [] from rfl,
      turns_append _ _ E turn N 0 []]
    simp only [bind_assoc, leave_bind, ok_bind, List.nil_append]
    exact bind_congr _ _ _ fun vs => fin vs

end Cyclus.InfileGen
