import Verif.Lemmas.InfileSays

/-!
# The code for defaults
-/

namespace Cyclus.InfileGen

/-- The type with which `_val` declares a variable. -/
def dTy : Ty → CTy
  | .prim p => .val (.prim (declTy p))
  | t => .val t

/-- The name is not one that the code for the parts uses. -/
def NameOk (t : Ty) (name : Str) : Prop :=
  (t.kind = 1 → name ≠ sElem) ∧ (t.kind = 2 → name ≠ sFirst ∧ name ≠ sSecond) ∧
    (t.kind = 3 → name ≠ sKey ∧ name ≠ sVal)

theorem nameOk_under (t : Ty) {name : Str} (h : '_' ∈ name) : NameOk t name :=
  ⟨fun _ => ne_of_plain h elem_plain, fun _ => ⟨ne_of_plain h (by decide), ne_of_plain h (by decide)⟩,
    fun _ => ⟨ne_of_plain h key_plain, ne_of_plain h val_plain⟩⟩

theorem nameOk_elem {t : Ty} (h : t.kind ≠ 1) : NameOk t sElem :=
  ⟨fun e => absurd e h, fun _ => by decide, fun _ => by decide⟩

theorem nameOk_first {t : Ty} (h : t.kind ≠ 2) : NameOk t sFirst :=
  ⟨fun _ => by decide, fun e => absurd e h, fun _ => by decide⟩

theorem nameOk_second {t : Ty} (h : t.kind ≠ 2) : NameOk t sSecond :=
  ⟨fun _ => by decide, fun e => absurd e h, fun _ => by decide⟩

theorem nameOk_key {t : Ty} (h : t.kind ≠ 3) : NameOk t sKey :=
  ⟨fun _ => by decide, fun _ => by decide, fun e => absurd e h⟩

theorem nameOk_val {t : Ty} (h : t.kind ≠ 3) : NameOk t sVal :=
  ⟨fun _ => by decide, fun _ => by decide, fun e => absurd e h⟩

theorem cLit_plain {s : Str} (h : ∀ c ∈ s, c ≠ '"' ∧ c ≠ '\\' ∧ c ≠ '\n') : cLit s = some s := by
  induction s with
  | nil => rfl
  | cons c cs ih =>
    have hc := h c (by simp)
    have ih := ih fun d hd => h d (by simp [hd])
    unfold cLit
    split <;> simp_all

theorem intLit_ok {z : ℤ} (h1 : -2 ^ 31 ≤ z) (h2 : z < 2 ^ 31) : intLit z = .ok (int', .int z) := by
  rw [intLit, if_pos ⟨h1, h2⟩]

theorem stands_coerce {L : Lib} {t : Ty} {ui : Ann} {d : PyVal} {v : Val} (h : Stands L t ui d v) :
    coerce (.val t) (dTy t) v = some v := by
  cases t with
  | prim p =>
    cases p with
    | float =>
      rcases h with ⟨h, _⟩ | ⟨_, q, _, rfl⟩
      · exact absurd h (by decide)
      · simp [coerce, dTy, declTy, convert]
    | _ => exact coerce_same _ _
  | _ => exact coerce_same _ _

/-- The store of an element of a default. -/
theorem storeVal_spec (L : Lib) (k : Seq) (name : Str) (e : Ty) (v : Val) (l : List Val) (i : ℕ)
    (s : Scope) (ρ : Env) (hne : name ≠ sElem) (hi : i < 2 ^ 31) (hv : coerce (.val e) (dTy e) v = some v) :
    exec L (storeVal k name i) ([(sElem, ⟨dTy e, some v⟩)] :: [] ::
      ((name, ⟨.val (.seq k e), some (.seq l)⟩) :: s) :: ρ) =
    if k = .vector then
      (if i < l.length then .ok ([(sElem, ⟨dTy e, some v⟩)] :: [] ::
        ((name, ⟨.val (.seq k e), some (.seq (l.set i v))⟩) :: s) :: ρ) else .rejected)
    else .ok ([(sElem, ⟨dTy e, some v⟩)] :: [] ::
        ((name, ⟨.val (.seq k e), some (.seq (l ++ [v]))⟩) :: s) :: ρ) := by
  have h1 : List.lookup name [(sElem, (⟨dTy e, some v⟩ : Bind))] = none := by
    rw [scope_cons_ne hne]; rfl
  have h2 : List.lookup name ([] : Scope) = none := rfl
  cases k with
  | vector =>
    simp only [storeVal, exec, eval, intLit_ok (show (-2 ^ 31 : ℤ) ≤ i by omega)
      (show (i : ℤ) < 2 ^ 31 by omega), ok_bind, valueOf_here scope_cons_eq, withVar,
      modify, valueOf_skip h1, valueOf_skip h2, hv, Int.toNat_natCast, if_true, Option.map_some]
    by_cases hj : i < l.length
    · simp only [hj, if_true, update_skip h1, update_skip h2, update_head, Option.map_some, ofOption_some]
    · simp only [hj, if_false]
  | set =>
    simp only [storeVal, exec, valueOf_here scope_cons_eq, withVar,
      modify, valueOf_skip h1, valueOf_skip h2, hv, Option.map_some,
      update_skip h1, update_skip h2, update_head, ofOption_some, reduceCtorEq, if_false]
  | list =>
    simp only [storeVal, exec, valueOf_here scope_cons_eq, withVar,
      modify, valueOf_skip h1, valueOf_skip h2, hv, Option.map_some,
      update_skip h1, update_skip h2, update_head, ofOption_some, reduceCtorEq, if_false]

theorem exec_block (L : Lib) (ss : List Stmt) (ρ : Env) : exec L (.block ss) ρ = leave (execs L ss ([] :: ρ)) := by
  rw [exec]

/-- The blocks that fill a vector. -/
theorem fill_vector (L : Lib) (name : Str) (e : Ty) (ui : Ann) (s : Scope) (ρ : Env) (hne : name ≠ sElem)
    (R : PyVal → Val → Prop) (hR : ∀ d v, R d v → coerce (.val e) (dTy e) v = some v ∧
      ∀ (ρ : Env), execs L (valCode e ui d sElem) ([] :: ρ) = .ok ([(sElem, ⟨dTy e, some v⟩)] :: ρ))
    (l : List PyVal) (vs : List Val) (h : List.Forall₂ R l vs) (i : ℕ) (acc : List Val)
    (hacc : acc.length = i + l.length) (hlen : acc.length < 2 ^ 31) :
    execs L ((l.zipIdx i).map fun x => .block (valCode e ui x.1 sElem ++ [storeVal .vector name x.2]))
      ([] :: ((name, ⟨.val (.seq .vector e), some (.seq acc)⟩) :: s) :: ρ) =
    .ok ([] :: ((name, ⟨.val (.seq .vector e), some (.seq (acc.take i ++ vs))⟩) :: s) :: ρ) := by
  induction h generalizing i acc with
  | nil =>
    have : acc.take i = acc := List.take_of_length_le (by simp at hacc; omega)
    simp [execs, this]
  | @cons d v l vs hd _ ih =>
    simp only [List.length_cons] at hacc
    obtain ⟨hv, hx⟩ := hR d v hd
    rw [List.zipIdx_cons, List.map_cons, execs, exec_block, execs_append, hx, ok_bind, execs_one,
      storeVal_spec L .vector name e v acc i s ρ hne (by omega) hv, if_pos rfl, if_pos (by omega), leave_ok,
      ok_bind, ih (i + 1) (acc.set i v) (by rw [List.length_set]; omega) (by rw [List.length_set]; omega)]
    have : (acc.set i v).take (i + 1) = acc.take i ++ [v] := by
      rw [List.take_add_one, List.take_set_of_le (by omega)]
      simp [show i < acc.length by omega]
    rw [this, List.append_assoc]
    rfl

/-- The blocks that fill a set or a list. -/
theorem fill_other (L : Lib) (k : Seq) (hk : k ≠ .vector) (name : Str) (e : Ty) (ui : Ann) (s : Scope) (ρ : Env)
    (hne : name ≠ sElem)
    (R : PyVal → Val → Prop) (hR : ∀ d v, R d v → coerce (.val e) (dTy e) v = some v ∧
      ∀ (ρ : Env), execs L (valCode e ui d sElem) ([] :: ρ) = .ok ([(sElem, ⟨dTy e, some v⟩)] :: ρ))
    (l : List PyVal) (vs : List Val) (h : List.Forall₂ R l vs) (i : ℕ) (acc : List Val)
    (hlen : i + l.length < 2 ^ 31) :
    execs L ((l.zipIdx i).map fun x => .block (valCode e ui x.1 sElem ++ [storeVal k name x.2]))
      ([] :: ((name, ⟨.val (.seq k e), some (.seq acc)⟩) :: s) :: ρ) =
    .ok ([] :: ((name, ⟨.val (.seq k e), some (.seq (acc ++ vs))⟩) :: s) :: ρ) := by
  induction h generalizing i acc with
  | nil => simp [execs]
  | @cons d v l vs hd _ ih =>
    simp only [List.length_cons] at hlen
    obtain ⟨hv, hx⟩ := hR d v hd
    rw [List.zipIdx_cons, List.map_cons, execs, exec_block, execs_append, hx, ok_bind, execs_one,
      storeVal_spec L k name e v acc i s ρ hne (by omega) hv, if_neg hk, leave_ok,
      ok_bind, ih (i + 1) (acc ++ [v]) (by omega), List.append_assoc]
    rfl

/-- The blocks that fill a map. -/
theorem fill_map (L : Lib) (name : Str) (k w : Ty) (u1 u2 : Ann) (s : Scope) (ρ : Env)
    (hnk : name ≠ sKey) (hnv : name ≠ sVal) (R : PyVal × PyVal → Val × Val → Prop)
    (hR : ∀ d v, R d v → coerce (.val k) (dTy k) v.1 = some v.1 ∧ coerce (.val w) (dTy w) v.2 = some v.2 ∧
      (∀ (ρ : Env), execs L (valCode k u1 d.1 sKey) ([] :: ρ) = .ok ([(sKey, ⟨dTy k, some v.1⟩)] :: ρ)) ∧
      (∀ (b : Bind) (ρ : Env), execs L (valCode w u2 d.2 sVal) ([(sKey, b)] :: ρ) =
        .ok ([(sVal, ⟨dTy w, some v.2⟩), (sKey, b)] :: ρ)))
    (l : List (PyVal × PyVal)) (vs : List (Val × Val)) (h : List.Forall₂ R l vs) (acc : List (Val × Val)) :
    execs L (l.map fun x => .block (valCode k u1 x.1 sKey ++ valCode w u2 x.2 sVal ++ [.setKey name sKey sVal]))
      ([] :: ((name, ⟨.val (.map k w), some (.map acc)⟩) :: s) :: ρ) =
    .ok ([] :: ((name, ⟨.val (.map k w), some (.map (acc ++ vs))⟩) :: s) :: ρ) := by
  induction h generalizing acc with
  | nil => simp [execs]
  | @cons d v l vs hd _ ih =>
    obtain ⟨hk, hw, hx, hy⟩ := hR d v hd
    have h1 : List.lookup name [(sVal, (⟨dTy w, some v.2⟩ : Bind)), (sKey, ⟨dTy k, some v.1⟩)] = none := by
      rw [scope_cons_ne hnv, scope_cons_ne hnk]; rfl
    have h2 : List.lookup name ([] : Scope) = none := rfl
    have h3 : List.lookup sKey [(sVal, (⟨dTy w, some v.2⟩ : Bind)), (sKey, ⟨dTy k, some v.1⟩)] =
        some ⟨dTy k, some v.1⟩ := by
      rw [scope_cons_ne (by decide), scope_cons_eq]
    rw [List.map_cons, execs, exec_block, List.append_assoc, execs_append, hx, ok_bind, execs_append, hy, ok_bind,
      execs_one]
    simp only [exec, valueOf_here h3, valueOf_here scope_cons_eq, withVar, modify, valueOf_skip h1,
      valueOf_skip h2, hk, hw, Option.map_some, Option.bind_some, update_skip h1, update_skip h2, update_head,
      ofOption_some, leave_ok, ok_bind]
    rw [ih (acc ++ [v]), List.append_assoc]
    rfl

/-- The code for a default declares the value it stands for. -/
theorem val_spec (L : Lib) (t : Ty) : ∀ (ui : Ann) (d : PyVal) (name : Str) (v : Val) (s : Scope) (ρ : Env),
    Stands L t ui d v → Unnested t → NameOk t name → s.lookup name = none →
    execs L (valCode t ui d name) (s :: ρ) = .ok (((name, ⟨dTy t, some v⟩) :: s) :: ρ) := by
  induction t with
  | prim p =>
    intro ui d name v s ρ hs _ _ hn
    have key : ∀ (e : Expr) (t' : CTy) (w : Val), primExpr p ui d = some e → eval L (s :: ρ) e = .ok (t', w) →
        coerce (.val (.prim (declTy p))) t' w = some v →
        execs L (valCode (.prim p) ui d name) (s :: ρ) = .ok (((name, ⟨dTy (.prim p), some v⟩) :: s) :: ρ) := by
      intro e t' w he hv hc
      rw [valCode, he]
      simp only
      rw [execs_one, exec, hv, ok_bind, hc, ofOption_some, ok_bind, declare_new hn, ofOption_some]
      rfl
    rcases hs with ⟨rfl, hu, ⟨x, z, rfl, hx, hz, rfl⟩ | ⟨y, z, rfl, hz, rfl⟩⟩ | ⟨hu, hs⟩
    · refine key (.nucStr x) int' (.int z) ?_ ?_ (coerce_same _ _)
      · simp [primExpr, nucExpr, (isNuclide_iff ui).mpr hu]
      · simp [eval, cLit_plain hx, hz, Res.ofExcept]
    · refine key (.nucInt y) int' (.int z) ?_ ?_ (coerce_same _ _)
      · simp [primExpr, nucExpr, (isNuclide_iff ui).mpr hu]
      · simp [eval, hz, Res.ofExcept]
    · cases p with
      | bool =>
        obtain ⟨b, rfl, rfl⟩ := hs
        exact key (.bool b) _ _ rfl rfl (coerce_same _ _)
      | int =>
        obtain ⟨z, rfl, h1, h2, rfl⟩ := hs
        have hui : ui.isNuclide = false := by
          by_contra h
          exact hu ⟨rfl, (isNuclide_iff ui).mp (by simpa using h)⟩
        exact key (.int z) _ _ (by simp [primExpr, intExpr, hui]) (intLit_ok h1 h2) (coerce_same _ _)
      | float =>
        obtain ⟨q, rfl | ⟨z, rfl, rfl, h1, h2⟩, rfl⟩ := hs
        · exact key (.dbl q) _ _ rfl rfl (coerce_same _ _)
        · exact key (.int z) _ _ rfl (intLit_ok h1 h2) (by simp [coerce, declTy, int', convert])
      | double =>
        obtain ⟨q, rfl | ⟨z, rfl, rfl, h1, h2⟩, rfl⟩ := hs
        · exact key (.dbl q) _ _ rfl rfl (coerce_same _ _)
        · exact key (.int z) _ _ rfl (intLit_ok h1 h2) (by simp [coerce, declTy, int', convert])
      | string =>
        obtain ⟨x, rfl, hx, rfl⟩ := hs
        exact key (.str x) _ _ rfl (by rw [eval, cLit_plain hx]; rfl) (coerce_same _ _)
      | blob =>
        obtain ⟨x, rfl, hx, rfl⟩ := hs
        exact key (.blob x) _ _ rfl (by rw [eval, cLit_plain hx]; rfl) (coerce_same _ _)
      | uuid => exact hs.elim
  | seq k e ih =>
    intro ui d name v s ρ hs hu hok hn
    obtain ⟨l, vs, rfl, hlen, hall, rfl⟩ := hs
    have hne := hok.1 rfl
    have hR : ∀ d v, Stands L e (ui.part 1) d v → coerce (.val e) (dTy e) v = some v ∧
        ∀ (ρ : Env), execs L (valCode e (ui.part 1) d sElem) ([] :: ρ) = .ok ([(sElem, ⟨dTy e, some v⟩)] :: ρ) :=
      fun d v h => ⟨stands_coerce h, fun ρ => ih _ d sElem v [] ρ h hu.2 (nameOk_elem hu.1) rfl⟩
    rw [valCode]
    simp only [PyVal.elems]
    rw [List.append_assoc, execs_append, execs_one, exec, declare_new hn, ofOption_some, ok_bind, execs_append]
    rw [show initial (.val (.seq k e)) = some (.seq []) from rfl]
    by_cases hk : k = .vector
    · subst hk
      rw [roomVal, execs_one, exec, eval, intLit_ok (by omega) (by omega), ok_bind]
      simp only [modify, valueOf_here scope_cons_eq, update_head, ofOption_some, resizeTo, Int.toNat_natCast,
        ok_bind]
      rw [execs_one, exec_block, fill_vector L name e (ui.part 1) s ρ hne _ hR l vs hall 0 _ (by simp)
        (by simp; omega), leave_ok]
      simp [dTy]
    · have hroom : roomVal k name l.length = [] := by cases k <;> simp_all [roomVal]
      rw [hroom]
      rw [show execs L [] (((name, (⟨.val (.seq k e), some (.seq [])⟩ : Bind)) :: s) :: ρ) = .ok _ from rfl,
        ok_bind, execs_one, exec_block, fill_other L k hk name e (ui.part 1) s ρ hne _ hR l vs hall 0 _
          (by omega), leave_ok]
      simp [dTy]
  | pair a b iha ihb =>
    intro ui d name v s ρ hs hu hok hn
    obtain ⟨x, y, va, vb, rfl, hsa, hsb, rfl⟩ := hs
    obtain ⟨hnf, hns⟩ := hok.2.1 rfl
    obtain ⟨ha, hb, hua, hub⟩ := hu
    rw [valCode]
    have h1 : List.lookup name [(sSecond, (⟨dTy b, some vb⟩ : Bind)), (sFirst, ⟨dTy a, some va⟩)] = none := by
      rw [scope_cons_ne hns, scope_cons_ne hnf]; rfl
    have h3 : List.lookup sFirst [(sSecond, (⟨dTy b, some vb⟩ : Bind)), (sFirst, ⟨dTy a, some va⟩)] =
        some ⟨dTy a, some va⟩ := by
      rw [scope_cons_ne (by decide), scope_cons_eq]
    rw [execs, exec, declare_new hn, ofOption_some, ok_bind, execs_one, exec_block, List.append_assoc,
      execs_append, iha _ x sFirst va [] _ hsa hua (nameOk_first ha) rfl, ok_bind, execs_append,
      ihb _ y sSecond vb _ _ hsb hub (nameOk_second hb) (by rw [scope_cons_ne (by decide)]; rfl), ok_bind, execs]
    rw [show initial (.val (.pair a b)) = some (.pair a.zero b.zero) from rfl]
    simp only [exec, valueOf_here h3, withVar, modify, valueOf_skip h1, valueOf_here scope_cons_eq,
      stands_coerce hsa, Option.map_some, update_skip h1, update_head, ofOption_some, ok_bind, execs_one,
      stands_coerce hsb, leave_ok]
    rfl
  | map k w ihk ihw =>
    intro ui d name v s ρ hs hu hok hn
    obtain ⟨l, vs, rfl, hall, rfl⟩ := hs
    obtain ⟨hnk, hnv⟩ := hok.2.2 rfl
    obtain ⟨hk, hw, huk, huw⟩ := hu
    rw [valCode]
    rw [execs, exec, declare_new hn, ofOption_some, ok_bind, execs_one, exec_block]
    rw [show initial (.val (.map k w)) = some (.map []) from rfl]
    rw [fill_map L name k w (ui.part 1) (ui.part 2) s ρ hnk hnv _ (fun d v h =>
      ⟨stands_coerce h.1, stands_coerce h.2, fun ρ => ihk _ d.1 sKey v.1 [] ρ h.1 huk (nameOk_key hk) rfl,
        fun bd ρ => ihw _ d.2 sVal v.2 _ ρ h.2 huw (nameOk_val hw) (by rw [scope_cons_ne (by decide)]; rfl)⟩)
      l vs hall [], leave_ok]
    rfl

end Cyclus.InfileGen
