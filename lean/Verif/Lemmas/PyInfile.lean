import Verif.Spec.PyInfile
import Verif.Lemmas.InfileRun

/-!
# Running the readers of Python
-/

namespace Cyclus.PyInfile

open Infile (Node Tree Query)
open InfileGen

theorem ok_bind {α β : Type} (a : α) (f : α → R β) : Except.bind (Except.ok a : R α) f = f a := rfl

theorem cpp_bind {α β : Type} (r : Res α) (f : α → Res β) : cpp (r.bind f) = (cpp r).bind fun a => cpp (f a) := by
  cases r <;> rfl

theorem cpp_ok {α : Type} (a : α) : cpp (.ok a) = .ok a := rfl

/-- The loops of the two languages agree. -/
theorem turns_collect {α : Type} (f : ℕ → R α) (g : ℕ → Res α) (h : ∀ j, f j = cpp (g j)) (n i : ℕ) :
    turns f n i = cpp (collect g n i) := by
  induction n generalizing i with
  | zero => rfl
  | succ n ih =>
    rw [turns, collect, cpp_bind, h i]
    congr 1
    funext a
    rw [ih, cpp_bind]
    rfl

theorem expand_part (n i : ℕ) (hi : i < n) (a : Ann) : (expand n a).getD i .none = a.part i := by
  cases a with
  | none => simp [expand, Ann.part, hi]
  | str s =>
    cases i with
    | zero => rfl
    | succ i => simp [expand, Ann.part]; rw [List.getElem?_replicate]; split <;> rfl
  | list l =>
    simp only [expand, Ann.part, List.getD_eq_getElem?_getD]
    rcases Nat.lt_or_ge i l.length with h | h
    · rw [List.getElem?_append_left h]
    · rw [List.getElem?_append_right h, List.getElem?_eq_none h, List.getElem?_replicate]
      split <;> rfl

theorem expand_length (n : ℕ) (hn : 0 < n) (a : Ann) : n ≤ (expand n a).length := by
  cases a with
  | none => simp [expand]
  | str s => simp [expand]; omega
  | list l => simp [expand]; omega

/-- The parts of a prepared annotation. -/
theorem item_seq (k : Seq) (e : Ty) (a : Ann) : item (prepare (.seq k e) a) 1 = .ok (prepare e (a.part 1)) := by
  have hl := expand_length 2 (by norm_num) a
  simp only [prepare, item, expand_part 2 1 (by norm_num), List.getElem?_set]
  simp [show 1 < (expand 2 a).length by omega]

theorem item_pair (x y : Ty) (a : Ann) : item (prepare (.pair x y) a) 1 = .ok (prepare x (a.part 1)) ∧
    item (prepare (.pair x y) a) 2 = .ok (prepare y (a.part 2)) := by
  have hl := expand_length 3 (by norm_num) a
  simp only [prepare, item, expand_part 3 1 (by norm_num), expand_part 3 2 (by norm_num), List.getElem?_set]
  simp [show 1 < (expand 3 a).length by omega, show 2 < (expand 3 a).length by omega]

theorem item_map (x y : Ty) (a : Ann) : item (prepare (.map x y) a) 1 = .ok (prepare x (a.part 1)) ∧
    item (prepare (.map x y) a) 2 = .ok (prepare y (a.part 2)) := item_pair x y a

/-- Primitive values are read as in C++. -/
theorem read_prim (L : Lib) (p : Prim) (n : Str) (ui : Ann) (T : Tree) (i : ℕ) (path : Str)
    (h : PyReadable (.prim p) ui) :
    read L (.prim p) (.str n) (prepare (.prim p) ui) T i path = cpp (direct L (.prim p) (.prim n) ui T path i) := by
  simp only [read, concat, prepare, direct, queryInfile]
  rw [show Except.bind (Except.ok (path ++ n) : R Str) = fun f => f (path ++ n) from rfl]
  simp only
  rw [cpp_bind]
  by_cases hn : ui.isNuclide = true
  · obtain rfl := h.2.2 ((isNuclide_iff ui).mp hn)
    simp only [hn, if_true]
    congr 1
    funext q
    rw [cpp_bind]
    congr 1
    funext s
    rw [cpp_bind]
    congr 1
  · have hq : queryable p = true := by
      obtain ⟨h1, h2, _⟩ := h
      cases p <;> simp_all [queryable]
    simp only [if_neg hn, if_pos hq]
  
theorem query_hashable {p : Prim} {v : Val} (L : Lib) {n : Str} {ui : Ann} {T : Tree} {path : Str} {i : ℤ}
    (h : direct L (.prim p) (.prim n) ui T path i = .ok v) : hashable v = true := by
  simp only [direct] at h
  cases hq : parsePath (path ++ n) with
  | throws f => rw [hq] at h; cases h
  | rejected => rw [hq] at h; cases h
  | ok q =>
    rw [hq, InfileGen.ok_bind] at h
    split at h
    · cases hs : T.getString q i with
      | error e => rw [hs] at h; cases h
      | ok s =>
        rw [hs] at h
        simp only [Res.ofExcept, InfileGen.ok_bind] at h
        cases hz : L.nuc s with
        | error e => rw [hz] at h; cases h
        | ok z =>
          rw [hz] at h
          simp only [InfileGen.ok_bind] at h
          unfold coerce at h
          split at h
          · cases h; rfl
          · cases p <;> simp [int', convert] at h <;> (try split at h) <;> cases h <;> rfl
    · unfold Lib.query at h
      cases hs : T.getString q i with
      | error e => cases p <;> simp [hs, Infile.queryInt, Infile.queryDouble, Except.map, Except.bind, Res.ofExcept] at h
      | ok s =>
        cases p <;> simp only [hs, Infile.queryInt, Infile.queryDouble, Except.bind] at h
        · cases hb : lexicalBool s <;> simp [hb, Infile.lexical, Except.map, Res.ofExcept] at h
          subst h; rfl
        · cases hb : Infile.lexicalInt (Infile.trim s) <;> simp [hb, Infile.lexical, Except.map, Res.ofExcept] at h
          subst h; rfl
        · cases hb : L.dbl (Infile.trim s) <;> simp [hb, Infile.lexical, Except.map, Res.ofExcept] at h
          subst h; rfl
        · cases hb : L.dbl (Infile.trim s) <;> simp [hb, Infile.lexical, Except.map, Res.ofExcept] at h
          subst h; rfl
        · simp [Except.map, Res.ofExcept] at h
          subst h; rfl
        · cases hb : L.blob s <;> simp [hb, Infile.lexical, Except.map, Res.ofExcept] at h
          subst h; rfl
        · cases hb : L.uuid s <;> simp [hb, Infile.lexical, Except.map, Res.ofExcept] at h
          subst h; rfl

theorem collect_all {α : Type} (P : α → Prop) (g : ℕ → Res α) (h : ∀ j a, g j = .ok a → P a) (n i : ℕ)
    (l : List α) (hl : collect g n i = .ok l) : ∀ a ∈ l, P a := by
  induction n generalizing i l with
  | zero => cases hl; simp
  | succ n ih =>
    rw [collect] at hl
    cases hg : g i with
    | throws f => rw [hg] at hl; cases hl
    | rejected => rw [hg] at hl; cases hl
    | ok a =>
      rw [hg, InfileGen.ok_bind] at hl
      cases hc : collect g n (i + 1) with
      | throws f => rw [hc] at hl; cases hl
      | rejected => rw [hc] at hl; cases hl
      | ok r =>
        rw [hc] at hl
        cases hl
        intro b hb
        rcases List.mem_cons.mp hb with rfl | hb
        · exact h _ _ hg
        · exact ih _ _ hc _ hb

theorem subtree_name (T : Tree) (n : Str) (i : ℕ) : subtree T (.str n) i =
    (cpp (parsePath n)).bind fun q => cpp (Res.ofExcept (T.subTree q i)) := rfl

theorem read_seq (L : Lib) (k : Seq) (e : Ty) (al ui : Ann) (t : Tree) (i : ℕ) (path : Str) :
    read L (.seq k e) al ui t i path =
      (item al 0).bind fun a0 =>
        (subtree t a0 i).bind fun sub =>
          (item al 1).bind fun a1 =>
            (valName a1).bind fun val =>
              (nmatches sub val).bind fun n =>
                (turns (fun j =>
                  (item ui 1).bind fun u => read L e val u sub j (innerPath k path)) n 0).bind (collected k) := rfl

theorem read_map (L : Lib) (k v : Ty) (al ui : Ann) (t : Tree) (i : ℕ) (path : Str) :
    read L (.map k v) al ui t i path =
      (item al 0).bind fun a0 =>
        (subtree t a0 i).bind fun sub =>
          (itemName a0).bind fun nm =>
            (item al 1).bind fun a1 =>
              (item al 2).bind fun a2 =>
                (concat [] nm).bind fun it =>
                  (nmatches sub nm).bind fun n =>
                    (turns (fun j =>
                      (item ui 1).bind fun u1 =>
                        (read L k (orElse sKey a1) u1 sub j (it ++ ['/'])).bind fun x =>
                          (item ui 2).bind fun u2 =>
                            (read L v (orElse sVal a2) u2 sub j (it ++ ['/'])).bind fun y =>
                              if hashable x then .ok (x, y) else .error .type) n 0).bind fun l =>
                      .ok (.map l) := rfl

theorem direct_seq (L : Lib) (k : Seq) (e : Ty) (n : Str) (ne : Names) (ui : Ann) (T : Tree) (i : ℤ) :
    direct L (.seq k e) (.seq n ne) ui T [] i = (parsePath n).bind fun q =>
      (Res.ofExcept (T.subTree q i)).bind fun T' =>
        (parsePath ne.head).bind fun q' =>
          (collect (fun j => direct L e ne (ui.part 1) T' [] j) (T'.nMatches q') 0).bind fun vs =>
            .ok (.seq vs) := rfl

theorem direct_map (L : Lib) (k v : Ty) (n it : Str) (nk nv : Names) (ui : Ann) (T : Tree) (i : ℤ) :
    direct L (.map k v) (.map n it nk nv) ui T [] i = (parsePath n).bind fun q =>
      (Res.ofExcept (T.subTree q i)).bind fun T' =>
        (parsePath it).bind fun q' =>
          (collect (fun j =>
            (direct L k nk (ui.part 1) T' (it ++ ['/']) j).bind fun key =>
              (direct L v nv (ui.part 2) T' (it ++ ['/']) j).bind fun val => .ok (key, val))
            (T'.nMatches q') 0).bind fun vs => .ok (.map vs) := rfl

/-- The readers of Python find what those of C++ find, for the types that they can handle. -/
theorem read_direct (L : Lib) (t : Ty) : ∀ (nm : Names) (ui : Ann) (T : Tree), Fit t nm → PyReadable t ui →
    read L t nm.toAnn (prepare t ui) T 0 [] = cpp (direct L t nm ui T [] 0) := by
  induction t with
  | prim p =>
    intro nm ui T hf hr
    cases nm <;> simp only [Fit] at hf
    exact read_prim L p _ ui T 0 [] hr
  | seq k e ih =>
    intro nm ui T hf hr
    cases nm <;> simp only [Fit] at hf
    rename_i n ne
    obtain ⟨⟨p, rfl⟩, hr⟩ := hr
    cases ne <;> simp only [Fit] at hf
    rename_i ne
    have hu := item_seq k (.prim p) ui
    rw [read_seq, direct_seq, hu]
    simp only [Names.toAnn, item, List.getElem?_cons_zero, List.getElem?_cons_succ, ok_bind, Names.head]
    rw [cpp_bind, subtree_name]
    cases hp : parsePath n with
    | throws f => rfl
    | rejected => rfl
    | ok q =>
      simp only [cpp_ok, ok_bind]
      rw [cpp_bind, show ((0 : ℕ) : ℤ) = 0 from rfl]
      congr 1
      funext sub
      simp only [valName, ok_bind, nmatches, text]
      rw [cpp_bind]
      cases hv : parsePath ne with
      | throws f => rfl
      | rejected => rfl
      | ok q' =>
        simp only [cpp_ok, ok_bind]
        rw [turns_collect _ (fun j => direct L (.prim p) (.prim ne) (ui.part 1) sub [] j) (fun j => by
          rw [show innerPath k [] = [] from by cases k <;> rfl]
          exact read_prim L p ne (ui.part 1) sub j [] hr)]
        cases hc : collect (fun j => direct L (.prim p) (.prim ne) (ui.part 1) sub [] j) (sub.nMatches q') 0 with
        | throws f => rfl
        | rejected => rfl
        | ok l =>
          simp only [cpp_ok, ok_bind, InfileGen.ok_bind]
          have hh : l.all hashable = true := by
            rw [List.all_eq_true]
            exact collect_all (fun v => hashable v = true) _ (fun j a h => query_hashable L h) _ _ _ hc
          cases k <;> simp [collected, hh]
  | pair a b iha ihb =>
    intro nm ui T hf hr
    cases nm <;> simp only [Fit] at hf
    rename_i n na nb
    have hna : orElse sFirst na.toAnn = na.toAnn := by cases na <;> rfl
    have hnb : orElse sSecond nb.toAnn = nb.toAnn := by cases nb <;> rfl
    have hu := item_pair a b ui
    simp only [read, Names.toAnn, direct, List.nil_append, hu.1, hu.2, ok_bind]
    simp only [item, List.getElem?_cons_zero, List.getElem?_cons_succ, ok_bind, hna, hnb]
    rw [cpp_bind, subtree_name]
    cases hp : parsePath n with
    | throws f => rfl
    | rejected => rfl
    | ok q =>
      simp only [cpp_ok, ok_bind]
      rw [cpp_bind, show ((0 : ℕ) : ℤ) = 0 from rfl]
      congr 1
      funext sub
      rw [iha na (ui.part 1) sub hf.1 hr.1, ihb nb (ui.part 2) sub hf.2 hr.2, cpp_bind]
      congr 1
      funext x
      rw [cpp_bind]
      rfl
  | map k v ihk ihv =>
    intro nm ui T hf hr
    cases nm <;> simp only [Fit] at hf
    rename_i n it nk nv
    obtain ⟨⟨pk, rfl⟩, ⟨pv, rfl⟩, hrk, hrv⟩ := hr
    obtain ⟨hfk, hfv⟩ := hf
    cases nk <;> simp only [Fit] at hfk
    cases nv <;> simp only [Fit] at hfv
    rename_i nk nv
    have hu := item_map (.prim pk) (.prim pv) ui
    rw [read_map, direct_map, hu.1, hu.2]
    simp only [Names.toAnn, item, List.getElem?_cons_zero, List.getElem?_cons_succ, ok_bind]
    rw [show ∀ l : List Ann, subtree T (.list (.str n :: l)) 0 = subtree T (.str n) 0 from fun _ => rfl,
      cpp_bind, subtree_name]
    cases hp : parsePath n with
    | throws f => rfl
    | rejected => rfl
    | ok q =>
      simp only [cpp_ok, ok_bind]
      rw [cpp_bind, show ((0 : ℕ) : ℤ) = 0 from rfl]
      congr 1
      funext sub
      simp only [itemName, item, List.getElem?_cons_zero, List.getElem?_cons_succ, ok_bind, orElse, concat,
        List.nil_append, nmatches, text]
      rw [cpp_bind]
      cases hv : parsePath it with
      | throws f => rfl
      | rejected => rfl
      | ok q' =>
        simp only [cpp_ok, ok_bind]
        rw [turns_collect _ (fun j : ℕ =>
          (direct L (.prim pk) (.prim nk) (ui.part 1) sub (it ++ ['/']) j).bind fun key =>
            (direct L (.prim pv) (.prim nv) (ui.part 2) sub (it ++ ['/']) j).bind fun val => .ok (key, val))
          (fun j => by
            rw [read_prim L pk nk (ui.part 1) sub j _ hrk, cpp_bind, read_prim L pv nv (ui.part 2) sub j _ hrv]
            cases hd : direct L (.prim pk) (.prim nk) (ui.part 1) sub (it ++ ['/']) j with
            | throws f => rfl
            | rejected => rfl
            | ok x =>
              simp only [cpp_ok, ok_bind]
              rw [cpp_bind]
              simp only [query_hashable L hd, if_true]
              rfl)]
        rw [cpp_bind]
        rfl

/-! ## Defaults -/

theorem each_ok {α β : Type} (f : α → R β) {P : α → β → Prop} (h : ∀ a b, P a b → f a = .ok b) {l : List α}
    {r : List β} (hl : List.Forall₂ P l r) : each f l = .ok r := by
  induction hl with
  | nil => rfl
  | cons hab _ ih => rw [each, h _ _ hab, ok_bind, ih, ok_bind]

theorem toCpp_denotes (t : Ty) : ∀ (d : PyVal) (v : Val), Denotes t d v → toCpp t d = .ok v := by
  induction t with
  | prim p =>
    intro d v h
    cases p with
    | bool => obtain ⟨b, rfl, rfl⟩ := h; rfl
    | int =>
      obtain ⟨z, rfl, h1, h2, rfl⟩ := h
      simp only [toCpp, toPrim, toInt]
      rw [if_pos ⟨h1, h2⟩]
      rfl
    | float =>
      obtain ⟨q, rfl | ⟨z, rfl, rfl⟩, rfl⟩ := h <;> rfl
    | double =>
      obtain ⟨q, rfl | ⟨z, rfl, rfl⟩, rfl⟩ := h <;> rfl
    | string =>
      obtain ⟨s, rfl, h0, rfl⟩ := h
      have : s.takeWhile (· ≠ Char.ofNat 0) = s := by
        clear * - h0
        induction s with
        | nil => rfl
        | cons c cs ih =>
          simp only [List.mem_cons, not_or] at h0
          rw [List.takeWhile_cons, if_pos (by simpa using Ne.symm h0.1), ih h0.2]
      simp only [toCpp, toPrim]
      rw [this]
    | blob => exact h.elim
    | uuid => exact h.elim
  | seq k e ih =>
    intro d v h
    obtain ⟨l, vs, rfl, hl, rfl⟩ := h
    rw [toCpp, each_ok (toCpp e) ih hl, ok_bind]
  | pair a b iha ihb =>
    intro d v h
    obtain ⟨x, y, va, vb, rfl, ha, hb, rfl⟩ := h
    rw [toCpp, iha _ _ ha, ok_bind, ihb _ _ hb, ok_bind]
  | map k w ihk ihw =>
    intro d v h
    obtain ⟨l, vs, rfl, hl, rfl⟩ := h
    rw [toCpp, each_ok _ (fun a b hab => by rw [ihk _ _ hab.1, ok_bind, ihw _ _ hab.2, ok_bind]) hl, ok_bind]

/-! ## The class -/

theorem shallow_of_pyReadable {t : Ty} {ui : Ann} (h : PyReadable t ui) : Shallow t := by
  induction t generalizing ui with
  | prim p => trivial
  | seq k e ih =>
    refine ⟨?_, ih h.2⟩
    obtain ⟨⟨p, rfl⟩, _⟩ := h
    rfl
  | pair a b iha ihb => exact ⟨iha h.1, ihb h.2⟩
  | map k v ihk ihv => exact ⟨ihk h.2.2.1, ihv h.2.2.2⟩

/-- What an element says is read. -/
theorem read_says (L : Lib) (t : Ty) (nm : Names) (ui : Ann) (T : Tree) (x : Node) (v : Val) (hf : Fit t nm)
    (hp : Proper' nm) (hr : PyReadable t ui) (hx : named nm.root T.cur.children = [x]) (hs : Says L t nm ui x v) :
    read L t nm.toAnn (prepare t ui) T 0 [] = .ok v := by
  have hd : direct L t nm ui T [] ((0 : ℕ) : ℤ) = .ok v :=
    direct_shallow L t nm ui T [] ⟨false, [.named nm.root]⟩ 0 x v hf hp (shallow_of_pyReadable hr)
      (by rw [List.nil_append]; exact parse_name (proper_root hp))
      (by rw [find_child, named_selects, hx]; rfl) (by norm_num) hs
  rw [Nat.cast_zero] at hd
  rw [read_direct L t nm ui T hf hr, hd]
  rfl

theorem nmatches_query (T : Tree) (nm : Names) (hp : Proper' nm) :
    ((queryName nm.toAnn).bind fun q => nmatches T q) = .ok (named nm.root T.cur.children).length := by
  have key : nmatches T (.str nm.root) = .ok (named nm.root T.cur.children).length := by
    simp only [nmatches, text, ok_bind, parse_name (proper_root hp), cpp_ok, Tree.nMatches, find_child, named_selects]
  rw [← key]
  cases nm <;> rfl

/-- What a variable holds before the record. -/
theorem hold_spec (L : Lib) (v : Var) (val : Val) (T : Tree) (hf : v.internal = false → Fit v.ty v.names)
    (hp : v.internal = false → Proper' v.names) (hr : v.internal = false → PyReadable v.ty v.ui)
    (hg : PyGets L T.cur.children v val) :
    ∃ h, hold L T v = .ok h ∧ h.toVal v.ty = .ok val := by
  rcases hg with ⟨hi, x, hx, hs⟩ | ⟨hi, d, hd, hden⟩
  · refine ⟨.read val, ?_, rfl⟩
    have hread := read_says L v.ty v.names v.ui T x val (hf hi) (hp hi) (hr hi) hx hs
    unfold hold
    simp only [hi, Bool.false_eq_true, if_false, hread]
    cases v.dflt with
    | none => rfl
    | some d =>
      have hn := nmatches_query T v.names (hp hi)
      rw [hx] at hn
      cases hq : queryName v.names.toAnn with
      | error e => rw [hq] at hn; cases hn
      | ok q =>
        rw [hq, ok_bind] at hn
        simp only [ok_bind, hn]
        rfl
  · refine ⟨.given d, ?_, toCpp_denotes v.ty d val hden⟩
    unfold hold
    simp only [hd]
    by_cases hint : v.internal = true
    · simp [hint]
    · have hx := hi.resolve_left hint
      rw [Bool.not_eq_true] at hint
      have hn := nmatches_query T v.names (hp hint)
      rw [hx] at hn
      simp only [hint, Bool.false_eq_true, if_false]
      cases hq : queryName v.names.toAnn with
      | error e => rw [hq] at hn; cases hn
      | ok q =>
        rw [hq, ok_bind] at hn
        simp only [ok_bind, hn]
        rfl

theorem rows_spec (L : Lib) (T : Tree) (val : Var → Val) (vs : List Var)
    (h : ∀ v ∈ vs, ∃ h, hold L T v = .ok h ∧ h.toVal v.ty = .ok (val v)) :
    ∃ hs, each (hold L T) vs = .ok hs ∧
      each (fun x : Var × Held => (x.2.toVal x.1.ty).bind fun w => .ok (x.1.name, CTy.val x.1.ty, w)) (vs.zip hs) =
        .ok (vs.map fun v => (v.name, .val v.ty, val v)) := by
  induction vs with
  | nil => exact ⟨[], rfl, rfl⟩
  | cons v vs ih =>
    obtain ⟨hd, h1, h2⟩ := h v (by simp)
    obtain ⟨hs, h3, h4⟩ := ih fun w hw => h w (by simp [hw])
    refine ⟨hd :: hs, ?_, ?_⟩
    · rw [each, h1, ok_bind, h3, ok_bind]
    · rw [List.zip_cons_cons, each, h2, ok_bind, ok_bind, h4, ok_bind, List.map_cons]

theorem config_sub (T : Tree) (m : Str) (cs : List Node)
    (hT : (T.find ⟨false, [.named ['c', 'o', 'n', 'f', 'i', 'g'], .any]⟩)[0]? = some (.element m cs)) :
    subtree T (.str sConfig) 0 = .ok ⟨T.root, .element m cs⟩ := by
  rw [subtree_name, parse_config, cpp_ok, ok_bind, subTree_at T _ 0 m cs hT (by norm_num)]
  rfl

end Cyclus.PyInfile
