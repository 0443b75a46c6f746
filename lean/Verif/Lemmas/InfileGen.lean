import Verif.Spec.InfileGen

/-!
# The generated readers without variables

`direct` is what the generated code of `reader` computes, as a function of the tree; `reader_spec` shows
that running the statements gives it.
-/

namespace Cyclus.InfileGen

open Infile (Node Tree Query)

/-! ## Outcomes -/

@[simp] theorem ok_bind {α β : Type} (a : α) (f : α → Res β) : (Res.ok a).bind f = f a := rfl
@[simp] theorem throws_bind {α β : Type} (e : Fault) (f : α → Res β) :
    (Res.throws e : Res α).bind f = .throws e := rfl
@[simp] theorem rejected_bind {α β : Type} (f : α → Res β) : (Res.rejected : Res α).bind f = .rejected := rfl

theorem bind_assoc {α β γ : Type} (r : Res α) (f : α → Res β) (g : β → Res γ) :
    (r.bind f).bind g = r.bind fun a => (f a).bind g := by cases r <;> rfl

@[simp] theorem ofOption_some {α : Type} (a : α) : Res.ofOption (some a) = .ok a := rfl
@[simp] theorem ofOption_none {α : Type} : Res.ofOption (none : Option α) = .rejected := rfl

theorem bind_congr {α β : Type} (r : Res α) (f g : α → Res β) (h : ∀ a, f a = g a) :
    r.bind f = r.bind g := by cases r <;> simp [h]

theorem leave_bind {α : Type} (r : Res α) (f : α → Res Env) :
    leave (r.bind f) = r.bind fun a => leave (f a) := by cases r <;> rfl

@[simp] theorem leave_ok (s : Scope) (ρ : Env) : leave (.ok (s :: ρ)) = .ok ρ := rfl

/-! ## Scopes -/

theorem lookup_skip {x : Str} {s : Scope} {ρ : Env} (h : s.lookup x = none) :
    lookup x (s :: ρ) = lookup x ρ := by simp [lookup, h]

theorem lookup_here {x : Str} {s : Scope} {ρ : Env} {b : Bind} (h : s.lookup x = some b) :
    lookup x (s :: ρ) = some b := by simp [lookup, h]

theorem update_skip {x : Str} {v : Val} {s : Scope} {ρ : Env} (h : s.lookup x = none) :
    update x v (s :: ρ) = (update x v ρ).map (s :: ·) := by
  simp only [update, h]; cases update x v ρ <;> rfl

theorem scope_cons_eq {x : Str} {b : Bind} {s : Scope} : List.lookup x ((x, b) :: s) = some b := by
  simp [List.lookup]

theorem scope_cons_ne {x y : Str} {b : Bind} {s : Scope} (h : x ≠ y) :
    List.lookup x ((y, b) :: s) = s.lookup x := by
  simp only [List.lookup]
  rw [beq_false_of_ne h]

theorem update_head {x : Str} {v : Val} {b : Bind} {s : Scope} {ρ : Env} :
    update x v (((x, b) :: s) :: ρ) = some (((x, ⟨b.ty, some v⟩) :: s) :: ρ) := by
  simp only [update, scope_cons_eq, Scope.set, if_true]

theorem valueOf_skip {x : Str} {s : Scope} {ρ : Env} (h : s.lookup x = none) :
    valueOf x (s :: ρ) = valueOf x ρ := by simp only [valueOf, lookup_skip h]

theorem valueOf_here {x : Str} {s : Scope} {ρ : Env} {t : CTy} {v : Val} (h : s.lookup x = some ⟨t, some v⟩) :
    valueOf x (s :: ρ) = some (t, v) := by simp only [valueOf, lookup_here h]

theorem treeOf_skip {x : Str} {s : Scope} {ρ : Env} (h : s.lookup x = none) :
    treeOf x (s :: ρ) = treeOf x ρ := by simp only [treeOf, valueOf_skip h]

theorem treeOf_here {x : Str} {s : Scope} {ρ : Env} {T : Tree} (h : s.lookup x = some ⟨.tree, some (.tree T)⟩) :
    treeOf x (s :: ρ) = some T := by simp only [treeOf, valueOf_here h]

theorem declare_new {x : Str} {b : Bind} {s : Scope} {ρ : Env} (h : s.lookup x = none) :
    declare x b (s :: ρ) = some (((x, b) :: s) :: ρ) := by simp [declare, h]

theorem coerce_same (t : CTy) (v : Val) : coerce t t v = some v := by simp [coerce]

theorem execs_append (L : Lib) (a b : List Stmt) (ρ : Env) :
    execs L (a ++ b) ρ = (execs L a ρ).bind (execs L b) := by
  induction a generalizing ρ with
  | nil => rfl
  | cons s ss ih =>
    rw [List.cons_append, execs, execs, bind_assoc]
    exact bind_congr _ _ _ ih

theorem execs_one (L : Lib) (s : Stmt) (ρ : Env) : execs L [s] ρ = exec L s ρ := by
  rw [execs]; cases exec L s ρ <;> rfl

/-! ## Names -/

/-- Names with an underscore are those of the readers' own results. -/
theorem nName_plain (k : ℕ) : '_' ∉ nName k := by
  intro h
  rw [nName, List.mem_cons] at h
  rcases h with h | h
  · simp at h
  · exact absurd (Nat.isDigit_of_mem_toDigits (by norm_num) (by norm_num) h) (by decide)

theorem iName_plain (k : ℕ) : '_' ∉ iName k := by
  intro h
  rw [iName, List.mem_cons] at h
  rcases h with h | h
  · simp at h
  · exact absurd (Nat.isDigit_of_mem_toDigits (by norm_num) (by norm_num) h) (by decide)

theorem ne_of_plain {m x : Str} (hm : '_' ∈ m) (hx : '_' ∉ x) : m ≠ x := by
  rintro rfl; exact hx hm

theorem under_in (m : Str) : '_' ∈ m ++ sIn := by simp [sIn]

theorem self_ne_in (m : Str) : m ≠ m ++ sIn := by
  intro h
  have := congrArg List.length h
  simp [sIn] at this

/-- The variables that a reader declares besides its result. -/
def locals : Ty → Idx → ℕ → List Str
  | .prim _, _, _ => []
  | .seq _ _, _, lev => [sBub, sSub, nName (lev + 1)]
  | .pair _ _, idx, _ => [sBub, sSub, sFirst ++ idx.text, sSecond ++ idx.text]
  | .map _ _, _, lev => [sBub, sSub, nName (lev + 1)]

/-! ## Loops -/

/-- The results of `n` turns, from `i` on. -/
def collect {α : Type} (g : ℕ → Res α) : ℕ → ℕ → Res (List α)
  | 0, _ => .ok []
  | n + 1, i => (g i).bind fun v => (collect g n (i + 1)).bind fun vs => .ok (v :: vs)

theorem turns_append {α : Type} (f : ℕ → Env → Res Env) (g : ℕ → Res α) (E : List α → Env)
    (h : ∀ k l, f k (E l) = (g k).bind fun v => .ok (E (l ++ [v]))) (n i : ℕ) (l : List α) :
    turns f n i (E l) = (collect g n i).bind fun vs => .ok (E (l ++ vs)) := by
  induction n generalizing i l with
  | zero => simp [turns, collect]
  | succ n ih =>
    rw [turns, h, collect, bind_assoc, bind_assoc]
    refine bind_congr _ _ _ fun v => ?_
    rw [ok_bind, ih, bind_assoc]
    refine bind_congr _ _ _ fun vs => ?_
    simp

theorem turns_set (f : ℕ → Env → Res Env) (g : ℕ → Res Val) (E : List Val → Env)
    (h : ∀ k l, k < l.length → f k (E l) = (g k).bind fun v => .ok (E (l.set k v))) (n i : ℕ)
    (l : List Val) (hl : i + n = l.length) :
    turns f n i (E l) = (collect g n i).bind fun vs => .ok (E (l.take i ++ vs)) := by
  induction n generalizing i l with
  | zero =>
    have : l.take i = l := List.take_of_length_le (by omega)
    simp [turns, collect, this]
  | succ n ih =>
    rw [turns, h i l (by omega), collect, bind_assoc, bind_assoc]
    refine bind_congr _ _ _ fun v => ?_
    rw [ok_bind, ih _ _ (by rw [List.length_set]; omega), bind_assoc]
    refine bind_congr _ _ _ fun vs => ?_
    have hi : i < l.length := by omega
    have : (l.set i v).take (i + 1) = l.take i ++ [v] := by
      rw [List.take_add_one, List.take_set_of_le (by omega)]
      simp [hi]
    rw [ok_bind, this, List.append_assoc]
    rfl

/-! ## Readers -/

/-- The value that the reader finds: query `path` and the name, take number `i`. -/
def direct (L : Lib) : Ty → Names → Ann → Tree → Str → ℤ → Res Val
  | .prim p, .prim n, ui, T, path, i =>
    (parsePath (path ++ n)).bind fun q =>
      if ui.isNuclide then
        (Res.ofExcept (T.getString q i)).bind fun s =>
          (Res.ofExcept (L.nuc s)).bind fun z => .ofOption (coerce (.val (.prim p)) int' (.int z))
      else .ofExcept (L.query p T q i)
  | .seq _ e, .seq n ne, ui, T, path, i =>
    (parsePath (path ++ n)).bind fun q =>
      (Res.ofExcept (T.subTree q i)).bind fun T' =>
        (parsePath ne.head).bind fun q' =>
          (collect (fun j => direct L e ne (ui.part 1) T' [] j) (T'.nMatches q') 0).bind fun vs =>
            .ok (.seq vs)
  | .pair a b, .pair n na nb, ui, T, path, i =>
    (parsePath (path ++ n)).bind fun q =>
      (Res.ofExcept (T.subTree q i)).bind fun T' =>
        (direct L a na (ui.part 1) T' [] 0).bind fun v =>
          (direct L b nb (ui.part 2) T' [] 0).bind fun w => .ok (.pair v w)
  | .map k v, .map n item nk nv, ui, T, path, i =>
    (parsePath (path ++ n)).bind fun q =>
      (Res.ofExcept (T.subTree q i)).bind fun T' =>
        (parsePath item).bind fun q' =>
          (collect (fun j =>
            (direct L k nk (ui.part 1) T' (item ++ ['/']) j).bind fun key =>
              (direct L v nv (ui.part 2) T' (item ++ ['/']) j).bind fun val => .ok (key, val))
            (T'.nMatches q') 0).bind fun vs => .ok (.map vs)
  | _, _, _, _, _, _ => .rejected

theorem readMember_spec (L : Lib) (R : Str → List Stmt) (x : Str) (t : Ty) (g : Res Val) (s : Scope)
    (ρ : Env) (hx : s.lookup x = none)
    (h : leave (execs L (R (x ++ sIn) ++ [.assign x (.var (x ++ sIn))])
      ([] :: ((x, ⟨.val t, initial (.val t)⟩) :: s) :: ρ)) =
        g.bind fun v => .ofOption (update x v (((x, ⟨.val t, initial (.val t)⟩) :: s) :: ρ))) :
    execs L (readMember x t R) (s :: ρ) = g.bind fun v => .ok (((x, ⟨.val t, some v⟩) :: s) :: ρ) := by
  unfold readMember
  rw [execs, exec, declare_new hx, ofOption_some, ok_bind, execs_one, exec, h]
  refine bind_congr _ _ _ fun v => ?_
  rw [update_head, ofOption_some]

/-- The final assignment, when the result is on top of a scope without the target. -/
theorem assign_spec (L : Lib) (m y : Str) (t : Ty) (v : Val) (b : Option Val) (s : Scope) (ρ : Env)
    (hm : s.lookup m = some ⟨.val t, some v⟩) (hs : s.lookup y = none)
    (hy : lookup y ρ = some ⟨.val t, b⟩) :
    leave (exec L (.assign y (.var m)) (s :: ρ)) = .ofOption (update y v ρ) := by
  rw [exec, eval, valueOf_here hm, ofOption_some, ok_bind, lookup_skip hs, hy]
  simp only [coerce_same, ofOption_some, ok_bind, update_skip hs]
  cases update y v ρ <;> rfl

end Cyclus.InfileGen
