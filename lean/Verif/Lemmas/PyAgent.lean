import Verif.Spec.PyAgent

/-!
# Lemmas on the state variables of agents written in Python
-/

namespace Cyclus.PyAgent

open InfileGen (Str Ty Prim PyVal Val)

theorem mem_of_lookup {α : Type} {n : Str} {v : α} : ∀ {l : List (Str × α)}, l.lookup n = some v → (n, v) ∈ l
  | [], h => by simp at h
  | (m, w) :: l, h => by
    by_cases e : n = m
    · subst e; simp [List.lookup_cons] at h; simp [h]
    · have : (n == m) = false := by simpa using e
      rw [List.lookup_cons, this] at h
      exact List.mem_cons_of_mem _ (mem_of_lookup h)

theorem lookup_of_mem {α : Type} {n : Str} {v : α} : ∀ {l : List (Str × α)}, (l.map Prod.fst).Nodup →
    (n, v) ∈ l → l.lookup n = some v
  | [], _, h => by simp at h
  | (m, w) :: l, hd, h => by
    rcases List.mem_cons.1 h with e | h
    · cases e; simp
    · have hm : m ∉ l.map Prod.fst := (List.nodup_cons.1 hd).1
      have : n ≠ m := fun e => hm (e ▸ List.mem_map.2 ⟨(n, v), h, rfl⟩)
      have e : (n == m) = false := by simpa using this
      rw [List.lookup_cons, e]
      exact lookup_of_mem (List.nodup_cons.1 hd).2 h

theorem lookup_none {α : Type} {n : Str} : ∀ {l : List (Str × α)}, l.lookup n = none ↔ ∀ x ∈ l, x.1 ≠ n
  | [] => by simp
  | (m, w) :: l => by
    by_cases e : n = m
    · subst e; simp [List.lookup_cons]
    · have h : (n == m) = false := by simpa using e
      rw [List.lookup_cons, h, lookup_none]
      simp [Ne.symm e]

theorem getattr_iff {P : Program} (hP : Sane P) (c : ℕ) (n : Str) (v : ℕ) :
    P.getattr c n = some (some v) ↔ Declares P c n v := by
  unfold Program.getattr Declares
  rw [List.findSome?_eq_some_iff]
  constructor
  · rintro ⟨l, b, r, h, hb, hl⟩
    exact ⟨l, b, r, h, fun d hd => lookup_none.1 (hl d hd), mem_of_lookup hb⟩
  · rintro ⟨l, b, r, h, hl, hb⟩
    exact ⟨l, b, r, h, lookup_of_mem (hP.dict b) hb, fun d hd => lookup_none.2 (hl d hd)⟩

theorem dir_nodup (P : Program) (c : ℕ) : (P.dir c).Nodup :=
  (List.perm_insertionSort _ _).nodup_iff.2 (List.nodup_dedup _)

theorem mem_dir {P : Program} {c : ℕ} {n : Str} : n ∈ P.dir c ↔ ∃ b ∈ P.mro c, ∃ x ∈ P.own b, x.1 = n := by
  unfold Program.dir
  rw [List.mem_insertionSort, List.mem_dedup]
  simp

theorem visible_eq (P : Program) (c : ℕ) : (P.visible c).map Prod.fst =
    (P.dir c).filter fun n => match P.getattr c n with | some (some _) => true | _ => false := by
  unfold Program.visible
  induction P.dir c with
  | nil => rfl
  | cons n l ih =>
    rcases h : P.getattr c n with _ | _ | v <;> simp [List.filterMap_cons, List.filter_cons, h, ih]

theorem visible_names (P : Program) (c : ℕ) : ((P.visible c).map Prod.fst).Nodup := by
  rw [visible_eq]
  exact (dir_nodup P c).filter _

theorem mem_visible {P : Program} (hP : Sane P) {c : ℕ} {n : Str} {v : ℕ} :
    (n, v) ∈ P.visible c ↔ Declares P c n v := by
  rw [← getattr_iff hP]
  unfold Program.visible
  rw [List.mem_filterMap]
  constructor
  · rintro ⟨m, _, h⟩
    rcases e : P.getattr c m with _ | _ | w
    · simp [e] at h
    · simp [e] at h
    · simp only [e, Option.some.injEq, Prod.mk.injEq] at h
      obtain ⟨rfl, rfl⟩ := h
      exact e
  · intro h
    refine ⟨n, ?_, by simp [h]⟩
    obtain ⟨l, b, r, h1, _, h3⟩ := (getattr_iff hP c n v).1 h
    exact mem_dir.2 ⟨b, by simp [h1], _, h3, rfl⟩

theorem sort_perm (ix : ℕ → ℤ) (l : List (Str × ℕ)) : (sortByIndex ix l).Perm l :=
  List.perm_insertionSort _ _

theorem sort_pairwise (ix : ℕ → ℤ) (l : List (Str × ℕ)) :
    (sortByIndex ix l).Pairwise fun a b => ix a.2 ≤ ix b.2 := by
  haveI : Std.Total (fun a b : Str × ℕ => ix a.2 ≤ ix b.2) := ⟨fun a b => le_total _ _⟩
  haveI : IsTrans (Str × ℕ) (fun a b => ix a.2 ≤ ix b.2) := ⟨fun a b c h1 h2 => le_trans h1 h2⟩
  exact List.pairwise_insertionSort _ l

theorem renumber_of_not_mem : ∀ (l : List (Str × ℕ)) (i : ℕ) (ix : ℕ → ℤ) (v : ℕ), v ∉ l.map Prod.snd →
    renumber l i ix v = ix v
  | [], _, _, _, _ => rfl
  | x :: l, i, ix, v, h => by
    simp only [List.map_cons, List.mem_cons, not_or] at h
    rw [show renumber (x :: l) i ix = renumber l (i + 1) (Function.update ix x.2 i) from rfl,
      renumber_of_not_mem l _ _ _ h.2, Function.update_of_ne h.1]

theorem named_of_not_mem : ∀ (l : List (Str × ℕ)) (f : ℕ → Option Str) (v : ℕ), v ∉ l.map Prod.snd →
    named l f v = f v
  | [], _, _, _ => rfl
  | x :: l, f, v, h => by
    simp only [List.map_cons, List.mem_cons, not_or] at h
    rw [show named (x :: l) f = named l (Function.update f x.2 (some x.1)) from rfl,
      named_of_not_mem l _ _ h.2, Function.update_of_ne h.1]

theorem named_mem {nm : ℕ → Str} : ∀ (l : List (Str × ℕ)) (f : ℕ → Option Str) (v : ℕ),
    (∀ x ∈ l, x.1 = nm x.2) → v ∈ l.map Prod.snd → named l f v = some (nm v)
  | [], _, _, _, h => by simp at h
  | x :: l, f, v, hn, h => by
    rw [show named (x :: l) f = named l (Function.update f x.2 (some x.1)) from rfl]
    by_cases hv : v ∈ l.map Prod.snd
    · exact named_mem l _ v (fun y hy => hn y (List.mem_cons_of_mem _ hy)) hv
    · rw [named_of_not_mem l _ _ hv]
      have : v = x.2 := by
        simp only [List.map_cons, List.mem_cons] at h
        exact h.resolve_right hv
      rw [this, Function.update_self, hn x (List.mem_cons_self ..)]

theorem visible_nm {P : Program} (hP : Sane P) {nm : ℕ → Str} (h1 : OneName P nm) {c : ℕ} :
    ∀ x ∈ P.visible c, x.1 = nm x.2 := by
  rintro ⟨n, v⟩ hx
  obtain ⟨l, b, r, _, _, h⟩ := (mem_visible hP).1 hx
  exact h1 b n v h

/-- What holds after agents of the classes were made. -/
structure Inv (P : Program) (cs : List ℕ) (W : World) : Prop where
  cached : ∀ b s, W.cache b = some s → b ∈ cs ∧ s.Perm (P.visible b)
  done : ∀ b ∈ cs, ∃ d ∈ P.mro b, ∃ s, W.cache d = some s

/-- What holds of names. -/
structure InvName (P : Program) (nm : ℕ → Str) (W : World) : Prop where
  label : ∀ v n, W.label v = some n → n = nm v
  cached : ∀ b s, W.cache b = some s → ∀ x ∈ s, W.label x.2 = some x.1

theorem Fresh.inv {P : Program} {W : World} (h : Fresh W) : Inv P [] W :=
  ⟨fun b s hb => by simp [h.1 b] at hb, fun b hb => by simp at hb⟩

theorem Fresh.invName {P : Program} {nm : ℕ → Str} {W : World} (h : Fresh W) : InvName P nm W :=
  ⟨fun v n hv => by simp [h.2 v] at hv, fun b s hb => by simp [h.1 b] at hb⟩

theorem lookupCache_none {P : Program} {c : ℕ} {W : World} :
    lookupCache P c W = none ↔ ∀ b ∈ P.mro c, W.cache b = none := by
  unfold lookupCache
  rw [List.findSome?_eq_none_iff]

theorem lookupCache_some {P : Program} {c : ℕ} {W : World} {s : List (Str × ℕ)}
    (h : lookupCache P c W = some s) : ∃ b ∈ P.mro c, W.cache b = some s :=
  List.exists_of_findSome?_eq_some h

theorem lookupCache_self {P : Program} (hP : Sane P) {c : ℕ} {W : World} {s : List (Str × ℕ)}
    (h : W.cache c = some s) : lookupCache P c W = some s := by
  obtain ⟨r, hr⟩ := hP.self c
  unfold lookupCache
  rw [hr, List.findSome?_cons, h]

theorem ready_some {P : Program} {c : ℕ} {W : World} {s : List (Str × ℕ)} (h : lookupCache P c W = some s) :
    ready P c W = W := by
  unfold ready
  rw [h]

theorem ready_none {P : Program} {c : ℕ} {W : World} (h : lookupCache P c W = none) :
    ready P c W = gather P c W := by
  unfold ready
  rw [h]

theorem gather_self (P : Program) (c : ℕ) (W : World) :
    (gather P c W).cache c = some (sortByIndex W.index (P.visible c)) := by
  simp [gather]

theorem gather_other (P : Program) {c b : ℕ} (W : World) (h : b ≠ c) :
    (gather P c W).cache b = W.cache b := by
  simp [gather, Function.update_of_ne h]

theorem self_mem {P : Program} (hP : Sane P) (c : ℕ) : c ∈ P.mro c := by
  obtain ⟨r, hr⟩ := hP.self c
  simp [hr]

theorem ready_keeps {P : Program} (hP : Sane P) {c b : ℕ} {W : World} {s : List (Str × ℕ)}
    (h : W.cache b = some s) : (ready P c W).cache b = some s := by
  rcases e : lookupCache P c W with _ | t
  · rw [ready_none e]
    have hb : b ≠ c := by
      rintro rfl
      rw [lookupCache_none.1 e b (self_mem hP b)] at h
      cases h
    rw [gather_other P W hb, h]
  · rw [ready_some e, h]

theorem Inv.ready {P : Program} (hP : Sane P) {cs : List ℕ} {W : World} (h : Inv P cs W) (c : ℕ) :
    Inv P (cs ++ [c]) (ready P c W) := by
  rcases e : lookupCache P c W with _ | t
  · constructor
    · intro b s hb
      rw [ready_none e] at hb
      by_cases hc : b = c
      · subst hc
        rw [gather_self] at hb
        cases hb
        exact ⟨by simp, sort_perm _ _⟩
      · rw [gather_other P W hc] at hb
        exact ⟨by simp [(h.cached b s hb).1], (h.cached b s hb).2⟩
    · intro b hb
      rcases List.mem_append.1 hb with hb | hb
      · obtain ⟨d, hd, s, hs⟩ := h.done b hb
        exact ⟨d, hd, s, ready_keeps hP hs⟩
      · rw [List.mem_singleton] at hb
        subst hb
        exact ⟨b, self_mem hP b, _, by rw [ready_none e, gather_self]⟩
  · rw [ready_some e]
    constructor
    · intro b s hb
      exact ⟨by simp [(h.cached b s hb).1], (h.cached b s hb).2⟩
    · intro b hb
      rcases List.mem_append.1 hb with hb | hb
      · exact h.done b hb
      · rw [List.mem_singleton] at hb
        subst hb
        obtain ⟨d, hd, hs⟩ := lookupCache_some e
        exact ⟨d, hd, t, hs⟩

theorem InvName.ready {P : Program} (hP : Sane P) {nm : ℕ → Str} (h1 : OneName P nm) {W : World}
    (h : InvName P nm W) (c : ℕ) : InvName P nm (ready P c W) := by
  rcases e : lookupCache P c W with _ | t
  · rw [ready_none e]
    have hl : ∀ v, (gather P c W).label v = some (nm v) ∨ (gather P c W).label v = W.label v := by
      intro v
      by_cases hv : v ∈ (P.visible c).map Prod.snd
      · exact .inl (named_mem _ _ v (visible_nm hP h1) hv)
      · exact .inr (named_of_not_mem _ _ v hv)
    constructor
    · intro v n hv
      rcases hl v with e | e
      · rw [e] at hv; cases hv; rfl
      · rw [e] at hv; exact h.label v n hv
    · intro b s hb x hx
      by_cases hc : b = c
      · subst hc
        rw [gather_self] at hb
        cases hb
        have hx' := (sort_perm _ _).mem_iff.1 hx
        rw [show (gather P b W).label = named (P.visible b) W.label from rfl,
          named_mem _ _ x.2 (visible_nm hP h1) (List.mem_map.2 ⟨x, hx', rfl⟩), visible_nm hP h1 x hx']
      · rw [gather_other P W hc] at hb
        have hx' := h.cached b s hb x hx
        rcases hl x.2 with e | e
        · rw [e, h.label x.2 x.1 hx']
        · rw [e, hx']
  · rw [ready_some e]; exact h

theorem run_append (P : Program) (W : World) (a b : List ℕ) : run P W (a ++ b) = run P (run P W a) b := by
  simp [run]

theorem run_cons (P : Program) (W : World) (c : ℕ) (r : List ℕ) : run P W (c :: r) = run P (ready P c W) r :=
  rfl

theorem run_keeps {P : Program} (hP : Sane P) {b : ℕ} {s : List (Str × ℕ)} : ∀ (r : List ℕ) {W : World},
    W.cache b = some s → (run P W r).cache b = some s
  | [], _, h => h
  | c :: r, W, h => by
    rw [run_cons]
    exact run_keeps hP r (ready_keeps hP h)

theorem run_inv' {P : Program} (hP : Sane P) : ∀ (cs ds : List ℕ) {W : World}, Inv P ds W →
    Inv P (ds ++ cs) (run P W cs)
  | [], ds, W, h => by simpa [run] using h
  | c :: cs, ds, W, h => by
    rw [run_cons]
    have := run_inv' hP cs (ds ++ [c]) (h.ready hP c)
    simpa using this

theorem run_inv {P : Program} (hP : Sane P) {W : World} (hW : Fresh W) (cs : List ℕ) :
    Inv P cs (run P W cs) := by
  simpa using run_inv' hP cs [] (hW.inv (P := P))

theorem run_invName {P : Program} (hP : Sane P) {nm : ℕ → Str} (h1 : OneName P nm) : ∀ (cs : List ℕ)
    {W : World}, InvName P nm W → InvName P nm (run P W cs)
  | [], _, h => h
  | c :: cs, W, h => by
    rw [run_cons]
    exact run_invName hP h1 cs (h.ready hP h1 c)

/-- Before the class or an ancestor, nothing is found. -/
theorem nothing {P : Program} (hP : Sane P) {W : World} (hW : Fresh W) {l : List ℕ} {c : ℕ}
    (hl : ∀ b ∈ P.mro c, b ∉ l) : lookupCache P c (run P W l) = none := by
  rw [lookupCache_none]
  intro b hb
  rcases e : (run P W l).cache b with _ | s
  · rfl
  · exact absurd ((run_inv hP hW l).cached b s e).1 (hl b hb)

/-- The variables of the class are found from then on. -/
theorem found {P : Program} (hP : Sane P) {W : World} (hW : Fresh W) {l : List ℕ} {c : ℕ}
    (hl : ∀ b ∈ P.mro c, b ∉ l) (r : List ℕ) :
    lookupCache P c (run P W (l ++ c :: r)) =
      some (sortByIndex (run P W l).index (P.visible c)) := by
  apply lookupCache_self hP
  rw [run_append, run_cons]
  apply run_keeps hP
  rw [ready_none (nothing hP hW hl), gather_self]

theorem create_snd {P : Program} {c : ℕ} {W : World} {s : List (Str × ℕ)}
    (h : lookupCache P c (ready P c W) = some s) :
    (create P c W).2 = ⟨c, s.map fun x => (x.1, x.2, initial P x.2)⟩ := by
  unfold create
  rw [h]
  rfl

/-- Instances that agree with names. -/
structure Linked (P : Program) (W : World) (a : Inst) : Prop where
  attr : ∀ e ∈ a.vars, P.getattr a.cls e.1 = some (some e.2.1)
  label : ∀ e ∈ a.vars, W.label e.2.1 = some e.1
  names : (a.vars.map Prod.fst).Nodup

theorem setEntry_map (x : PyVal) : ∀ (l : List (Str × ℕ × PyVal)) (e : Str × ℕ × PyVal),
    (l.map Prod.fst).Nodup → e ∈ l →
    setEntry e.1 x l = some (l.map fun y => if y.1 = e.1 then (y.1, y.2.1, x) else y)
  | [], e, _, h => by simp at h
  | y :: l, e, hd, h => by
    have hd' := List.nodup_cons.1 hd
    rw [show setEntry e.1 x (y :: l) = if y.1 = e.1 then some ((y.1, y.2.1, x) :: l) else
      (setEntry e.1 x l).map fun l => y :: l from rfl]
    by_cases hy : y.1 = e.1
    · rw [if_pos hy]
      simp only [List.map_cons, if_pos hy]
      congr 2
      symm
      rw [List.map_congr_left (g := id), List.map_id]
      intro z hz
      have : z.1 ≠ e.1 := fun h => hd'.1 (List.mem_map.2 ⟨z, hz, h.trans hy.symm⟩)
      simp [this]
    · rw [if_neg hy]
      have he : e ∈ l := by
        rcases List.mem_cons.1 h with h | h
        · exact absurd (congrArg Prod.fst h.symm) hy
        · exact h
      rw [setEntry_map x l e hd'.2 he]
      simp [hy]

/-- The entries get new values. -/
def Inst.put (a : Inst) (g : Str × ℕ × PyVal → PyVal) : Inst :=
  { a with vars := a.vars.map fun e => (e.1, e.2.1, g e) }

theorem put_names (a : Inst) (g : Str × ℕ × PyVal → PyVal) :
    (a.put g).vars.map Prod.fst = a.vars.map Prod.fst := by
  simp [Inst.put, Function.comp_def]

theorem Linked.put {P : Program} {W : World} {a : Inst} (h : Linked P W a) (g : Str × ℕ × PyVal → PyVal) :
    Linked P W (a.put g) := by
  constructor
  · intro e he
    obtain ⟨e', he', rfl⟩ := List.mem_map.1 he
    exact h.attr e' he'
  · intro e he
    obtain ⟨e', he', rfl⟩ := List.mem_map.1 he
    exact h.label e' he'
  · rw [put_names]
    exact h.names

theorem Linked.set {P : Program} {W : World} {a : Inst} (h : Linked P W a) {e : Str × ℕ × PyVal}
    (he : e ∈ a.vars) (x : PyVal) :
    set P W a e.1 x = .ok (a.put fun y => if y.1 = e.1 then x else y.2.2) := by
  unfold PyAgent.set
  rw [h.attr e he]
  simp only
  rw [h.label e he]
  simp only [Option.bind_some]
  rw [setEntry_map x a.vars e h.names he]
  simp only [Inst.put]
  congr 2
  apply List.map_congr_left
  intro y _
  split <;> rfl

theorem find_mem {a : Inst} (h : (a.vars.map Prod.fst).Nodup) {e : Str × ℕ × PyVal} (he : e ∈ a.vars) :
    a.find e.1 = some e.2.2 := by
  unfold Inst.find
  rw [lookup_of_mem (v := e.2) h he]
  rfl

theorem Linked.get {P : Program} {W : World} {a : Inst} (h : Linked P W a) {e : Str × ℕ × PyVal}
    (he : e ∈ a.vars) : get P W a e.1 = .ok e.2.2 := by
  unfold PyAgent.get
  rw [h.attr e he]
  simp only
  rw [h.label e he]
  simp only [Option.bind_some]
  rw [find_mem h.names he]

theorem put_put (a : Inst) (f g : Str × ℕ × PyVal → PyVal) :
    (a.put f).put g = a.put fun e => g (e.1, e.2.1, f e) := by
  simp [Inst.put, Function.comp_def]

theorem put_congr {a : Inst} {f g : Str × ℕ × PyVal → PyVal} (h : ∀ e ∈ a.vars, f e = g e) :
    a.put f = a.put g := by
  unfold Inst.put
  congr 1
  apply List.map_congr_left
  intro e he
  rw [h e he]

theorem put_self (a : Inst) : (a.put fun e => e.2.2) = a := by
  cases a
  simp [Inst.put]

theorem assignAll_ok {P : Program} {W : World} {val : Str → Except Fault PyVal} {g : Str → PyVal} :
    ∀ (ns : List Str) {a : Inst}, Linked P W a → (∀ n ∈ ns, ∃ e ∈ a.vars, e.1 = n) →
    (∀ n ∈ ns, val n = .ok (g n)) →
    assignAll P W val ns a = .ok (a.put fun e => if e.1 ∈ ns then g e.1 else e.2.2)
  | [], a, _, _, _ => by
    rw [show assignAll P W val [] a = .ok a from rfl]
    simp [put_self]
  | n :: ns, a, h, hn, hv => by
    obtain ⟨e, he, rfl⟩ := hn n (List.mem_cons_self ..)
    rw [show assignAll P W val (e.1 :: ns) a = (val e.1).bind fun x => (set P W a e.1 x).bind fun a =>
      assignAll P W val ns a from rfl, hv e.1 (List.mem_cons_self ..)]
    simp only [Except.bind]
    rw [h.set he]
    simp only
    rw [assignAll_ok ns (h.put _) _ fun m hm => hv m (List.mem_cons_of_mem _ hm)]
    · rw [put_put]
      congr 1
      apply put_congr
      intro y _
      by_cases h1 : y.1 = e.1
      · simp [h1]
      · simp [h1]
    · intro m hm
      obtain ⟨y, hy, rfl⟩ := hn m (List.mem_cons_of_mem _ hm)
      exact ⟨_, List.mem_map.2 ⟨y, hy, rfl⟩, rfl⟩

theorem assignAll_all {P : Program} {W : World} {val : Str → Except Fault PyVal} {g : Str → PyVal}
    {a : Inst} (h : Linked P W a) (hv : ∀ e ∈ a.vars, val e.1 = .ok (g e.1)) :
    assignAll P W val (a.vars.map Prod.fst) a = .ok (a.put fun e => g e.1) := by
  rw [assignAll_ok (g := g) (a.vars.map Prod.fst) h]
  · congr 1
    apply put_congr
    intro e he
    rw [if_pos (List.mem_map.2 ⟨e, he, rfl⟩)]
  · intro n hn
    obtain ⟨e, he, rfl⟩ := List.mem_map.1 hn
    exact ⟨e, he, rfl⟩
  · intro n hn
    obtain ⟨e, he, rfl⟩ := List.mem_map.1 hn
    exact hv e he

/-- A whole agent agrees with the names. -/
theorem Whole.linked {P : Program} (hP : Sane P) {nm : ℕ → Str} (h1 : OneName P nm) {W : World} {a : Inst}
    (ha : Whole P a) (hi : InvName P nm W) {s : List (Str × ℕ)} (hs : W.cache a.cls = some s)
    (hp : s.Perm (P.visible a.cls)) : Linked P W a := by
  refine ⟨?_, ?_, ha.names⟩
  · rintro ⟨n, v, x⟩ he
    exact (getattr_iff hP _ _ _).2 ((ha.vars n v).1 ⟨x, he⟩)
  · rintro ⟨n, v, x⟩ he
    have := (mem_visible hP).2 ((ha.vars n v).1 ⟨x, he⟩)
    exact hi.cached _ s hs (n, v) (hp.mem_iff.2 this)

theorem toCpp_toPy_list {e : Ty} (h : ∀ x w, PyInfile.toCpp e x = .ok w → PyInfile.toCpp e (toPy w) = .ok w) :
    ∀ (l : List PyVal) (vs : List Val), PyInfile.each (PyInfile.toCpp e) l = .ok vs →
    PyInfile.each (PyInfile.toCpp e) (toPyList vs) = .ok vs
  | [], vs, hl => by
    cases hl
    rfl
  | x :: l, vs, hl => by
    rw [show PyInfile.each (PyInfile.toCpp e) (x :: l) = (PyInfile.toCpp e x).bind fun y =>
      (PyInfile.each (PyInfile.toCpp e) l).bind fun ys => .ok (y :: ys) from rfl] at hl
    rcases h1 : PyInfile.toCpp e x with _ | y
    · rw [h1] at hl; cases hl
    · rw [h1] at hl
      simp only [Except.bind] at hl
      rcases h2 : PyInfile.each (PyInfile.toCpp e) l with _ | ys
      · rw [h2] at hl; cases hl
      · rw [h2] at hl
        cases hl
        rw [show toPyList (y :: ys) = toPy y :: toPyList ys from by rw [toPyList]]
        rw [show PyInfile.each (PyInfile.toCpp e) (toPy y :: toPyList ys) = (PyInfile.toCpp e (toPy y)).bind
          fun y => (PyInfile.each (PyInfile.toCpp e) (toPyList ys)).bind fun ys => .ok (y :: ys) from rfl,
          h x y h1, toCpp_toPy_list h l ys h2]
        rfl

/-- The loop over the entries of a dictionary. -/
def both (k v : Ty) (x : PyVal × PyVal) : PyInfile.R (Val × Val) :=
  (PyInfile.toCpp k x.1).bind fun a => (PyInfile.toCpp v x.2).bind fun b => .ok (a, b)

theorem toCpp_toPy_items {k v : Ty}
    (hk : ∀ x w, PyInfile.toCpp k x = .ok w → PyInfile.toCpp k (toPy w) = .ok w)
    (hv : ∀ x w, PyInfile.toCpp v x = .ok w → PyInfile.toCpp v (toPy w) = .ok w) :
    ∀ (l : List (PyVal × PyVal)) (vs : List (Val × Val)), PyInfile.each (both k v) l = .ok vs →
    PyInfile.each (both k v) (toPyItems vs) = .ok vs
  | [], vs, hl => by
    cases hl
    rfl
  | x :: l, vs, hl => by
    rw [show PyInfile.each (both k v) (x :: l) = (both k v x).bind fun y =>
      (PyInfile.each (both k v) l).bind fun ys => .ok (y :: ys) from rfl] at hl
    rcases h1 : PyInfile.toCpp k x.1 with _ | a
    · simp only [both, h1] at hl; cases hl
    rcases h2 : PyInfile.toCpp v x.2 with _ | b
    · simp only [both, h1, h2] at hl; cases hl
    simp only [both, h1, h2, Except.bind] at hl
    rcases h3 : PyInfile.each (both k v) l with _ | ys
    · rw [h3] at hl
      cases hl
    · rw [h3] at hl
      cases hl
      rw [show toPyItems ((a, b) :: ys) = (toPy a, toPy b) :: toPyItems ys from by rw [toPyItems]]
      rw [show PyInfile.each (both k v) ((toPy a, toPy b) :: toPyItems ys) = (both k v (toPy a, toPy b)).bind
        fun y => (PyInfile.each (both k v) (toPyItems ys)).bind fun ys => .ok (y :: ys) from rfl,
        toCpp_toPy_items hk hv l ys h3]
      simp only [both, hk _ _ h1, hv _ _ h2, Except.bind]

theorem takeWhile_twice {α : Type} (p : α → Bool) : ∀ l : List α,
    (l.takeWhile p).takeWhile p = l.takeWhile p
  | [] => rfl
  | x :: l => by
    cases h : p x
    · simp [List.takeWhile_cons, h]
    · simp [List.takeWhile_cons, h, takeWhile_twice p l]

theorem toPrim_toPy (p : Prim) (x : PyVal) (w : Val) (h : PyInfile.toPrim p x = .ok w) :
    PyInfile.toPrim p (toPy w) = .ok w := by
  cases p with
  | bool => cases h; rfl
  | int =>
    cases x <;> simp only [PyInfile.toPrim, PyInfile.toInt, Except.map] at h <;> try (cases h)
    · rename_i b
      cases b <;> simp [toPy, PyInfile.toPrim, PyInfile.toInt, Except.map]
    · rename_i z
      split at h
      · cases h
      · rename_i hz
        split at hz
        · cases hz; cases h
          rename_i hr
          simp only [toPy, PyInfile.toPrim, PyInfile.toInt, Except.map, if_pos hr]
        · cases hz
  | float =>
    cases x <;> simp only [PyInfile.toPrim, PyInfile.toDouble, Except.map] at h <;> cases h <;>
      simp [toPy, PyInfile.toPrim, PyInfile.toDouble, Except.map]
  | double =>
    cases x <;> simp only [PyInfile.toPrim, PyInfile.toDouble, Except.map] at h <;> cases h <;>
      simp [toPy, PyInfile.toPrim, PyInfile.toDouble, Except.map]
  | string =>
    cases x <;> simp only [PyInfile.toPrim] at h <;> cases h
    simp only [toPy, PyInfile.toPrim, takeWhile_twice]
  | blob => cases x <;> simp [PyInfile.toPrim] at h
  | uuid => cases x <;> simp [PyInfile.toPrim] at h

theorem toCpp_toPy : ∀ (t : Ty) (x : PyVal) (w : Val), PyInfile.toCpp t x = .ok w →
    PyInfile.toCpp t (toPy w) = .ok w
  | .prim p, x, w, h => by
    rw [show PyInfile.toCpp (.prim p) x = PyInfile.toPrim p x from by rw [PyInfile.toCpp]] at h
    rw [show PyInfile.toCpp (.prim p) (toPy w) = PyInfile.toPrim p (toPy w) from by rw [PyInfile.toCpp]]
    exact toPrim_toPy p x w h
  | .seq k e, x, w, h => by
    cases x <;> simp only [PyInfile.toCpp] at h <;> try (cases h)
    rename_i l
    rcases h1 : PyInfile.each (PyInfile.toCpp e) l with _ | vs
    · rw [h1] at h; cases h
    · rw [h1] at h; cases h
      simp only [toPy, PyInfile.toCpp, toCpp_toPy_list (toCpp_toPy e) l vs h1]
      rfl
  | .pair a b, x, w, h => by
    cases x <;> simp only [PyInfile.toCpp] at h <;> try (cases h)
    rename_i l
    rcases l with _ | ⟨y, _ | ⟨z, l⟩⟩
    · cases h
    · cases h
    · simp only at h
      rcases h1 : PyInfile.toCpp a y with _ | u
      · rw [h1] at h; cases h
      rcases h2 : PyInfile.toCpp b z with _ | v
      · rw [h1, h2] at h; cases h
      rw [h1, h2] at h; cases h
      simp only [toPy, PyInfile.toCpp, toCpp_toPy a y u h1, toCpp_toPy b z v h2]
      rfl
  | .map k v, x, w, h => by
    cases x <;> simp only [PyInfile.toCpp] at h <;> try (cases h)
    rename_i l
    rcases h1 : PyInfile.each (both k v) l with _ | vs
    · unfold both at h1; rw [h1] at h; cases h
    · have h2 := toCpp_toPy_items (toCpp_toPy k) (toCpp_toPy v) l vs h1
      unfold both at h1 h2
      rw [h1] at h; cases h
      simp only [toPy, PyInfile.toCpp, h2]
      rfl

/-- The function for one column. -/
def cell (P : Program) (e : Str × ℕ × PyVal) : PyInfile.R Cell :=
  (PyInfile.toCpp (P.ty e.2.1) e.2.2).bind fun w => .ok (e.1, P.ty e.2.1, w)

theorem snapshot_ok {P : Program} {a : Inst} {row : List Cell} :
    snapshot P a = .ok row ↔ PyInfile.each (cell P) a.vars = .ok row := by
  unfold snapshot
  rw [show (fun e : Str × ℕ × PyVal => (PyInfile.toCpp (P.ty e.2.1) e.2.2).bind fun w =>
    Except.ok (e.1, P.ty e.2.1, w)) = cell P from rfl]
  rcases PyInfile.each (cell P) a.vars with e | r <;> simp

theorem each_forall {α β : Type} {f : α → PyInfile.R β} : ∀ {l : List α} {r : List β},
    PyInfile.each f l = .ok r ↔ List.Forall₂ (fun x y => f x = .ok y) l r
  | [], r => by
    rw [show PyInfile.each f [] = .ok [] from rfl]
    constructor
    · intro h; cases h; exact .nil
    · intro h; cases h; rfl
  | x :: l, r => by
    rw [show PyInfile.each f (x :: l) = (f x).bind fun y => (PyInfile.each f l).bind fun ys => .ok (y :: ys)
      from rfl]
    constructor
    · intro h
      rcases h1 : f x with _ | y
      · rw [h1] at h; cases h
      rcases h2 : PyInfile.each f l with _ | ys
      · rw [h1, h2] at h; cases h
      rw [h1, h2] at h; cases h
      exact .cons h1 (each_forall.1 h2)
    · intro h
      cases h with
      | cons h1 h2 => rw [h1, each_forall.2 h2]; rfl

theorem cell_ok {P : Program} {e : Str × ℕ × PyVal} {y : Cell} :
    cell P e = .ok y ↔ y.1 = e.1 ∧ y.2.1 = P.ty e.2.1 ∧ PyInfile.toCpp (P.ty e.2.1) e.2.2 = .ok y.2.2 := by
  unfold cell
  rcases h : PyInfile.toCpp (P.ty e.2.1) e.2.2 with _ | w
  · simp [Except.bind]
  · simp only [Except.bind, Except.ok.injEq]
    constructor
    · rintro rfl; simp
    · rintro ⟨h1, h2, h3⟩
      obtain ⟨a, b, c⟩ := y
      simp at h1 h2 h3
      simp [h1, h2, h3]

end Cyclus.PyAgent
