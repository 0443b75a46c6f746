import Verif.Props.Cycpp
import Verif.Model.CycppState
import Mathlib.Tactic.Linarith

/-! C43: the code generated to save and restore state variables. -/

namespace Cyclus.Cycpp

/-- A variable saved in the table `Info`: no buffer, of a type that can be written. -/
def Plain (t : Ty) : Prop :=
  keyOf t ∉ [resBuf, resMap, invTracker] ∧ ∃ s, typeToStr isPrim t = .ok (.str s)

/-- A `ResBuf` of one of the resource classes. -/
def Stock (t : Ty) : Prop :=
  t = .tup resBuf [.str resource] ∨ t = .tup resBuf [.str product] ∨
    t = .tup resBuf [.str material] ∨ t = .str resBuf

/-- No own code of the developer for the four pragmas. -/
def NoOwn (a : Ann) : Prop :=
  a.ownSnapshot = false ∧ a.ownSnapshotInv = false ∧ a.ownInitFromDb = false ∧
    a.ownInitInv = false

/-- The variables of a class: distinct names, no alias that is the name of a variable, only
plain and stock types, no own code. -/
structure Simple (ds : List (Name × Ann)) : Prop where
  nodup : (ds.map Prod.fst).Nodup
  alt : ∀ d ∈ ds, ∀ al, d.2.alt = some al → al ∉ ds.map Prod.fst
  types : ∀ d ∈ ds, Plain d.2.ty ∨ Stock d.2.ty
  noOwn : ∀ d ∈ ds, NoOwn d.2

/-! ### Collecting the variables -/

theorem vars_put_new (k : Name) (a : Ann) (ctx : Ctx) (h : k ∉ ctx.map Prod.fst) :
    varsOf (ctx.put k (.var a)) = varsOf ctx ++ [(k, a)] := by
  induction ctx with
  | nil => rfl
  | cons p ps ih =>
    simp only [List.map_cons, List.mem_cons, not_or] at h
    rw [Ctx.put, if_neg (fun e => h.1 e.symm)]
    obtain ⟨x, e⟩ := p
    cases e with
    | var b =>
      have := ih h.2
      simp only [varsOf, List.filterMap_cons] at this ⊢
      rw [this]; rfl
    | ptr b =>
      have := ih h.2
      simp only [varsOf, List.filterMap_cons] at this ⊢
      rw [this]

theorem vars_put_ptr (k x : Name) (ctx : Ctx) (h : k ∉ (varsOf ctx).map Prod.fst) :
    varsOf (ctx.put k (.ptr x)) = varsOf ctx := by
  induction ctx with
  | nil => rfl
  | cons p ps ih =>
    obtain ⟨y, e⟩ := p
    cases e with
    | var b =>
      simp only [varsOf, List.filterMap_cons, List.map_cons, List.mem_cons, not_or] at h
      rw [Ctx.put, if_neg (fun e => h.1 e.symm)]
      have := ih h.2
      simp only [varsOf, List.filterMap_cons] at this ⊢
      rw [this]
    | ptr b =>
      simp only [varsOf, List.filterMap_cons] at h
      rw [Ctx.put]
      by_cases hy : y = k
      · rw [if_pos hy]; rfl
      · rw [if_neg hy]
        have := ih h
        simp only [varsOf, List.filterMap_cons] at this ⊢
        rw [this]

theorem keys_put (k : Name) (e : Entry) (ctx : Ctx) :
    ∀ x ∈ (ctx.put k e).map Prod.fst, x = k ∨ x ∈ ctx.map Prod.fst := by
  induction ctx with
  | nil => intro x hx; simp [Ctx.put] at hx; exact Or.inl hx
  | cons p ps ih =>
    intro x hx
    rw [Ctx.put] at hx
    by_cases hp : p.1 = k
    · rw [if_pos hp] at hx
      simp only [List.map_cons, List.mem_cons] at hx ⊢
      tauto
    · rw [if_neg hp] at hx
      simp only [List.map_cons, List.mem_cons] at hx ⊢
      rcases hx with h | h
      · exact Or.inr (Or.inl h)
      · rcases ih x h with h | h
        · exact Or.inl h
        · exact Or.inr (Or.inr h)

theorem vars_declare_loop (names : List Name) (ds : List (Name × Ann)) :
    ∀ (ctx : Ctx), (∀ d ∈ ds, d.1 ∈ names) → (ds.map Prod.fst).Nodup →
      (∀ d ∈ ds, ∀ al, d.2.alt = some al → al ∉ names) →
      (∀ d ∈ ds, d.1 ∉ ctx.map Prod.fst) → (∀ d ∈ varsOf ctx, d.1 ∈ names) →
      varsOf (ds.foldl declare ctx) = varsOf ctx ++ ds := by
  induction ds with
  | nil => intro ctx _ _ _ _ _; simp
  | cons d ds ih =>
    intro ctx hn hd ha hc hv
    have hv1 := vars_put_new d.1 d.2 ctx (hc d (by simp))
    have hdec : varsOf (declare ctx d) = varsOf ctx ++ [d] := by
      unfold declare
      cases hal : d.2.alt with
      | none => exact hv1
      | some al =>
        simp only
        rw [vars_put_ptr, hv1]
        rw [hv1]
        have := ha d (by simp) al hal
        intro hm
        simp only [List.map_append, List.mem_append, List.mem_map] at hm
        rcases hm with ⟨q, hq, e⟩ | ⟨q, hq, e⟩
        · exact this (e ▸ hv q hq)
        · simp at hq
          exact this (by rw [← e, hq]; exact hn d (by simp))
    simp only [List.map_cons, List.nodup_cons] at hd
    rw [List.foldl_cons, ih (declare ctx d) (fun x hx => hn x (by simp [hx])) hd.2
      (fun x hx => ha x (by simp [hx])), hdec]
    · simp
    · intro x hx hm
      have hx1 : x.1 ∈ names := hn x (by simp [hx])
      have hxd : x.1 ≠ d.1 := fun e => hd.1 (e ▸ List.mem_map_of_mem hx)
      have hxc := hc x (by simp [hx])
      have aux : ∀ c : Ctx, x.1 ∉ c.map Prod.fst → ∀ k e, x.1 ≠ k →
          x.1 ∉ (c.put k e).map Prod.fst := by
        intro c hcn k e hk hm
        rcases keys_put k e c _ hm with h | h
        · exact hk h
        · exact hcn h
      revert hm
      unfold declare
      cases hal : d.2.alt with
      | none => exact aux ctx hxc _ _ hxd
      | some al =>
        simp only
        refine aux _ (aux ctx hxc _ _ hxd) _ _ ?_
        intro e
        exact ha d (by simp) al hal (e ▸ hx1)
    · intro x hx
      rw [hdec, List.mem_append] at hx
      rcases hx with h | h
      · exact hv x h
      · simp at h; rw [h]; exact hn d (by simp)

theorem vars_declareAll (ds : List (Name × Ann)) (h : Simple ds) :
    varsOf (declareAll ds) = ds := by
  have := vars_declare_loop (ds.map Prod.fst) ds [] (fun d hd => List.mem_map_of_mem hd) h.nodup
    h.alt (by simp) (by simp [varsOf])
  simpa [declareAll, varsOf] using this

/-! ### The generated statements -/

theorem bufferKey_iff (s : Str) : isBufferKey s = true ↔ s ∈ [resBuf, resMap, invTracker] := by
  simp [isBufferKey, isBuffer]

theorem buffer_key (t : Ty) (h : isBuffer t = true) : isBufferKey (keyOf t) = true := by
  rw [bufferKey_iff]
  unfold isBuffer at h
  split at h
  · simpa [keyOf] using h
  · simp at h; simp [keyOf, h.1]
  · simp at h; simp [keyOf, h.1]
  · simp at h

theorem plain_facts (t : Ty) (h : Plain t) :
    isBuffer t = false ∧ isBufferKey (keyOf t) = false := by
  have h2 : isBufferKey (keyOf t) = false := by
    rw [Bool.eq_false_iff, ne_eq, bufferKey_iff]; exact h.1
  refine ⟨?_, h2⟩
  by_contra hb
  rw [buffer_key t (by simpa using hb)] at h2
  simp at h2

theorem stock_facts (t : Ty) (h : Stock t) :
    isBuffer t = true ∧ isBufferKey (keyOf t) = true ∧ keyOf t = resBuf ∧
      ∃ v, typeToStr isPrim t = .ok v := by
  rcases h with rfl | rfl | rfl | rfl
  all_goals exact ⟨by rfl, by rfl, by rfl, _, by rfl⟩

theorem mapM_ok {α β : Type} (f : α → Except Err β) (g : α → β) (l : List α)
    (h : ∀ a ∈ l, f a = .ok (g a)) : l.mapM f = .ok (l.map g) := by
  induction l with
  | nil => rfl
  | cons a l ih =>
    rw [List.mapM_cons, h a (by simp), ih fun x hx => h x (by simp [hx])]
    rfl

/-- The stock variables of a class. -/
def stocks (ds : List (Name × Ann)) : List (Name × Ann) := ds.filter fun d => isBuffer d.2.ty

/-- The plain variables of a class. -/
def plains (ds : List (Name × Ann)) : List (Name × Ann) := ds.filter fun d => !isBuffer d.2.ty

theorem flatten_map_single {α β : Type} (f : α → β) (l : List α) :
    (l.map fun x => [f x]).flatten = l.map f := by
  induction l with
  | nil => rfl
  | cons a l ih => simp [ih]

/-- **C43 (what is generated), partial.** For every list of plain variables and `ResBuf`s
with distinct names, and no alias that is such a name, the generated code saves and restores
each variable exactly once: plain ones by `AddVal` and `GetVal`, buffers by `SnapshotInv` and
`InitInv`, and the capacities are set after the plain members.  The full property is for
every type, alias and annotation; see the `C43_fails` theorems. -/
theorem C43_generated_partial (ds : List (Name × Ann)) (h : Simple ds) :
    snapshot (declareAll ds) = (plains ds).map (fun d => .addVal d.1) ∧
    snapshotInv (declareAll ds) = .ok ((stocks ds).map fun d => .takeRes d.1) ∧
    initFromDb (declareAll ds) = .ok ((plains ds).map (fun d => .getVal d.1) ++
      (stocks ds).map fun d => .setCap d.1 (d.2.capacity.getD fun _ => bigCap)) ∧
    initInv (declareAll ds) = .ok ((stocks ds).map fun d => .pushRes d.1) := by
  have hv := vars_declareAll ds h
  have facts : ∀ d ∈ ds, (isBuffer d.2.ty = false ∧ isBufferKey (keyOf d.2.ty) = false ∧
      ∃ s, typeToStr isPrim d.2.ty = .ok (.str s)) ∨
      (isBuffer d.2.ty = true ∧ isBufferKey (keyOf d.2.ty) = true ∧ keyOf d.2.ty = resBuf ∧
        ∃ v, typeToStr isPrim d.2.ty = .ok v) := by
    intro d hd
    rcases h.types d hd with hp | hs
    · exact Or.inl ⟨(plain_facts _ hp).1, (plain_facts _ hp).2, hp.2⟩
    · exact Or.inr (stock_facts _ hs)
  have hinv : ds.filter inSnapshotInv = stocks ds := by
    apply List.filter_congr
    intro d hd
    unfold inSnapshotInv
    cases ht : d.2.ty with
    | str s => rfl
    | tup n args =>
      rcases facts d hd with hf | hf
      · have := hf.2.1; rw [ht] at this; simp only [keyOf] at this; simp [this]
      · have := hf.1; rw [ht] at this; simp [this]
  have hcapb : ds.filter isCapBuff = stocks ds := by
    apply List.filter_congr
    intro d hd
    have ho := (h.noOwn d hd).2.2.1
    rcases facts d hd with hf | hf
    · simp [isCapBuff, ho, hf.1, hf.2.1]
    · simp [isCapBuff, ho, hf.1, hf.2.1]
  have hpl : (ds.filter fun p => !isCapBuff p) = plains ds := by
    apply List.filter_congr
    intro d hd
    have ho := (h.noOwn d hd).2.2.1
    rcases facts d hd with hf | hf
    · simp [isCapBuff, ho, hf.1, hf.2.1]
    · simp [isCapBuff, ho, hf.1, hf.2.1]
  refine ⟨?_, ?_, ?_, ?_⟩
  · unfold snapshot
    rw [hv]
    have : ∀ l : List (Name × Ann), (∀ d ∈ l, d ∈ ds) →
        l.flatMap snapshotOf = (plains l).map fun d => .addVal d.1 := by
      intro l
      induction l with
      | nil => intro _; rfl
      | cons d l ih =>
        intro hl
        have ho := (h.noOwn d (hl d (by simp))).1
        have hi := ih fun x hx => hl x (by simp [hx])
        rw [List.flatMap_cons, hi]
        rcases facts d (hl d (by simp)) with hf | hf
        · simp [snapshotOf, ho, hf.1, plains]
        · have hk : resBuf ≠ resMap := by decide
          simp [snapshotOf, ho, hf.1, hf.2.2.1, hk, plains]
    exact this ds fun _ hd => hd
  · unfold snapshotInv
    rw [hv, hinv, mapM_ok snapshotInvOf (fun d => [.takeRes d.1])]
    · simp [Except.map, flatten_map_single]
    · intro d hd
      obtain ⟨hd1, hd2⟩ := List.mem_filter.1 hd
      have ho := (h.noOwn d hd1).2.1
      rcases facts d hd1 with hf | hf
      · rw [hf.1] at hd2; simp at hd2
      · obtain ⟨v, e⟩ := hf.2.2.2
        simp [snapshotInvOf, ho, e, hf.2.2.1]
  · unfold initFromDb
    rw [hv, hcapb, hpl, mapM_ok initPlainOf (fun d => [.getVal d.1]),
      mapM_ok initBuffOf (fun d => [.setCap d.1 (d.2.capacity.getD fun _ => bigCap)])]
    · simp [flatten_map_single]
    · intro d hd
      obtain ⟨hd1, hd2⟩ := List.mem_filter.1 hd
      rcases facts d hd1 with hf | hf
      · rw [hf.1] at hd2; simp at hd2
      · obtain ⟨v, e⟩ := hf.2.2.2
        simp [initBuffOf, e, hf.2.2.1]
    · intro d hd
      obtain ⟨hd1, hd2⟩ := List.mem_filter.1 hd
      have ho := (h.noOwn d hd1).2.2.1
      rcases facts d hd1 with hf | hf
      · obtain ⟨v, e⟩ := hf.2.2
        simp [initPlainOf, ho, e]
      · rw [hf.1] at hd2; simp at hd2
  · unfold initInv
    rw [hv]
    have : (ds.filter fun p => isBuffer p.2.ty) = stocks ds := rfl
    rw [this, mapM_ok initInvOf (fun d => [.pushRes d.1])]
    · simp [Except.map, flatten_map_single]
    · intro d hd
      obtain ⟨hd1, hd2⟩ := List.mem_filter.1 hd
      have ho := (h.noOwn d hd1).2.2.2
      rcases facts d hd1 with hf | hf
      · rw [hf.1] at hd2; simp at hd2
      · simp [initInvOf, ho, hf.2.2.1]

/-! ### Running them -/

theorem run_snapshot (a : Agent) (l : List (Name × Ann)) : ∀ row,
    runSnapshot a (l.map fun d => .addVal d.1) row =
      .ok (row ++ l.map fun d => (d.1, a.data d.1)) := by
  induction l with
  | nil => intro row; simp [runSnapshot]
  | cons d l ih => intro row; simp [runSnapshot, ih]

theorem run_snapshotInv (a : Agent) (l : List (Name × Ann)) : ∀ inv, ∃ inv',
    runSnapshotInv a (l.map fun d => .takeRes d.1) inv = .ok inv' ∧
      ∀ x, inv' x = if x ∈ l.map Prod.fst then a.res x else inv x := by
  induction l with
  | nil => intro inv; exact ⟨inv, rfl, by simp⟩
  | cons d l ih =>
    intro inv
    obtain ⟨inv', e, hi⟩ := ih (upd inv d.1 (a.res d.1))
    refine ⟨inv', by simpa [runSnapshotInv] using e, fun x => ?_⟩
    rw [hi x, upd]
    by_cases h1 : x = d.1
    · rw [if_pos h1, h1, if_pos (show d.1 ∈ List.map Prod.fst (d :: l) by simp), ite_self]
    · rw [if_neg h1]
      exact if_congr (by rw [List.map_cons, List.mem_cons]; simp [h1]) rfl rfl

theorem find_row (f : Name → ℕ) (l : List (Name × Ann)) (x : Name) (h : x ∈ l.map Prod.fst) :
    ((l.map fun d => (d.1, f d.1)).find? fun p => p.1 = x) = some (x, f x) := by
  induction l with
  | nil => simp at h
  | cons d l ih =>
    by_cases hd : d.1 = x
    · subst hd; simp
    · simp only [List.map_cons, List.mem_cons] at h
      rw [List.map_cons, List.find?_cons_of_neg (by simpa using hd)]
      exact ih (h.resolve_left fun e => hd e.symm)

theorem run_getVals (eps : ℚ) (f : Name → ℕ) (L l : List (Name × Ann)) (rest : List Stmt) :
    (∀ d ∈ l, d ∈ L) → ∀ a : Agent, ∃ a',
    runInitFrom eps (L.map fun d => (d.1, f d.1)) ((l.map fun d => .getVal d.1) ++ rest) a =
      runInitFrom eps (L.map fun d => (d.1, f d.1)) rest a' ∧
    a'.cap = a.cap ∧ a'.res = a.res ∧
    ∀ x, a'.data x = if x ∈ l.map Prod.fst then f x else a.data x := by
  induction l with
  | nil => intro _ a; exact ⟨a, rfl, rfl, rfl, by simp⟩
  | cons d l ih =>
    intro hl a
    obtain ⟨a', e, h1, h2, h3⟩ := ih (fun x hx => hl x (by simp [hx]))
      { a with data := upd a.data d.1 (f d.1) }
    refine ⟨a', ?_, h1, h2, fun x => ?_⟩
    · rw [List.map_cons, List.cons_append, runInitFrom,
        find_row f L d.1 (List.mem_map_of_mem (hl d (by simp)))]
      exact e
    · rw [h3 x]
      simp only [upd]
      by_cases hx : x = d.1
      · rw [if_pos hx, hx, if_pos (show d.1 ∈ List.map Prod.fst (d :: l) by simp), ite_self]
      · rw [if_neg hx]
        exact if_congr (by rw [List.map_cons, List.mem_cons]; simp [hx]) rfl rfl

theorem run_setCaps (eps : ℚ) (heps : 0 ≤ eps) (row : List (Name × ℕ)) (l : List (Name × Ann))
    (c : Ann → (Name → ℕ) → ℚ) :
    (l.map Prod.fst).Nodup → ∀ a : Agent, (∀ x, a.res x = []) →
      (∀ d ∈ l, 0 ≤ c d.2 a.data) → ∃ a',
    runInitFrom eps row (l.map fun d => .setCap d.1 (c d.2)) a = .ok a' ∧
      a'.data = a.data ∧ a'.res = a.res ∧ (∀ d ∈ l, a'.cap d.1 = c d.2 a.data) ∧
      ∀ x, x ∉ l.map Prod.fst → a'.cap x = a.cap x := by
  induction l with
  | nil => intro _ a _ _; exact ⟨a, rfl, rfl, rfl, by simp, by simp⟩
  | cons d l ih =>
    intro hn a hr hc
    simp only [List.map_cons, List.nodup_cons] at hn
    have h0 := hc d (by simp)
    obtain ⟨a', e, h1, h2, h3, h4⟩ := ih hn.2
      { a with cap := upd a.cap d.1 (c d.2 a.data) } hr (fun x hx => hc x (by simp [hx]))
    refine ⟨a', ?_, h1, h2, ?_, ?_⟩
    · rw [List.map_cons, runInitFrom, if_neg (by linarith), if_neg (by
        rw [hr d.1]; simp; linarith)]
      exact e
    · intro x hx
      rcases List.mem_cons.1 hx with rfl | hx
      · rw [h4 x.1 hn.1]; simp [upd]
      · exact h3 x hx
    · intro x hx
      simp only [List.map_cons, List.mem_cons, not_or] at hx
      rw [h4 x hx.2]
      simp [upd, hx.1]

theorem run_pushes (eps : ℚ) (inv : Name → List ℚ) (l : List (Name × Ann)) :
    (l.map Prod.fst).Nodup → ∀ a : Agent, (∀ d ∈ l, a.res d.1 = []) →
      (∀ d ∈ l, (inv d.1).sum - max 0 (a.cap d.1) ≤ eps) → ∃ a',
    runInitInv eps inv (l.map fun d => .pushRes d.1) a = .ok a' ∧
      a'.data = a.data ∧ a'.cap = a.cap ∧ (∀ d ∈ l, a'.res d.1 = inv d.1) ∧
      ∀ x, x ∉ l.map Prod.fst → a'.res x = a.res x := by
  induction l with
  | nil => intro _ a _ _; exact ⟨a, rfl, rfl, rfl, by simp, by simp⟩
  | cons d l ih =>
    intro hn a hr hc
    simp only [List.map_cons, List.nodup_cons] at hn
    have h0 := hc d (by simp)
    have hne : ∀ x ∈ l, x.1 ≠ d.1 := fun x hx e => hn.1 (e ▸ List.mem_map_of_mem hx)
    obtain ⟨a', e, h1, h2, h3, h4⟩ := ih hn.2
      { a with res := upd a.res d.1 (a.res d.1 ++ inv d.1) }
      (fun x hx => by simp [upd, hne x hx, hr x (by simp [hx])])
      (fun x hx => hc x (by simp [hx]))
    refine ⟨a', ?_, h1, h2, ?_, ?_⟩
    · rw [List.map_cons, runInitInv, if_neg (by
        rw [hr d (by simp)]; simp; linarith)]
      exact e
    · intro x hx
      rcases List.mem_cons.1 hx with rfl | hx
      · rw [h4 x.1 hn.1]; simp [upd, hr x (by simp)]
      · exact h3 x hx
    · intro x hx
      simp only [List.map_cons, List.mem_cons, not_or] at hx
      rw [h4 x hx.2]
      simp [upd, hx.1]

/-- **C43 (restoring), partial.** For every such list of variables, save the members of any
agent `a` with the generated `Snapshot` and `SnapshotInv` and restore them into a new agent
`a0` with empty buffers by the generated `InitFrom` and `InitInv`.  If every buffer of `a`
has the capacity of its annotation, which is not negative and depends on plain members only,
and holds no more than that, then every plain member, and the contents and capacity of every
buffer, are as in `a`. -/
theorem C43_restore_partial (ds : List (Name × Ann)) (h : Simple ds) (eps : ℚ) (heps : 0 ≤ eps)
    (a a0 : Agent) (h0 : ∀ x, a0.res x = [])
    (hcap : ∀ d ∈ stocks ds, a.cap d.1 = (d.2.capacity.getD fun _ => bigCap) a.data ∧
      0 ≤ a.cap d.1 ∧ (a.res d.1).sum - a.cap d.1 ≤ eps)
    (hdep : ∀ d ∈ stocks ds, ∀ f g : Name → ℕ, (∀ p ∈ plains ds, f p.1 = g p.1) →
      (d.2.capacity.getD fun _ => bigCap) f = (d.2.capacity.getD fun _ => bigCap) g) :
    ∃ row si inv ii b ji c,
      runSnapshot a (snapshot (declareAll ds)) [] = .ok row ∧
      snapshotInv (declareAll ds) = .ok si ∧ runSnapshotInv a si (fun _ => []) = .ok inv ∧
      initFromDb (declareAll ds) = .ok ii ∧ runInitFrom eps row ii a0 = .ok b ∧
      initInv (declareAll ds) = .ok ji ∧ runInitInv eps inv ji b = .ok c ∧
      (∀ d ∈ plains ds, c.data d.1 = a.data d.1) ∧
      (∀ d ∈ stocks ds, c.res d.1 = a.res d.1 ∧ c.cap d.1 = a.cap d.1) := by
  obtain ⟨g1, g2, g3, g4⟩ := C43_generated_partial ds h
  have hns : ((stocks ds).map Prod.fst).Nodup :=
    (List.Sublist.map Prod.fst List.filter_sublist).nodup h.nodup
  obtain ⟨inv, hi, hinv⟩ := run_snapshotInv a (stocks ds) (fun _ => [])
  obtain ⟨b1, hb1, hc1, hr1, hd1⟩ := run_getVals eps a.data (plains ds) (plains ds)
    ((stocks ds).map fun d => .setCap d.1 (d.2.capacity.getD fun _ => bigCap))
    (fun _ hd => hd) a0
  have hagree : ∀ p ∈ plains ds, b1.data p.1 = a.data p.1 := by
    intro p hp
    rw [hd1, if_pos (List.mem_map_of_mem hp)]
  have hval : ∀ d ∈ stocks ds, (d.2.capacity.getD fun _ => bigCap) b1.data = a.cap d.1 := by
    intro d hd
    rw [(hcap d hd).1]
    exact hdep d hd _ _ hagree
  obtain ⟨b, hb, hbd, hbr, hbc, -⟩ := run_setCaps eps heps
    ((plains ds).map fun d => (d.1, a.data d.1)) (stocks ds)
    (fun an => an.capacity.getD fun _ => bigCap) hns b1 (by intro x; rw [hr1]; exact h0 x)
    (fun d hd => by rw [hval d hd]; exact (hcap d hd).2.1)
  have hinvS : ∀ d ∈ stocks ds, inv d.1 = a.res d.1 := by
    intro d hd
    rw [hinv, if_pos (List.mem_map_of_mem hd)]
  obtain ⟨c, hc, hcd, hcc, hcr, -⟩ := run_pushes eps inv (stocks ds) hns b
    (fun d _ => by rw [hbr, hr1]; exact h0 d.1)
    (fun d hd => by
      rw [hinvS d hd, hbc d hd, hval d hd, max_eq_right (hcap d hd).2.1]
      exact (hcap d hd).2.2)
  refine ⟨(plains ds).map fun d => (d.1, a.data d.1), _, inv, _, b, _, c, ?_, g2, hi, g3, ?_, g4,
    hc, ?_, ?_⟩
  · rw [g1, run_snapshot, List.nil_append]
  · rw [hb1]
    exact hb
  · intro d hd
    rw [hcd, hbd]
    exact hagree d hd
  · intro d hd
    exact ⟨by rw [hcr d hd, hinvS d hd], by rw [hcc, hbc d hd, hval d hd]⟩

/-- **C43 (shape variables), partial.** If every variable has a shape, as those without a
`shape` annotation or with one of full length do, `Snapshot` refers only to shape variables
that are declared. -/
theorem C43_shapes_partial (ctx : Ctx) (h : ∀ d ∈ varsOf ctx, d.2.shape ≠ none) :
    ∀ x ∈ shapesUsed (snapshot ctx), x ∈ shapesDeclared ctx := by
  intro x hx
  have hmem : ∃ d ∈ varsOf ctx, d.1 = x := by
    unfold shapesUsed snapshot at hx
    obtain ⟨s, hs, e⟩ := List.mem_filterMap.1 hx
    obtain ⟨d, hd, hs⟩ := List.mem_flatMap.1 hs
    refine ⟨d, hd, ?_⟩
    unfold snapshotOf at hs
    split at hs
    · simp at hs; subst hs; simp at e
    · split at hs
      · split at hs
        · simp at hs; subst hs; simpa using e
        · simp at hs
      · simp at hs; subst hs; simpa using e
  obtain ⟨d, hd, rfl⟩ := hmem
  refine List.mem_map.2 ⟨d, List.mem_filter.2 ⟨hd, ?_⟩, rfl⟩
  exact Option.isSome_iff_ne_none.2 (h d hd)

/-- A buffer whose capacity is the value of member 0. -/
def sampleStock : Ann where
  ty := .tup resBuf [.str material]
  shape := some [-1, -1]
  capacity := some fun f => (f 0 : ℚ)

/-- An archetype with a plain member 0, an alias 7 for it and a buffer 1 whose capacity is
the value of member 0. -/
def sampleVars : List (Name × Ann) :=
  [(0, { ty := .str "int".toList, shape := some [-1], alt := some 7 }), (1, sampleStock)]

theorem sampleVars_simple : Simple sampleVars := by
  refine ⟨by decide, ?_, ?_, ?_⟩
  · intro d hd al hal
    simp [sampleVars] at hd
    rcases hd with rfl | rfl
    · simp at hal; subst hal; decide
    · simp [sampleStock] at hal
  · intro d hd
    simp [sampleVars] at hd
    rcases hd with rfl | rfl
    · exact Or.inl ⟨by decide, _, by rfl⟩
    · exact Or.inr (Or.inr (Or.inr (Or.inl rfl)))
  · intro d hd
    simp [sampleVars] at hd
    rcases hd with rfl | rfl <;> exact ⟨rfl, rfl, rfl, rfl⟩

/-- The conditions of `C43_restore_partial` hold for it with member 0 equal to 20 and 15
units in the buffer. -/
example : ∃ a a0 : Agent, (∀ x, a0.res x = []) ∧
    (∀ d ∈ stocks sampleVars, a.cap d.1 = (d.2.capacity.getD fun _ => bigCap) a.data ∧
      0 ≤ a.cap d.1 ∧ (a.res d.1).sum - a.cap d.1 ≤ 0) ∧
    (∀ d ∈ stocks sampleVars, ∀ f g : Name → ℕ, (∀ p ∈ plains sampleVars, f p.1 = g p.1) →
      (d.2.capacity.getD fun _ => bigCap) f = (d.2.capacity.getD fun _ => bigCap) g) := by
  have hs : stocks sampleVars = [(1, sampleStock)] := by rfl
  have hp : ∃ x, plains sampleVars = [(0, x)] := ⟨_, rfl⟩
  obtain ⟨p, hp⟩ := hp
  refine ⟨⟨fun _ => 20, fun _ => 20, fun _ => [10, 5]⟩, ⟨fun _ => 0, fun _ => 0, fun _ => []⟩,
    by simp, ?_, ?_⟩
  · rw [hs]; simp [sampleStock]; norm_num
  · rw [hs, hp]; intro d hd f g hfg
    simp at hd hfg
    subst hd
    simp [sampleStock, hfg]

/-- **C43 fails for `ResMap`.** A `ResMap<int, Material>` is saved by `Snapshot` and by
`SnapshotInv`, and `InitInv` has nothing for it: its resources are not restored. -/
theorem C43_fails_resmap :
    let ds : List (Name × Ann) := [(0, { ty := .tup resMap [.str "int".toList, .str material] })]
    snapshot (declareAll ds) = [.addVal 0] ∧ snapshotInv (declareAll ds) = .ok [.takeValues 0] ∧
      initFromDb (declareAll ds) = .ok [.getIds 0] ∧ initInv (declareAll ds) = .ok [] := by
  exact ⟨by rfl, by rfl, by rfl, by rfl⟩

/-- **C43 fails for `TotalInvTracker`.** Nothing is saved for it. -/
theorem C43_fails_tracker :
    let ds : List (Name × Ann) := [(0, { ty := .str invTracker })]
    snapshot (declareAll ds) = [] ∧ snapshotInv (declareAll ds) = .ok [.empty 0] ∧
      initFromDb (declareAll ds) = .ok [.callCap 0] ∧ initInv (declareAll ds) = .ok [.empty 0] := by
  exact ⟨by rfl, by rfl, by rfl, by rfl⟩

/-- **C43 fails for containers of buffers.** For a `std::vector<ResBuf<Material>>` the
snapshot is generated, but generating `InitFrom` raises a TypeError. -/
theorem C43_fails_container :
    let ds : List (Name × Ann) :=
      [(0, { ty := .tup "std::vector".toList [.tup resBuf [.str material]] })]
    snapshot (declareAll ds) = [.addVal 0] ∧ initFromDb (declareAll ds) = .error .cast := by
  exact ⟨by rfl, by rfl⟩

/-- **C43 fails for aliases.** A variable whose alias is its own name is replaced by an alias
pointer: no code is generated for it at all, whatever its type. -/
theorem C43_fails_alias (a : Ann) :
    let ds : List (Name × Ann) := [(0, { a with alt := some 0 })]
    snapshot (declareAll ds) = [] ∧ snapshotInv (declareAll ds) = .ok [] ∧
      initFromDb (declareAll ds) = .ok [] ∧ initInv (declareAll ds) = .ok [] := by
  exact ⟨by rfl, by rfl, by rfl, by rfl⟩

/-- The same for a variable whose name is the alias of a later one. -/
theorem C43_fails_clash (a b : Ann) (ha : a.alt = none) :
    varsOf (declareAll [(0, a), (1, { b with alt := some 0 })]) =
      [(1, { b with alt := some 0 })] := by
  simp [declareAll, declare, ha, Ctx.put, varsOf]

/-- **C43 fails for short shapes.** With a `shape` annotation that is too short (see
`C41_fails_short`) `Snapshot` refers to a shape variable that is not declared. -/
theorem C43_fails_shape :
    let ty : Ty := .tup "std::vector".toList [.str "std::string".toList]
    canonizeShape 10 ty (some [5]) = some (.ok none) ∧
    let ds : List (Name × Ann) := [(0, { ty := ty, shape := none })]
    shapesUsed (snapshot (declareAll ds)) = [0] ∧ shapesDeclared (declareAll ds) = [] := by
  exact ⟨by rfl, by rfl, by rfl⟩

/-- A buffer annotated with capacity 10. -/
def fixedStock : Ann where
  ty := .tup resBuf [.str material]
  capacity := some fun _ => 10

/-- **C43 fails for capacities set at run time.** The capacity is not saved.  An agent whose
buffer has the annotation 10, but was given capacity 20 and holds 15, cannot be restored:
`InitInv` throws ValueError. -/
theorem C43_fails_capacity :
    let ds : List (Name × Ann) := [(0, fixedStock)]
    let a : Agent := ⟨fun _ => 0, fun _ => 20, fun _ => [15]⟩
    Simple ds ∧ ∃ inv b,
      snapshotInv (declareAll ds) = .ok [.takeRes 0] ∧
      runSnapshotInv a [.takeRes 0] (fun _ => []) = .ok inv ∧
      initFromDb (declareAll ds) = .ok [.setCap 0 fun _ => 10] ∧
      runInitFrom 0 [] [.setCap 0 fun _ => 10] ⟨fun _ => 0, fun _ => 0, fun _ => []⟩ = .ok b ∧
      initInv (declareAll ds) = .ok [.pushRes 0] ∧
      runInitInv 0 inv [.pushRes 0] b = .error .value := by
  refine ⟨⟨by decide, by simp [fixedStock], ?_, ?_⟩, upd (fun _ => []) 0 [15],
    ⟨fun _ => 0, upd (fun _ => 0) 0 10, fun _ => []⟩, by rfl, by rfl, by rfl, ?_, by rfl, ?_⟩
  · intro d hd
    simp at hd
    subst hd
    exact Or.inr (Or.inr (Or.inr (Or.inl rfl)))
  · intro d hd
    simp at hd
    subst hd
    exact ⟨rfl, rfl, rfl, rfl⟩
  · simp [runInitFrom]; norm_num
  · rw [runInitInv, if_pos]
    simp [upd]
    norm_num

end Cyclus.Cycpp
