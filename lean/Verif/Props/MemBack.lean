import Verif.Lemmas.MemBack

/-!
# C37, C38: the Python memory backend

`Verif/Spec/MemBack.lean` holds the vocabulary: what a condition means (`Holds`), plain names
of fields (`PlainField`), histories (`after`) and the ideal backend (`Ideal`).
-/

namespace Cyclus.MemBack

open Cyclus.Cycpp (Str)

variable {V : Type}

/-! ## A concrete setting for the examples -/

/-- Integers with `none` for NaN and `None`. -/
def exEnv : Env (Option ℤ) where
  cmp := fun o a b => match a, b with
    | some x, some y => some (match o with
      | .eq => decide (x = y)
      | .ne => decide (x ≠ y)
      | .lt => decide (x < y)
      | .le => decide (x ≤ y)
      | .gt => decide (x > y)
      | .ge => decide (x ≥ y))
    | _, _ => some (match o with
      | .ne => true
      | _ => false)
  pyNone := none
  nan := none
  reserved := fun s => s = "None".toList || s = "True".toList || s = "False".toList

def fA : Str := ['a']
def fB : Str := ['b']

theorem plain_a : PlainField exEnv fA where
  nonempty := by decide
  noOp := by decide
  notVal := by intro i h; simp [fA] at h
  notBuiltins := by decide
  notReserved := by decide

theorem plain_b : PlainField exEnv fB where
  nonempty := by decide
  noOp := by decide
  notVal := by intro i h; simp [fB] at h
  notBuiltins := by decide
  notReserved := by decide

def row (a b : ℤ) : Str → Option ℤ := fun f =>
  if f = fA then some a else if f = fB then some b else none

def exFrame : Frame (Option ℤ) := ⟨[fA, fB], [row 1 2, row 3 4, row 5 6]⟩

def exConds : List (Cond (Option ℤ)) := [⟨fA, ['>', '='], some 3⟩, ⟨fB, ['<'], some 6⟩]

theorem exConds_plain : ∀ c ∈ exConds, PlainCond exEnv c := by
  intro c hc
  simp only [exConds, List.mem_cons, List.not_mem_nil, or_false] at hc
  rcases hc with rfl | rfl
  · exact ⟨plain_a, _, .ge⟩
  · exact ⟨plain_b, _, .lt⟩

theorem exEnv_total (r : Str → Option ℤ) (c : Cond (Option ℤ)) : Comparable exEnv r c := by
  intro o _
  simp only [exEnv]
  split <;> simp

/-! ## C38 -/

/-- The code cache after some queries of data frames. -/
def codesAfter (env : Env V) (qs : List (Frame V × List (Cond V))) : Codes :=
  qs.foldl (fun cc q => (applyConds env cc q.1 q.2).1) {}

theorem codesAfter_sound {env : Env V} (qs : List (Frame V × List (Cond V)))
    (hq : ∀ q ∈ qs, ∀ c ∈ q.2, PlainCond env c) : Sound env (codesAfter env qs) := by
  have : ∀ (qs : List (Frame V × List (Cond V))) (cc : Codes), Sound env cc →
      (∀ q ∈ qs, ∀ c ∈ q.2, PlainCond env c) →
      Sound env (qs.foldl (fun cc q => (applyConds env cc q.1 q.2).1) cc) := by
    intro qs
    induction qs with
    | nil => exact fun _ h _ => h
    | cons q qs ih =>
      intro cc h hq
      exact ih _ (apply_sound _ h (hq q List.mem_cons_self))
        fun q hq' => hq q (List.mem_cons_of_mem _ hq')
  exact this qs {} (fun p hp => by cases hp) hq

open Classical in
/-- **C38**, the conjunction: after any queries with plain conditions, one or more plain
conditions on columns of the frame keep exactly the rows that meet all of them, in order.

The full statement, for every list of conditions and every history, is false:
`C38_fails_empty`, `C38_fails_val` and `C38_fails_collision`. -/
theorem C38_conjunction_partial (env : Env V) (qs : List (Frame V × List (Cond V)))
    (hq : ∀ q ∈ qs, ∀ c ∈ q.2, PlainCond env c) (df : Frame V) (conds : List (Cond V))
    (hne : conds ≠ []) (hp : ∀ c ∈ conds, PlainCond env c)
    (hcol : ∀ c ∈ conds, c.field ∈ df.cols)
    (hcmp : ∀ r ∈ df.rows, ∀ c ∈ conds, Comparable env r c) :
    (applyConds env (codesAfter env qs) df conds).2 =
      .ok ⟨df.cols, df.rows.filter fun r => decide (∀ c ∈ conds, Holds env r c)⟩ := by
  rw [apply_eval (codesAfter_sound qs hq) hp hne hcol,
    select_eq (p := fun r => decide (∀ c ∈ conds, Holds env r c)) df.rows
      (fun r hr => mask_plain conds hp (hcmp r hr))]
  rfl

example : ∃ r, (applyConds exEnv (codesAfter exEnv [(exFrame, exConds), (⟨[fA], []⟩, exConds)])
    exFrame exConds).2 = .ok ⟨[fA, fB], r⟩ ∧ r.map (fun x => (x fA, x fB)) = [(some 3, some 4)] :=
  ⟨_, rfl, by decide⟩

example : (∀ q ∈ [(exFrame, exConds), (⟨[fA], []⟩, exConds)], ∀ c ∈ q.2, PlainCond exEnv c) ∧
    exConds ≠ [] ∧ (∀ c ∈ exConds, PlainCond exEnv c) ∧ (∀ c ∈ exConds, c.field ∈ exFrame.cols) ∧
    ∀ r ∈ exFrame.rows, ∀ c ∈ exConds, Comparable exEnv r c := by
  refine ⟨?_, by simp [exConds], exConds_plain, by decide, fun r _ c _ => exEnv_total r c⟩
  intro q hq
  simp only [List.mem_cons, List.not_mem_nil, or_false] at hq
  rcases hq with rfl | rfl <;> exact exConds_plain

/-- **C38**, errors: if some comparison of such a query cannot be made, the query raises a
TypeError. -/
theorem C38_raises (env : Env V) (qs : List (Frame V × List (Cond V)))
    (hq : ∀ q ∈ qs, ∀ c ∈ q.2, PlainCond env c) (df : Frame V) (conds : List (Cond V))
    (hp : ∀ c ∈ conds, PlainCond env c) (hcol : ∀ c ∈ conds, c.field ∈ df.cols)
    (hcmp : ∃ r ∈ df.rows, ∃ c ∈ conds, ¬ Comparable env r c) :
    (applyConds env (codesAfter env qs) df conds).2 = .error .cast := by
  obtain ⟨r, hr, c, hc, hn⟩ := hcmp
  have hne : conds ≠ [] := fun h => by rw [h] at hc; cases hc
  rw [apply_eval (codesAfter_sound qs hq) hp hne hcol,
    select_raises df.rows ⟨r, hr, mask_raises conds ⟨c, hc, hp c hc, hn⟩⟩]
  rfl

/-- An environment without order. -/
def noOrder : Env (Option ℤ) :=
  { exEnv with cmp := fun o a b => match o with
      | .eq => some (decide (a = b))
      | .ne => some (decide (a ≠ b))
      | _ => none }

example : ∃ r ∈ exFrame.rows, ∃ c ∈ exConds, ¬ Comparable noOrder r c := by
  refine ⟨row 1 2, by simp [exFrame], ⟨fB, ['<'], some 6⟩, by simp [exConds], ?_⟩
  intro h
  exact h .lt .lt rfl

example : (applyConds noOrder {} exFrame exConds).2 = .error .cast := rfl

/-- **C38**, sharing: plain conditions with the same key have the same fields and operators. -/
theorem C38_shared_partial (env : Env V) (a b : List (Cond V)) (ha : ∀ c ∈ a, PlainCond env c)
    (hb : ∀ c ∈ b, PlainCond env c) (h : keyOf a = keyOf b) :
    a.map Cond.field = b.map Cond.field ∧ a.map Cond.op = b.map Cond.op := by
  have := key_inj ha hb h
  have e1 := congrArg (List.map Prod.fst) this
  have e2 := congrArg (List.map Prod.snd) this
  simp only [List.map_map] at e1 e2
  exact ⟨e1, e2⟩

example : (∀ c ∈ exConds, PlainCond exEnv c) ∧
    keyOf exConds = keyOf [⟨fA, ['>', '='], some 0⟩, ⟨fB, ['<'], none⟩] :=
  ⟨exConds_plain, rfl⟩

/-- **C38**, the bound: after any queries whatever the cache has at most 256 entries, no key
twice, and the queue holds exactly its keys in the order they were entered. -/
theorem C38_bound (env : Env V) (qs : List (Frame V × List (Cond V))) :
    let cc := codesAfter env qs
    cc.cache.length ≤ 256 ∧ (cc.cache.map Prod.fst).Nodup ∧ cc.lru = cc.cache.map Prod.fst := by
  have : ∀ (qs : List (Frame V × List (Cond V))) (cc : Codes), Shaped cc →
      Shaped (qs.foldl (fun cc q => (applyConds env cc q.1 q.2).1) cc) := by
    intro qs
    induction qs with
    | nil => exact fun _ h => h
    | cons q qs ih => exact fun cc h => ih _ (apply_shaped _ _ h)
  obtain ⟨h1, h2, h3⟩ := this qs {} ⟨rfl, List.nodup_nil, Nat.zero_le _⟩
  refine ⟨?_, h1 ▸ h2, h1⟩
  rw [h1, List.length_map] at h3
  exact h3

/-- **C38**, no reordering: a query whose key is in the cache leaves the cache as it is, so the
entry that makes room is the one entered first, used or not. -/
theorem C38_hit (env : Env V) (cc : Codes) (df : Frame V) (conds : List (Cond V))
    (h : keyOf conds ∈ cc.cache.map Prod.fst) : (applyConds env cc df conds).1 = cc := by
  have : ∃ code, cc.find (keyOf conds) = some code := by
    obtain ⟨p, hp, he⟩ := List.mem_map.1 h
    unfold Codes.find
    cases hf : cc.cache.find? (fun p => p.1 = keyOf conds) with
    | some q => exact ⟨q.2, rfl⟩
    | none =>
      rw [List.find?_eq_none] at hf
      exact absurd (hf p hp) (by simp [he])
  obtain ⟨code, hc⟩ := this
  unfold applyConds
  split
  · rfl
  · simp only [hc]

/-- After one successful query its key is in the cache. -/
example : keyOf exConds ∈ (codesAfter exEnv [(exFrame, exConds)]).cache.map Prod.fst := by decide

/-- The code contradicts C38: no conditions are met by every row, but raise an error. -/
theorem C38_fails_empty : ¬ ∀ (cc : Codes) (df : Frame (Option ℤ)) (conds : List (Cond (Option ℤ))),
    (∀ r ∈ df.rows, ∀ c ∈ conds, Holds exEnv r c) →
    (applyConds exEnv cc df conds).2 = .ok df := by
  intro h
  have := h {} exFrame [] (by simp)
  cases this

/-- The code contradicts C38 for a field called `val1`: a row that meets both conditions is
dropped. -/
theorem C38_fails_val : ¬ ∀ (df : Frame (Option ℤ)) (conds : List (Cond (Option ℤ))),
    conds ≠ [] → (∀ c ∈ conds, c.field ∈ df.cols ∧ ∃ o, OpIs c.op o) →
    (∀ r ∈ df.rows, ∀ c ∈ conds, Holds exEnv r c) →
    ∃ out, (applyConds exEnv {} df conds).2 = .ok out ∧ out.rows.length = df.rows.length := by
  intro h
  have key := h ⟨[valName 1, fB], [fun f => if f = fB then some 1 else some 3]⟩
    [⟨valName 1, ['=', '='], some 3⟩, ⟨fB, ['<'], some 5⟩] (by simp)
    (by
      intro c hc
      simp only [List.mem_cons, List.not_mem_nil, or_false] at hc
      rcases hc with rfl | rfl
      · exact ⟨by simp, _, .eq⟩
      · exact ⟨by simp, _, .lt⟩)
    (by
      intro r hr c hc
      simp only [List.mem_cons, List.not_mem_nil, or_false] at hr hc
      subst hr
      rcases hc with rfl | rfl
      · exact ⟨_, .eq, by decide⟩
      · exact ⟨_, .lt, by decide⟩)
  obtain ⟨out, h1, h2⟩ := key
  have : (applyConds exEnv {} ⟨[valName 1, fB], [fun f => if f = fB then some 1 else some 3]⟩
    [⟨valName 1, ['=', '='], some 3⟩, ⟨fB, ['<'], some 5⟩]).2 = .ok ⟨[valName 1, fB], []⟩ := rfl
  rw [this] at h1
  injection h1 with h1
  subst h1
  simp at h2

def fAB : Str := "a<b".toList

def collA : List (Cond (Option ℤ)) :=
  [⟨fAB, ['=', '='], some 0⟩, ⟨fA, ['<'], some 0⟩, ⟨fB, ['!', '='], some 0⟩]

def collB : List (Cond (Option ℤ)) :=
  [⟨fA, ['<'], some 5⟩, ⟨fB, ['=', '='], some 1⟩, ⟨fAB, ['!', '='], some 7⟩]

def collFrame : Frame (Option ℤ) :=
  ⟨[fA, fB, fAB], [fun f => if f = fA then some 2 else if f = fB then some 1 else some 9]⟩

/-- The code contradicts C38: lists of conditions with different fields and operators share a
code object if a field contains an operator. -/
theorem C38_fails_shared : ¬ ∀ a b : List (Cond (Option ℤ)), keyOf a = keyOf b →
    a.map Cond.field = b.map Cond.field := by
  intro h
  have := h collA collB (by decide)
  revert this
  decide

/-- The code contradicts C38: what a query returns depends on the queries before.  The row
meets all three conditions, is found by the first query and missed after another query. -/
theorem C38_fails_collision :
    (∀ r ∈ collFrame.rows, ∀ c ∈ collB, Holds exEnv r c) ∧
    (∃ out, (applyConds exEnv {} collFrame collB).2 = .ok out ∧ out.rows.length = 1) ∧
    ∃ out, (applyConds exEnv (codesAfter exEnv [(collFrame, collA)]) collFrame collB).2 =
      .ok out ∧ out.rows.length = 0 := by
  refine ⟨?_, ⟨_, rfl, rfl⟩, ⟨_, rfl, rfl⟩⟩
  intro r hr c hc
  simp only [collFrame, collB, List.mem_cons, List.not_mem_nil, or_false] at hr hc
  subst hr
  rcases hc with rfl | rfl | rfl
  · exact ⟨_, .lt, by decide⟩
  · exact ⟨_, .eq, by decide⟩
  · exact ⟨_, .ne, by decide⟩

/-! ## C37 -/

/-- **C37** without fallback: after any history a query returns the rows of the table recorded
since it was last asked for, `None` if there are none, provided the data of a table have the
same fields and the registry is never restricted while other tables are stored.

The full statement is false: `C37_fails_stale` (restriction), `C37_fails_fields` and
`C37_fails_lost` (mixed fields), `C37_fails_late` (a fallback that knows more). -/
theorem C37_history_partial (env : Env V) (flds : ℕ → List Str) (r : RegVal) (es : List (Ev V))
    (hu : Uniform flds es) (hq : PlainQueries env es)
    (hn : NoRestriction env.nan ⟨r, fun _ => []⟩ es) (t : ℕ) :
    (query env none (after env (fun _ => none) (create r, fun _ => []) es).1 t none).2 =
      .ok (tableOf flds (Ideal.after env.nan ⟨r, fun _ => []⟩ es).held t) := by
  obtain ⟨c1, c2, c3⟩ := create_agrees (V := V) r
  obtain ⟨h1, _⟩ := history_cache (env := env) (flds := flds) es (create r) (fun _ => [])
    ⟨r, fun _ => []⟩ hu hq hn c1 (by rw [c2]; rfl)
    (by rw [c3]; exact fun p hp => by cases hp) (fun _ _ => rfl)
  unfold query
  rw [h1]
  cases tableOf flds (Ideal.after env.nan ⟨r, fun _ => []⟩ es).held t <;> rfl

open Classical in
/-- **C37** without fallback, with plain conditions: of those rows the ones that meet the
conditions. -/
theorem C37_history_conds_partial (env : Env V) (flds : ℕ → List Str) (r : RegVal)
    (es : List (Ev V)) (hu : Uniform flds es) (hq : PlainQueries env es)
    (hn : NoRestriction env.nan ⟨r, fun _ => []⟩ es) (t : ℕ) (conds : List (Cond V))
    (hne : conds ≠ []) (hp : ∀ c ∈ conds, PlainCond env c)
    (hcol : ∀ c ∈ conds, c.field ∈ flds t)
    (hcmp : ∀ row ∈ (Ideal.after env.nan ⟨r, fun _ => []⟩ es).held t, ∀ c ∈ conds,
      Comparable env row c) :
    (query env none (after env (fun _ => none) (create r, fun _ => []) es).1 t
        (some conds)).2 =
      .ok ((tableOf flds (Ideal.after env.nan ⟨r, fun _ => []⟩ es).held t).map fun df =>
        ⟨df.cols, df.rows.filter fun row => decide (∀ c ∈ conds, Holds env row c)⟩) := by
  obtain ⟨c1, c2, c3⟩ := create_agrees (V := V) r
  obtain ⟨h1, h2⟩ := history_cache (env := env) (flds := flds) es (create r) (fun _ => [])
    ⟨r, fun _ => []⟩ hu hq hn c1 (by rw [c2]; rfl)
    (by rw [c3]; exact fun p hp => by cases hp) (fun _ _ => rfl)
  unfold query
  rw [h1]
  by_cases hh : (Ideal.after env.nan ⟨r, fun _ => []⟩ es).held t = []
  · have : tableOf flds (Ideal.after env.nan ⟨r, fun _ => []⟩ es).held t = none := by
      simp [tableOf, hh]
    rw [this]
    rfl
  · have : tableOf flds (Ideal.after env.nan ⟨r, fun _ => []⟩ es).held t =
        some ⟨flds t, (Ideal.after env.nan ⟨r, fun _ => []⟩ es).held t⟩ := by
      simp [tableOf, hh]
    rw [this]
    simp only
    rw [apply_eval h2 hp hne hcol,
      select_eq (p := fun row => decide (∀ c ∈ conds, Holds env row c)) _
        (fun row hr => mask_plain conds hp (hcmp row hr))]
    rfl

/-- **C37** with a fallback that holds everything recorded: as long as the registry is not
changed, every query without conditions returns all rows recorded for the table so far, stored
or not. -/
theorem C37_mirror_partial (env : Env V) (flds : ℕ → List Str) (r : RegVal)
    (fb : (ℕ → List (Str → V)) → Option (Fallback V))
    (hfb : ∀ rec', ∃ f, fb rec' = some f ∧ ∀ t, f t none = tableOf flds rec' t)
    (es : List (Ev V)) (hu : Uniform flds es) (hq : PlainQueries env es)
    (hn : ∀ e ∈ es, ∀ r', e ≠ .setRegistry r') (t : ℕ) :
    let x := after env fb (create r, fun _ => []) es
    (query env (fb x.2) x.1 t none).2 = .ok (tableOf flds x.2 t) := by
  intro x
  obtain ⟨c1, c2, c3⟩ := create_agrees (V := V) r
  obtain ⟨ha, _, h1, h2⟩ := mirror_cache (env := env) (flds := flds) hfb r es (create r)
    (fun _ => []) hu hq hn c1 (by rw [c3]; exact fun p hp => by cases hp)
    (by rw [c2]; intro t _; simp [tableOf]) (by rw [c2]; intro t _; rfl)
  obtain ⟨f, hf, hft⟩ := hfb x.2
  unfold query
  by_cases hw : r.wants t
  · rw [h1 t hw, hf]
    change (match tableOf flds x.2 t with | some df => _ | none => _ : St V × _).2 = _
    cases hx : tableOf flds x.2 t with
    | some df => rfl
    | none =>
      simp only [hft t, hx]
      split <;> rfl
  · rw [h2 t hw, hf]
    simp only
    have : (x.1.storeAll || decide (t ∈ x.1.registry)) = false := by
      cases r with
      | all => exact absurd trivial hw
      | off => simp [ha.1, ha.2, x]
      | only l =>
        have hw' : t ∉ l := hw
        simp [ha.1, ha.2, x, hw']
    rw [this]
    simp [hft t]

/-- **C37**, the fallback: a table that is neither stored nor asked for is answered by the
fallback, conditions included. -/
theorem C37_fallback (env : Env V) (f : Fallback V) (s : St V) (t : ℕ)
    (conds : Option (List (Cond V))) (h1 : s.cache t = none) (h2 : s.storeAll = false)
    (h3 : t ∉ s.registry) : query env (some f) s t conds = (s, .ok (f t conds)) := by
  unfold query
  simp [h1, h2, h3]

/-- **C37**, dropping: assigning a set drops the tables of the old set that are not in the new
one, and keeps the others. -/
theorem C37_drop_partial (s : St V) (l : List ℕ) (t : ℕ) :
    (t ∈ s.registry → t ∉ l → (setRegistry s (.only l)).cache t = none) ∧
    (t ∈ l → (setRegistry s (.only l)).cache t = s.cache t) ∧
    (setRegistry s .off).cache t = none := by
  refine ⟨fun h1 h2 => if_pos ⟨h1, h2⟩, fun h => if_neg fun h' => h'.2 h, rfl⟩

/-! ### Examples -/

def dat (t : ℕ) (a b : ℤ) : Datum (Option ℤ) := ⟨t, [(fA, some a), (fB, some b)]⟩

def exHist : List (Ev (Option ℤ)) :=
  [.notify [dat 1 1 2, dat 2 3 4, dat 1 5 6], .query 1 (some exConds),
   .setRegistry (.only [2, 3]), .notify [dat 1 7 8, dat 2 9 10]]

example : Uniform (fun _ => [fA, fB]) exHist ∧ PlainQueries exEnv exHist ∧
    NoRestriction (none : Option ℤ) ⟨.only [1, 2], fun _ => []⟩ exHist := by
  refine ⟨?_, ?_, ?_⟩
  · intro e he data hd d hm
    simp only [exHist, List.mem_cons, List.not_mem_nil, or_false] at he
    rcases he with rfl | rfl | rfl | rfl
    · injection hd with hd
      subst hd
      simp only [List.mem_cons, List.not_mem_nil, or_false] at hm
      rcases hm with rfl | rfl | rfl <;> exact ⟨rfl, by decide⟩
    · cases hd
    · cases hd
    · injection hd with hd
      subst hd
      simp only [List.mem_cons, List.not_mem_nil, or_false] at hm
      rcases hm with rfl | rfl <;> exact ⟨rfl, by decide⟩
  · intro e he t cs hc
    simp only [exHist, List.mem_cons, List.not_mem_nil, or_false] at he
    rcases he with rfl | rfl | rfl | rfl
    · cases hc
    · injection hc with _ hc
      injection hc with hc
      subst hc
      exact exConds_plain
    · cases hc
    · cases hc
  · refine ⟨?_, ?_, ?_, ?_, trivial⟩
    · intro l h; cases h
    · intro l h; cases h
    · intro l h h'
      simp [Ideal.step] at h'
    · intro l h; cases h

/-- In this history table 2 has both of its rows and table 1 was dropped. -/
example : ∃ df, (query exEnv none (after exEnv (fun _ => none)
      (create (.only [1, 2]), fun _ => []) exHist).1 2 none).2 = .ok (some df) ∧
    df.rows.map (fun x => (x fA, x fB)) = [(some 3, some 4), (some 9, some 10)] :=
  ⟨_, rfl, rfl⟩

example : (query exEnv none (after exEnv (fun _ => none)
    (create (.only [1, 2]), fun _ => []) exHist).1 1 none).2 = .ok none := rfl

/-- A fallback as in `C37_mirror_partial`. -/
def mirror (rec' : ℕ → List (Str → Option ℤ)) : Option (Fallback (Option ℤ)) :=
  some fun t _ => tableOf (fun _ => [fA, fB]) rec' t

example : ∀ rec', ∃ f, mirror rec' = some f ∧ ∀ t, f t none = tableOf (fun _ => [fA, fB]) rec' t :=
  fun _ => ⟨_, rfl, fun _ => rfl⟩

/-! ### Disagreements -/

/-- The code contradicts C37: after everything was stored, restricting the registry drops
nothing.  The answer for a table that is no longer registered is what was recorded before the
restriction, whatever is recorded afterwards. -/
theorem C37_fails_stale : ∃ (es : List (Ev (Option ℤ))),
    es = [.notify [dat 1 1 2], .setRegistry (.only [2]), .notify [dat 1 3 4]] ∧
    (∃ df, (query exEnv none (after exEnv (fun _ => none) (create .all, fun _ => []) es).1 1
      none).2 = .ok (some df) ∧ df.rows.map (fun x => x fA) = [some 1]) ∧
    (∃ df, (query exEnv (mirror (after exEnv mirror (create .all, fun _ => []) es).2)
        (after exEnv mirror (create .all, fun _ => []) es).1 1 none).2 = .ok (some df) ∧
      df.rows.map (fun x => x fA) = [some 1]) ∧
    ((after exEnv mirror (create .all, fun _ => []) es).2 1).map (fun x => x fA) =
      [some 1, some 3] :=
  ⟨_, rfl, ⟨_, rfl, rfl⟩, ⟨_, rfl, rfl⟩, rfl⟩

/-- The code contradicts C37: a table that is registered after some of its rows were recorded
is answered from the rows since then, though the fallback has all of them; asked once before the
next row is recorded, the same backend answers with all rows. -/
theorem C37_fails_late : ∃ es es' : List (Ev (Option ℤ)),
    es = [.notify [dat 1 1 2], .setRegistry (.only [1]), .notify [dat 1 3 4]] ∧
    es' = [.notify [dat 1 1 2], .setRegistry (.only [1]), .query 1 none, .notify [dat 1 3 4]] ∧
    (∃ df, (query exEnv (mirror (after exEnv mirror (create .off, fun _ => []) es).2)
        (after exEnv mirror (create .off, fun _ => []) es).1 1 none).2 = .ok (some df) ∧
      df.rows.map (fun x => x fA) = [some 3]) ∧
    (∃ df, (query exEnv (mirror (after exEnv mirror (create .off, fun _ => []) es').2)
        (after exEnv mirror (create .off, fun _ => []) es').1 1 none).2 = .ok (some df) ∧
      df.rows.map (fun x => x fA) = [some 1, some 3]) :=
  ⟨_, _, rfl, rfl, ⟨_, rfl, rfl⟩, ⟨_, rfl, rfl⟩⟩

/-- The code contradicts C37: values are entered by position under the fields of the first
datum of a batch, so a datum with the same fields in another order is stored wrongly. -/
theorem C37_fails_fields : ∃ data : List (Datum (Option ℤ)),
    data = [⟨1, [(fA, some 1), (fB, some 2)]⟩, ⟨1, [(fB, some 3), (fA, some 4)]⟩] ∧
    (rowsOf none data 1).map (fun x => (x fA, x fB)) = [(some 1, some 2), (some 4, some 3)] ∧
    ∃ df, (query exEnv none (notify exEnv (create .all) data) 1 none).2 = .ok (some df) ∧
      df.rows.map (fun x => (x fA, x fB)) = [(some 1, some 2), (some 3, some 4)] :=
  ⟨_, rfl, rfl, ⟨_, rfl, rfl⟩⟩

/-- The code contradicts C37: a datum with fewer fields than the first of its batch makes the
rows of its table and of all tables that come later in the alphabet disappear. -/
theorem C37_fails_lost : ∃ data : List (Datum (Option ℤ)),
    data = [dat 2 5 6, dat 1 1 2, ⟨1, [(fA, some 3)]⟩] ∧
    (rowsOf none data 2).length = 1 ∧ (rowsOf none data 1).length = 2 ∧
    (query exEnv none (notify exEnv (create .all) data) 1 none).2 = .ok none ∧
    (query exEnv none (notify exEnv (create .all) data) 2 none).2 = .ok none :=
  ⟨_, rfl, rfl, rfl, rfl, rfl⟩

/-! ## C75: requests of the server -/

/-- The tables a backend stores. -/
def Stores (s : St V) (t : ℕ) : Prop := s.storeAll = true ∨ t ∈ s.registry

/-- **C75**, registering, for a backend with a registry: the named tables are stored besides
those already registered, and what is cached stays. -/
theorem C75_register_partial (x : Serving V) (tables : List ℕ) (h : x.back.storeAll = false) :
    (∀ t, Stores (registerTables x tables).1.back t ↔ Stores x.back t ∨ t ∈ tables) ∧
    (registerTables x tables).1.back.cache = x.back.cache := by
  constructor
  · intro t
    simp only [Stores, registerTables, setRegistry, h, Bool.false_eq_true, false_or,
      List.mem_append, List.mem_filter, decide_eq_true_eq]
    constructor
    · rintro (h | h)
      · exact Or.inl h
      · exact Or.inr h.1
    · rintro (h | h)
      · exact Or.inl h
      · by_cases ht : t ∈ x.back.registry
        · exact Or.inl ht
        · exact Or.inr ⟨h, ht⟩
  · funext t
    refine if_neg fun hh => hh.2 ?_
    exact List.mem_append_left _ hh.1

/-- **C75**, deregistering, for a backend with a registry: the named tables are no longer
stored and are dropped from the cache if they were registered; the others stay. -/
theorem C75_deregister_partial (x : Serving V) (tables : List ℕ) (h : x.back.storeAll = false) :
    (∀ t, Stores (deregisterTables x tables).1.back t ↔ Stores x.back t ∧ t ∉ tables) ∧
    ∀ t, (Stores x.back t ∧ t ∈ tables → (deregisterTables x tables).1.back.cache t = none) ∧
      (¬ (Stores x.back t ∧ t ∈ tables) →
        (deregisterTables x tables).1.back.cache t = x.back.cache t) := by
  constructor
  · intro t
    simp [Stores, deregisterTables, setRegistry, h]
  · intro t
    simp only [Stores, deregisterTables, setRegistry, h, Bool.false_eq_true, false_or,
      List.mem_filter, decide_eq_true_eq]
    by_cases h1 : t ∈ x.back.registry <;> by_cases h2 : t ∈ tables <;> simp [h1, h2]

def serving : Serving (Option ℤ) where
  back := notify exEnv (create (.only [1, 2])) [dat 1 1 2, dat 2 3 4]

example : serving.back.storeAll = false ∧ (serving.back.cache 1).isSome ∧
    ((deregisterTables serving [1, 3]).1.back.cache 1).isSome = false ∧
    ((deregisterTables serving [1, 3]).1.back.cache 2).isSome := ⟨rfl, rfl, rfl, rfl⟩

/-- **C75**, asking: the answer to a request for the registry lists exactly the registered
tables, in order and once each. -/
theorem C75_request (x : Serving V) : ∃ msg, (registryRequest x).1.sent = x.sent ++ [msg] ∧
    (registryRequest x).1.back = x.back ∧ (registryRequest x).2 = .ok () ∧
    msg.Pairwise (· < ·) ∧ ∀ t, t ∈ msg ↔ t ∈ x.back.registry := by
  refine ⟨_, rfl, rfl, rfl, ?_, ?_⟩
  · have hs : (x.back.registry.dedup.mergeSort (fun a b => decide (a ≤ b))).Pairwise
        (fun a b => decide (a ≤ b) = true) := List.pairwise_mergeSort
      (by intro a b c h1 h2; simp only [decide_eq_true_eq] at *; omega)
      (by intro a b; simp only [Bool.or_eq_true, decide_eq_true_eq]; omega) _
    have hn : (x.back.registry.dedup.mergeSort (fun a b => decide (a ≤ b))).Nodup :=
      (List.mergeSort_perm _ _).nodup_iff.2 (List.nodup_dedup _)
    refine (hs.and hn).imp ?_
    intro a b h
    have h1 := h.1
    simp only [decide_eq_true_eq] at h1
    exact lt_of_le_of_ne h1 h.2
  · intro t
    rw [(List.mergeSort_perm _ _).mem_iff, List.mem_dedup]

/-- The code contradicts C75: registering a table while everything is stored, the setting of
the server, stops the storing of all other tables, and deregistering one stops all storing. -/
theorem C75_fails_all : ¬ ∀ (x : Serving (Option ℤ)) (tables : List ℕ) (t : ℕ), t ∉ tables →
    Stores x.back t → Stores (registerTables x tables).1.back t ∧
      Stores (deregisterTables x tables).1.back t := by
  intro h
  have := (h ⟨create .all, []⟩ [1] 2 (by simp) (Or.inl rfl)).1
  simp [Stores, registerTables, setRegistry, create] at this

/-- Deregistering a table while everything is stored stops storing of all other tables. -/
theorem C75_fails_all_deregister : ∃ x : Serving (Option ℤ), Stores x.back 2 ∧
    ∀ t, ¬ Stores (deregisterTables x [1]).1.back t := by
  refine ⟨⟨create .all, []⟩, Or.inl rfl, ?_⟩
  intro t h
  simp [Stores, deregisterTables, setRegistry, create] at h

/-- The code contradicts C75: a registry message is promised for every such request
(`cyclus/server.py:92-97, 107-112`), but none is ever sent. -/
theorem C75_fails_answer (x : Serving V) (tables : List ℕ) :
    (registerTables x tables).1.sent = x.sent ∧ (registerTables x tables).2 = .error .cast ∧
    (deregisterTables x tables).1.sent = x.sent ∧
    (deregisterTables x tables).2 = .error .cast :=
  ⟨rfl, rfl, rfl, rfl⟩

end Cyclus.MemBack
