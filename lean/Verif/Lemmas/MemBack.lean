import Verif.Spec.MemBack
import Mathlib.Data.List.Nodup

namespace Cyclus.MemBack

open Cyclus.Cycpp (Str)

variable {V : Type}

theorem parse_iff (s : Str) (o : Op) : Op.parse s = some o ↔ OpIs s o := by
  constructor
  · intro h
    unfold Op.parse at h
    repeat' split at h
    all_goals first
      | (injection h with h; subst h; subst s; constructor)
      | cases h
  · intro h
    cases h <;> rfl

def isOpChar (c : Char) : Bool := c = '=' || c = '!' || c = '<' || c = '>'

theorem opIs_chars {s : Str} {o : Op} (h : OpIs s o) : s ≠ [] ∧ ∀ c ∈ s, isOpChar c = true := by
  cases h <;> decide

theorem plain_chars {env : Env V} {f : Str} (h : PlainField env f) :
    ∀ c ∈ f, isOpChar c = false := by
  intro c hc
  obtain ⟨h1, h2, h3, h4⟩ := h.noOp c hc
  simp [isOpChar, h1, h2, h3, h4]

theorem takeWhile_split {p : Char → Bool} {a b : Str} (ha : ∀ c ∈ a, p c = true)
    (hb : b = [] ∨ ∃ c t, b = c :: t ∧ p c = false) :
    (a ++ b).takeWhile p = a ∧ (a ++ b).dropWhile p = b := by
  induction a with
  | nil =>
    rcases hb with rfl | ⟨c, t, rfl, hc⟩
    · simp
    · simp [hc]
  | cons x xs ih =>
    have := ih fun c hc => ha c (List.mem_cons_of_mem _ hc)
    have hx := ha x List.mem_cons_self
    simp [hx, this]

theorem key_start {env : Env V} {conds : List (Cond V)} (h : ∀ c ∈ conds, PlainCond env c) :
    keyOf conds = [] ∧ conds = [] ∨ ∃ c t, keyOf conds = c :: t ∧ isOpChar c = false := by
  cases conds with
  | nil => exact Or.inl ⟨rfl, rfl⟩
  | cons c cs =>
    right
    have hp := (h c List.mem_cons_self).1
    cases hf : c.field with
    | nil => exact absurd hf hp.nonempty
    | cons x xs =>
      refine ⟨x, xs ++ (c.op ++ keyOf cs), ?_, plain_chars hp x (by rw [hf]; simp)⟩
      simp [keyOf, hf]

theorem key_inj {env : Env V} : ∀ {a b : List (Cond V)}, (∀ c ∈ a, PlainCond env c) →
    (∀ c ∈ b, PlainCond env c) → keyOf a = keyOf b →
    a.map (fun c => (c.field, c.op)) = b.map fun c => (c.field, c.op) := by
  intro a
  induction a with
  | nil =>
    intro b _ hb h
    rcases key_start hb with ⟨_, rfl⟩ | ⟨c, t, hk, _⟩
    · rfl
    · rw [hk] at h
      cases h
  | cons x xs ih =>
    intro b ha hb h
    cases b with
    | nil =>
      rcases key_start ha with ⟨_, h'⟩ | ⟨c, t, hk, _⟩
      · cases h'
      · rw [hk] at h
        cases h
    | cons y ys =>
      have hxs : ∀ c ∈ xs, PlainCond env c := fun c hc => ha c (List.mem_cons_of_mem _ hc)
      have hys : ∀ c ∈ ys, PlainCond env c := fun c hc => hb c (List.mem_cons_of_mem _ hc)
      obtain ⟨hxp, ox, hxo⟩ := ha x List.mem_cons_self
      obtain ⟨hyp, oy, hyo⟩ := hb y List.mem_cons_self
      have e1 : keyOf (x :: xs) = x.field ++ (x.op ++ keyOf xs) := by simp [keyOf]
      have e2 : keyOf (y :: ys) = y.field ++ (y.op ++ keyOf ys) := by simp [keyOf]
      rw [e1, e2] at h
      have start : ∀ {o : Op} {s : Str} {r : Str}, OpIs s o →
          (s ++ r = [] ∨ ∃ c t, s ++ r = c :: t ∧ (!isOpChar c) = false) := by
        intro o s r hs
        right
        obtain ⟨h1, h2⟩ := opIs_chars hs
        cases s with
        | nil => exact absurd rfl h1
        | cons c t => exact ⟨c, t ++ r, rfl, by simp [h2 c List.mem_cons_self]⟩
      have t1 := takeWhile_split (p := fun c => !isOpChar c) (a := x.field)
        (fun c hc => by simp [plain_chars hxp c hc]) (start (r := keyOf xs) hxo)
      have t2 := takeWhile_split (p := fun c => !isOpChar c) (a := y.field)
        (fun c hc => by simp [plain_chars hyp c hc]) (start (r := keyOf ys) hyo)
      rw [h] at t1
      have hf : x.field = y.field := t1.1.symm.trans t2.1
      have hr : x.op ++ keyOf xs = y.op ++ keyOf ys := t1.2.symm.trans t2.2
      have st : ∀ {zs : List (Cond V)}, (∀ c ∈ zs, PlainCond env c) →
          (keyOf zs = [] ∨ ∃ c t, keyOf zs = c :: t ∧ isOpChar c = false) := by
        intro zs hz
        rcases key_start hz with ⟨h1, _⟩ | h1
        · exact Or.inl h1
        · exact Or.inr h1
      have u1 := takeWhile_split (p := isOpChar) (opIs_chars hxo).2 (st hxs)
      have u2 := takeWhile_split (p := isOpChar) (opIs_chars hyo).2 (st hys)
      rw [hr] at u1
      have ho : x.op = y.op := u1.1.symm.trans u2.1
      have hk : keyOf xs = keyOf ys := u1.2.symm.trans u2.2
      simp only [List.map_cons, hf, ho, ih hxs hys hk]

/-- The code of plain conditions. -/
def codeOf (conds : List (Cond V)) : Code :=
  conds.map fun c => (c.field, (Op.parse c.op).getD .eq)

theorem parseConds_plain {env : Env V} {conds : List (Cond V)}
    (h : ∀ c ∈ conds, PlainCond env c) : parseConds env conds = .ok (codeOf conds) := by
  induction conds with
  | nil => rfl
  | cons c cs ih =>
    obtain ⟨hp, o, ho⟩ := h c List.mem_cons_self
    have := ih fun c hc => h c (List.mem_cons_of_mem _ hc)
    rw [← parse_iff] at ho
    simp [parseConds, ho, hp.notReserved, this, codeOf]

theorem codeOf_congr {a b : List (Cond V)}
    (h : a.map (fun c => (c.field, c.op)) = b.map fun c => (c.field, c.op)) :
    codeOf a = codeOf b := by
  have : ∀ l : List (Cond V), codeOf l =
      (l.map fun c => (c.field, c.op)).map fun p => (p.1, (Op.parse p.2).getD .eq) := by
    intro l
    simp [codeOf]
  rw [this, this, h]

theorem valName_eq (i : ℕ) : valName i = 'v' :: 'a' :: 'l' :: Nat.toDigits 10 i := rfl

theorem valName_inj {i j : ℕ} (h : valName i = valName j) : i = j := by
  rw [valName_eq, valName_eq] at h
  simp only [List.cons.injEq, true_and] at h
  have := congrArg (Nat.ofDigitChars 10 · 0) h
  simpa using this

theorem buildCtx_plain {env : Env V} (df : Frame V) : ∀ (conds : List (Cond V)) (i : ℕ)
    (ctx : NameCtx V), (∀ c ∈ conds, PlainCond env c) → (∀ c ∈ conds, c.field ∈ df.cols) →
    (∀ f, PlainField env f → ctx f = none ∨ ctx f = some (.col f)) →
    ∃ ctx', buildCtx df i conds ctx = .ok ctx' ∧
      (∀ f, PlainField env f → ctx f = some (.col f) → ctx' f = some (.col f)) ∧
      (∀ c ∈ conds, ctx' c.field = some (.col c.field)) ∧
      (∀ (k : ℕ) c, conds[k]? = some c → ctx' (valName (i + k)) = some (.val c.val)) ∧
      (∀ j < i, ctx' (valName j) = ctx (valName j)) := by
  intro conds
  induction conds with
  | nil => exact fun i ctx _ _ _ => ⟨ctx, rfl, fun _ _ h => h, by simp, by simp, fun _ _ => rfl⟩
  | cons c cs ih =>
    intro i ctx hp hc hctx
    have hpl := (hp c List.mem_cons_self).1
    -- the context after this condition
    obtain ⟨ctx1, hb, h1f, h1v, h1o, h1e⟩ : ∃ ctx1 : NameCtx V,
        buildCtx df i (c :: cs) ctx = buildCtx df (i + 1) cs ctx1 ∧
        ctx1 c.field = some (.col c.field) ∧ ctx1 (valName i) = some (.val c.val) ∧
        (∀ j, j ≠ i → ctx1 (valName j) = ctx (valName j)) ∧
        (∀ f, PlainField env f → f ≠ c.field → ctx1 f = ctx f) := by
      have nv : ∀ f, PlainField env f → ∀ j, f ≠ valName j := fun f hf j => hf.notVal j
      rcases hctx c.field hpl with h | h
      · refine ⟨(ctx.set c.field (.col c.field)).set (valName i) (.val c.val), ?_, ?_, ?_, ?_, ?_⟩
        · simp [buildCtx, h, hc c List.mem_cons_self]
        · simp [NameCtx.set, nv _ hpl i]
        · simp [NameCtx.set]
        · intro j hj
          have : valName j ≠ valName i := fun h => hj (valName_inj h)
          simp [NameCtx.set, this, (nv _ hpl j).symm]
        · intro f hf hne
          simp [NameCtx.set, hne, nv f hf i]
      · refine ⟨ctx.set (valName i) (.val c.val), ?_, ?_, ?_, ?_, ?_⟩
        · simp [buildCtx, h]
        · simp [NameCtx.set, nv _ hpl i, h]
        · simp [NameCtx.set]
        · intro j hj
          have : valName j ≠ valName i := fun h => hj (valName_inj h)
          simp [NameCtx.set, this]
        · intro f hf hne
          simp [NameCtx.set, nv f hf i]
    obtain ⟨ctx', hb', k1, k2, k3, k4⟩ := ih (i + 1) ctx1
      (fun c hc => hp c (List.mem_cons_of_mem _ hc)) (fun d hd => hc d (List.mem_cons_of_mem _ hd))
      (by
        intro f hf
        by_cases hfc : f = c.field
        · subst hfc
          exact Or.inr h1f
        · rw [h1e f hf hfc]
          exact hctx f hf)
    refine ⟨ctx', hb.trans hb', ?_, ?_, ?_, ?_⟩
    · intro f hf h
      apply k1 f hf
      by_cases hfc : f = c.field
      · subst hfc
        exact h1f
      · rw [h1e f hf hfc]
        exact h
    · intro d hd
      rcases List.mem_cons.1 hd with rfl | hd
      · exact k1 _ hpl h1f
      · exact k2 d hd
    · intro k d hk
      cases k with
      | zero =>
        simp only [List.getElem?_cons_zero, Option.some.injEq] at hk
        subst hk
        rw [Nat.add_zero, k4 i (Nat.lt_succ_self i), h1v]
      | succ k =>
        have := k3 k d (by simpa using hk)
        rwa [Nat.add_assoc, Nat.add_comm 1 k] at this
    · intro j hj
      rw [k4 j (Nat.lt_succ_of_lt hj), h1o j (Nat.ne_of_lt hj)]

theorem operands_plain {ctx : NameCtx V} : ∀ (conds : List (Cond V)) (i : ℕ),
    (∀ c ∈ conds, ctx c.field = some (.col c.field)) →
    (∀ (k : ℕ) c, conds[k]? = some c → ctx (valName (i + k)) = some (.val c.val)) →
    operands ctx i (codeOf conds) =
      some (conds.map fun c => (.col c.field, (Op.parse c.op).getD .eq, .val c.val)) := by
  intro conds
  induction conds with
  | nil => exact fun _ _ _ => rfl
  | cons c cs ih =>
    intro i h1 h2
    have := ih (i + 1) (fun c hc => h1 c (List.mem_cons_of_mem _ hc))
      (by
        intro k d hk
        have := h2 (k + 1) d (by simpa using hk)
        rwa [← Nat.add_assoc, Nat.add_right_comm] at this)
    have h0 := h2 0 c (by simp)
    rw [Nat.add_zero] at h0
    simp only [codeOf, List.map_cons] at this ⊢
    simp [operands, h1 c List.mem_cons_self, h0, this]

open Classical in
theorem mask_plain {env : Env V} {row : Str → V} : ∀ (conds : List (Cond V)),
    (∀ c ∈ conds, PlainCond env c) → (∀ c ∈ conds, Comparable env row c) →
    maskIn env row (conds.map fun c => (.col c.field, (Op.parse c.op).getD .eq, .val c.val)) =
      some (decide (∀ c ∈ conds, Holds env row c)) := by
  intro conds
  induction conds with
  | nil => intro _ _; simp [maskIn]
  | cons c cs ih =>
    intro h1 h2
    obtain ⟨_, o, ho⟩ := h1 c List.mem_cons_self
    have hp := (parse_iff _ _).2 ho
    have ih := ih (fun c hc => h1 c (List.mem_cons_of_mem _ hc))
      (fun c hc => h2 c (List.mem_cons_of_mem _ hc))
    have hc := h2 c List.mem_cons_self o ho
    cases hb : env.cmp o (row c.field) c.val with
    | none => exact absurd hb hc
    | some b =>
      have hh : Holds env row c ↔ b = true := by
        constructor
        · rintro ⟨o', ho', h⟩
          have := (parse_iff _ _).2 ho'
          rw [hp] at this
          injection this with this
          subst this
          rw [hb] at h
          injection h
        · intro h
          subst h
          exact ⟨o, ho, hb⟩
      simp only [List.map_cons, maskIn, hp, Option.getD_some, valueIn, hb, ih]
      simp only [List.forall_mem_cons, hh]
      cases b <;> simp

theorem mask_raises {env : Env V} {row : Str → V} : ∀ (conds : List (Cond V)),
    (∃ c ∈ conds, PlainCond env c ∧ ¬ Comparable env row c) →
    maskIn env row (conds.map fun c => (.col c.field, (Op.parse c.op).getD .eq, .val c.val)) =
      none := by
  intro conds
  induction conds with
  | nil => rintro ⟨c, hc, _⟩; cases hc
  | cons c cs ih =>
    rintro ⟨d, hd, hp, hn⟩
    rcases List.mem_cons.1 hd with rfl | hd
    · have : ∃ o, OpIs d.op o ∧ env.cmp o (row d.field) d.val = none := by
        unfold Comparable at hn
        push Not at hn
        exact hn
      obtain ⟨o, ho, h⟩ := this
      have hp := (parse_iff _ _).2 ho
      simp [maskIn, hp, valueIn, h]
    · have := ih ⟨d, hd, hp, hn⟩
      simp only [List.map_cons, maskIn, this]
      split
      · rename_i h
        cases h
      · rfl

theorem select_eq {env : Env V} {es : List (Obj V × Op × Obj V)} {p : (Str → V) → Bool} :
    ∀ (rows : List (Str → V)), (∀ r ∈ rows, maskIn env r es = some (p r)) →
    selectRows env es rows = some (rows.filter p) := by
  intro rows
  induction rows with
  | nil => intro _; rfl
  | cons r rs ih =>
    intro h
    have := ih fun r hr => h r (List.mem_cons_of_mem _ hr)
    simp only [selectRows, h r List.mem_cons_self, this, List.filter_cons]

theorem select_raises {env : Env V} {es : List (Obj V × Op × Obj V)} :
    ∀ (rows : List (Str → V)), (∃ r ∈ rows, maskIn env r es = none) →
    selectRows env es rows = none := by
  intro rows
  induction rows with
  | nil => rintro ⟨r, hr, _⟩; cases hr
  | cons r rs ih =>
    rintro ⟨q, hq, h⟩
    rcases List.mem_cons.1 hq with rfl | hq
    · simp [selectRows, h]
    · have := ih ⟨q, hq, h⟩
      simp only [selectRows, this]
      split
      · rename_i h
        cases h
      · rfl

/-- Every code in the cache was compiled from plain conditions with its key. -/
def Sound (env : Env V) (cc : Codes) : Prop :=
  ∀ p ∈ cc.cache, ∃ conds : List (Cond V), (∀ c ∈ conds, PlainCond env c) ∧
    p.1 = keyOf conds ∧ p.2 = codeOf conds

theorem add_mem {cc : Codes} {key : Str} {code : Code} {p : Str × Code}
    (h : p ∈ (cc.add key code).cache) : p ∈ cc.cache ∨ p = (key, code) := by
  unfold Codes.add at h
  simp only at h
  split at h
  · split at h
    · simpa using h
    · have := List.mem_of_mem_filter h
      simpa using this
  · simpa using h

theorem apply_sound {env : Env V} {cc : Codes} (df : Frame V) {conds : List (Cond V)}
    (h : Sound env cc) (hp : ∀ c ∈ conds, PlainCond env c) :
    Sound env (applyConds env cc df conds).1 := by
  unfold applyConds
  split
  · exact h
  · simp only
    split
    · exact h
    · unfold compile
      by_cases he : conds.isEmpty = true
      · simp only [he, if_true]
        exact h
      · simp only [he, Bool.false_eq_true, if_false, parseConds_plain hp]
        intro p hm
        rcases add_mem hm with hm | rfl
        · exact h p hm
        · exact ⟨conds, hp, rfl, rfl⟩

theorem find_sound {env : Env V} {cc : Codes} {conds : List (Cond V)} {code : Code}
    (h : Sound env cc) (hp : ∀ c ∈ conds, PlainCond env c)
    (hf : cc.find (keyOf conds) = some code) : code = codeOf conds := by
  unfold Codes.find at hf
  cases hq : cc.cache.find? (fun p => p.1 = keyOf conds) with
  | none => simp [hq] at hf
  | some q =>
    rw [hq] at hf
    simp only [Option.map_some, Option.some.injEq] at hf
    subst hf
    obtain ⟨cs, h1, h2, h3⟩ := h q (List.mem_of_find?_eq_some hq)
    have := List.find?_some hq
    simp only [decide_eq_true_eq] at this
    rw [h3]
    exact codeOf_congr (key_inj h1 hp (h2.symm.trans this))

def framed (df : Frame V) : Option (List (Str → V)) → Except Err (Frame V)
  | none => .error .cast
  | some rows => .ok ⟨df.cols, rows⟩

/-- Running plain conditions is running their own code. -/
theorem apply_eval {env : Env V} {cc : Codes} {df : Frame V} {conds : List (Cond V)}
    (h : Sound env cc) (hp : ∀ c ∈ conds, PlainCond env c) (hne : conds ≠ [])
    (hcol : ∀ c ∈ conds, c.field ∈ df.cols) :
    (applyConds env cc df conds).2 =
      framed df (selectRows env
        (conds.map fun c => (.col c.field, (Op.parse c.op).getD .eq, .val c.val)) df.rows) := by
  obtain ⟨ctx', hb, _, k2, k3, _⟩ := buildCtx_plain (env := env) df conds 0
    (fun x => if x = builtins then some (.val env.pyNone) else none) hp hcol (by
      intro f hf
      left
      exact if_neg hf.notBuiltins)
  have ho := operands_plain conds 0 k2 k3
  have hev : evalCode env df ctx' (codeOf conds) =
      framed df (selectRows env
        (conds.map fun c => (.col c.field, (Op.parse c.op).getD .eq, .val c.val)) df.rows) := by
    unfold evalCode
    rw [ho]
    simp only
    rw [if_pos]
    · generalize selectRows env _ df.rows = x
      cases x <;> rfl
    · cases conds with
      | nil => exact absurd rfl hne
      | cons c cs => simp [isCol]
  rw [← hev]
  unfold applyConds
  simp only [hb]
  cases hf : cc.find (keyOf conds) with
  | some code => simp only [find_sound h hp hf]
  | none =>
    have : compile env conds = .ok (codeOf conds) := by
      unfold compile
      rw [parseConds_plain hp, if_neg]
      simpa using hne
    simp only [this]

/-- The shape of the cache: the queue holds its keys in order, without repetition, at most
256. -/
def Shaped (cc : Codes) : Prop :=
  cc.lru = cc.cache.map Prod.fst ∧ cc.lru.Nodup ∧ cc.lru.length ≤ 256

theorem add_shaped {cc : Codes} {key : Str} {code : Code} (h : Shaped cc)
    (hk : cc.find key = none) : Shaped (cc.add key code) := by
  obtain ⟨h1, h2, h3⟩ := h
  have hk' : key ∉ cc.lru := by
    intro hm
    rw [h1, List.mem_map] at hm
    obtain ⟨p, hp, rfl⟩ := hm
    simp only [Codes.find, Option.map_eq_none_iff, List.find?_eq_none] at hk
    exact absurd (hk p hp) (by simp)
  obtain ⟨cache, lru⟩ := cc
  simp only at h1 h2 h3 hk'
  unfold Codes.add
  simp only
  split
  · rename_i h256
    cases lru with
    | nil => simp at h256
    | cons k ks =>
      cases cache with
      | nil => simp at h1
      | cons p ps =>
        simp only [List.map_cons, List.cons.injEq] at h1
        obtain ⟨rfl, rfl⟩ := h1
        rw [List.nodup_cons] at h2
        simp only [List.mem_cons, not_or] at hk'
        have hfil : ((p :: ps) ++ [(key, code)]).filter (fun q => decide (q.1 ≠ p.1)) =
            ps ++ [(key, code)] := by
          rw [List.cons_append, List.filter_cons_of_neg (by simp)]
          rw [List.filter_eq_self]
          intro q hq
          rcases List.mem_append.1 hq with hq | hq
          · have : q.1 ≠ p.1 := fun h => h2.1 (h ▸ List.mem_map_of_mem hq)
            simp [this]
          · simp only [List.mem_singleton] at hq
            subst hq
            simp [hk'.1]
        refine ⟨?_, ?_, ?_⟩
        · simp only [hfil, List.map_append, List.map_cons, List.map_nil]
        · rw [List.nodup_append]
          refine ⟨h2.2, by simp, ?_⟩
          intro a ha b hb
          simp only [List.mem_singleton] at hb
          subst hb
          intro h
          subst h
          exact hk'.2 ha
        · simp only [List.length_cons] at h256
          simp only [List.length_append, List.length_cons, List.length_nil]
          omega
  · rename_i h256
    refine ⟨?_, ?_, ?_⟩
    · simp [h1]
    · rw [List.nodup_append]
      refine ⟨h2, by simp, ?_⟩
      intro a ha b hb
      simp only [List.mem_singleton] at hb
      subst hb
      intro h
      subst h
      exact hk' ha
    · simp only [List.length_append, List.length_cons, List.length_nil]
      omega

theorem apply_shaped {env : Env V} {cc : Codes} (df : Frame V) (conds : List (Cond V))
    (h : Shaped cc) : Shaped (applyConds env cc df conds).1 := by
  unfold applyConds
  split
  · exact h
  · simp only
    split
    · exact h
    · rename_i hk
      split
      · exact h
      · exact add_shaped h hk

end Cyclus.MemBack

/-! ## Histories -/

namespace Cyclus.MemBack

open Cyclus.Cycpp (Str)

variable {V : Type}

def inGroup (t : ℕ) (gs : List (ℕ × List (Datum V))) : List (Datum V) :=
  gs.flatMap fun g => if g.1 = t then g.2 else []

theorem push_sorted (d : Datum V) : ∀ gs : List (ℕ × List (Datum V)),
    gs.Pairwise (fun a b => a.1 < b.1) →
    (pushGroup d gs).Pairwise (fun a b => a.1 < b.1) ∧
      ∀ g ∈ pushGroup d gs, g.1 = d.title ∨ ∃ g' ∈ gs, g'.1 = g.1 := by
  intro gs
  induction gs with
  | nil => intro _; simp [pushGroup]
  | cons g gs ih =>
    intro h
    rw [List.pairwise_cons] at h
    unfold pushGroup
    split
    · rename_i hlt
      constructor
      · rw [List.pairwise_cons]
        refine ⟨?_, List.pairwise_cons.2 h⟩
        intro a ha
        rcases List.mem_cons.1 ha with rfl | ha
        · exact hlt
        · exact hlt.trans (h.1 a ha)
      · intro a ha
        rcases List.mem_cons.1 ha with rfl | ha
        · exact Or.inl rfl
        · exact Or.inr ⟨a, ha, rfl⟩
    · split
      · rename_i heq
        constructor
        · rw [List.pairwise_cons]
          exact h
        · intro a ha
          rcases List.mem_cons.1 ha with rfl | ha
          · exact Or.inl heq.symm
          · exact Or.inr ⟨a, List.mem_cons_of_mem _ ha, rfl⟩
      · rename_i h1 h2
        obtain ⟨i1, i2⟩ := ih h.2
        constructor
        · rw [List.pairwise_cons]
          refine ⟨?_, i1⟩
          intro a ha
          rcases i2 a ha with e | ⟨g', hg', e⟩
          · omega
          · rw [← e]
            exact h.1 g' hg'
        · intro a ha
          rcases List.mem_cons.1 ha with rfl | ha
          · exact Or.inr ⟨a, List.mem_cons_self, rfl⟩
          · rcases i2 a ha with e | ⟨g', hg', e⟩
            · exact Or.inl e
            · exact Or.inr ⟨g', List.mem_cons_of_mem _ hg', e⟩

theorem push_in (d : Datum V) (t : ℕ) : ∀ gs : List (ℕ × List (Datum V)),
    gs.Pairwise (fun a b => a.1 < b.1) →
    inGroup t (pushGroup d gs) = inGroup t gs ++ (if d.title = t then [d] else []) := by
  intro gs
  induction gs with
  | nil => intro _; simp [pushGroup, inGroup]
  | cons g gs ih =>
    intro h
    have hp := List.pairwise_cons.1 h
    have cons : ∀ (a : ℕ × List (Datum V)) l, inGroup t (a :: l) =
        (if a.1 = t then a.2 else []) ++ inGroup t l := fun a l => rfl
    have later : ∀ l : List (ℕ × List (Datum V)), (∀ a ∈ l, a.1 ≠ t) → inGroup t l = [] := by
      intro l hl
      simp only [inGroup, List.flatMap_eq_nil_iff]
      intro a ha
      rw [if_neg (hl a ha)]
    unfold pushGroup
    split
    · rename_i hlt
      rw [cons]
      by_cases ht : d.title = t
      · rw [later (g :: gs)]
        · simp [ht]
        · intro a ha
          rcases List.mem_cons.1 ha with rfl | ha
          · omega
          · have := hp.1 a ha
            omega
      · simp [ht]
    · split
      · rename_i heq
        rw [cons, cons]
        by_cases ht : d.title = t
        · rw [later gs]
          · simp [← heq, ht]
          · intro a ha
            have := hp.1 a ha
            omega
        · have : g.1 ≠ t := by omega
          simp [ht, this]
      · rw [cons, cons, ih hp.2, List.append_assoc]

theorem push_groups (d : Datum V) : ∀ gs : List (ℕ × List (Datum V)),
    (∀ g ∈ gs, g.2 ≠ [] ∧ ∀ e ∈ g.2, e.title = g.1) →
    ∀ g ∈ pushGroup d gs, g.2 ≠ [] ∧ ∀ e ∈ g.2, e.title = g.1 := by
  intro gs
  induction gs with
  | nil => intro _; simp [pushGroup]
  | cons g gs ih =>
    intro h
    have hg := h g List.mem_cons_self
    have hgs : ∀ g ∈ gs, g.2 ≠ [] ∧ ∀ e ∈ g.2, e.title = g.1 :=
      fun a ha => h a (List.mem_cons_of_mem _ ha)
    unfold pushGroup
    split
    · intro a ha
      rcases List.mem_cons.1 ha with rfl | ha
      · simp
      · exact h a ha
    · split
      · rename_i heq
        intro a ha
        rcases List.mem_cons.1 ha with rfl | ha
        · refine ⟨by simp, ?_⟩
          intro e he
          rcases List.mem_append.1 he with he | he
          · exact hg.2 e he
          · simp only [List.mem_singleton] at he
            subst he
            exact heq
        · exact hgs a ha
      · intro a ha
        rcases List.mem_cons.1 ha with rfl | ha
        · exact hg
        · exact ih hgs a ha

theorem push_mem (d : Datum V) : ∀ gs : List (ℕ × List (Datum V)),
    ∀ g ∈ pushGroup d gs, ∀ e ∈ g.2, e = d ∨ ∃ g' ∈ gs, e ∈ g'.2 := by
  intro gs
  induction gs with
  | nil => simp [pushGroup]
  | cons g gs ih =>
    unfold pushGroup
    split
    · intro a ha e he
      rcases List.mem_cons.1 ha with rfl | ha
      · exact Or.inl (by simpa using he)
      · exact Or.inr ⟨a, ha, he⟩
    · split
      · intro a ha e he
        rcases List.mem_cons.1 ha with rfl | ha
        · rcases List.mem_append.1 he with he | he
          · exact Or.inr ⟨g, List.mem_cons_self, he⟩
          · exact Or.inl (by simpa using he)
        · exact Or.inr ⟨a, List.mem_cons_of_mem _ ha, he⟩
      · intro a ha e he
        rcases List.mem_cons.1 ha with rfl | ha
        · exact Or.inr ⟨a, List.mem_cons_self, he⟩
        · rcases ih a ha e he with h | ⟨g', hg', h⟩
          · exact Or.inl h
          · exact Or.inr ⟨g', List.mem_cons_of_mem _ hg', h⟩

theorem groups_spec (data : List (Datum V)) :
    let gs := data.foldl (fun gs d => pushGroup d gs) []
    (∀ t, inGroup t gs = data.filter fun d => d.title = t) ∧
      (∀ g ∈ gs, g.2 ≠ [] ∧ ∀ e ∈ g.2, e.title = g.1) ∧
      ∀ g ∈ gs, ∀ e ∈ g.2, e ∈ data := by
  have gen : ∀ (data : List (Datum V)) (gs : List (ℕ × List (Datum V))),
      gs.Pairwise (fun a b => a.1 < b.1) →
      (∀ g ∈ gs, g.2 ≠ [] ∧ ∀ e ∈ g.2, e.title = g.1) →
      (∀ t, inGroup t (data.foldl (fun gs d => pushGroup d gs) gs) =
        inGroup t gs ++ data.filter fun d => d.title = t) ∧
      (∀ g ∈ data.foldl (fun gs d => pushGroup d gs) gs,
        g.2 ≠ [] ∧ ∀ e ∈ g.2, e.title = g.1) ∧
      (∀ g ∈ data.foldl (fun gs d => pushGroup d gs) gs, ∀ e ∈ g.2,
        e ∈ data ∨ ∃ g' ∈ gs, e ∈ g'.2) := by
    intro data
    induction data with
    | nil =>
      intro gs _ h
      exact ⟨by simp, h, fun g hg e he => Or.inr ⟨g, hg, he⟩⟩
    | cons d ds ih =>
      intro gs h1 h2
      obtain ⟨a1, a2, a3⟩ := ih (pushGroup d gs) (push_sorted d gs h1).1 (push_groups d gs h2)
      refine ⟨?_, a2, ?_⟩
      · intro t
        rw [List.foldl_cons, a1 t, push_in d t gs h1, List.append_assoc]
        by_cases ht : d.title = t <;> simp [ht]
      · intro g hg e he
        rcases a3 g hg e he with h | ⟨g', hg', h⟩
        · exact Or.inl (List.mem_cons_of_mem _ h)
        · rcases push_mem d gs g' hg' e h with rfl | h
          · exact Or.inl List.mem_cons_self
          · exact Or.inr h
  obtain ⟨a1, a2, a3⟩ := gen data [] List.Pairwise.nil (by simp)
  refine ⟨fun t => by simpa [inGroup] using a1 t, a2, ?_⟩
  intro g hg e he
  simpa using a3 g hg e he

theorem zip_fields (d : Datum V) : (d.vals.map Prod.fst).zip (d.vals.map Prod.snd) = d.vals := by
  induction d.vals with
  | nil => rfl
  | cons p ps ih => simp [ih]

theorem frameOf_uniform {env : Env V} {F : List Str} {ds : List (Datum V)} (hne : ds ≠ [])
    (h : ∀ d ∈ ds, d.vals.map Prod.fst = F) :
    frameOf env ds = some ⟨F, ds.map (Datum.row env.nan)⟩ := by
  cases ds with
  | nil => exact absurd rfl hne
  | cons d0 ds =>
    have h0 := h d0 List.mem_cons_self
    have e : d0.fields = F := h0
    have hlen : (d0 :: ds).all (fun d => decide (d.vals.length = F.length)) = true := by
      rw [List.all_eq_true]
      intro d hd
      rw [← h d hd]
      simp
    have hrow : (d0 :: ds).map (fun d => lookupD env.nan (F.zip (d.vals.map Prod.snd))) =
        (d0 :: ds).map (Datum.row env.nan) := by
      apply List.map_congr_left
      intro d hd
      rw [← h d hd, zip_fields]
      rfl
    unfold frameOf
    simp only [e]
    rw [if_pos hlen, hrow]

theorem concat_same (F : List Str) (a b : List (Str → V)) :
    Frame.concat ⟨F, a⟩ ⟨F, b⟩ = ⟨F, a ++ b⟩ := by
  simp [Frame.concat]

theorem store_groups {env : Env V} {flds : ℕ → List Str} :
    ∀ (gs : List (ℕ × List (Datum V))) (held : ℕ → List (Str → V)),
    (∀ g ∈ gs, g.2 ≠ [] ∧ ∀ e ∈ g.2, e.title = g.1) →
    (∀ g ∈ gs, ∀ e ∈ g.2, e.vals.map Prod.fst = flds e.title) →
    storeGroups env gs (tableOf flds held) =
      tableOf flds fun t => held t ++ (inGroup t gs).map (Datum.row env.nan) := by
  intro gs
  induction gs with
  | nil => intro held _ _; simp [storeGroups, inGroup]
  | cons g gs ih =>
    intro held h1 h2
    have hg := h1 g List.mem_cons_self
    have hf := frameOf_uniform (env := env) (F := flds g.1) hg.1 (by
      intro d hd
      rw [h2 g List.mem_cons_self d hd, hg.2 d hd])
    have key : (fun t => if t = g.1 then some (extend (tableOf flds held g.1)
          ⟨flds g.1, g.2.map (Datum.row env.nan)⟩) else tableOf flds held t) =
        tableOf flds fun t => held t ++ (if g.1 = t then g.2 else []).map (Datum.row env.nan) := by
      funext t
      by_cases ht : t = g.1
      · subst ht
        have hne : g.2.map (Datum.row env.nan) ≠ [] := by simpa using hg.1
        simp only [if_true, tableOf]
        by_cases hh : held g.1 = []
        · simp [hh, hg.1, extend]
        · simp [hh, concat_same, extend]
      · have ht' : g.1 ≠ t := fun h => ht h.symm
        simp [ht, ht', tableOf]
    unfold storeGroups
    rw [hf]
    simp only
    rw [key, ih _ (fun a ha => h1 a (List.mem_cons_of_mem _ ha))
      (fun a ha => h2 a (List.mem_cons_of_mem _ ha))]
    congr 1
    funext t
    simp [inGroup, List.map_append, List.append_assoc]

/-- The state stores what its setting asks for. -/
def Agrees (s : St V) : RegVal → Prop
  | .all => s.storeAll = true ∧ s.registry = []
  | .off => s.storeAll = false ∧ s.registry = []
  | .only l => s.storeAll = false ∧ s.registry = l

open Classical in
theorem notify_table {env : Env V} {flds : ℕ → List Str} {held : ℕ → List (Str → V)} {s : St V}
    {r : RegVal} (ha : Agrees s r) (hc : s.cache = tableOf flds held) (data : List (Datum V))
    (hu : ∀ d ∈ data, d.vals.map Prod.fst = flds d.title) :
    (notify env s data).cache = tableOf flds (fun t =>
        if r.wants t then held t ++ rowsOf env.nan data t else held t) ∧
      Agrees (notify env s data) r ∧ (notify env s data).codes = s.codes := by
  have hag : ∀ c : ℕ → Option (Frame V), Agrees { s with cache := c } r := by
    intro c
    cases r <;> exact ha
  unfold notify
  split
  · rename_i h
    refine ⟨?_, ha, rfl⟩
    rw [hc]
    congr 1
    funext t
    rw [if_neg]
    cases r with
    | all => exact absurd (h.1.symm.trans ha.1) (by simp)
    | off => exact fun h => h
    | only l =>
      intro ht
      have : l = [] := ha.2.symm.trans h.2
      subst this
      cases ht
  · split
    · rename_i h
      subst h
      refine ⟨?_, ha, rfl⟩
      rw [hc]
      congr 1
      funext t
      simp [rowsOf]
    · refine ⟨?_, hag _, rfl⟩
      simp only [hc]
      obtain ⟨g1, g2, g3⟩ := groups_spec
        (if s.storeAll = true then data else data.filter fun d => d.title ∈ s.registry)
      rw [store_groups _ held g2]
      · congr 1
        funext t
        rw [g1 t]
        cases r with
        | all =>
          rw [if_pos ha.1]
          simp [RegVal.wants, rowsOf]
        | off =>
          rw [if_neg (by simp [ha.1]), ha.2]
          simp [RegVal.wants]
        | only l =>
          rw [if_neg (by simp [ha.1]), ha.2]
          simp only [rowsOf, List.filter_filter]
          by_cases ht : t ∈ l
          · rw [if_pos (show (RegVal.only l).wants t from ht)]
            congr 2
            apply List.filter_congr
            intro d _
            by_cases hd : d.title = t
            · simp [hd, ht]
            · simp [hd]
          · rw [if_neg (show ¬ (RegVal.only l).wants t from ht), List.filter_eq_nil_iff.2]
            · simp
            · intro d _
              simp only [Bool.and_eq_true, decide_eq_true_eq, not_and]
              intro h h'
              exact ht (h ▸ h')
      · intro g hg e he
        apply hu
        have := g3 g hg e he
        split at this
        · exact this
        · exact List.mem_of_mem_filter this

theorem query_sound {env : Env V} {fb : Option (Fallback V)} {s : St V} {t : ℕ}
    {conds : Option (List (Cond V))} (h : Sound env s.codes)
    (hp : ∀ cs, conds = some cs → ∀ c ∈ cs, PlainCond env c) :
    Sound env (query env fb s t conds).1.codes := by
  unfold query
  split
  · split
    · exact h
    · rename_i cs
      exact apply_sound _ h (hp cs rfl)
  · split
    · exact h
    · split
      · split
        · exact h
        · simp only
          split
          · exact h
          · rename_i cs
            exact apply_sound _ h (hp cs rfl)
      · exact h

theorem query_none {env : Env V} {s : St V} {t : ℕ} {conds : Option (List (Cond V))} :
    (query env none s t conds).1.cache = s.cache ∧
      (query env none s t conds).1.storeAll = s.storeAll ∧
      (query env none s t conds).1.registry = s.registry := by
  unfold query
  split
  · split <;> exact ⟨rfl, rfl, rfl⟩
  · exact ⟨rfl, rfl, rfl⟩

theorem create_agrees (r : RegVal) : Agrees (create r : St V) r ∧
    (create r : St V).cache = (fun _ => none) ∧ (create r : St V).codes = {} := by
  cases r
  · exact ⟨⟨rfl, rfl⟩, rfl, rfl⟩
  · exact ⟨⟨rfl, rfl⟩, rfl, rfl⟩
  · refine ⟨⟨rfl, rfl⟩, ?_, rfl⟩
    simp [create, setRegistry]

open Classical in
/-- Without fallback the cache is what the ideal backend holds. -/
theorem history_cache {env : Env V} {flds : ℕ → List Str} :
    ∀ (es : List (Ev V)) (s : St V) (rec' : ℕ → List (Str → V)) (i : Ideal V),
    Uniform flds es → PlainQueries env es → NoRestriction env.nan i es →
    Agrees s i.setting → s.cache = tableOf flds i.held → Sound env s.codes →
    (∀ t, ¬ i.setting.wants t → i.held t = []) →
    let x := (after env (fun _ => none) (s, rec') es).1
    x.cache = tableOf flds (Ideal.after env.nan i es).held ∧ Sound env x.codes := by
  intro es
  induction es with
  | nil => exact fun s _ i _ _ _ _ hc hs _ => ⟨hc, hs⟩
  | cons e es ih =>
    intro s rec' i hu hq hn ha hc hs hw
    have hu' : Uniform flds es := fun e he => hu e (List.mem_cons_of_mem _ he)
    have hq' : PlainQueries env es := fun e he => hq e (List.mem_cons_of_mem _ he)
    obtain ⟨hn1, hn2⟩ := hn
    have step : Ideal.after env.nan i (e :: es) = Ideal.after env.nan (i.step env.nan e) es := rfl
    rw [step]
    cases e with
    | notify data =>
      obtain ⟨n1, n2, n3⟩ := notify_table (env := env) ha hc data
        (fun d hd => (hu _ List.mem_cons_self data rfl d hd).1)
      apply ih _ _ _ hu' hq' hn2 n2 n1 (by rw [n3]; exact hs)
      intro t ht
      exact (if_neg ht).trans (hw t ht)
    | query t conds =>
      obtain ⟨q1, q2, q3⟩ := query_none (env := env) (s := s) (t := t) (conds := conds)
      apply ih _ _ _ hu' hq' hn2
      · cases hr : i.setting <;> rw [hr] at ha <;> simp only [Ideal.step, hr, Agrees, q2, q3] <;>
          exact ha
      · rw [q1, hc]
        rfl
      · apply query_sound hs
        intro cs hcs
        exact hq _ List.mem_cons_self t cs (by rw [hcs])
      · exact hw
    | setRegistry r =>
      apply ih _ _ _ hu' hq' hn2
      · cases r <;> exact ⟨rfl, rfl⟩
      · funext t
        have hr : ∀ l, r = .only l → t ∉ l → t ∉ s.registry → i.held t = [] := by
          intro l hl ht hm
          cases hi : i.setting with
          | all => exact hn1 l (by rw [hl]) hi t ht
          | off => exact hw t (by rw [hi]; exact fun h => h)
          | only l' =>
            apply hw t
            rw [hi] at ha ⊢
            rw [ha.2] at hm
            exact hm
        have goal : ∀ x : List (Str → V), (x = if i.setting.wants t ∧ r.wants t then i.held t
            else []) → (setRegistry s r).cache t = (if x = [] then none else some ⟨flds t, x⟩) →
            (setRegistry s r).cache t =
              tableOf flds (Ideal.step env.nan i (.setRegistry r)).held t := by
          intro x hx h
          rw [h, hx]
          rfl
        have hct : s.cache t = if i.held t = [] then none else some ⟨flds t, i.held t⟩ := by
          rw [hc]
          rfl
        by_cases hi : i.setting.wants t
        · by_cases ht : r.wants t
          · apply goal (i.held t) (by rw [if_pos ⟨hi, ht⟩])
            rw [← hct]
            cases r with
            | all => rfl
            | off => exact absurd ht fun h => h
            | only l => exact if_neg fun h => h.2 ht
          · apply goal [] (by rw [if_neg fun h => ht h.2])
            cases r with
            | all => exact absurd trivial ht
            | off => simp [setRegistry]
            | only l =>
              by_cases hm : t ∈ s.registry
              · exact (if_pos ⟨hm, ht⟩).trans (by simp)
              · refine (if_neg fun h => hm h.1).trans ?_
                rw [hct, hr l rfl ht hm]
        · apply goal [] (by rw [if_neg fun h => hi h.1])
          rw [hw t hi] at hct
          cases r with
          | all => exact hct
          | off => simp [setRegistry]
          | only l =>
            simp only [setRegistry, hct]
            simp
      · cases r <;> exact hs
      · intro t ht
        simp only [Ideal.step] at ht ⊢
        rw [if_neg]
        exact fun h => ht h.2

/-- What is asked for stays the same without assignments of the registry. -/
theorem mirror_cache {env : Env V} {flds : ℕ → List Str}
    {fb : (ℕ → List (Str → V)) → Option (Fallback V)}
    (hfb : ∀ rec', ∃ f, fb rec' = some f ∧ ∀ t, f t none = tableOf flds rec' t) (r : RegVal) :
    ∀ (es : List (Ev V)) (s : St V) (rec' : ℕ → List (Str → V)),
    Uniform flds es → PlainQueries env es → (∀ e ∈ es, ∀ r', e ≠ .setRegistry r') →
    Agrees s r → Sound env s.codes →
    (∀ t, r.wants t → s.cache t = tableOf flds rec' t) →
    (∀ t, ¬ r.wants t → s.cache t = none) →
    let x := after env fb (s, rec') es
    Agrees x.1 r ∧ Sound env x.1.codes ∧
      (∀ t, r.wants t → x.1.cache t = tableOf flds x.2 t) ∧
      (∀ t, ¬ r.wants t → x.1.cache t = none) := by
  intro es
  induction es with
  | nil => exact fun s rec' _ _ _ ha hs h1 h2 => ⟨ha, hs, h1, h2⟩
  | cons e es ih =>
    intro s rec' hu hq hn ha hs h1 h2
    have hu' : Uniform flds es := fun e he => hu e (List.mem_cons_of_mem _ he)
    have hq' : PlainQueries env es := fun e he => hq e (List.mem_cons_of_mem _ he)
    have hn' : ∀ e ∈ es, ∀ r', e ≠ .setRegistry r' := fun e he => hn e (List.mem_cons_of_mem _ he)
    cases e with
    | setRegistry r' => exact absurd rfl (hn _ List.mem_cons_self r')
    | notify data =>
      classical
      have hc : s.cache = tableOf flds fun t => if r.wants t then rec' t else [] := by
        funext t
        by_cases ht : r.wants t
        · simp [tableOf, ht, h1 t ht]
        · simp [tableOf, ht, h2 t ht]
      obtain ⟨n1, n2, n3⟩ := notify_table (env := env) ha hc data
        (fun d hd => (hu _ List.mem_cons_self data rfl d hd).1)
      apply ih _ _ hu' hq' hn' n2 (by rw [n3]; exact hs)
      · intro t ht
        rw [n1]
        simp [tableOf, ht]
      · intro t ht
        rw [n1]
        simp [tableOf, ht]
    | query t conds =>
      obtain ⟨f, hf, hft⟩ := hfb rec'
      have hqs : Sound env (query env (fb rec') s t conds).1.codes := query_sound hs fun cs hcs =>
        hq _ List.mem_cons_self t cs (by rw [hcs])
      have same : (query env (fb rec') s t conds).1.cache = s.cache ∧
          (query env (fb rec') s t conds).1.storeAll = s.storeAll ∧
          (query env (fb rec') s t conds).1.registry = s.registry := by
        unfold query
        rw [hf]
        cases hct : s.cache t with
        | some df => cases conds <;> exact ⟨rfl, rfl, rfl⟩
        | none =>
          simp only
          split
          · rename_i hw
            have hwt : r.wants t := by
              cases r with
              | all => trivial
              | off => simp [ha.1, ha.2] at hw
              | only l =>
                have : t ∈ l := by simpa [ha.1, ha.2] using hw
                exact this
            rw [hft t, ← h1 t hwt, hct]
            exact ⟨rfl, rfl, rfl⟩
          · exact ⟨rfl, rfl, rfl⟩
      obtain ⟨q1, q2, q3⟩ := same
      apply ih _ _ hu' hq' hn'
      · cases r <;> simp only [Agrees, q2, q3] <;> exact ha
      · exact hqs
      · rw [q1]
        exact h1
      · rw [q1]
        exact h2

end Cyclus.MemBack
