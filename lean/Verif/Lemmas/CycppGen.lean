import Verif.Spec.CycppGen
import Verif.Lemmas.CycppGrammar

/-!
# Lemmas on the third pass
-/

namespace Cyclus.CycppGen

open CycppScan (isSpace isWord join popAt nsNames dropPrefix)
open CycppText (Str Token Blank)

theorem spaces_indent (n : ℕ) : spaces (2 * (n : ℤ)) = indent n := by
  unfold spaces indent
  congr 1

theorem samePrefix_relative (scope path : List Str) (last : Str) :
    path.drop (samePrefix (scope.zip path)).length ++ [last] = relative scope (path ++ [last]) := by
  induction scope generalizing path with
  | nil => 
    cases path <;> simp [samePrefix, relative]
  | cons s ss ih =>
    cases path with
    | nil => simp [samePrefix, relative]
    | cons c cs =>
      have h : (c :: cs) ++ [last] = c :: (cs ++ [last]) := rfl
      rw [h]
      obtain ⟨d, ds, hd⟩ : ∃ d ds, cs ++ [last] = d :: ds := by cases cs <;> simp
      rw [hd]
      simp only [List.zip_cons_cons, samePrefix, relative]
      by_cases e : s = c
      · rw [if_pos e, if_pos e, ← hd, ← ih cs]
        rfl
      · rw [if_neg e, if_neg e, ← hd]
        rfl

theorem colonSplit_ne (s : Str) : colonSplit s ≠ [] := by
  unfold colonSplit
  split
  · simp
  · simp
  · split <;> simp

theorem scopedName_eq (nss classes : List Str) (cn : Str) :
    scopedName nss classes cn = join (relative (nss ++ classes.dropLast) (colonSplit cn)) := by
  unfold scopedName
  simp only
  rw [samePrefix_relative]
  congr 2
  have h := colonSplit_ne cn
  conv_rhs => rw [← List.dropLast_append_getLast h]
  rw [List.getLast?_eq_getLast_of_ne_nil h]
  rfl

/-- The state is that of a place. -/
structure At (st : State) (pl : Place) : Prop where
  depth : st.depth = pl.nss.length + pl.inner
  nss : nsNames st.namespaces = some pl.nss
  len : st.namespaces.length = pl.nss.length
  classes : st.classes.reverse.map (·.2) = pl.classes
  lowC : ∀ x ∈ st.classes, x.1 < st.depth
  lowN : ∀ x ∈ st.namespaces, x.1 < st.depth

theorem classes_empty {st : State} {pl : Place} (h : At st pl) : (0 < st.classes.length) ↔ pl.classes ≠ [] := by
  rw [← h.classes]
  cases st.classes <;> simp

theorem code_eq (cfg : Cfg) {st : State} {pl : Place} (h : At st pl) (k : Kind) (m : Mode) (g : Option Str) :
    code cfg st k m g = method cfg pl k m (g.getD pl.name) := by
  have hi : 2 * (st.depth - (st.namespaces.length : ℤ)) = 2 * (pl.inner : ℤ) := by
    rw [h.depth, h.len]; omega
  have hi2 : 2 * (pl.inner : ℤ) + 2 = 2 * ((pl.inner + 1 : ℕ) : ℤ) := by push_cast; omega
  unfold code method
  rw [h.nss]
  simp only [Option.bind_eq_bind, Option.bind_some, h.classes, hi, hi2, spaces_indent, scopedName_eq]
  change (if cfg.known (g.getD pl.name) = true then _ else _) = _
  have hn : join (pl.nss ++ pl.classes) = pl.name := rfl
  rw [hn]
  generalize g.getD pl.name = cn
  by_cases hk : cfg.known cn = true
  · rw [if_pos hk, if_pos hk]
    have hin : (decide (0 < st.classes.length) && decide (cn = pl.name)) = decide (pl.within cn) := by
      rw [Bool.eq_iff_iff]
      rw [Bool.and_eq_true, decide_eq_true_eq, decide_eq_true_eq, decide_eq_true_eq, classes_empty h, eq_comm (a := cn)]
      exact Iff.rfl
    rw [hin]
    have hb : ∀ b : Str, (if (decide (b.getLast? ≠ some '\n') && decide (0 ≠ b.length)) = true then b ++ ['\n'] else b) =
        lined b := by
      intro b
      unfold lined
      by_cases e : b = []
      · subst e; simp
      · by_cases e' : b.getLast? = some '\n'
        · simp [e, e']
        · have : 0 ≠ b.length := fun h0 => e (List.length_eq_zero_iff.mp h0.symm)
          simp [e, e', this]
    simp only [hb]
    have hs : (methodRtn k, methodName k, methodArgs cn k) = signature cn k := by cases k <;> rfl
    have h1 : methodRtn k = (signature cn k).1 := by rw [← hs]
    have h2 : methodName k = (signature cn k).2.1 := by rw [← hs]
    have h3 : methodArgs cn k = (signature cn k).2.2 := by rw [← hs]
    rw [h1, h2, h3]
    cases m with
    | decl =>
      simp only [if_true, Option.bind_some, decide_eq_true_eq, reduceCtorEq, if_false, Option.some.injEq]
      unfold header
      by_cases e : pl.within cn
      · simp [e, lined]
      · simp [e, lined]
    | def_ =>
      simp only [decide_eq_true_eq, reduceCtorEq, if_false]
      cases cfg.body k cn (indent (pl.inner + 1)) with
      | none => rfl
      | some b =>
        simp only [Option.bind_some, Option.map_some, Option.some.injEq]
        unfold header
        by_cases e : pl.within cn
        · simp [e]
        · simp [e]
    | impl =>
      simp only [decide_eq_true_eq, reduceCtorEq, if_false, if_true]
      cases cfg.body k cn (indent (pl.inner + 1)) with
      | none => rfl
      | some b => rfl
  · rw [if_neg hk, if_neg hk]

theorem codes_eq (cfg : Cfg) {st : State} {pl : Place} (h : At st pl) (m : Mode) (ks : List Kind) :
    codes cfg st m ks = methods cfg pl m ks := by
  induction ks with
  | nil => rfl
  | cons k ks ih =>
    unfold codes methods
    rw [ih, code_eq cfg h]
    simp only [Option.getD_none, Option.bind_eq_bind]
    cases method cfg pl k m pl.name with
    | none => rfl
    | some a => cases methods cfg pl m ks <;> rfl

/-- The stacks after a transformation. -/
def pushed (v : Seen) (st : State) : State :=
  match v with
  | .cls n => { st with classes := (st.depth, n) :: st.classes }
  | .ns n => { st with namespaces := (st.depth, n) :: st.namespaces }
  | _ => st

theorem transform_eq (cfg : Cfg) {st : State} {pl : Place} (h : At st pl) {t : Token} {o : Str} {a : Bool}
    (hw : written cfg pl st.ann (see t.text) t = some (o, a)) :
    transform cfg st t = some (pushed (see t.text) { st with ann := a, out := st.out ++ o }) := by
  unfold transform
  revert hw
  generalize see t.text = v
  intro hw
  cases v with
  | directive k m g =>
    simp only [written, Option.map_eq_some_iff, Prod.mk.injEq] at hw
    obtain ⟨o', ho, rfl, rfl⟩ := hw
    simp only [code_eq cfg h, ho, Option.map_some]
    rfl
  | all m =>
    simp only [written, Option.map_eq_some_iff, Prod.mk.injEq] at hw
    obtain ⟨o', ho, rfl, rfl⟩ := hw
    simp only [codes_eq cfg h, ho, Option.map_some]
    rfl
  | decl x =>
    simp only [written] at hw
    simp only [onDecl, h.nss, h.classes, Option.bind_eq_bind, Option.bind_some]
    have hn : join (pl.nss ++ pl.classes) = pl.name := rfl
    rw [hn]
    by_cases e : st.ann = true
    · by_cases e' : cfg.shaped pl.name x = true
      · rw [if_pos ⟨e, e'⟩] at hw
        rw [if_pos e, if_pos e']
        simp only [Option.some.injEq, Prod.mk.injEq] at hw
        obtain ⟨rfl, rfl⟩ := hw
        simp [pushed]
      · rw [if_neg fun hh => e' hh.2] at hw
        rw [if_pos e, if_neg e']
        simp only [Option.some.injEq, Prod.mk.injEq] at hw
        obtain ⟨rfl, rfl⟩ := hw
        rfl
    · rw [if_neg fun hh => e hh.1] at hw
      rw [if_neg e]
      simp only [Option.some.injEq, Prod.mk.injEq] at hw
      obtain ⟨rfl, rfl⟩ := hw
      rfl
  | bad => simp [written] at hw
  | _ =>
    simp only [written, Option.some.injEq, Prod.mk.injEq] at hw
    obtain ⟨rfl, rfl⟩ := hw
    rfl

theorem popAt_low {β : Type} {d : ℤ} {l : List (ℤ × β)} (h : ∀ x ∈ l, x.1 < d) : popAt d l = l := by
  cases l with
  | nil => rfl
  | cons p l =>
    have := h p List.mem_cons_self
    rw [popAt, if_neg (by omega)]

theorem contains_iff (a s : Str) : contains a s = true ↔ a <:+: s := by
  induction s with
  | nil => simp [contains]
  | cons c s ih =>
    unfold contains
    rw [Bool.or_eq_true, ih, List.infix_cons_iff]
    constructor
    · rintro (h | h)
      · left
        rw [Option.isSome_iff_exists] at h
        obtain ⟨r, hr⟩ := h
        exact ⟨r, (CycppText.dropPrefix_some hr).symm⟩
      · exact .inr h
    · rintro (h | h)
      · left
        by_contra hc
        rw [Bool.not_eq_true, Option.isSome_eq_false_iff, Option.isNone_iff_eq_none] at hc
        obtain ⟨r, hr⟩ := h
        rw [← hr] at hc
        rw [CycppScan.dropPrefix_self] at hc
        cases hc
      · exact .inr h

theorem depth_steady {t : Token} (h : Steady t) (d : ℤ) : depthAfter t d = d := by
  unfold depthAfter
  rw [if_neg h.1, if_neg h.2.1]
  split
  · rename_i hc
    rw [Bool.and_eq_true, decide_eq_true_eq, contains_iff] at hc
    rw [h.2.2 hc.1 hc.2]
    omega
  · rfl

theorem at_out {st : State} {pl : Place} (h : At st pl) (a : Bool) (o : Str) : At { st with ann := a, out := o } pl :=
  ⟨h.depth, h.nss, h.len, h.classes, h.lowC, h.lowN⟩

/-- The second part of `generate`. -/
def settle (t : Token) (st : State) : State :=
  { st with
    depth := depthAfter t st.depth
    classes := popAt (depthAfter t st.depth) st.classes
    namespaces := popAt (depthAfter t st.depth) st.namespaces }

theorem generate_eq (cfg : Cfg) (st : State) (t : Token) : generate cfg st t = (transform cfg st t).map (settle t) := rfl

theorem writes_run (cfg : Cfg) {pl : Place} {a a' : Bool} {ts : List Token} {o : Str} (h : Writes cfg pl a ts o a') :
    ∀ (st : State), At st pl → st.ann = a → ∀ more, generateAll cfg st (ts ++ more) =
      generateAll cfg { st with ann := a', out := st.out ++ o } more := by
  induction h with
  | nil pl a =>
    rintro st _ rfl more
    simp
  | one pl a a' a'' t ts o o' hs hw _ ih =>
    rintro st hst rfl more
    have ht := transform_eq cfg hst hw
    have hg : generate cfg st t = some { st with ann := a', out := st.out ++ o } := by
      rw [generate_eq]
      rw [ht, Option.map_some]
      congr 1
      generalize see t.text = v
      have hd : ∀ d, depthAfter t d = d := depth_steady hs
      have l1 := popAt_low hst.lowC
      have l2 := popAt_low hst.lowN
      cases v <;> simp only [settle, pushed, hd, l1, l2] <;> simp [popAt]
    rw [List.cons_append, generateAll, hg]
    simp only
    rw [ih _ (at_out hst _ _) rfl]
    simp
  | block pl b a a1 a2 a3 a4 h c body rest o1 o2 o3 o4 hh hb hw1 _ hc hnc hnn hw3 _ ih1 ih2 =>
    rintro st hst rfl more
    have ht := transform_eq cfg hst hw1
    obtain ⟨st1, hg, hat, hann, hout, hcl, hns, hdp⟩ : ∃ st1, generate cfg st h = some st1 ∧ At st1 (pl.enter b) ∧
        st1.ann = a1 ∧ st1.out = st.out ++ o1 ∧ popAt st.depth st1.classes = st.classes ∧
        popAt st.depth st1.namespaces = st.namespaces ∧ st1.depth = st.depth + 1 := by
      have hd : ∀ d, depthAfter h d = d + 1 := fun d => by unfold depthAfter; rw [if_pos hh]
      refine ⟨_, by rw [generate_eq, ht, Option.map_some], ?_⟩
      have l1 : ∀ x ∈ st.classes, x.1 < st.depth + 1 := fun x hx => by have := hst.lowC x hx; omega
      have l2 : ∀ x ∈ st.namespaces, x.1 < st.depth + 1 := fun x hx => by have := hst.lowN x hx; omega
      have hdep := hst.depth
      revert hb
      generalize see h.text = v
      intro hb
      have plain : ∀ st' : State, st' = { st with ann := a1, out := st.out ++ o1 } →
          At (settle h st') (pl.enter .plain) ∧ (settle h st').ann = a1 ∧ (settle h st').out = st.out ++ o1 ∧
            popAt st.depth (settle h st').classes = st.classes ∧
            popAt st.depth (settle h st').namespaces = st.namespaces ∧ (settle h st').depth = st.depth + 1 := by
        rintro _ rfl
        simp only [settle, hd, popAt_low l1, popAt_low l2]
        refine ⟨⟨?_, hst.nss, hst.len, hst.classes, l1, l2⟩, by trivial, by trivial, popAt_low hst.lowC, popAt_low hst.lowN, by trivial⟩
        simp only [Place.enter]
        push_cast
        omega
      cases v with
      | cls n =>
        simp only [opens, Option.some.injEq] at hb
        subst hb
        have l1' : ∀ x ∈ (st.depth, n) :: st.classes, x.1 < st.depth + 1 := by
          intro x hx
          rcases List.mem_cons.mp hx with rfl | hx
          · simp
          · exact l1 x hx
        simp only [settle, pushed, hd, popAt_low l1', popAt_low l2]
        refine ⟨⟨?_, hst.nss, hst.len, ?_, l1', l2⟩, by trivial, by trivial, by simp [popAt], popAt_low hst.lowN, by trivial⟩
        · simp only [Place.enter]
          push_cast
          omega
        · simp only [Place.enter, List.reverse_cons, List.map_append, hst.classes, List.map_cons, List.map_nil]
      | ns n =>
        cases n with
        | none => simp [opens] at hb
        | some n =>
          simp only [opens, Option.some.injEq] at hb
          subst hb
          have l2' : ∀ x ∈ (st.depth, some n) :: st.namespaces, x.1 < st.depth + 1 := by
            intro x hx
            rcases List.mem_cons.mp hx with rfl | hx
            · simp
            · exact l2 x hx
          simp only [settle, pushed, hd, popAt_low l2', popAt_low l1]
          refine ⟨⟨?_, ?_, ?_, hst.classes, l1, l2'⟩, by trivial, by trivial, popAt_low hst.lowC, by simp [popAt], by trivial⟩
          · simp only [Place.enter, List.length_append, List.length_cons, List.length_nil]
            push_cast
            omega
          · simp only [nsNames, hst.nss, Option.map_some, Place.enter]
          · simp only [List.length_cons, hst.len, Place.enter, List.length_append, List.length_nil]
      | _ =>
        simp only [opens, Option.some.injEq] at hb
        subst hb
        exact plain _ rfl
    have e1 : h :: (body ++ c :: rest) ++ more = h :: (body ++ (c :: (rest ++ more))) := by simp
    rw [e1, generateAll, hg]
    simp only
    rw [ih1 st1 hat hann]
    have hat2 : At { st1 with ann := a2, out := st1.out ++ o2 } (pl.enter b) := at_out hat _ _
    have ht3 := transform_eq cfg hat2 hw3
    have hg3 : generate cfg { st1 with ann := a2, out := st1.out ++ o2 } c =
        some { st with ann := a3, out := st.out ++ (o1 ++ (o2 ++ o3)) } := by
      rw [generate_eq]
      rw [ht3, Option.map_some]
      have hd : ∀ d, depthAfter c d = d - 1 := fun d => by unfold depthAfter; rw [hc, if_neg (by decide), if_pos rfl]
      have hp : pushed (see c.text) { st1 with ann := a3, out := st1.out ++ o2 ++ o3 } =
          { st1 with ann := a3, out := st1.out ++ o2 ++ o3 } := by
        revert hnc hnn
        generalize see c.text = v
        intro hnc hnn
        cases v with
        | cls n => exact absurd rfl (hnc n)
        | ns n => exact absurd rfl (hnn n)
        | _ => rfl
      simp only at hp ⊢
      rw [hp]
      simp only [settle, hd, hdp, hout, Int.add_sub_cancel, hcl, hns, List.append_assoc]
    rw [generateAll, hg3]
    simp only
    rw [ih2 _ (at_out hst _ _) rfl]
    simp

end Cyclus.CycppGen

namespace Cyclus.CycppGen

open CycppScan (isSpace isWord join popAt nsNames dropPrefix)
open CycppText (Str Token Blank split tokens search matchAt kwPragma kwCyclus kwVar)

/-! ## Texts without pragmas -/

theorem infix_right {a s : Str} (b : Str) (h : a <:+: s) : a <:+: b ++ s := by
  obtain ⟨x, y, rfl⟩ := h
  exact ⟨b ++ x, y, by simp⟩

theorem drop_infix {a s : Str} (h : a <:+: s.dropWhile isSpace) : a <:+: s := by
  have := infix_right (s.takeWhile isSpace) h
  rwa [CycppText.take_drop] at this

theorem afterCyclus_pragma {s r : Str} (h : afterCyclus s = some r) : kwPragma <:+: s := by
  unfold afterCyclus at h
  apply drop_infix
  split at h
  · rename_i q hq
    rw [hq]
    apply infix_right ['#']
    apply drop_infix
    split at h
    · cases h
    · rename_i r' hr'
      obtain ⟨w, -, e⟩ := CycppText.afterWord_some hr'
      rw [e]
      exact ⟨[], w ++ r', by simp⟩
  · cases h

theorem afterPragma_pragma {w s r : Str} (h : CycppText.afterPragma w s = some r) : kwPragma <:+: s := by
  unfold CycppText.afterPragma at h
  apply drop_infix
  split at h
  · rename_i q hq
    rw [hq]
    apply infix_right ['#']
    apply drop_infix
    split at h
    · cases h
    · rename_i r' hr'
      obtain ⟨w, -, e⟩ := CycppText.afterWord_some hr'
      rw [e]
      exact ⟨[], w ++ r', by simp⟩
  · cases h

theorem afterCyclus_none {s : Str} (h : ¬ kwPragma <:+: s) : afterCyclus s = none := by
  cases hc : afterCyclus s with
  | none => rfl
  | some r => exact absurd (afterCyclus_pragma hc) h

/-- The statement is kept as it is, unless a state variable is awaited. -/
def Kept : Seen → Prop
  | .cls _ => True
  | .ns _ => True
  | .decl _ => True
  | .other => True
  | _ => False

theorem see_kept {s : Str} (h : ¬ kwPragma <:+: s) : Kept (see s) := by
  have hc := afterCyclus_none h
  have hd : anyDirective s = none := by
    unfold anyDirective
    rw [List.findSome?_eq_none_iff]
    intro k _
    unfold directive
    rw [hc]
    rfl
  have hv : CycppText.afterPragma kwVar s = none := by
    cases hp : CycppText.afterPragma kwVar s with
    | none => rfl
    | some r => exact absurd (afterPragma_pragma hp) h
  have h1 : defaultPragma s = none := by unfold defaultPragma; rw [hc]
  have h2 : badPragma s = false := by unfold badPragma; rw [hc]
  unfold see
  rw [hd, hv, h1, h2]
  simp only
  repeat' split
  all_goals first | trivial | (simp_all; done)

theorem transform_kept (cfg : Cfg) {st : State} {t : Token} (ha : st.ann = false) (h : Kept (see t.text)) :
    transform cfg st t = some (pushed (see t.text) { st with out := st.out ++ (t.text ++ t.sep) }) := by
  unfold transform
  revert h
  generalize see t.text = v
  intro h
  cases v with
  | decl x =>
    simp only [onDecl, ha]
    cases st
    simp_all [pushed]
  | cls n => rfl
  | ns n => rfl
  | other => rfl
  | directive k m g => exact absurd h (by simp [Kept])
  | all m => exact absurd h (by simp [Kept])
  | var => exact absurd h (by simp [Kept])
  | bad => exact absurd h (by simp [Kept])

theorem generateAll_kept (cfg : Cfg) (ts : List Token) : ∀ (st : State), st.ann = false →
    (∀ t ∈ ts, ¬ kwPragma <:+: t.text) →
    (generateAll cfg st ts).map (·.out) = some (st.out ++ (ts.map fun t => t.text ++ t.sep).flatten) := by
  induction ts with
  | nil => intro st _ _; simp [generateAll]
  | cons t ts ih =>
    intro st ha h
    rw [generateAll, generate_eq, transform_kept cfg ha (see_kept (h t List.mem_cons_self)), Option.map_some]
    simp only
    have e1 : ∀ v (s : State), (settle t (pushed v s)).ann = s.ann := by intro v s; cases v <;> rfl
    have e2 : ∀ v (s : State), (settle t (pushed v s)).out = s.out := by intro v s; cases v <;> rfl
    rw [ih _ (by rw [e1]; exact ha) fun t' ht' => h t' (List.mem_cons_of_mem _ ht'), e2]
    simp

theorem cuts_mem {s : Str} {ts : List Token} (h : CycppText.Cuts s ts) : ∀ t ∈ ts, t.all <:+: s := by
  induction h with
  | done s _ => simp
  | next k t r ts _ _ _ ih =>
    intro t' ht'
    rcases List.mem_cons.mp ht' with rfl | ht'
    · exact ⟨k, r, rfl⟩
    · exact infix_right _ (ih t' ht')

theorem split_mem {s : Str} {t : Token} (h : t ∈ split s) : t.text <:+: s := by
  have := cuts_mem (CycppText.tokens_cuts _ s le_rfl) t h
  refine List.IsInfix.trans ?_ this
  exact ⟨t.blank, t.sep, rfl⟩

theorem lineRest_blank {pre s r : Str} {t : Token} (h : CycppText.lineRest pre s = some (t, r)) : t.blank = [] := by
  unfold CycppText.lineRest at h
  simp only at h
  repeat' split at h
  all_goals first | (cases h; done) | (simp only [Option.some.injEq, Prod.mk.injEq] at h; rw [← h.1])

theorem codeRest_blank {s r : Str} {t : Token} (h : CycppText.codeRest s = some (t, r)) : t.blank = [] := by
  unfold CycppText.codeRest at h
  simp only at h
  repeat' split at h
  all_goals first | (cases h; done) | (simp only [Option.some.injEq, Prod.mk.injEq] at h; rw [← h.1])

theorem commentRest_blank {w s r : Str} {t : Token} (h : CycppText.commentRest w s = some (t, r)) :
    ['/', '*'] <+: t.text := by
  unfold CycppText.commentRest at h
  simp only at h
  repeat' split at h
  all_goals first | (cases h; done) | (simp only [Option.some.injEq, Prod.mk.injEq] at h; rw [← h.1]; simp)

theorem matchAt_blank {s r : Str} {t : Token} (h : matchAt s = some (t, r)) : t.blank = [] ∨ ['/', '*'] <+: t.text := by
  unfold matchAt at h
  simp only at h
  split at h
  · split at h
    · rename_i x hx
      cases h
      exact .inl (lineRest_blank hx)
    · exact .inl (codeRest_blank h)
  · split at h
    · rename_i x hx
      cases h
      exact .inl (lineRest_blank hx)
    · exact .inl (codeRest_blank h)
  · split at h
    · rename_i x hx
      cases h
      exact .inr (commentRest_blank hx)
    · exact .inl (codeRest_blank h)
  · exact .inl (codeRest_blank h)

theorem search_blank {s k r : Str} {t : Token} (h : search s = some (k, t, r)) :
    t.blank = [] ∨ ['/', '*'] <+: t.text := by
  induction s generalizing k with
  | nil => cases h
  | cons c s ih =>
    unfold search at h
    split at h
    · rename_i t' r' hm
      cases h
      exact matchAt_blank hm
    · split at h
      · cases h
      · rename_i k' t' r' hs
        cases h
        exact ih hs

theorem tokens_blank (n : ℕ) : ∀ s, ∀ t ∈ tokens n s, t.blank = [] ∨ ['/', '*'] <+: t.text := by
  induction n with
  | zero => intro s t ht; cases ht
  | succ n ih =>
    intro s t ht
    unfold tokens at ht
    split at ht
    · cases ht
    · rename_i k t' r hs
      rcases List.mem_cons.mp ht with rfl | ht
      · exact search_blank hs
      · exact ih r t ht

/-! ## Directives -/

theorem modeOf_plain {sp t : Str} (hs : Blank sp) (hf : CycppText.Front t) (h : ∀ m, ¬ modeWord m <+: t) :
    modeOf (sp ++ t) = (.def_, t) := by
  have ha : ∀ m, afterMode m (sp ++ t) = none := by
    intro m
    have key : ∀ u : Str, Blank u → CycppText.afterWord (modeWord m) ((u ++ t).dropWhile isSpace) = none := by
      intro u hu
      rw [CycppText.front_append hu hf]
      exact CycppText.afterWord_none (h m)
    cases sp with
    | nil =>
      cases t with
      | nil => rfl
      | cons c t =>
        have hc : isSpace c = false := hf c rfl
        simp [afterMode, hc]
    | cons c sp =>
      rw [List.cons_append, afterMode]
      split
      · exact key sp fun c hc => hs c (List.mem_cons_of_mem _ hc)
      · rfl
  unfold modeOf
  rw [ha, ha, ha]
  simp only
  rw [CycppText.front_append hs hf]

theorem modeWord_front (m : Mode) (r : Str) : CycppText.Front (modeWord m ++ r) := by
  cases m <;> exact CycppText.cons_front (by decide) _

theorem afterMode_eq (m : Mode) {sp sp' t : Str} (hs : sp ≠ [] ∧ Blank sp) (hs' : sp' ≠ [] ∧ Blank sp')
    (hf : CycppText.Front t) : afterMode m (sp ++ (modeWord m ++ (sp' ++ t))) = some t := by
  obtain ⟨c, sp, rfl⟩ := List.exists_cons_of_ne_nil hs.1
  rw [List.cons_append, afterMode, if_pos (hs.2 c List.mem_cons_self),
    CycppText.front_append (fun c hc => hs.2 c (List.mem_cons_of_mem _ hc)) (modeWord_front m _),
    CycppText.afterWord_eq hs' hf]

theorem afterMode_ne {m m' : Mode} (h : m ≠ m') {sp r : Str} (hs : Blank sp) (hr : ∀ c, r.head? = some c → isSpace c = true) :
    afterMode m (sp ++ (modeWord m' ++ r)) = none := by
  cases sp with
  | nil => cases m' <;> simp [afterMode, modeWord] <;> (intro h; exact absurd h (by decide))
  | cons c sp =>
    rw [List.cons_append, afterMode]
    split
    · rw [CycppText.front_append (fun c hc => hs c (List.mem_cons_of_mem _ hc)) (modeWord_front m' _)]
      apply CycppText.afterWord_none
      cases m <;> cases m' <;> first | exact absurd rfl h | simp [modeWord]
    · rfl

theorem modeOf_mode (m : Mode) {sp sp' t : Str} (hs : sp ≠ [] ∧ Blank sp) (hs' : sp' ≠ [] ∧ Blank sp')
    (hf : CycppText.Front t) : modeOf (sp ++ (modeWord m ++ (sp' ++ t))) = (m, t) := by
  have hr : ∀ c, (sp' ++ t).head? = some c → isSpace c = true := by
    intro c hc
    obtain ⟨d, sp', rfl⟩ := List.exists_cons_of_ne_nil hs'.1
    simp only [List.cons_append, List.head?_cons, Option.some.injEq] at hc
    rw [← hc]
    exact hs'.2 d List.mem_cons_self
  have hn : ∀ m', m' ≠ m → afterMode m' (sp ++ (modeWord m ++ (sp' ++ t))) = none := fun m' h => afterMode_ne h hs.2 hr
  have he := afterMode_eq m hs hs' hf
  unfold modeOf
  cases m with
  | def_ => rw [he]
  | decl => rw [hn .def_ (by decide), he]
  | impl => rw [hn .def_ (by decide), hn .decl (by decide), he]

theorem afterCyclus_eq {w g sp r : Str} (hw : Blank w) (hg : Blank g) (hs : sp ≠ [] ∧ Blank sp) :
    afterCyclus (w ++ ('#' :: (g ++ ("pragma".toList ++ (sp ++ ("cyclus".toList ++ r)))))) = some r := by
  have e1 : "pragma".toList = kwPragma := rfl
  have e2 : "cyclus".toList = kwCyclus := rfl
  rw [e1, e2]
  unfold afterCyclus
  rw [CycppText.front_append hw (CycppText.hash_front _)]
  simp only
  rw [CycppText.front_append hg (CycppText.fPragma _), CycppText.afterWord_eq hs (CycppText.fCyclus _)]
  simp only
  exact CycppScan.dropPrefix_self _ _

theorem post_head {g : Option Str} {t : Str} (h : Post g t) : ∀ c, t.head? = some c → isSpace c = true := by
  cases h with
  | nothing => simp
  | cls c n r hc =>
    intro d hd
    simp only [List.head?_cons, Option.some.injEq] at hd
    rw [← hd]
    exact hc

theorem name_other {k k' : Kind} {t : Str} (ht : ∀ c, t.head? = some c → isSpace c = true) (hk : k' ≠ k)
    (hs : ¬ (k' = .snapshot ∧ k = .snapshotInv)) : dropPrefix (pragmaName k') (pragmaName k ++ t) = none := by
  have hi : dropPrefix ['i', 'n', 'v'] t = none := by
    cases t with
    | nil => rfl
    | cons c t =>
      have hc := ht c rfl
      have : 'i' ≠ c := by rintro rfl; revert hc; decide
      simp [dropPrefix, this]
  cases k <;> cases k' <;> first | exact absurd rfl hk | exact absurd ⟨rfl, rfl⟩ hs | rfl | exact hi

theorem name_front (k : Kind) (t : Str) : CycppText.Front (pragmaName k ++ t) := by
  cases k <;> exact CycppText.cons_front (by decide) _

theorem name_mode (k : Kind) (m : Mode) (t : Str) : ¬ modeWord m <+: pragmaName k ++ t := by
  cases k <;> cases m <;> simp [modeWord, pragmaName]

theorem pre_after {m : Mode} {p : Str} (h : Pre m p) (k : Kind) (t : Str) :
    ∃ r, afterCyclus (p ++ (pragmaName k ++ t)) = some r ∧ modeOf r = (m, pragmaName k ++ t) := by
  cases h with
  | plain w g sp sp' hw hg hs hs' =>
    refine ⟨sp' ++ (pragmaName k ++ t), ?_, modeOf_plain hs' (name_front k t) (fun m => name_mode k m t)⟩
    have := afterCyclus_eq (r := sp' ++ (pragmaName k ++ t)) hw hg hs
    simpa using this
  | mode m w g sp sp' sp'' hw hg hs hs' hs'' =>
    refine ⟨sp' ++ (modeWord m ++ (sp'' ++ (pragmaName k ++ t))), ?_, modeOf_mode m hs' hs'' (name_front k t)⟩
    have := afterCyclus_eq (r := sp' ++ (modeWord m ++ (sp'' ++ (pragmaName k ++ t)))) hw hg hs
    simpa using this

theorem directive_eq {m : Mode} {p : Str} (h : Pre m p) (k : Kind) {g : Option Str} {t : Str} (ht : Post g t) :
    directive k (p ++ (pragmaName k ++ t)) = some (m, g) := by
  obtain ⟨r, h1, h2⟩ := pre_after h k t
  unfold directive
  rw [h1]
  simp only [h2]
  rw [CycppScan.dropPrefix_self]
  cases ht with
  | nothing => rfl
  | cls c n r hc hn hr =>
    simp only [hc, if_true]
    rw [(CycppScan.span_eq hn hr).1]

theorem directive_none {m : Mode} {p : Str} (h : Pre m p) {k k' : Kind} {t : Str}
    (ht : ∀ c, t.head? = some c → isSpace c = true) (hk : k' ≠ k)
    (hs : ¬ (k' = .snapshot ∧ k = .snapshotInv)) : directive k' (p ++ (pragmaName k ++ t)) = none := by
  obtain ⟨r, h1, h2⟩ := pre_after h k t
  unfold directive
  rw [h1]
  simp only [h2]
  rw [name_other ht hk hs]

theorem anyDirective_eq {m : Mode} {p : Str} (h : Pre m p) (k : Kind) {g : Option Str} {t : Str} (ht : Post g t) :
    anyDirective (p ++ (pragmaName k ++ t)) = some (k, m, g) := by
  have he := directive_eq h k ht
  have hn : ∀ k', k' ≠ k → ¬ (k' = .snapshot ∧ k = .snapshotInv) → directive k' (p ++ (pragmaName k ++ t)) = none :=
    fun k' h1 h2 => directive_none h (post_head ht) h1 h2
  unfold anyDirective kinds
  cases k
  all_goals
    simp (discharger := decide) only [List.findSome?_cons, hn, he, Option.map_none, Option.map_some]

theorem anyDirective_none {p : Str} (hc : ∃ r, afterCyclus p = some r ∧ ∀ k, dropPrefix (pragmaName k) (modeOf r).2 = none) :
    anyDirective p = none := by
  obtain ⟨r, h1, h2⟩ := hc
  unfold anyDirective
  rw [List.findSome?_eq_none_iff]
  intro k _
  unfold directive
  rw [h1]
  simp only [h2 k, Option.map_none]

theorem pre_ne {m : Mode} {p : Str} (h : Pre m p) (t : Str) : p ++ t ≠ [] := by
  cases h <;> simp

theorem see_directive {m : Mode} {p : Str} (h : Pre m p) (k : Kind) {g : Option Str} {t : Str} (ht : Post g t) :
    see (p ++ (pragmaName k ++ t)) = .directive k m g := by
  unfold see
  rw [if_neg (pre_ne h _), anyDirective_eq h k ht]

theorem names_not {s : Str} (h : s = [] ∨ ∃ m, s = modeWord m) (k : Kind) : dropPrefix (pragmaName k) s = none := by
  rcases h with rfl | ⟨m, rfl⟩
  · cases k <;> rfl
  · cases k <;> cases m <;> rfl

theorem afterMode_end (m : Mode) {sp : Str} (hs : Blank sp) : afterMode m (sp ++ modeWord m) = none := by
  have hf : CycppText.Front (modeWord m) := by have := modeWord_front m []; simpa using this
  cases sp with
  | nil => cases m <;> decide
  | cons c sp =>
    rw [List.cons_append, afterMode]
    split
    · rw [CycppText.front_append (fun c hc => hs c (List.mem_cons_of_mem _ hc)) hf]
      cases m <;> decide
    · rfl

theorem modeOf_end (m : Mode) {sp : Str} (hs : Blank sp) : modeOf (sp ++ modeWord m) = (.def_, modeWord m) := by
  have hf : CycppText.Front (modeWord m) := by have := modeWord_front m []; simpa using this
  have hn : ∀ m', afterMode m' (sp ++ modeWord m) = none := by
    intro m'
    by_cases h : m' = m
    · subst h; exact afterMode_end m' hs
    · have := afterMode_ne (r := []) h hs (by simp)
      simpa using this
  unfold modeOf
  rw [hn, hn, hn]
  simp only
  rw [CycppText.front_append hs hf]

/-- What is seen in a pragma for all methods. -/
theorem bare_after {m : Mode} {b w : Str} (hw : Blank w) (h : Bare m b) :
    ∃ r, afterCyclus (w ++ b) = some r ∧ (∀ k, dropPrefix (pragmaName k) (modeOf r).2 = none) ∧
      defaultPragma (w ++ b) = some m := by
  have hb : CycppText.Front ([] : Str) := by intro c hc; cases hc
  cases h with
  | plain g sp sp' hg hs hs' =>
    have h1 := afterCyclus_eq (r := sp') hw hg hs
    refine ⟨sp', h1, ?_, ?_⟩
    · have := modeOf_plain hs' hb (by intro m; cases m <;> simp [modeWord])
      rw [List.append_nil] at this
      rw [this]
      exact names_not (.inl rfl)
    · unfold defaultPragma
      rw [h1]
      simp only
      rw [if_pos (List.all_eq_true.mpr hs')]
  | mode m g sp sp' sp'' hg hs hs' hs'' =>
    have h1 := afterCyclus_eq (r := sp' ++ (modeWord m ++ sp'')) hw hg hs
    refine ⟨_, h1, ?_, ?_⟩
    · by_cases he : sp'' = []
      · subst he
        rw [List.append_nil, modeOf_end m hs'.2]
        exact names_not (.inr ⟨m, rfl⟩)
      · have := modeOf_mode m hs' ⟨he, hs''⟩ hb
        rw [List.append_nil] at this
        rw [this]
        exact names_not (.inl rfl)
    · unfold defaultPragma
      rw [h1]
      simp only
      obtain ⟨c, sp', rfl⟩ := List.exists_cons_of_ne_nil hs'.1
      have hc := hs'.2 c List.mem_cons_self
      rw [if_neg, if_neg, CycppText.front_append hs'.2 (modeWord_front m _)]
      · have hall : sp''.all isSpace = true := List.all_eq_true.mpr hs''
        cases m
        · simp [modeWord, dropPrefix, hall]
        · simp [modeWord, dropPrefix, hall]
        · simp [modeWord, dropPrefix, hall]
      · rw [List.cons_append, List.takeWhile_cons_of_pos hc]
        simp
      · intro hall
        rw [List.all_eq_true] at hall
        have : ∃ d, d ∈ modeWord m ∧ isSpace d = false := by cases m <;> exact ⟨_, List.mem_cons_self, by decide⟩
        obtain ⟨d, hd, hd'⟩ := this
        have := hall d (by simp [hd])
        rw [hd'] at this
        cases this

theorem declNames_break {w x : Str} (hw : Blank w) (hn : '\n' ∈ w) : CycppText.declNames (w ++ x) = none := by
  induction w with
  | nil => cases hn
  | cons c w ih =>
    rw [List.cons_append, CycppText.declNames]
    by_cases hc : c = '\n'
    · rw [if_pos hc]
    · rw [if_neg hc, ih (fun d hd => hw d (List.mem_cons_of_mem _ hd)) ((List.mem_cons.mp hn).resolve_left (Ne.symm hc))]
      simp only
      rw [if_neg (by rw [CycppText.space_not_word (hw c List.mem_cons_self)]; decide)]

theorem see_bare {m : Mode} {b w : Str} (hw : Blank w) (hn : '\n' ∈ w) (h : Bare m b) : see (w ++ b) = .all m := by
  obtain ⟨r, h1, h2, h3⟩ := bare_after hw h
  have hd : anyDirective (w ++ b) = none := anyDirective_none ⟨r, h1, h2⟩
  obtain ⟨b', hb⟩ : ∃ b', b = '#' :: b' := by cases h <;> exact ⟨_, rfl⟩
  have hdr : (w ++ b).dropWhile isSpace = b := by rw [hb]; exact CycppText.front_append hw (CycppText.hash_front _)
  have h4 : CycppScan.classHead (w ++ b) = none := by
    unfold CycppScan.classHead CycppScan.afterTemplate CycppScan.headAt
    simp only [hdr]
    rw [hb]
    rfl
  have h5 : CycppText.isAccess (w ++ b) = false := by
    unfold CycppText.isAccess
    rw [hdr, hb]
    rfl
  have h6 : CycppText.nsAliasNames (w ++ b) = none := by
    unfold CycppText.nsAliasNames
    rw [hdr, hb]
    rfl
  have h7 : (CycppScan.nsStmt (w ++ b) : Option (CycppScan.Stmt Unit)) = none := by
    unfold CycppScan.nsStmt
    rw [hdr, hb]
    rfl
  have h8 : CycppText.afterPragma kwVar (w ++ b) = none := by
    have key : ∀ g sp r : Str, Blank g → sp ≠ [] ∧ Blank sp → b = '#' :: (g ++ ("pragma".toList ++ (sp ++ ("cyclus".toList ++ r)))) →
        (∀ x, CycppText.afterWord kwCyclus (kwCyclus ++ r) = some x → ¬ kwVar <+: x) → CycppText.afterPragma kwVar (w ++ b) = none := by
      intro g sp r hg hs e hx
      unfold CycppText.afterPragma
      rw [hdr, e]
      simp only
      have e1 : "pragma".toList = kwPragma := rfl
      have e2 : "cyclus".toList = kwCyclus := rfl
      rw [e1, e2, CycppText.front_append hg (CycppText.fPragma _), CycppText.afterWord_eq hs (CycppText.fCyclus _)]
      simp only
      split
      · rfl
      · rename_i x hx'
        exact CycppText.afterWord_none (hx x hx')
    cases h with
    | plain g sp sp' hg hs hs' =>
      refine key g sp sp' hg hs rfl ?_
      intro x hx hv
      obtain ⟨u, -, e⟩ := CycppText.afterWord_some hx
      have e := List.append_cancel_left e
      have : ∀ c ∈ x, isSpace c = true := fun c hc => hs' c (by rw [e]; simp [hc])
      obtain ⟨y, rfl⟩ := hv
      have := this 'v' (by simp [kwVar])
      revert this; decide
    | mode m g sp sp' sp'' hg hs hs' hs'' =>
      refine key g sp _ hg hs rfl ?_
      intro x hx hv
      have he : CycppText.afterWord kwCyclus (kwCyclus ++ (sp' ++ (modeWord m ++ sp''))) = some (modeWord m ++ sp'') :=
        CycppText.afterWord_eq hs' (modeWord_front m _)
      rw [he, Option.some.injEq] at hx
      rw [← hx] at hv
      revert hv
      cases m <;> simp [modeWord, kwVar]
  have h9 : CycppText.isMarker (w ++ b) = false := by
    have key : ∀ g r : Str, Blank g → b = '#' :: (g ++ ("pragma".toList ++ r)) → CycppText.isMarker (w ++ b) = false := by
      intro g r hg e
      have e1 : "pragma".toList = kwPragma := rfl
      unfold CycppText.isMarker
      rw [hdr, e, e1]
      cases g with
      | nil =>
        have : isSpace 'p' = false := by decide
        simp [kwPragma, this]
      | cons c g =>
        have hf := CycppText.front_append (s := kwPragma ++ r) (fun d hd => hg d (List.mem_cons_of_mem c hd))
          (CycppText.fPragma r)
        simp only [List.cons_append, hf]
        simp [kwPragma]
    cases h with
    | plain g sp sp' hg hs hs' => exact key g _ hg rfl
    | mode m g sp sp' sp'' hg hs hs' hs'' => exact key g _ hg rfl
  have h0 : w ++ b ≠ [] := by rw [hb]; simp
  unfold see
  rw [if_neg h0, hd, h4, h5, h6, h7, h8, declNames_break hw hn, h9, h3]
  simp only [Option.isSome_none, Bool.false_eq_true, if_false]

end Cyclus.CycppGen
