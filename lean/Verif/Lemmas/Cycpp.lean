import Verif.Spec.Cycpp
import Mathlib.Tactic.Linarith
import Mathlib.Data.List.Basic

/-! Lemmas about the preprocessor helpers. -/

namespace Cyclus.Cycpp

/-! ### `parse_template` -/

theorem rfind_lt (c : Char) (s : Str) (h : s ≠ []) : rfind c s < s.length := by
  have hl : 0 < s.length := List.length_pos_of_ne_nil h
  unfold rfind
  split
  · omega
  · omega

theorem pySlice_lt (s : Str) (a b : Int) (h : s ≠ []) (hb : b < s.length) :
    (pySlice s a b).length < s.length := by
  have hl : 0 < s.length := List.length_pos_of_ne_nil h
  have : pyIdx s.length b < s.length := by
    unfold pyIdx
    split <;> omega
  simp only [pySlice, List.length_drop, List.length_take]
  omega

theorem splitArgs_length (s : Str) : ∀ (k : Int) (cur : Str), ∀ p ∈ splitArgs k cur s,
    p.length ≤ cur.length + s.length := by
  induction s with
  | nil =>
    intro k cur p hp
    simp only [splitArgs] at hp
    split at hp
    · simp at hp
    · simp at hp; subst hp; simp
  | cons c cs ih =>
    intro k cur p hp
    have e : splitArgs k cur (c :: cs) =
      (if c = ',' ∧ (if c = '<' then k + 1 else if c = '>' then k - 1 else k) = 0 then
        cur :: splitArgs (if c = '<' then k + 1 else if c = '>' then k - 1 else k) [] cs
      else splitArgs (if c = '<' then k + 1 else if c = '>' then k - 1 else k) (cur ++ [c]) cs) :=
      rfl
    rw [e] at hp
    by_cases hc : c = ',' ∧ (if c = '<' then k + 1 else if c = '>' then k - 1 else k) = 0
    · rw [if_pos hc] at hp
      rcases List.mem_cons.1 hp with h | h
      · subst h; simp
      · have := ih _ _ _ h
        simp at this ⊢
        omega
    · rw [if_neg hc] at hp
      have := ih _ _ _ hp
      simp at this ⊢
      omega

theorem mapM_isSome {α β : Type} (f : α → Option β) (l : List α)
    (h : ∀ a ∈ l, (f a).isSome) : (l.mapM f).isSome := by
  induction l with
  | nil => rfl
  | cons a l ih =>
    obtain ⟨b, hb⟩ := Option.isSome_iff_exists.1 (h a (by simp))
    obtain ⟨bs, hbs⟩ := Option.isSome_iff_exists.1 (ih fun x hx => h x (by simp [hx]))
    simp [List.mapM_cons, hb, hbs]

theorem parse_total (fuel : Nat) : ∀ s : Str, s.length < fuel →
    (parseTemplate fuel s).isSome := by
  induction fuel with
  | zero => intro s h; omega
  | succ n ih =>
    intro s h
    unfold parseTemplate
    simp only
    generalize hu : s.filter (· ≠ ' ') = u
    have hul : u.length ≤ s.length := by rw [← hu]; exact List.length_filter_le _ _
    by_cases hc : '<' ∉ u ∧ ',' ∉ u
    · rw [if_pos hc]; rfl
    · rw [if_neg hc]
      have hne : u ≠ [] := by rintro rfl; simp at hc
      have hin := pySlice_lt u (find '<' u + 1) _ hne (rfind_lt '>' u hne)
      have := mapM_isSome (parseTemplate n)
        (splitArgs 0 [] (pySlice u (find '<' u + 1) (rfind '>' u))) (by
          intro p hp
          have := splitArgs_length _ _ _ p hp
          simp at this
          exact ih p (by omega))
      obtain ⟨ts, hts⟩ := Option.isSome_iff_exists.1 this
      rw [hts]
      rfl

theorem find_append (c : Char) (n x : Str) (h : c ∉ n) : find c (n ++ c :: x) = n.length := by
  have : (n ++ c :: x).findIdx? (· = c) = some n.length := by
    rw [List.findIdx?_append]
    have : n.findIdx? (· = c) = none := by
      rw [List.findIdx?_eq_none_iff]
      intro y hy
      simp
      rintro rfl
      exact h hy
    rw [this]
    simp [List.findIdx?_cons]
  simp [find, this]

theorem rfind_append (c : Char) (y : Str) : rfind c (y ++ [c]) = y.length := by
  simp [rfind, List.findIdx?_cons]

theorem slice_name (n x : Str) : pySlice (n ++ x) 0 n.length = n := by
  have h1 : pyIdx (n ++ x).length (n.length : Int) = n.length := by
    simp [pyIdx]
  have h2 : pyIdx (n ++ x).length 0 = 0 := by simp [pyIdx]
  simp only [pySlice, h1, h2]
  simp

theorem slice_inner (n x : Str) (a b : Char) :
    pySlice (n ++ a :: x ++ [b]) (n.length + 1) (n ++ a :: x).length = x := by
  have h1 : pyIdx (n ++ a :: x ++ [b]).length ((n ++ a :: x).length : Int)
      = (n ++ a :: x).length := by
    unfold pyIdx
    rw [if_neg (by omega)]
    simp
    omega
  have h2 : pyIdx (n ++ a :: x ++ [b]).length ((n.length : Int) + 1) = n.length + 1 := by
    unfold pyIdx
    rw [if_neg (by omega)]
    simp
  simp only [pySlice, h1, h2]
  rw [List.take_left' rfl]
  simp

/-! ### Printing without blanks -/

mutual
/-- What `type_to_str` prints, without the blanks. -/
def pr : Ty → Str
  | .str s => s
  | .tup n args => n ++ '<' :: prs args ++ ['>']
def prs : List Ty → Str
  | [] => []
  | [a] => pr a
  | a :: b :: r => pr a ++ ',' :: prs (b :: r)
end

variable {leaf : Str → Prop} {bad : Ty → Prop}

theorem split_clean (n : Str) (hn : ∀ c ∈ n, c ≠ '<' ∧ c ≠ '>' ∧ c ≠ ',' ∧ c ≠ ' ') :
    ∀ (k : Int) (cur rest : Str),
      splitArgs k cur (n ++ rest) = splitArgs k (cur ++ n) rest := by
  induction n with
  | nil => intro k cur rest; simp
  | cons c cs ih =>
    intro k cur rest
    obtain ⟨h1, h2, h3, -⟩ := hn c (by simp)
    have e : splitArgs k cur (c :: cs ++ rest) = splitArgs k (cur ++ [c]) (cs ++ rest) := by
      rw [List.cons_append, splitArgs]
      simp [h1, h2, h3]
    rw [e, ih (fun x hx => hn x (by simp [hx]))]
    simp

/-- Text that the argument splitter passes over without cutting, at depths of at least `m`. -/
def Passes (m : Int) (w : Str) : Prop :=
  ∀ (k : Int), m ≤ k → ∀ cur rest : Str,
    splitArgs k cur (w ++ rest) = splitArgs k (cur ++ w) rest

theorem passes_prs (l : List Ty) (h : ∀ a ∈ l, Passes 0 (pr a)) : Passes 1 (prs l) := by
  induction l with
  | nil => intro k _ cur rest; simp [prs]
  | cons a l ih =>
    cases l with
    | nil =>
      intro k hk
      simp only [prs]
      exact h a (by simp) k (by omega)
    | cons b r =>
      intro k hk cur rest
      have hi := ih (fun x hx => h x (by simp [hx])) k hk
      have ha := h a (by simp) k (by omega)
      simp only [prs, List.append_assoc, List.cons_append] at hi ha ⊢
      rw [ha]
      have e : splitArgs k (cur ++ pr a) (',' :: (prs (b :: r) ++ rest)) =
          splitArgs k (cur ++ pr a ++ [',']) (prs (b :: r) ++ rest) := by
        rw [splitArgs]
        simp
        intro h0
        omega
      rw [e, hi]
      simp

theorem passes_pr (hleaf : ∀ s, leaf s → Clean s) {t : Ty} (ht : Built leaf bad t) :
    Passes 0 (pr t) := by
  induction ht with
  | str s hs =>
    intro k hk
    simp only [pr]
    exact split_clean s (hleaf s hs).2 k
  | tup n args hn hne hb _ ih =>
    intro k hk cur rest
    simp only [pr, List.append_assoc, List.cons_append, List.nil_append]
    rw [split_clean n hn.2]
    have e1 : splitArgs k (cur ++ n) ('<' :: (prs args ++ '>' :: rest)) =
        splitArgs (k + 1) (cur ++ n ++ ['<']) (prs args ++ '>' :: rest) := by
      rw [splitArgs]
      simp
    rw [e1, passes_prs args ih (k + 1) (by omega)]
    have e2 : ∀ cur : Str, splitArgs (k + 1) cur ('>' :: rest) =
        splitArgs k (cur ++ ['>']) rest := by
      intro cur
      rw [splitArgs]
      simp
    rw [e2]
    simp

theorem pr_ne (hleaf : ∀ s, leaf s → Clean s) {t : Ty} (ht : Built leaf bad t) :
    pr t ≠ [] := by
  cases ht with
  | str s hs => simpa [pr] using (hleaf s hs).1
  | tup n args _ _ _ _ => simp [pr]

theorem split_prs (hleaf : ∀ s, leaf s → Clean s) (l : List Ty)
    (h : ∀ a ∈ l, Built leaf bad a) (hne : l ≠ []) : splitArgs 0 [] (prs l) = l.map pr := by
  induction l with
  | nil => exact absurd rfl hne
  | cons a l ih =>
    have ha := passes_pr hleaf (h a (by simp)) 0 (le_refl _) []
    have hn := pr_ne hleaf (h a (by simp))
    cases l with
    | nil =>
      have := ha []
      simp only [List.append_nil, List.nil_append] at this
      simp [prs, this, splitArgs, hn]
    | cons b r =>
      have := ha (',' :: prs (b :: r))
      rw [prs, this]
      have e : splitArgs 0 ([] ++ pr a) (',' :: prs (b :: r)) =
          pr a :: splitArgs 0 [] (prs (b :: r)) := by
        rw [splitArgs]
        simp
      rw [e, ih (fun x hx => h x (by simp [hx])) (by simp)]
      rfl

theorem prs_length {l : List Ty} {a : Ty} (h : a ∈ l) : (pr a).length ≤ (prs l).length := by
  induction l with
  | nil => simp at h
  | cons b l ih =>
    cases l with
    | nil => simp at h; subst h; simp [prs]
    | cons c r =>
      rcases List.mem_cons.1 h with rfl | h
      · simp [prs]
      · have := ih h
        rw [prs, List.length_append, List.length_cons]
        omega

theorem mapM_map {α β : Type} (f : β → Option α) (g : α → β) (l : List α)
    (h : ∀ a ∈ l, f (g a) = some a) : (l.map g).mapM f = some l := by
  induction l with
  | nil => rfl
  | cons a l ih =>
    simp [List.mapM_cons, h a (by simp), ih fun x hx => h x (by simp [hx])]

theorem noblank_prs (l : List Ty) (h : ∀ a ∈ l, ' ' ∉ pr a) : ' ' ∉ prs l := by
  induction l with
  | nil => simp [prs]
  | cons a l ih =>
    cases l with
    | nil => simpa [prs] using h
    | cons b r =>
      have := ih fun x hx => h x (by simp [hx])
      have h2 := h a (by simp)
      simp [prs, h2, this]

theorem noblank_pr (hleaf : ∀ s, leaf s → Clean s) {t : Ty} (ht : Built leaf bad t) :
    ' ' ∉ pr t := by
  induction ht with
  | str s hs =>
    simp only [pr]
    intro h
    exact ((hleaf s hs).2 _ h).2.2.2 rfl
  | tup n args hn hne hb _ ih =>
    have h1 : ' ' ∉ n := fun h => (hn.2 _ h).2.2.2 rfl
    have h2 := noblank_prs args ih
    simp [pr, h1, h2]

theorem filter_self (s : Str) (h : ' ' ∉ s) : s.filter (· ≠ ' ') = s := by
  rw [List.filter_eq_self]
  intro a ha
  simp
  rintro rfl
  exact h ha

theorem parse_pr (hleaf : ∀ s, leaf s → Clean s) {t : Ty} (ht : Built leaf bad t) :
    ∀ (s : Str) (fuel : Nat), s.filter (· ≠ ' ') = pr t → (pr t).length < fuel →
      parseTemplate fuel s = some t := by
  induction ht with
  | str n hn =>
    intro s fuel hs hf
    cases fuel with
    | zero => omega
    | succ f =>
      have hc := (hleaf n hn).2
      unfold parseTemplate
      simp only [hs, pr]
      rw [if_pos ⟨fun h => (hc _ h).1 rfl, fun h => (hc _ h).2.2.1 rfl⟩]
  | tup n args hn hne hb hargs ih =>
    intro s fuel hs hf
    cases fuel with
    | zero => omega
    | succ f =>
      unfold parseTemplate
      simp only [hs]
      have hin : '<' ∈ pr (.tup n args) := by simp [pr]
      rw [if_neg (fun h => h.1 hin)]
      have hlt : '<' ∉ n := fun h => (hn.2 _ h).1 rfl
      have hfi : find '<' (pr (.tup n args)) = n.length := by
        simp only [pr, List.append_assoc, List.cons_append]
        exact find_append _ _ _ hlt
      have hrf : rfind '>' (pr (.tup n args)) = (n ++ '<' :: prs args).length := by
        simp only [pr]
        exact rfind_append _ _
      have hname : pySlice (pr (.tup n args)) 0 n.length = n := by
        simp only [pr, List.append_assoc]
        exact slice_name _ _
      have hinner : pySlice (pr (.tup n args)) (n.length + 1) (n ++ '<' :: prs args).length
          = prs args := by
        simp only [pr]
        exact slice_inner _ _ _ _
      rw [hfi, hrf, hname, hinner, split_prs hleaf args hargs hne,
        mapM_map (parseTemplate f) pr args]
      intro a ha
      refine ih a ha (pr a) f (filter_self _ (noblank_pr hleaf (hargs a ha))) ?_
      have := prs_length ha
      simp [pr] at hf
      omega

theorem typeToStr_pr {prims : Ty → Bool} (hleaf : ∀ s, leaf s → Clean s)
    (hp : ∀ s, leaf s → prims (.str s) = true)
    {t : Ty} (ht : Built leaf (fun t => prims t = true) t) :
    ∃ s, typeToStr prims t = .ok (.str s) ∧ s.filter (· ≠ ' ') = pr t := by
  induction ht with
  | str s hs =>
    refine ⟨s, by simp [typeToStr, hp s hs], ?_⟩
    simp only [pr]
    exact filter_self _ fun h => ((hleaf s hs).2 _ h).2.2.2 rfl
  | tup n args hn hne hb _ ih =>
    have key : ∀ l : List Ty, l ≠ [] → (∀ a ∈ l, ∃ s, typeToStr prims a = .ok (.str s) ∧
        s.filter (· ≠ ' ') = pr a) →
        ∃ s, joinArgs prims l = .ok s ∧ s.filter (· ≠ ' ') = prs l := by
      intro l
      induction l with
      | nil => intro h; exact absurd rfl h
      | cons a l ihl =>
        intro _ h
        obtain ⟨s, hs, hf⟩ := h a (by simp)
        cases l with
        | nil => exact ⟨s, by simp [joinArgs, hs], by simpa [prs] using hf⟩
        | cons b r =>
          obtain ⟨s', hs', hf'⟩ := ihl (by simp) fun x hx => h x (by simp [hx])
          refine ⟨s ++ ", ".toList ++ s', by simp [joinArgs, hs, hs'], ?_⟩
          have e : (", ".toList).filter (· ≠ ' ') = [','] := by decide
          rw [List.filter_append, List.filter_append, hf, hf', e]
          simp [prs]
    obtain ⟨s, hs, hf⟩ := key args hne ih
    refine ⟨n ++ "< ".toList ++ s ++ " >".toList, by simp [typeToStr, hb, hs], ?_⟩
    have e1 : ("< ".toList).filter (· ≠ ' ') = ['<'] := by decide
    have e2 : (" >".toList).filter (· ≠ ' ') = ['>'] := by decide
    rw [List.filter_append, List.filter_append, List.filter_append, hf, e1, e2,
      filter_self n fun h => (hn.2 _ h).2.2.2 rfl]
    simp [pr]

/-! ### `outter_split` -/

theorem depth_append (op cl : Char) (a b : Str) :
    depth op cl (a ++ b) = depth op cl a + depth op cl b := by
  simp [depth]; omega

theorem depth_cons_sep {op cl sep : Char} (h1 : sep ≠ op) (h2 : sep ≠ cl) (b : Str) :
    depth op cl (sep :: b) = depth op cl b := by
  simp [depth, h1, h2]

theorem pySplit_free (sep : Char) (p : Str) (h : sep ∉ p) : pySplit sep p = [p] := by
  induction p with
  | nil => rfl
  | cons c cs ih =>
    simp at h
    rw [pySplit, if_neg (fun e => h.1 e.symm), ih h.2]

theorem pySplit_sep (sep : Char) (p rest : Str) (h : sep ∉ p) :
    pySplit sep (p ++ sep :: rest) = p :: pySplit sep rest := by
  induction p with
  | nil => simp [pySplit]
  | cons c cs ih =>
    simp at h
    rw [List.cons_append, pySplit, if_neg (fun e => h.1 e.symm), ih h.2]

theorem first_sep (sep : Char) (p : Str) (h : sep ∈ p) :
    ∃ a b, p = a ++ sep :: b ∧ sep ∉ a := by
  induction p with
  | nil => simp at h
  | cons c cs ih =>
    by_cases hc : sep = c
    · exact ⟨[], cs, by simp [hc], by simp⟩
    · obtain ⟨a, b, e, ha⟩ := ih (by simpa [hc] using h)
      exact ⟨c :: a, b, by simp [e], by simp [hc, ha]⟩

variable {ws : Char → Bool} {op cl sep : Char}

theorem loop_step (count : Int) (val n : Str) (ns : List Str) :
    outterLoop ws op cl sep count val (n :: ns) =
      if count + depth op cl n = 0 then strip ws (val ++ n) :: outterLoop ws op cl sep 0 [] ns
      else outterLoop ws op cl sep (count + depth op cl n) (val ++ n ++ [sep]) ns := by
  have e : count + (n.count op : Int) - n.count cl = count + depth op cl n := by
    simp [depth]; omega
  rw [outterLoop]
  simp only [e]
  by_cases h : count + depth op cl n = 0
  · rw [if_pos h, if_pos h, h]
  · rw [if_neg h, if_neg h]

theorem loop_piece (h1 : sep ≠ op) (h2 : sep ≠ cl) (m : Nat) : ∀ (p : Str), p.length ≤ m →
    ∀ (c0 : Int) (val rest : Str),
    (∀ a b, p = a ++ sep :: b → c0 + depth op cl a ≠ 0) →
    outterLoop ws op cl sep c0 val (pySplit sep (p ++ sep :: rest)) =
      (if c0 + depth op cl p = 0 then
        strip ws (val ++ p) :: outterLoop ws op cl sep 0 [] (pySplit sep rest)
      else outterLoop ws op cl sep (c0 + depth op cl p) (val ++ p ++ [sep]) (pySplit sep rest)) ∧
    outterLoop ws op cl sep c0 val (pySplit sep p) =
      (if c0 + depth op cl p = 0 then [strip ws (val ++ p)] else []) := by
  induction m with
  | zero =>
    intro p hp c0 val rest _
    have : p = [] := List.eq_nil_of_length_eq_zero (by omega)
    subst this
    rw [pySplit_sep sep [] rest (by simp), loop_step, pySplit_free sep [] (by simp), loop_step]
    simp [outterLoop]
  | succ m ih =>
    intro p hp c0 val rest hin
    by_cases hs : sep ∈ p
    · obtain ⟨a, b, e, ha⟩ := first_sep sep p hs
      have hne := hin a b e
      have hb := ih b (by rw [e] at hp; simp at hp; omega) (c0 + depth op cl a)
        (val ++ a ++ [sep]) rest (by
          intro a' b' e'
          have := hin (a ++ sep :: a') b' (by rw [e, e']; simp)
          rw [depth_append, depth_cons_sep h1 h2] at this
          omega)
      have hd : depth op cl p = depth op cl a + depth op cl b := by
        rw [e, depth_append, depth_cons_sep h1 h2]
      have hv : val ++ a ++ [sep] ++ b = val ++ p := by rw [e]; simp
      have hc : c0 + depth op cl a + depth op cl b = c0 + depth op cl p := by omega
      rw [hv, hc] at hb
      constructor
      · rw [← hb.1]
        have : p ++ sep :: rest = a ++ sep :: (b ++ sep :: rest) := by rw [e]; simp
        rw [this, pySplit_sep sep a _ ha, loop_step, if_neg hne]
      · rw [← hb.2]
        conv_lhs => rw [e]
        rw [pySplit_sep sep a _ ha, loop_step, if_neg hne]
    · rw [pySplit_sep sep p rest hs, loop_step, pySplit_free sep p hs, loop_step]
      simp [outterLoop]

theorem loop_cut (h1 : sep ≠ op) (h2 : sep ≠ cl) (P : List Str) : ∀ s, IsCut op cl sep s P →
    outterLoop ws op cl sep 0 [] (pySplit sep s) =
      (P.filter fun p => depth op cl p = 0).map (strip ws) := by
  induction P with
  | nil => intro s h; exact absurd rfl h.ne
  | cons p P ih =>
    intro s h
    cases P with
    | nil =>
      have hs : p = s := h.join
      subst hs
      rw [(loop_piece h1 h2 _ p (le_refl _) 0 [] [] (by
        intro a b e; have := h.inside p (by simp) a b e; omega)).2]
      by_cases hd : depth op cl p = 0 <;> simp [hd]
    | cons q Q =>
      have hs : p ++ sep :: join sep (q :: Q) = s := h.join
      have hp : depth op cl p = 0 := h.balanced p (by simp)
      rw [← hs, (loop_piece h1 h2 _ p (le_refl _) 0 [] (join sep (q :: Q)) (by
        intro a b e; have := h.inside p (by simp) a b e; omega)).1]
      rw [if_pos (by omega), ih (join sep (q :: Q)) ⟨by simp, rfl, fun x hx =>
        h.balanced x (by simp [List.dropLast, hx]), fun x hx => h.inside x (by simp [hx])⟩]
      simp [hp]

theorem cut_exists (m : Nat) : ∀ s : Str, s.length ≤ m → ∃ P, IsCut op cl sep s P := by
  induction m with
  | zero =>
    intro s hs
    have : s = [] := List.eq_nil_of_length_eq_zero (by omega)
    subst this
    exact ⟨[[]], by simp, rfl, by simp, by simp⟩
  | succ m ih =>
    intro s hs
    by_cases h : ∃ a b, s = a ++ sep :: b ∧ depth op cl a = 0
    · -- take the first such separator
      have : ∃ n, ∃ a b, s = a ++ sep :: b ∧ depth op cl a = 0 ∧ a.length = n := by
        obtain ⟨a, b, e, hd⟩ := h
        exact ⟨_, a, b, e, hd, rfl⟩
      classical
      obtain ⟨a, b, e, hd, hl⟩ := Nat.find_spec this
      obtain ⟨P, hP⟩ := ih b (by rw [e] at hs; simp at hs; omega)
      have hin : ∀ a' b', a = a' ++ sep :: b' → depth op cl a' ≠ 0 := by
        intro a' b' e' h0
        refine Nat.find_min this (m := a'.length) ?_ ⟨a', b' ++ sep :: b, by rw [e, e']; simp,
          h0, rfl⟩
        rw [← hl, e']
        simp
      obtain ⟨q, Q, rfl⟩ := List.exists_cons_of_ne_nil hP.ne
      refine ⟨a :: q :: Q, by simp, ?_, ?_, ?_⟩
      · rw [join, hP.join, e]
      · intro p hp
        rw [List.dropLast_cons_cons, List.mem_cons] at hp
        rcases hp with rfl | hp
        · exact hd
        · exact hP.balanced p hp
      · intro p hp
        rcases List.mem_cons.1 hp with rfl | hp
        · exact hin
        · exact hP.inside p hp
    · refine ⟨[s], by simp, rfl, by simp, ?_⟩
      intro p hp a b e h0
      simp at hp
      subst hp
      exact h ⟨a, b, e, h0⟩

end Cyclus.Cycpp
