import Verif.Lemmas.CycppType
import Verif.Props.CycppScan

/-!
# C115: the canonical type of a state variable

The preprocessor turns the text of the type of a state variable into a canonical type, made of the types and
templates that it knows.
-/

namespace Cyclus.CycppType

open Cycpp (Ty)
open CycppScan (isSpace isWord within words)

/-- The names: `int`, `std::string`, `std::vector`, `std::map`, `cyclus::Blob`. -/
def nInt : Str := ['i', 'n', 't']
def nString : Str := ['s', 't', 'd', ':', ':', 's', 't', 'r', 'i', 'n', 'g']
def nVector : Str := ['s', 't', 'd', ':', ':', 'v', 'e', 'c', 't', 'o', 'r']
def nMap : Str := ['s', 't', 'd', ':', ':', 'm', 'a', 'p']

/-- `std::map<int, std::vector<std::string> >` -/
def mapTy : Ty := .tup nMap [.str nInt, .tup nVector [.str nString]]

theorem mapTy_canonical : Canonical Template mapTy := by
  refine .tmpl _ _ (by unfold Template templates; decide) ?_
  intro a ha
  simp only [List.mem_cons, List.not_mem_nil, or_false] at ha
  rcases ha with rfl | rfl
  · exact .leaf _ (by unfold supported; decide)
  · refine .tmpl _ _ (by unfold Template templates; decide) ?_
    intro a ha
    simp only [List.mem_cons, List.not_mem_nil, or_false] at ha
    subst ha
    exact .leaf _ (by unfold supported; decide)

theorem mapTy_filled : Filled mapTy := by
  refine .tmpl _ _ (by simp) ?_
  intro a ha
  simp only [List.mem_cons, List.not_mem_nil, or_false] at ha
  rcases ha with rfl | rfl
  · exact .leaf _
  · refine .tmpl _ _ (by simp) ?_
    intro a ha
    simp only [List.mem_cons, List.not_mem_nil, or_false] at ha
    subst ha
    exact .leaf _

/-! ## Results -/

/-- What comes out is made of supported types, and of templates that are known or that an alias names. -/
theorem C115_sound (us : List (ℤ × Str)) (al : List (ℤ × Str × Str)) (n : ℕ) (t r : Ty)
    (h : canonize us al n t = .ok r) :
    Canonical (fun m => Template m ∨ ∃ x ∈ al, x.2.1 = m) r := by
  induction n generalizing t r with
  | zero => cases h
  | succ n ih =>
    have htargs : ∀ m args, (Template m ∨ ∃ x ∈ al, x.2.1 = m) → ∀ r, targs (canonize us al n) m args = .ok r →
        Canonical (fun m => Template m ∨ ∃ x ∈ al, x.2.1 = m) r := by
      intro m args hm r hr
      obtain ⟨ts, rfl, hts⟩ := targs_ok.mp hr
      refine .tmpl _ _ hm ?_
      clear hr
      induction hts with
      | nil => simp
      | cons hab _ ih' =>
        intro c hc
        rcases List.mem_cons.mp hc with rfl | hc
        · exact ih _ _ hab
        · exact ih' c hc
    have hloop : ∀ (f : Str → Res) (_ : ∀ m r, f m = .ok r → Canonical (fun m => Template m ∨ ∃ x ∈ al, x.2.1 = m) r)
        (t : Str) (l : List (ℤ × Str)) r, usingLoop f t l = .ok r →
        Canonical (fun m => Template m ∨ ∃ x ∈ al, x.2.1 = m) r := by
      intro f hf t l r hr
      induction l with
      | nil => simp [usingLoop] at hr
      | cons u l ihl =>
        simp only [usingLoop] at hr
        split at hr
        · exact ihl hr
        · cases hu : f (within u.2 t) with
          | type => rw [hu] at hr; exact ihl hr
          | ok r' => rw [hu] at hr; cases hr; exact hf _ _ hu
          | deep => rw [hu] at hr; cases hr
    cases t with
    | tup name args =>
      rw [canonize] at h
      split at h
      · rename_i hk
        refine htargs _ _ (.inl ?_) _ h
        simpa [Template] using hk
      · cases hp : pick al name with
        | some a =>
          rw [hp] at h
          obtain ⟨x, hx, hx1, -⟩ := pick_mem hp
          exact htargs _ _ (.inr ⟨x, hx, hx1⟩) _ h
        | none =>
          rw [hp] at h
          exact hloop _ (fun m r hr => ih _ _ hr) _ _ _ h
    | str t =>
      rw [canonize] at h
      split at h
      · cases hp : Cycpp.parseTemplate ((norm t).length + 1) (norm t) with
        | none => rw [hp] at h; cases h
        | some ty => rw [hp] at h; exact ih _ _ h
      · split at h
        · rename_i hs
          cases h
          exact .leaf _ (by simpa using hs)
        · cases hp : pick al (norm t) with
          | some a => rw [hp] at h; exact ih _ _ h
          | none => rw [hp] at h; exact hloop _ (fun m r hr => ih _ _ hr) _ _ _ h

/-- `vector<int>` where namespace `std` is used. -/
example : canonize [(0, ['s', 't', 'd'])] [] 9 (.str ['v', 'e', 'c', 't', 'o', 'r', '<', 'i', 'n', 't', '>']) =
    .ok (.tup nVector [.str nInt]) := by with_unfolding_all rfl

/-- A result does not depend on how many nested calls are allowed. -/
theorem C115_bound (us : List (ℤ × Str)) (al : List (ℤ × Str × Str)) (n m : ℕ) (hnm : n ≤ m) (t : Ty)
    (h : canonize us al n t ≠ .deep) : canonize us al m t = canonize us al n t :=
  canonize_le hnm h

/-- `string` where namespace `std` is used needs two calls. -/
example : canonize [(0, ['s', 't', 'd'])] [] 2 (.str ['s', 't', 'r', 'i', 'n', 'g']) ≠ .deep := by
  have : canonize [(0, ['s', 't', 'd'])] [] 2 (.str ['s', 't', 'r', 'i', 'n', 'g']) = .ok (.str nString) := by
    with_unfolding_all rfl
  rw [this]
  simp

/-! ## Canonical types -/

theorem depth_mem {a : Ty} {l : List Ty} (h : a ∈ l) : depth a ≤ depths l := by
  induction l with
  | nil => cases h
  | cons b l ih =>
    simp only [depths]
    rcases List.mem_cons.mp h with rfl | h
    · omega
    · have := ih h; omega

/-- A canonical type stays as it is, whatever is used and whatever has aliases. -/
theorem C115_fixed (us : List (ℤ × Str)) (al : List (ℤ × Str × Str)) (t : Ty) (ht : Canonical Template t) (n : ℕ)
    (hn : depth t < n) : canonize us al n t = .ok t := by
  induction ht generalizing n with
  | leaf s hs =>
    obtain ⟨n, rfl⟩ : ∃ k, n = k + 1 := ⟨n - 1, by omega⟩
    have hp := supported_plain s hs
    rw [canonize, if_neg (by simpa using plain_no_angle hp), norm_plain hp, if_pos (by simpa using hs)]
  | tmpl m args hm _ ih =>
    obtain ⟨n, rfl⟩ : ∃ k, n = k + 1 := ⟨n - 1, by omega⟩
    rw [canonize, if_pos (by simpa [Template] using hm), targs_ok]
    refine ⟨args, rfl, ?_⟩
    have hd : ∀ a ∈ args, depth a < n := by
      intro a ha
      have := depth_mem ha
      simp only [depth] at hn
      omega
    have key : ∀ l : List Ty, (∀ a ∈ l, a ∈ args) → List.Forall₂ (fun a t => canonize us al n a = .ok t) l l := by
      intro l
      induction l with
      | nil => intro _; exact .nil
      | cons a l ihl =>
        intro hl
        exact .cons (ih a (hl a (by simp)) n (hd a (hl a (by simp))))
          (ihl fun b hb => hl b (List.mem_cons_of_mem _ hb))
    exact key args fun _ h => h

example : Canonical Template mapTy ∧ depth mapTy = 2 := ⟨mapTy_canonical, rfl⟩

theorem text_pr : (∀ t, text t = Cycpp.pr t) ∧ ∀ l, texts l = Cycpp.prs l := by
  have h1 : ∀ n, (∀ t : Ty, sizeOf t < n → text t = Cycpp.pr t) ∧ ∀ l : List Ty, sizeOf l < n → texts l = Cycpp.prs l := by
    intro n
    induction n with
    | zero => exact ⟨fun _ h => by omega, fun _ h => by omega⟩
    | succ n ih =>
      constructor
      · intro t ht
        cases t with
        | str s => rfl
        | tup m args =>
          simp only [Ty.tup.sizeOf_spec] at ht
          simp only [text, Cycpp.pr]
          rw [ih.2 args (by omega)]
      · intro l hl
        match l with
        | [] => rfl
        | [a] =>
          simp only [List.cons.sizeOf_spec] at hl
          simp only [texts, Cycpp.prs]
          exact ih.1 a (by omega)
        | a :: b :: r =>
          simp only [texts, Cycpp.prs]
          simp only [List.cons.sizeOf_spec] at hl
          rw [ih.1 a (by omega), ih.2 (b :: r) (by simp only [List.cons.sizeOf_spec]; omega)]
  exact ⟨fun t => (h1 (sizeOf t + 1)).1 t (by omega), fun l => (h1 (sizeOf l + 1)).2 l (by omega)⟩

theorem word_clean {s : Str} (h : Plain s) : Cycpp.Clean s := by
  refine ⟨h.1, ?_⟩
  intro c hc
  rcases h.2.1 c hc with hw | rfl
  · refine ⟨?_, ?_, ?_, ?_⟩ <;> rintro rfl <;> exact absurd hw (by decide)
  · decide

theorem plain_built {t : Ty} (hp : PlainTy t) (hf : Filled t) :
    Cycpp.Built (fun s => Plain s) (fun _ => False) t := by
  induction hp with
  | leaf s hs => exact .str s hs
  | tmpl n args hn _ ih =>
    cases hf with
    | tmpl _ _ hne hall => exact .tup n args (word_clean hn) hne (fun h => h) fun a ha => ih a ha (hall a ha)

theorem canonical_plain {t : Ty} (h : Canonical Template t) : PlainTy t := by
  induction h with
  | leaf s hs => exact .leaf s (supported_plain s hs)
  | tmpl n args hn _ ih => exact .tmpl n args (templates_plain n hn) ih

/-- The text of a template, with white space anywhere, is read as the type. -/
theorem C115_text (us : List (ℤ × Str)) (al : List (ℤ × Str × Str)) (m : Str) (args : List Ty)
    (hp : PlainTy (.tup m args)) (hf : Filled (.tup m args)) (s : Str) (hs : solid s = text (.tup m args)) (n : ℕ) :
    canonize us al (n + 1) (.str s) = canonize us al n (.tup m args) := by
  have hm : Plain m := by cases hp; assumption
  have hangle : '<' ∈ s := by
    have h : '<' ∈ solid s := by rw [hs]; simp [text]
    exact (List.mem_filter.mp h).1
  rw [canonize, if_pos (by simpa using hangle)]
  have hhead : (solid s).head? ≠ some ':' := by
    rw [hs, text]
    obtain ⟨hn, -, hh, -⟩ := hm
    cases m with
    | nil => exact absurd rfl hn
    | cons c m => simpa using hh
  have hlast : (solid s).getLast? ≠ some ':' := by
    rw [hs, text, List.getLast?_append]
    simp
  have hnorm := norm_solid hhead hlast
  rw [hs, text_pr.1] at hnorm
  have hlen : (Cycpp.pr (.tup m args)).length < (norm s).length + 1 := by
    rw [← hnorm]
    have := List.length_filter_le (fun x => decide (x ≠ ' ')) (norm s)
    omega
  rw [Cycpp.parse_pr (fun s hs => word_clean hs) (plain_built hp hf) _ _ hnorm hlen]

/-- `std :: map < int,` newline `std::vector<std::string> >` -/
def mapText : Str :=
  ['s', 't', 'd', ' ', ':', ':', ' ', 'm', 'a', 'p', ' ', '<', ' ', 'i', 'n', 't', ',', '\n'] ++ nVector ++ ['<'] ++
    nString ++ ['>', ' ', '>']

example : solid mapText = text mapTy := by decide +kernel

/-- So the text of a canonical type, in white space, gives that type in any place. -/
theorem C115_canonical (us : List (ℤ × Str)) (al : List (ℤ × Str × Str)) (t : Ty) (hc : Canonical Template t)
    (hf : Filled t) (s : Str)
    (hs : (∃ m args, t = .tup m args ∧ solid s = text t) ∨
      ∃ a b, (∀ c ∈ a, isSpace c = true) ∧ (∀ c ∈ b, isSpace c = true) ∧ s = a ++ text t ++ b)
    (n : ℕ) (hn : depth t + 1 < n) : canonize us al n (.str s) = .ok t := by
  obtain ⟨n, rfl⟩ : ∃ k, n = k + 1 := ⟨n - 1, by omega⟩
  have tuple : ∀ m args, t = .tup m args → solid s = text t → canonize us al (n + 1) (.str s) = .ok t := by
    rintro m args rfl h
    rw [C115_text us al m args (canonical_plain hc) hf s h n]
    exact C115_fixed us al _ hc n (by omega)
  rcases hs with ⟨m, args, rfl, h⟩ | ⟨a, b, ha, hb, rfl⟩
  · exact tuple m args rfl h
  · cases hc with
    | leaf t ht =>
      have hp := supported_plain t ht
      rw [canonize, if_neg, text, norm_around ha hb hp, if_pos (by simpa using ht)]
      simp only [text, List.contains_eq_mem, List.mem_append, decide_eq_true_eq, not_or]
      refine ⟨⟨fun h => absurd (ha _ h) (by decide), plain_no_angle hp⟩, fun h => absurd (hb _ h) (by decide)⟩
    | tmpl m args hm hargs =>
      have hc' : Canonical Template (.tup m args) := .tmpl m args hm hargs
      refine tuple m args rfl ?_
      have hb' := plain_built (canonical_plain hc') hf
      rw [solid_append, solid_append, solid_spaces ha, solid_spaces hb, List.nil_append, List.append_nil]
      apply solid_free
      have key : ∀ t : Ty, PlainTy t → ∀ c ∈ text t, isSpace c = false := by
        intro t hpt
        induction hpt with
        | leaf s hs => exact plain_space hs
        | tmpl n args hn _ ih =>
          have hl : ∀ l : List Ty, (∀ a ∈ l, ∀ c ∈ text a, isSpace c = false) → ∀ c ∈ texts l, isSpace c = false := by
            intro l
            induction l with
            | nil => intro _ c hc; simp [texts] at hc
            | cons a l ihl =>
              intro h c hc
              cases l with
              | nil => exact h a (by simp) c (by simpa [texts] using hc)
              | cons b r =>
                simp only [texts, List.mem_append, List.mem_cons] at hc
                rcases hc with hc | rfl | hc
                · exact h a (by simp) c hc
                · decide
                · exact ihl (fun x hx => h x (List.mem_cons_of_mem _ hx)) c (by simpa using hc)
          intro c hc
          simp only [text, List.mem_append, List.mem_cons, List.not_mem_nil, or_false] at hc
          rcases hc with (hc | rfl | hc) | rfl
          · exact plain_space hn c hc
          · decide
          · exact hl args ih c hc
          · decide
      exact key _ (canonical_plain hc')

example : Canonical Template mapTy ∧ Filled mapTy ∧ ∃ m args, mapTy = .tup m args ∧ solid mapText = text mapTy :=
  ⟨mapTy_canonical, mapTy_filled, _, _, rfl, by decide +kernel⟩

example : Canonical Template (.str nString) ∧
    ∃ a b, (∀ c ∈ a, isSpace c = true) ∧ (∀ c ∈ b, isSpace c = true) ∧
      [' '] ++ nString ++ ['\t'] = a ++ text (.str nString) ++ b :=
  ⟨.leaf _ (by unfold supported; decide), [' '], ['\t'], by decide, by decide, rfl⟩

/-! ## Aliases and namespaces -/

/-- A name that is not supported and has an alias stands for what the innermost alias names. -/
theorem C115_alias (us : List (ℤ × Str)) (al : List (ℤ × Str × Str)) (d : ℤ) (a t : Str) (ht : Plain t)
    (hs : t ∉ supported) (h : (d, a, t) ∈ al) (hd : ∀ x ∈ al, x.2.2 = t → x ≠ (d, a, t) → x.1 < d) (n : ℕ) :
    canonize us al (n + 1) (.str t) = canonize us al n (.str a) := by
  rw [canonize, if_neg (by simpa using plain_no_angle ht), norm_plain ht, if_neg (by simpa using hs),
    pick_deepest h hd]

/-- `typedef int N;` in an outer scope, `typedef std::string N;` in an inner one. -/
example : ∀ x ∈ [((0 : ℤ), nInt, ['N']), (1, nString, ['N'])], x.2.2 = ['N'] → x ≠ (1, nString, ['N']) → x.1 < 1 := by
  decide +kernel

/-- A template that is not known and has an alias gets the name of the innermost alias, and keeps its arguments. -/
theorem C115_alias_template (us : List (ℤ × Str)) (al : List (ℤ × Str × Str)) (d : ℤ) (a t : Str)
    (hs : t ∉ templates) (h : (d, a, t) ∈ al) (hd : ∀ x ∈ al, x.2.2 = t → x ≠ (d, a, t) → x.1 < d) (n : ℕ)
    (args : List Ty) (r : Ty) :
    canonize us al (n + 1) (.tup t args) = .ok r ↔
      ∃ ts, r = .tup a ts ∧ List.Forall₂ (fun x y => canonize us al n x = .ok y) args ts := by
  rw [canonize, if_neg (by simpa using hs), pick_deepest h hd]
  exact targs_ok

/-- `using std::vector;` -/
example : ['v', 'e', 'c', 't', 'o', 'r'] ∉ templates ∧
    ∀ x ∈ [((0 : ℤ), nVector, ['v', 'e', 'c', 't', 'o', 'r'])], x.2.2 = ['v', 'e', 'c', 't', 'o', 'r'] →
      x ≠ (0, nVector, ['v', 'e', 'c', 't', 'o', 'r']) → x.1 < 0 := by
  unfold templates
  decide +kernel

theorem within_sep (u t : Str) : within u t = u ++ ':' :: ':' :: t := rfl

/-- A name qualified by an identifier more than a namespace of one identifier is not looked for in it. -/
theorem loop_stops {us : List (ℤ × Str)} (hus : ∀ u ∈ us, parts u.2 = 1) (f : Str → Res) {t : Str} (ht : 1 < parts t) :
    usingLoop f t (sortDesc us) = .type := by
  have : ∀ l : List (ℤ × Str), (∀ u ∈ l, parts u.2 = 1) → usingLoop f t l = .type := by
    intro l
    induction l with
    | nil => intro _; rfl
    | cons u l ih =>
      intro h
      rw [usingLoop, if_pos (by rw [h u (by simp)]; exact ht)]
      exact ih fun v hv => h v (List.mem_cons_of_mem _ hv)
  exact this _ fun u hu => hus u (mem_sortDesc.mp hu)

theorem loop_found {f : Str → Res} {t : Str} (hpt : parts t = 1) {good : Str} {r : Res} (hr : r ≠ .type)
    (hg : f good = r) :
    ∀ l : List (ℤ × Str), (∀ u ∈ l, 1 ≤ parts u.2) → (∀ u ∈ l, within u.2 t ≠ good → f (within u.2 t) = .type) →
      (∃ u ∈ l, within u.2 t = good) → usingLoop f t l = r := by
  intro l
  induction l with
  | nil => rintro _ _ ⟨u, hu, -⟩; cases hu
  | cons u l ih =>
    intro h1 h2 h3
    rw [usingLoop, if_neg (by have := h1 u (by simp); omega)]
    by_cases he : within u.2 t = good
    · rw [he, hg]
      cases r with
      | type => exact absurd rfl hr
      | ok _ => rfl
      | deep => rfl
    · rw [h2 u (by simp) he]
      refine ih (fun v hv => h1 v (List.mem_cons_of_mem _ hv)) (fun v hv => h2 v (List.mem_cons_of_mem _ hv)) ?_
      obtain ⟨v, hv, hw⟩ := h3
      rcases List.mem_cons.mp hv with rfl | hv
      · exact absurd hw he
      · exact ⟨v, hv, hw⟩

theorem loop_all {f : Str → Res} {t : Str} :
    ∀ l : List (ℤ × Str), (∀ u ∈ l, f (within u.2 t) = .type) → usingLoop f t l = .type := by
  intro l
  induction l with
  | nil => intro _; rfl
  | cons u l ih =>
    intro h
    rw [usingLoop]
    split
    · exact ih fun v hv => h v (List.mem_cons_of_mem _ hv)
    · rw [h u (by simp)]
      exact ih fun v hv => h v (List.mem_cons_of_mem _ hv)

/-- Without aliases, and with namespaces of one identifier, a name of one identifier that is not supported has
the meaning that it has in one of the namespaces, or is rejected if it has none.

The full claim would be for namespaces and names of many identifiers, where the code looks in namespaces nested
in namespaces that are used: see `C115_fails_qualified`. -/
theorem C115_using_partial (us : List (ℤ × Str)) (hus : ∀ u ∈ us, Ident u.2) (t : Str) (ht : Ident t)
    (hs : t ∉ supported) (n : ℕ) :
    (∀ u ∈ us, within u.2 t ∈ supported →
      (∀ v ∈ us, within v.2 t ∈ supported → v.2 = u.2) →
        canonize us [] (n + 2) (.str t) = .ok (.str (within u.2 t))) ∧
    ((∀ u ∈ us, within u.2 t ∉ supported) → canonize us [] (n + 2) (.str t) = .type) := by
  have hp := ident_plain ht
  have huparts : ∀ u ∈ us, parts u.2 = 1 := fun u hu => parts_ident (hus u hu).2
  have hstep : canonize us [] (n + 2) (.str t) =
      usingLoop (fun m => canonize us [] (n + 1) (.str m)) t (sortDesc us) := by
    rw [canonize, if_neg (by simpa using plain_no_angle hp), norm_plain hp, if_neg (by simpa using hs),
      pick_none (by simp)]
  have hone : ∀ u ∈ us, canonize us [] (n + 1) (.str (within u.2 t)) =
      if within u.2 t ∈ supported then .ok (.str (within u.2 t)) else .type := by
    intro u hu
    have hw := within_plain (ident_plain (hus u hu)) hp
    rw [canonize, if_neg (by simpa using plain_no_angle hw), norm_plain hw]
    by_cases hsup : within u.2 t ∈ supported
    · rw [if_pos (by simpa using hsup), if_pos hsup]
    · rw [if_neg (by simpa using hsup), if_neg hsup, pick_none (by simp)]
      refine loop_stops huparts _ ?_
      have h1 := parts_append u.2 t
      have h2 := parts_ident ht.2
      rw [within_sep]
      omega
  rw [hstep]
  constructor
  · intro u hu hsup huniq
    refine loop_found (parts_ident ht.2) (good := within u.2 t) (by simp) (by rw [hone u hu, if_pos hsup]) _ ?_ ?_ ?_
    · intro v hv
      rw [huparts v (mem_sortDesc.mp hv)]
    · intro v hv hne
      rw [hone v (mem_sortDesc.mp hv), if_neg]
      intro hv'
      exact hne (by rw [huniq v (mem_sortDesc.mp hv) hv'])
    · exact ⟨u, mem_sortDesc.mpr hu, rfl⟩
  · intro hnone
    refine loop_all _ fun u hu => ?_
    rw [hone u (mem_sortDesc.mp hu), if_neg (hnone u (mem_sortDesc.mp hu))]

/-- `string` where namespaces `cyclus` and `std` are used. -/
example : within ['s', 't', 'd'] ['s', 't', 'r', 'i', 'n', 'g'] ∈ supported ∧
    within ['c', 'y', 'c', 'l', 'u', 's'] ['s', 't', 'r', 'i', 'n', 'g'] ∉ supported := by
  unfold supported
  decide +kernel

/-- The same for templates. -/
theorem C115_using_template_partial (us : List (ℤ × Str)) (hus : ∀ u ∈ us, Ident u.2) (t : Str) (ht : Ident t)
    (hs : t ∉ templates) (args : List Ty) (n : ℕ) :
    (∀ u ∈ us, within u.2 t ∈ templates →
      (∀ v ∈ us, within v.2 t ∈ templates → v.2 = u.2) →
        canonize us [] (n + 2) (.tup t args) = canonize us [] (n + 1) (.tup (within u.2 t) args)) ∧
    ((∀ u ∈ us, within u.2 t ∉ templates) → canonize us [] (n + 2) (.tup t args) = .type) := by
  have huparts : ∀ u ∈ us, parts u.2 = 1 := fun u hu => parts_ident (hus u hu).2
  have hstep : canonize us [] (n + 2) (.tup t args) =
      usingLoop (fun m => canonize us [] (n + 1) (.tup m args)) t (sortDesc us) := by
    rw [canonize, if_neg (by simpa using hs), pick_none (by simp)]
  have hone : ∀ u ∈ us, within u.2 t ∉ templates → canonize us [] (n + 1) (.tup (within u.2 t) args) = .type := by
    intro u hu hsup
    rw [canonize, if_neg (by simpa using hsup), pick_none (by simp)]
    refine loop_stops huparts _ ?_
    have h1 := parts_append u.2 t
    have h2 := parts_ident ht.2
    rw [within_sep]
    omega
  rw [hstep]
  constructor
  · intro u hu hsup huniq
    by_cases hr : canonize us [] (n + 1) (.tup (within u.2 t) args) = .type
    · rw [hr]
      refine loop_all _ fun v hv => ?_
      by_cases hv' : within v.2 t ∈ templates
      · rw [huniq v (mem_sortDesc.mp hv) hv']
        exact hr
      · exact hone v (mem_sortDesc.mp hv) hv'
    · refine loop_found (parts_ident ht.2) (good := within u.2 t) hr rfl _ ?_ ?_ ?_
      · intro v hv
        rw [huparts v (mem_sortDesc.mp hv)]
      · intro v hv hne
        refine hone v (mem_sortDesc.mp hv) fun hv' => hne ?_
        rw [huniq v (mem_sortDesc.mp hv) hv']
      · exact ⟨u, mem_sortDesc.mpr hu, rfl⟩
  · intro hnone
    exact loop_all _ fun u hu => hone u (mem_sortDesc.mp hu) (hnone u (mem_sortDesc.mp hu))

example : within ['s', 't', 'd'] ['m', 'a', 'p'] ∈ templates ∧
    within ['c', 'y', 'c', 'l', 'u', 's'] ['m', 'a', 'p'] ∉ templates := by
  unfold templates
  decide +kernel

/-! ## The function returns -/

theorem loop_returns {f : Str → Res} {t : Str} :
    ∀ l : List (ℤ × Str), (∀ u ∈ l, parts t ≤ parts u.2 → f (within u.2 t) ≠ .deep) → usingLoop f t l ≠ .deep := by
  intro l
  induction l with
  | nil => intro _; simp [usingLoop]
  | cons u l ih =>
    intro h
    rw [usingLoop]
    have hl := ih fun v hv => h v (List.mem_cons_of_mem _ hv)
    split
    · exact hl
    · rename_i hp
      have hu := h u (by simp) (by omega)
      cases hf : f (within u.2 t) with
      | type => exact hl
      | ok _ => simp
      | deep => exact absurd hf hu

/-- Finitely many calls have a common bound. -/
theorem common_bound {α : Type} (P : ℕ → α → Prop) (hP : ∀ a n m, n ≤ m → P n a → P m a) (l : List α)
    (h : ∀ a ∈ l, ∃ n, P n a) : ∃ n, ∀ a ∈ l, P n a := by
  induction l with
  | nil => exact ⟨0, by simp⟩
  | cons a l ih =>
    obtain ⟨n, hn⟩ := h a (by simp)
    obtain ⟨m, hm⟩ := ih fun b hb => h b (List.mem_cons_of_mem _ hb)
    refine ⟨max n m, ?_⟩
    intro b hb
    rcases List.mem_cons.mp hb with rfl | hb
    · exact hP _ _ _ (le_max_left _ _) hn
    · exact hP _ _ _ (le_max_right _ _) (hm b hb)

theorem deep_le {us : List (ℤ × Str)} {al : List (ℤ × Str × Str)} (t : Ty) (n m : ℕ) (hnm : n ≤ m)
    (h : canonize us al n t ≠ .deep) : canonize us al m t ≠ .deep := by
  rw [canonize_le hnm h]
  exact h

/-- Without aliases the function returns, with any namespaces used, nested as they may be.

The full claim would allow aliases: see `C115_fails_returns`. -/
theorem C115_returns_partial (us : List (ℤ × Str)) (hus : ∀ u ∈ us, Plain u.2) (t : Ty) (ht : PlainTy t) :
    ∃ n, ∀ m, n ≤ m → canonize us [] m t ≠ .deep := by
  obtain ⟨M, hM⟩ : ∃ M, ∀ u ∈ us, parts u.2 ≤ M :=
    common_bound (fun n (u : ℤ × Str) => parts u.2 ≤ n) (fun _ _ _ h1 h2 => le_trans h2 h1) us fun u _ => ⟨_, le_refl _⟩
  suffices h : ∃ n, canonize us [] n t ≠ .deep by
    obtain ⟨n, hn⟩ := h
    exact ⟨n, fun m hm => deep_le t n m hm hn⟩
  induction ht with
  | leaf s hs =>
    have key : ∀ k s, Plain s → M + 1 - parts s ≤ k → ∃ n, canonize us [] n (.str s) ≠ .deep := by
      intro k
      induction k with
      | zero =>
        intro s hs hk
        refine ⟨1, ?_⟩
        rw [canonize, if_neg (by simpa using plain_no_angle hs), norm_plain hs]
        split
        · simp
        · rw [pick_none (by simp)]
          refine loop_returns _ fun u hu hp => ?_
          have := hM u (mem_sortDesc.mp hu)
          omega
      | succ k ih =>
        intro s hs hk
        obtain ⟨n, hn⟩ := common_bound (fun n (u : ℤ × Str) => canonize us [] n (.str (within u.2 s)) ≠ .deep)
          (fun u n m h1 h2 => deep_le _ n m h1 h2) us fun u hu =>
            ih _ (within_plain (hus u hu) hs) (by have := parts_append u.2 s; rw [within_sep]; omega)
        refine ⟨n + 1, ?_⟩
        rw [canonize, if_neg (by simpa using plain_no_angle hs), norm_plain hs]
        split
        · simp
        · rw [pick_none (by simp)]
          exact loop_returns _ fun u hu _ => hn u (mem_sortDesc.mp hu)
    exact key _ s hs (le_refl _)
  | tmpl name args hname _ iha =>
    obtain ⟨A, hA⟩ := common_bound (fun n a => canonize us [] n a ≠ .deep) (fun a n m h1 h2 => deep_le a n m h1 h2) args iha
    have key : ∀ k name, Plain name → M + 1 - parts name ≤ k → ∃ n, canonize us [] n (.tup name args) ≠ .deep := by
      intro k
      induction k with
      | zero =>
        intro s hs hk
        refine ⟨A + 1, ?_⟩
        rw [canonize]
        split
        · exact targs_deep hA
        · rw [pick_none (by simp)]
          refine loop_returns _ fun u hu hp => ?_
          have := hM u (mem_sortDesc.mp hu)
          omega
      | succ k ih =>
        intro s hs hk
        obtain ⟨n, hn⟩ := common_bound (fun n (u : ℤ × Str) => canonize us [] n (.tup (within u.2 s) args) ≠ .deep)
          (fun u n m h1 h2 => deep_le _ n m h1 h2) us fun u hu =>
            ih _ (within_plain (hus u hu) hs) (by have := parts_append u.2 s; rw [within_sep]; omega)
        refine ⟨max A n + 1, ?_⟩
        rw [canonize]
        split
        · exact targs_deep fun a ha => deep_le a A _ (le_max_left _ _) (hA a ha)
        · rw [pick_none (by simp)]
          exact loop_returns _ fun u hu _ => deep_le _ n _ (le_max_right _ _) (hn u (mem_sortDesc.mp hu))
    exact key _ name hname (le_refl _)

/-- `toolkit::X` where `cyclus` and `cyclus::toolkit` are used. -/
example : Plain ['c', 'y', 'c', 'l', 'u', 's', ':', ':', 't', 'o', 'o', 'l', 'k', 'i', 't'] ∧
    Plain ['t', 'o', 'o', 'l', 'k', 'i', 't', ':', ':', 'X'] := by
  unfold Plain
  decide +kernel

/-! ## Where the function differs from C++ -/

/-- `cyclus`, `toolkit::ResBuf`, `cyclus::toolkit::ResBuf`, `Product` -/
def nCyclus : Str := ['c', 'y', 'c', 'l', 'u', 's']
def nToolkitBuf : Str := ['t', 'o', 'o', 'l', 'k', 'i', 't', ':', ':', 'R', 'e', 's', 'B', 'u', 'f']
def nResBuf : Str := ['c', 'y', 'c', 'l', 'u', 's', ':', ':', 't', 'o', 'o', 'l', 'k', 'i', 't', ':', ':', 'R', 'e', 's', 'B', 'u', 'f']
def nProduct : Str := ['P', 'r', 'o', 'd', 'u', 'c', 't']

/-- With `using namespace cyclus;` the type `toolkit::ResBuf<T>` is `cyclus::toolkit::ResBuf<T>` in C++, but it is
rejected: a name is looked for only in namespaces with at least as many parts. -/
theorem C115_fails_qualified (args : List Ty) (n : ℕ) :
    within nCyclus nToolkitBuf ∈ templates ∧
      canonize [(0, nCyclus)] [] (n + 1) (.tup nToolkitBuf args) = .type := by
  refine ⟨by unfold templates; decide +kernel, ?_⟩
  rw [canonize, if_neg (by unfold templates; decide +kernel), pick_none (by simp)]
  refine loop_stops ?_ _ (by decide +kernel)
  intro u hu
  simp only [List.mem_cons, List.not_mem_nil, or_false] at hu
  subst hu
  decide +kernel

/-- The type of a variable of a class after a file, as text. -/
def typeAfter (is : List (CycppScan.Item ℕ)) (c v : Str) : Option Str :=
  match CycppScan.run (canonType 20) 20 (CycppScan.flat is) CycppScan.State.empty with
  | .error _ => none
  | .ok s =>
    match s.context.lookup c with
    | none => none
    | some k =>
      match k.vars.lookup v with
      | some (.var ty _ _) => some (text ty)
      | _ => none

/-- The file ends in a `TypeError`. -/
def typeError (is : List (CycppScan.Item ℕ)) : Bool :=
  match CycppScan.run (canonType 20) 20 (CycppScan.flat is) CycppScan.State.empty with
  | .error .type => true
  | _ => false

/-- `namespace cyclus { class Product {}; class F { var Product p; }; }`, with or without the qualification -/
def enclosingFile (q : Bool) : List (CycppScan.Item ℕ) :=
  [.ns nCyclus [.cls nProduct [] [],
    .cls ['F'] [] [.var ⟨none, 1⟩ (if q then within nCyclus nProduct else nProduct) ['p']]]]

/-- A type of the namespace around the class is rejected unless it is qualified. -/
theorem C115_fails_enclosing :
    typeError (enclosingFile false) = true ∧
      typeAfter (enclosingFile true) (within nCyclus ['F']) ['p'] = some (within nCyclus nProduct) := by
  decide +kernel

/-- `using namespace cyclus; namespace my { class Product {}; class F { var Product p; }; }` -/
def nearerFile : List (CycppScan.Item ℕ) :=
  [.usingNs nCyclus, .ns ['m', 'y'] [.cls nProduct [] [], .cls ['F'] [] [.var ⟨none, 1⟩ nProduct ['p']]]]

/-- A class `my::Product`, which is what the name means, is taken for `cyclus::Product`. -/
theorem C115_fails_nearer :
    typeAfter nearerFile (within ['m', 'y'] ['F']) ['p'] = some (within nCyclus nProduct) ∧
      ∀ s, CycppScan.run (canonType 20) 20 (CycppScan.flat nearerFile) CycppScan.State.empty = .ok s →
        CycppScan.Means (CycppScan.knows s.supers) [['m', 'y'], ['F']] nProduct (within ['m', 'y'] nProduct) := by
  refine ⟨by decide +kernel, fun s h => ?_⟩
  have hk := (CycppScan.C114_classes (canonType 20) 20 nearerFile h).1
  refine .inl ⟨1, by decide, by decide, by decide, (hk _).mpr (by decide +kernel), ?_⟩
  intro m h1 h2
  have : m = 2 := by simp at h2; omega
  subst this
  by_contra hc
  rw [Bool.not_eq_false] at hc
  exact absurd ((hk _).mp hc) (by decide +kernel)

/-- After `using ::foo;` the type `foo` is the alias of itself, and the calls never end. -/
theorem C115_fails_returns (us : List (ℤ × Str)) (n : ℕ) :
    canonize us [(0, [':', ':', 'f', 'o', 'o'], ['f', 'o', 'o'])] n (.str ['f', 'o', 'o']) = .deep ∧
      canonize us [(0, [':', ':', 'f', 'o', 'o'], ['f', 'o', 'o'])] n (.str [':', ':', 'f', 'o', 'o']) = .deep := by
  induction n with
  | zero => exact ⟨rfl, rfl⟩
  | succ n ih =>
    have e1 : norm ['f', 'o', 'o'] = ['f', 'o', 'o'] := by decide +kernel
    have e2 : norm [':', ':', 'f', 'o', 'o'] = ['f', 'o', 'o'] := by decide +kernel
    have hs : supported.contains ['f', 'o', 'o'] = false := by decide +kernel
    have hp : pick [(0, [':', ':', 'f', 'o', 'o'], ['f', 'o', 'o'])] ['f', 'o', 'o'] = some [':', ':', 'f', 'o', 'o'] := by
      decide +kernel
    constructor
    · rw [canonize, if_neg (by decide), e1, hs, if_neg (by decide), hp]
      exact ih.2
    · rw [canonize, if_neg (by decide), e2, hs, if_neg (by decide), hp]
      exact ih.2

/-- The alias comes from the statement `using ::foo;`. -/
example : CycppScan.lastPart [':', ':', 'f', 'o', 'o'] = some ['f', 'o', 'o'] := by decide

/-- The number of arguments is not looked at: `std::map<int>` and `std::vector<int,int>` are accepted. -/
theorem C115_fails_arity (us : List (ℤ × Str)) (al : List (ℤ × Str × Str)) (n : ℕ) :
    canonize us al (n + 3) (.str ['s', 't', 'd', ':', ':', 'm', 'a', 'p', '<', 'i', 'n', 't', '>']) = .ok (.tup nMap [.str nInt]) ∧
      canonize us al (n + 3) (.str ['s', 't', 'd', ':', ':', 'v', 'e', 'c', 't', 'o', 'r', '<', 'i', 'n', 't', ',', 'i', 'n', 't', '>']) = .ok (.tup nVector [.str nInt, .str nInt]) := by
  have hi : Canonical Template (.str nInt) := .leaf _ (by unfold supported; decide)
  constructor
  · refine C115_canonical us al _ ?_ ?_ _ (.inl ⟨_, _, rfl, by decide +kernel⟩) _ (by simp [depth, depths])
    · refine .tmpl _ _ (by unfold Template templates; decide) ?_
      intro a ha
      simp only [List.mem_cons, List.not_mem_nil, or_false] at ha
      subst ha
      exact hi
    · refine .tmpl _ _ (by simp) ?_
      intro a ha
      simp only [List.mem_cons, List.not_mem_nil, or_false] at ha
      subst ha
      exact .leaf _
  · refine C115_canonical us al _ ?_ ?_ _ (.inl ⟨_, _, rfl, by decide +kernel⟩) _ (by simp [depth, depths])
    · refine .tmpl _ _ (by unfold Template templates; decide) ?_
      intro a ha
      simp only [List.mem_cons, List.not_mem_nil, or_false, or_self] at ha
      subst ha
      exact hi
    · refine .tmpl _ _ (by simp) ?_
      intro a ha
      simp only [List.mem_cons, List.not_mem_nil, or_false, or_self] at ha
      subst ha
      exact .leaf _

/-- After `using foo::vector;` the type `vector<int>` is accepted as `foo::vector<int>`, which is no known
template. -/
theorem C115_fails_template_alias (us : List (ℤ × Str)) (n : ℕ) :
    canonize us [(0, ['f', 'o', 'o', ':', ':', 'v', 'e', 'c', 't', 'o', 'r'], ['v', 'e', 'c', 't', 'o', 'r'])] (n + 2) (.tup ['v', 'e', 'c', 't', 'o', 'r'] [.str nInt]) =
        .ok (.tup ['f', 'o', 'o', ':', ':', 'v', 'e', 'c', 't', 'o', 'r'] [.str nInt]) ∧
      ¬ Canonical Template (.tup ['f', 'o', 'o', ':', ':', 'v', 'e', 'c', 't', 'o', 'r'] [.str nInt]) := by
  constructor
  · rw [C115_alias_template us _ 0 ['f', 'o', 'o', ':', ':', 'v', 'e', 'c', 't', 'o', 'r'] ['v', 'e', 'c', 't', 'o', 'r'] (by unfold templates; decide +kernel) (by simp)
      (by intro x hx _ hne; simp only [List.mem_cons, List.not_mem_nil, or_false] at hx; exact absurd hx hne)]
    refine ⟨_, rfl, .cons (C115_fixed us _ _ (.leaf _ (by unfold supported; decide)) _ (by simp [depth])) .nil⟩
  · intro h
    cases h with
    | tmpl _ _ hm _ => exact absurd hm (by unfold Template templates; decide +kernel)

/-- After `namespace s = std;` the type `s::string` is rejected. -/
theorem C115_fails_namespace_alias (n : ℕ) :
    canonize [] [(0, ['s', 't', 'd'], ['s'])] (n + 1) (.str ['s', ':', ':', 's', 't', 'r', 'i', 'n', 'g']) = .type := by
  have hp : Plain ['s', ':', ':', 's', 't', 'r', 'i', 'n', 'g'] := by unfold Plain; decide +kernel
  rw [canonize, if_neg (by decide), norm_plain hp, if_neg (by unfold supported; decide +kernel),
    pick_none (by decide)]
  rfl

/-- White space around colons is removed inside of templates and kept outside of them: `std :: string` is
rejected and `std::vector<std :: string>` is not. -/
theorem C115_fails_colons (us : List (ℤ × Str)) (al : List (ℤ × Str × Str)) (n : ℕ) :
    canonize [] [] (n + 1) (.str ['s', 't', 'd', ' ', ':', ':', ' ', 's', 't', 'r', 'i', 'n', 'g']) = .type ∧
      canonize us al (n + 3) (.str ['s', 't', 'd', ':', ':', 'v', 'e', 'c', 't', 'o', 'r', '<', 's', 't', 'd', ' ', ':', ':', ' ', 's', 't', 'r', 'i', 'n', 'g', '>']) = .ok (.tup nVector [.str nString]) := by
  constructor
  · have e : norm ['s', 't', 'd', ' ', ':', ':', ' ', 's', 't', 'r', 'i', 'n', 'g'] = ['s', 't', 'd', ' ', ':', ':', ' ', 's', 't', 'r', 'i', 'n', 'g'] := by decide +kernel
    rw [canonize, if_neg (by decide), e, if_neg (by unfold supported; decide +kernel), pick_none (by simp)]
    rfl
  · have hc : Canonical Template (.tup nVector [.str nString]) := by
      refine .tmpl _ _ (by unfold Template templates; decide) ?_
      intro a ha
      simp only [List.mem_cons, List.not_mem_nil, or_false] at ha
      subst ha
      exact .leaf _ (by unfold supported; decide)
    refine C115_canonical us al _ hc ?_ _ (.inl ⟨_, _, rfl, by decide +kernel⟩) _ (by simp [depth, depths])
    refine .tmpl _ _ (by simp) ?_
    intro a ha
    simp only [List.mem_cons, List.not_mem_nil, or_false] at ha
    subst ha
    exact .leaf _

end Cyclus.CycppType
