import Verif.Lemmas.PyAgent

/-!
# C120: agents written in Python keep their state variables

Models `/repo/cyclus/agents.pyx`; see `Model/PyAgent.lean`.
-/

namespace Cyclus.PyAgent

open InfileGen (Str Ty Prim PyVal Val)

/-! ## A program for examples -/

/-- Class 1 is a subclass of class 0.  Both declare one state variable, class 0 also something else. -/
def demo : Program where
  mro
    | 1 => [1, 0]
    | c => [c]
  own
    | 0 => [(['k'], some 0), (['v', 'e', 'r'], none)]
    | 1 => [(['a'], some 1)]
    | _ => []
  ty v := if v = 0 then .prim .int else .seq .vector (.prim .string)
  value _ := .none
  dflt v := if v = 0 then .int 7 else .none

theorem demo_sane : Sane demo := by
  constructor
  · intro b
    match b with
    | 0 => decide
    | 1 => decide
    | n + 2 => exact List.nodup_nil
  · intro c
    match c with
    | 0 => exact ⟨[], rfl⟩
    | 1 => exact ⟨[0], rfl⟩
    | n + 2 => exact ⟨[], rfl⟩
  · intro c b hb
    match c with
    | 0 => simp [demo] at hb
    | 1 =>
      have : b = 0 := by simpa [demo] using hb
      subst this
      decide
    | n + 2 => simp [demo] at hb

/-- The names of the variables of the program. -/
def demoName (v : ℕ) : Str := if v = 0 then ['k'] else ['a']

theorem demo_name : OneName demo demoName := by
  intro b n v h
  match b with
  | 0 =>
    have : n = ['k'] ∧ v = 0 := by simpa [demo] using h
    rw [this.1, this.2]; rfl
  | 1 =>
    have : n = ['a'] ∧ v = 1 := by simpa [demo] using h
    rw [this.1, this.2]; rfl
  | m + 2 => simp [demo] at h

/-- Nothing was gathered; the variables are numbered as they were declared. -/
def demoWorld : World := ⟨fun v => v, fun _ => none, fun _ => none⟩

theorem demo_fresh : Fresh demoWorld := ⟨fun _ => rfl, fun _ => rfl⟩

/-- An agent of class 1 at work. -/
def demoAgent : Inst := ⟨1, [(['k'], 0, .int 9), (['a'], 1, .list [.str ['u']])]⟩

theorem demo_declares {n : Str} {v : ℕ} :
    Declares demo 1 n v ↔ (n = ['k'] ∧ v = 0) ∨ (n = ['a'] ∧ v = 1) := by
  rw [← mem_visible demo_sane, show demo.visible 1 = [(['a'], 1), (['k'], 0)] from by decide +kernel]
  simp only [List.mem_cons, Prod.mk.injEq, List.not_mem_nil, or_false]
  exact or_comm

theorem demo_whole : Whole demo demoAgent := by
  constructor
  · intro n v
    show _ ↔ Declares demo 1 n v
    rw [demo_declares]
    simp only [demoAgent, List.mem_cons, Prod.mk.injEq, List.not_mem_nil, or_false]
    constructor
    · rintro ⟨x, ⟨rfl, rfl, _⟩ | ⟨rfl, rfl, _⟩⟩
      · exact .inl ⟨rfl, rfl⟩
      · exact .inr ⟨rfl, rfl⟩
    · rintro (⟨rfl, rfl⟩ | ⟨rfl, rfl⟩)
      · exact ⟨_, .inl ⟨rfl, rfl, rfl⟩⟩
      · exact ⟨_, .inr ⟨rfl, rfl, rfl⟩⟩
  · decide

/-! ## Which variables an agent has -/

/-- An agent made before any of an ancestor of its class has exactly the state variables that its class
declares or inherits, each under one name. -/
theorem C120_class {P : Program} (hP : Sane P) {W : World} (hW : Fresh W) {l : List ℕ} {c : ℕ}
    (hl : ∀ b ∈ P.mro c, b ∉ l) : (create P c (run P W l)).2.cls = c ∧ Whole P (create P c (run P W l)).2 := by
  have h : lookupCache P c (ready P c (run P W l)) = some (sortByIndex (run P W l).index (P.visible c)) := by
    have := found hP hW hl []
    rwa [run_append] at this
  rw [create_snd h]
  have hp := sort_perm (run P W l).index (P.visible c)
  refine ⟨rfl, ?_, ?_⟩
  · intro n v
    rw [← mem_visible hP]
    simp only [List.mem_map, Prod.mk.injEq]
    constructor
    · rintro ⟨x, y, hy, rfl, rfl, rfl⟩
      exact hp.mem_iff.1 hy
    · intro hv
      exact ⟨_, (n, v), hp.mem_iff.2 hv, rfl, rfl, rfl⟩
  · rw [List.map_map]
    exact (hp.map Prod.fst).nodup_iff.2 (visible_names P c)

example : ∀ b ∈ demo.mro 1, b ∉ [5, 6] := by decide

example : Whole demo (create demo 1 (run demo demoWorld [5, 6])).2 :=
  (C120_class demo_sane demo_fresh (by decide)).2

/-- All later agents of the class start as the first one does. -/
theorem C120_same {P : Program} (hP : Sane P) {W : World} (hW : Fresh W) {l : List ℕ} {c : ℕ}
    (hl : ∀ b ∈ P.mro c, b ∉ l) (r : List ℕ) :
    (create P c (run P W (l ++ c :: r))).2 = (create P c (run P W l)).2 := by
  have h1 : lookupCache P c (ready P c (run P W l)) = some (sortByIndex (run P W l).index (P.visible c)) := by
    have := found hP hW hl []
    rwa [run_append] at this
  have h2 := found hP hW hl r
  rw [create_snd h1, create_snd (by rw [ready_some h2]; exact h2)]

example : (create demo 1 (run demo demoWorld ([5] ++ 1 :: [0, 1]))).2 =
    (create demo 1 (run demo demoWorld [5])).2 :=
  C120_same demo_sane demo_fresh (by decide) [0, 1]

/-- The variables come in the order in which they were declared, unless other classes with some of them came
before. -/
theorem C120_order {P : Program} (hP : Sane P) {W : World} (hW : Fresh W) {l : List ℕ} {c : ℕ}
    (hl : ∀ b ∈ P.mro c, b ∉ l)
    (hv : ∀ b ∈ l, ∀ n v, Declares P b n v → ∀ m, ¬ Declares P c m v) :
    (create P c (run P W l)).2.vars.Pairwise fun x y => W.index x.2.1 ≤ W.index y.2.1 := by
  have h : lookupCache P c (ready P c (run P W l)) = some (sortByIndex (run P W l).index (P.visible c)) := by
    have := found hP hW hl []
    rwa [run_append] at this
  have hix : ∀ (l : List ℕ) (W : World), (∀ b ∈ l, ∀ n v, Declares P b n v → ∀ m, ¬ Declares P c m v) →
      ∀ m v, Declares P c m v → (run P W l).index v = W.index v := by
    clear * - hP
    intro l
    induction l with
    | nil => intros; rfl
    | cons b l ih =>
      intro W hb m v hm
      rw [run_cons, ih _ (fun d hd => hb d (List.mem_cons_of_mem _ hd)) m v hm]
      rcases e : lookupCache P b W with _ | s
      · rw [ready_none e]
        apply renumber_of_not_mem
        intro hv
        obtain ⟨⟨n, v'⟩, hx, rfl⟩ := List.mem_map.1 hv
        exact hb b (List.mem_cons_self ..) n v' ((mem_visible hP).1 ((sort_perm _ _).mem_iff.1 hx)) m hm
      · rw [ready_some e]
  rw [create_snd h]
  rw [List.pairwise_map]
  refine (sort_pairwise (run P W l).index (P.visible c)).imp_of_mem ?_
  rintro ⟨n, v⟩ ⟨m, w⟩ hx hy hxy
  have h1 := hix l W hv n v ((mem_visible hP).1 ((sort_perm _ _).mem_iff.1 hx))
  have h2 := hix l W hv m w ((mem_visible hP).1 ((sort_perm _ _).mem_iff.1 hy))
  simp only at hxy ⊢
  rw [← h1, ← h2]
  exact hxy

example : ∀ b ∈ [5], ∀ n v, Declares demo b n v → ∀ m, ¬ Declares demo 1 m v := by
  intro b hb n v ⟨l, d, r, hd, _, h⟩
  simp only [List.mem_singleton] at hb
  subst hb
  have : d ∈ demo.mro 5 := by rw [hd]; simp
  simp only [show demo.mro 5 = [5] from rfl, List.mem_singleton] at this
  subst this
  exact absurd h (by simp [demo])

example : (create demo 1 demoWorld).2.vars.map (fun e => (e.1, e.2.1)) = [(['k'], 0), (['a'], 1)] := by
  decide +kernel

/-- Four classes: the first two declare a variable each, the third is a subclass of the second with one more,
the fourth a subclass of the first two. -/
def mixed : Program where
  mro
    | 2 => [2, 1]
    | 3 => [3, 0, 1]
    | c => [c]
  own
    | 0 => [(['z'], some 0)]
    | 1 => [(['n'], some 1)]
    | 2 => [(['e'], some 2)]
    | _ => []
  ty _ := .prim .int
  value _ := .none
  dflt _ := .none

/-- Otherwise they may not: gathering renumbers variables that other classes share. -/
theorem C120_fails_order :
    (create mixed 3 demoWorld).2.vars.map Prod.fst = [['z'], ['n']] ∧
      (create mixed 3 (run mixed demoWorld [2])).2.vars.map Prod.fst = [['n'], ['z']] := by
  decide +kernel

/-- A variable starts with the value that is given, or else the default, or else the value of its type. -/
theorem C120_starts (P : Program) (c : ℕ) (W : World) : ∀ e ∈ (create P c W).2.vars, Starts P e.2.1 e.2.2 := by
  intro e he
  obtain ⟨x, _, rfl⟩ := List.mem_map.1 he
  simp only [Starts, initial]
  rcases hv : P.value x.2 <;> rcases hd : P.dflt x.2 <;> simp

/-- The value of a type is zero or empty. -/
theorem C120_zero {t : Ty} (h1 : ∀ a b, t ≠ .pair a b) (h2 : t ≠ .prim .blob) (h3 : t ≠ .prim .uuid) :
    ∃ v, Zero t v ∧ PyInfile.Denotes t (newInst t) v := by
  rcases t with p | ⟨k, e⟩ | ⟨a, b⟩ | ⟨k, v⟩
  · cases p with
    | bool => exact ⟨_, rfl, false, rfl, rfl⟩
    | int => exact ⟨_, rfl, 0, rfl, by norm_num, by norm_num, rfl⟩
    | float => exact ⟨_, rfl, 0, .inl rfl, rfl⟩
    | double => exact ⟨_, rfl, 0, .inl rfl, rfl⟩
    | string => exact ⟨_, rfl, [], rfl, by simp, rfl⟩
    | blob => exact absurd rfl h2
    | uuid => exact absurd rfl h3
  · exact ⟨_, rfl, [], [], rfl, .nil, rfl⟩
  · exact absurd rfl (h1 a b)
  · exact ⟨_, rfl, [], [], rfl, .nil, rfl⟩

example : ∃ v, Zero (.map (.prim .int) (.prim .string)) v ∧
    PyInfile.Denotes (.map (.prim .int) (.prim .string)) (newInst (.map (.prim .int) (.prim .string))) v :=
  C120_zero (by intro a b h; cases h) (by decide) (by decide)

/-- For a pair it is a pair of nothing, which cannot be recorded. -/
theorem C120_fails_pair (b : Ty) :
    PyInfile.toCpp (.pair (.prim .int) b) (newInst (.pair (.prim .int) b)) = .error .type := by
  simp only [newInst, PyInfile.toCpp]
  rfl

/-! ## Reading, writing, copying -/

/-- In the worlds after the first agent of the class, whole agents agree with the names. -/
theorem linked {P : Program} (hP : Sane P) {nm : ℕ → Str} (h1 : OneName P nm) {W : World} (hW : Fresh W)
    {l : List ℕ} {a : Inst} (hl : ∀ b ∈ P.mro a.cls, b ∉ l) (r : List ℕ) (ha : Whole P a) :
    Linked P (run P W (l ++ a.cls :: r)) a := by
  have hc : (run P W (l ++ a.cls :: r)).cache a.cls =
      some (sortByIndex (run P W l).index (P.visible a.cls)) := by
    rw [run_append, run_cons]
    apply run_keeps hP
    rw [ready_none (nothing hP hW hl), gather_self]
  exact ha.linked hP h1 (run_invName hP h1 _ hW.invName) hc (sort_perm _ _)

/-- An attribute that was set reads as what was set, and the other ones as before. -/
theorem C120_set {P : Program} (hP : Sane P) {nm : ℕ → Str} (h1 : OneName P nm) {W : World} (hW : Fresh W)
    {l : List ℕ} {a : Inst} (hl : ∀ b ∈ P.mro a.cls, b ∉ l) (r : List ℕ) (ha : Whole P a) {n : Str} {v : ℕ}
    (hn : Declares P a.cls n v) (x : PyVal) :
    ∃ a', set P (run P W (l ++ a.cls :: r)) a n x = .ok a' ∧ a'.cls = a.cls ∧ Whole P a' ∧
      get P (run P W (l ++ a.cls :: r)) a' n = .ok x ∧
      ∀ m w, Declares P a.cls m w → m ≠ n →
        get P (run P W (l ++ a.cls :: r)) a' m = get P (run P W (l ++ a.cls :: r)) a m := by
  have hL := linked hP h1 hW hl r ha
  obtain ⟨y, hy⟩ := (ha.vars n v).2 hn
  have hset := hL.set hy x
  refine ⟨_, hset, rfl, ⟨?_, ?_⟩, ?_, ?_⟩
  · intro m w
    show _ ↔ Declares P a.cls m w
    rw [← ha.vars m w]
    simp only [Inst.put, List.mem_map, Prod.mk.injEq]
    constructor
    · rintro ⟨z, e, he, rfl, rfl, _⟩
      exact ⟨e.2.2, he⟩
    · rintro ⟨z, hz⟩
      exact ⟨_, _, hz, rfl, rfl, rfl⟩
  · rw [put_names]; exact ha.names
  · have := (hL.put fun y => if y.1 = n then x else y.2.2).get (e := (n, v, x))
      (List.mem_map.2 ⟨(n, v, y), hy, by simp⟩)
    exact this
  · intro m w hm hmn
    obtain ⟨z, hz⟩ := (ha.vars m w).2 hm
    have h2 := (hL.put fun y => if y.1 = n then x else y.2.2).get (e := (m, w, z))
      (List.mem_map.2 ⟨(m, w, z), hz, by simp [hmn]⟩)
    exact h2.trans (hL.get hz).symm

example : ∃ a', set demo (run demo demoWorld ([5] ++ 1 :: [0])) demoAgent ['k'] (.int 3) = .ok a' ∧
    get demo (run demo demoWorld ([5] ++ 1 :: [0])) a' ['k'] = .ok (.int 3) := by
  obtain ⟨a', h1, _, _, h2, _⟩ := C120_set demo_sane demo_name demo_fresh (l := [5]) (a := demoAgent)
    (by decide) [0] demo_whole (demo_declares.2 (.inl ⟨rfl, rfl⟩)) (.int 3)
  exact ⟨a', h1, h2⟩

/-- A clone has the variables of the original with the same values. -/
theorem C120_clone {P : Program} (hP : Sane P) {nm : ℕ → Str} (h1 : OneName P nm) {W : World} (hW : Fresh W)
    {l : List ℕ} {a : Inst} (hl : ∀ b ∈ P.mro a.cls, b ∉ l) (r : List ℕ) (ha : Whole P a) :
    ∃ a', (clone P (run P W (l ++ a.cls :: r)) a).2 = .ok a' ∧ a'.cls = a.cls ∧ Whole P a' ∧
      a'.vars.Perm a.vars := by
  obtain ⟨hb1, hb2⟩ := C120_class hP hW hl
  rw [← C120_same hP hW hl r] at hb1 hb2
  have hready : (create P a.cls (run P W (l ++ a.cls :: r))).1 = run P W (l ++ a.cls :: r) :=
    ready_some (found hP hW hl r)
  have hclone : (clone P (run P W (l ++ a.cls :: r)) a).2 =
      initFromAgent P (run P W (l ++ a.cls :: r)) (create P a.cls (run P W (l ++ a.cls :: r))).2 a := by
    show initFromAgent P (create P a.cls (run P W (l ++ a.cls :: r))).1 _ _ = _
    rw [hready]
  rw [hclone]
  generalize (create P a.cls (run P W (l ++ a.cls :: r))).2 = b at hb1 hb2
  have hLa := linked hP h1 hW hl r ha
  have hLb : Linked P (run P W (l ++ a.cls :: r)) b := by
    have := linked hP h1 hW (l := l) (a := b) (by rw [hb1]; exact hl) r hb2
    rwa [hb1] at this
  have hmem : ∀ n v, (∃ x, (n, v, x) ∈ b.vars) ↔ ∃ x, (n, v, x) ∈ a.vars := by
    intro n v
    rw [hb2.vars, ha.vars, hb1]
  have hget : ∀ n v x, (n, v, x) ∈ a.vars → getOr P (run P W (l ++ a.cls :: r)) a n = .ok x ∧
      ((a.find n).getD .none) = x := by
    intro n v x hx
    constructor
    · unfold getOr
      rw [hLa.get hx]
    · have := find_mem ha.names hx
      simp only at this
      rw [this]; rfl
  have hass := assignAll_all (g := fun n => (a.find n).getD .none)
    (val := getOr P (run P W (l ++ a.cls :: r)) a) hLb (by
      rintro ⟨n, v, x⟩ he
      obtain ⟨y, hy⟩ := (hmem n v).1 ⟨x, he⟩
      rw [(hget n v y hy).1, (hget n v y hy).2])
  refine ⟨_, hass, hb1, ⟨?_, ?_⟩, ?_⟩
  · intro n v
    show _ ↔ Declares P b.cls n v
    rw [← hb2.vars n v]
    simp only [Inst.put, List.mem_map, Prod.mk.injEq]
    constructor
    · rintro ⟨z, e, he, rfl, rfl, _⟩
      exact ⟨e.2.2, he⟩
    · rintro ⟨z, hz⟩
      exact ⟨_, _, hz, rfl, rfl, rfl⟩
  · rw [put_names]; exact hb2.names
  · have hnd : ∀ {vs : List (Str × ℕ × PyVal)}, (vs.map Prod.fst).Nodup → vs.Nodup := fun h => h.of_map _
    rw [List.perm_ext_iff_of_nodup (hnd (by rw [put_names]; exact hb2.names)) (hnd ha.names)]
    rintro ⟨n, v, x⟩
    simp only [Inst.put, List.mem_map, Prod.mk.injEq]
    constructor
    · rintro ⟨⟨n', v', y⟩, he, rfl, rfl, rfl⟩
      obtain ⟨z, hz⟩ := (hmem n' v').1 ⟨y, he⟩
      simp only
      rw [(hget n' v' z hz).2]
      exact hz
    · intro hx
      obtain ⟨y, hy⟩ := (hmem n v).2 ⟨x, hx⟩
      exact ⟨_, hy, rfl, rfl, (hget n v x hx).2⟩

example : ∃ a', (clone demo (run demo demoWorld ([5] ++ 1 :: [0])) demoAgent).2 = .ok a' ∧
    a'.vars.Perm demoAgent.vars := by
  obtain ⟨a', h1, _, _, h2⟩ := C120_clone demo_sane demo_name demo_fresh (l := [5]) (a := demoAgent)
    (by decide) [0] demo_whole
  exact ⟨a', h1, h2⟩

/-! ## Snapshot and restart -/

/-- What a snapshot records: for each variable of the class one column, of its type, with what the value of
the variable converts to. -/
theorem C120_snapshot {P : Program} {a : Inst} (ha : Whole P a) {row : List Cell}
    (hr : snapshot P a = .ok row) :
    (row.map Prod.fst).Nodup ∧
      ∀ n t w, (n, t, w) ∈ row ↔ ∃ v x, (n, v, x) ∈ a.vars ∧ t = P.ty v ∧ PyInfile.toCpp t x = .ok w := by
  have hf := each_forall.1 (snapshot_ok.1 hr)
  clear hr
  have hn := ha.names
  clear ha
  generalize a.vars = vs at hf hn
  have hnames : row.map Prod.fst = vs.map Prod.fst := by
    clear hn
    induction hf with
    | nil => rfl
    | cons h _ ih => simp [ih, (cell_ok.1 h).1]
  refine ⟨hnames ▸ hn, ?_⟩
  clear hnames hn
  intro n t w
  induction hf with
  | nil => simp
  | @cons e y vs row h _ ih =>
    obtain ⟨h1, h2, h3⟩ := cell_ok.1 h
    rw [List.mem_cons, ih]
    constructor
    · rintro (rfl | ⟨v, x, hx, h⟩)
      · simp only at h1 h2 h3
        subst h1 h2
        exact ⟨e.2.1, e.2.2, by simp, rfl, h3⟩
      · exact ⟨v, x, List.mem_cons_of_mem _ hx, h⟩
    · rintro ⟨v, x, hx, rfl, hw⟩
      rcases List.mem_cons.1 hx with rfl | hx
      · left
        simp only at h1 h2 h3 hw
        rw [h3] at hw
        obtain ⟨y1, y2, y3⟩ := y
        simp only at h1 h2 hw
        cases hw
        rw [h1, h2]
      · exact .inr ⟨v, x, hx, rfl, hw⟩

/-- The row of the agent at work. -/
def demoRow : List Cell :=
  [(['k'], .prim .int, .int 9), (['a'], .seq .vector (.prim .string), .seq [.str ['u']])]

theorem demo_snapshot : snapshot demo demoAgent = .ok demoRow := by
  rw [snapshot_ok, each_forall]
  refine .cons (cell_ok.2 ⟨rfl, rfl, ?_⟩) (.cons (cell_ok.2 ⟨rfl, rfl, ?_⟩) .nil)
  · show PyInfile.toCpp (.prim .int) (.int 9) = .ok (.int 9)
    simp [PyInfile.toCpp, PyInfile.toPrim, PyInfile.toInt, Except.map]
  · show PyInfile.toCpp (.seq .vector (.prim .string)) (.list [.str ['u']]) = .ok (.seq [.str ['u']])
    simp only [PyInfile.toCpp]
    rfl

/-- An agent that is started again from its snapshot, in whatever program run, has the variables of its class
with the values of the snapshot, and its own snapshot is the same. -/
theorem C120_restart {P : Program} (hP : Sane P) {nm : ℕ → Str} (h1 : OneName P nm) {W : World} (hW : Fresh W)
    {l : List ℕ} {a : Inst} (hl : ∀ b ∈ P.mro a.cls, b ∉ l) (r : List ℕ) (ha : Whole P a) {row : List Cell}
    (hr : snapshot P a = .ok row) :
    ∃ b, initFrom P (run P W (l ++ a.cls :: r)) (create P a.cls (run P W (l ++ a.cls :: r))).2 row = .ok b ∧
      b.cls = a.cls ∧ Whole P b ∧
      (∀ n t w, (n, t, w) ∈ row → get P (run P W (l ++ a.cls :: r)) b n = .ok (toPy w)) ∧
      ∃ row', snapshot P b = .ok row' ∧ row'.Perm row := by
  obtain ⟨hb1, hb2⟩ := C120_class hP hW hl
  rw [← C120_same hP hW hl r] at hb1 hb2
  generalize (create P a.cls (run P W (l ++ a.cls :: r))).2 = b at hb1 hb2
  have hLb : Linked P (run P W (l ++ a.cls :: r)) b := by
    have := linked hP h1 hW (l := l) (a := b) (by rw [hb1]; exact hl) r hb2
    rwa [hb1] at this
  obtain ⟨hnd, hrow⟩ := C120_snapshot ha hr
  have hsnap := each_forall.1 (snapshot_ok.1 hr)
  have hd : singleResult (row.map Prod.fst) [row.map fun x => x.2.2] 0 =
      .ok (row.map fun x => (x.1, toPy x.2.2)) := by
    simp only [singleResult, List.length_cons, List.length_nil, List.getElem?_cons_zero]
    rw [if_neg (by omega)]
    congr 1
    clear * -
    induction row with
    | nil => rfl
    | cons x row ih => simpa using ih
  have hlook : ∀ n t w, (n, t, w) ∈ row → (row.map fun x => (x.1, toPy x.2.2)).lookup n = some (toPy w) := by
    intro n t w hw
    apply lookup_of_mem
    · rw [List.map_map]; exact hnd
    · exact List.mem_map.2 ⟨_, hw, rfl⟩
  have hcol : ∀ n v x, (n, v, x) ∈ b.vars → ∃ w, (n, P.ty v, w) ∈ row ∧
      ∃ y, PyInfile.toCpp (P.ty v) y = .ok w := by
    intro n v x hx
    obtain ⟨y, hy⟩ := (ha.vars n v).2 (by rw [← hb1]; exact (hb2.vars n v).1 ⟨x, hx⟩)
    have : ∃ c ∈ row, cell P (n, v, y) = .ok c := by
      clear * - hsnap hy
      generalize a.vars = vs at hsnap hy
      induction hsnap with
      | nil => simp at hy
      | @cons e c vs row h _ ih =>
        rcases List.mem_cons.1 hy with rfl | hy
        · exact ⟨c, by simp, h⟩
        · obtain ⟨c, hc, h⟩ := ih hy
          exact ⟨c, List.mem_cons_of_mem _ hc, h⟩
    obtain ⟨⟨n', t', w⟩, hc, h⟩ := this
    obtain ⟨e1, e2, e3⟩ := cell_ok.1 h
    simp only at e1 e2 e3
    subst e1 e2
    exact ⟨w, hc, y, e3⟩
  have hass := assignAll_all
    (val := fun n => match (row.map fun x => (x.1, toPy x.2.2)).lookup n with
      | some x => .ok x
      | none => .error .key)
    (g := fun n => ((row.map fun x => (x.1, toPy x.2.2)).lookup n).getD .none) hLb (by
      rintro ⟨n, v, x⟩ he
      obtain ⟨w, hw, _⟩ := hcol n v x he
      simp only
      rw [hlook n _ w hw]
      rfl)
  have hget : ∀ n v x, (n, v, x) ∈ b.vars → ∀ w, (n, P.ty v, w) ∈ row →
      (n, v, toPy w) ∈ (b.put fun e => ((row.map fun x => (x.1, toPy x.2.2)).lookup e.1).getD .none).vars := by
    intro n v x hx w hw
    refine List.mem_map.2 ⟨_, hx, ?_⟩
    simp only
    rw [hlook n _ w hw]
    rfl
  have hW' : Whole P (b.put fun e => ((row.map fun x => (x.1, toPy x.2.2)).lookup e.1).getD .none) := by
    constructor
    · intro n v
      show _ ↔ Declares P b.cls n v
      rw [← hb2.vars n v]
      simp only [Inst.put, List.mem_map, Prod.mk.injEq]
      constructor
      · rintro ⟨z, e, he, rfl, rfl, _⟩
        exact ⟨e.2.2, he⟩
      · rintro ⟨z, hz⟩
        exact ⟨_, _, hz, rfl, rfl, rfl⟩
    · rw [put_names]; exact hb2.names
  refine ⟨b.put fun e => ((row.map fun x => (x.1, toPy x.2.2)).lookup e.1).getD .none, ?_, hb1, hW', ?_, ?_⟩
  · unfold initFrom initFromDict
    rw [hd]
    exact hass
  · intro n t w hw
    obtain ⟨v, x, hx, rfl, _⟩ := (hrow n t w).1 hw
    obtain ⟨y, hy⟩ := (hb2.vars n v).2 (by rw [hb1]; exact (ha.vars n v).1 ⟨x, hx⟩)
    exact (hLb.put _).get (hget n v y hy w hw)
  · have hcell : ∀ e ∈ (b.put fun e => ((row.map fun x => (x.1, toPy x.2.2)).lookup e.1).getD .none).vars,
        ∃ c ∈ row, cell P e = .ok c := by
      rintro ⟨n, v, z⟩ he
      obtain ⟨⟨n', v', x⟩, hx, e⟩ := List.mem_map.1 he
      simp only [Prod.mk.injEq] at e
      obtain ⟨rfl, rfl, rfl⟩ := e
      obtain ⟨w, hw, y, hy⟩ := hcol n' v' x hx
      refine ⟨(n', P.ty v', w), hw, cell_ok.2 ⟨rfl, rfl, ?_⟩⟩
      simp only
      rw [hlook n' _ w hw]
      exact toCpp_toPy _ _ _ hy
    have hex : ∀ {vs : List (Str × ℕ × PyVal)}, (∀ e ∈ vs, ∃ c ∈ row, cell P e = .ok c) →
        ∃ row', PyInfile.each (cell P) vs = .ok row' ∧ (∀ c ∈ row', c ∈ row) := by
      clear * -
      intro vs
      induction vs with
      | nil => intro _; exact ⟨[], rfl, by simp⟩
      | cons e vs ih =>
        intro h
        obtain ⟨row', h1, h2⟩ := ih fun e he => h e (List.mem_cons_of_mem _ he)
        obtain ⟨c, hc, h3⟩ := h e (by simp)
        refine ⟨c :: row', each_forall.2 (.cons h3 (each_forall.1 h1)), ?_⟩
        intro d hd
        rcases List.mem_cons.1 hd with rfl | hd
        · exact hc
        · exact h2 d hd
    obtain ⟨row', hrow', hsub⟩ := hex hcell
    have hr' := snapshot_ok.2 hrow'
    refine ⟨row', hr', ?_⟩
    obtain ⟨hnd', hrow''⟩ := C120_snapshot hW' hr'
    rw [List.perm_ext_iff_of_nodup (hnd'.of_map _) (hnd.of_map _)]
    rintro ⟨n, t, w⟩
    refine ⟨hsub _, fun hw => ?_⟩
    obtain ⟨v, x, hx, rfl, hx'⟩ := (hrow n t w).1 hw
    obtain ⟨y, hy⟩ := (hb2.vars n v).2 (by rw [hb1]; exact (ha.vars n v).1 ⟨x, hx⟩)
    exact (hrow'' n _ w).2 ⟨v, toPy w, hget n v y hy w hw, rfl, toCpp_toPy _ _ _ hx'⟩

example : ∃ b, initFrom demo (run demo demoWorld ([] ++ 1 :: []))
    (create demo 1 (run demo demoWorld ([] ++ 1 :: []))).2 demoRow = .ok b ∧
    get demo (run demo demoWorld ([] ++ 1 :: [])) b ['k'] = .ok (.int 9) := by
  obtain ⟨b, h1, _, _, h2, _⟩ := C120_restart demo_sane demo_name demo_fresh (l := []) (a := demoAgent)
    (by decide) [] demo_whole demo_snapshot
  exact ⟨b, h1, h2 ['k'] (.prim .int) (.int 9) (by simp [demoRow])⟩

/-! ## What goes wrong -/

/-- A class of which no agent was made, but of one of whose ancestors: its agents get the variables of an
ancestor only. -/
theorem C120_fails_subclass {P : Program} (hP : Sane P) {W : World} (hW : Fresh W) {cs : List ℕ} {c b : ℕ}
    (hb : b ∈ (P.mro c).tail) (hbc : b ∈ cs) (hc : c ∉ cs) :
    ∃ d ∈ (P.mro c).tail, ∀ n v, (∃ x, (n, v, x) ∈ (create P c (run P W cs)).2.vars) ↔ Declares P d n v := by
  have hi := run_inv hP hW cs
  obtain ⟨r, hr⟩ := hP.self c
  obtain ⟨d, hd, s, hs⟩ := hi.done b hbc
  have hsome : ∃ t, lookupCache P c (run P W cs) = some t := by
    rcases e : lookupCache P c (run P W cs) with _ | t
    · have := lookupCache_none.1 e d (List.mem_of_mem_tail (hP.linear c b hb d hd))
      rw [hs] at this
      cases this
    · exact ⟨t, rfl⟩
  obtain ⟨t, ht⟩ := hsome
  obtain ⟨d', hd', ht'⟩ := lookupCache_some ht
  obtain ⟨hcs, hp⟩ := hi.cached d' t ht'
  have htail : d' ∈ (P.mro c).tail := by
    rw [hr] at hd' ⊢
    rcases List.mem_cons.1 hd' with rfl | h
    · exact absurd hcs hc
    · exact h
  refine ⟨d', htail, ?_⟩
  intro n v
  rw [create_snd (by rw [ready_some ht]; exact ht), ← mem_visible hP, ← hp.mem_iff]
  simp only [List.mem_map, Prod.mk.injEq]
  constructor
  · rintro ⟨x, y, hy, rfl, rfl, rfl⟩
    exact hy
  · intro hv
    exact ⟨_, (n, v), hv, rfl, rfl, rfl⟩

/-- Copying takes `None` only for attributes that the other agent does not have; any other error of
reading it ends the copy. -/
theorem C120_copied (P : Program) (W : World) (a : Inst) (n : Str) (r : Except Fault PyVal) :
    getOr P W a n = r ↔ (get P W a n ≠ .error .attr ∧ get P W a n = r) ∨
      (get P W a n = .error .attr ∧ r = .ok .none) := by
  unfold getOr
  rcases h : get P W a n with e | x
  · cases e <;> simp [eq_comm]
  · simp

/-- Reading a variable that such a class declares itself is then an error. -/
theorem C120_fails_own {P : Program} (hP : Sane P) {nm : ℕ → Str} (h1 : OneName P nm) {W : World} (hW : Fresh W)
    {cs : List ℕ} {c b : ℕ} (hb : b ∈ (P.mro c).tail) (hbc : b ∈ cs) (hc : c ∉ cs) {n : Str} {v : ℕ}
    (hn : (n, some v) ∈ P.own c) (ha : ∀ d ∈ (P.mro c).tail, ∀ x ∈ P.own d, x.1 ≠ n) :
    get P (create P c (run P W cs)).1 (create P c (run P W cs)).2 n = .error .key := by
  obtain ⟨d, hd, hvars⟩ := C120_fails_subclass hP hW hb hbc hc
  have hcls : (create P c (run P W cs)).2.cls = c := rfl
  have hdecl : P.getattr c n = some (some v) := by
    rw [getattr_iff hP]
    obtain ⟨r, hr⟩ := hP.self c
    exact ⟨[], c, r, by simp [hr], by simp, hn⟩
  have hi := (run_invName hP h1 cs (hW.invName (P := P))).ready hP h1 c
  unfold get
  rw [hcls, hdecl]
  simp only
  have hnone : ((create P c (run P W cs)).1.label v).bind (create P c (run P W cs)).2.find = none := by
    rcases hl : (create P c (run P W cs)).1.label v with _ | m
    · rfl
    · have hm : m = nm v := hi.label v m hl
      rw [h1 c n v hn |>.symm] at hm
      subst hm
      simp only [Option.bind_some, Inst.find, Option.map_eq_none_iff]
      rw [lookup_none]
      rintro ⟨m', w, x⟩ hx rfl
      obtain ⟨l, d', r, hd', _, ho⟩ := (hvars m' w).1 ⟨x, hx⟩
      have hmem : d' ∈ (P.mro c).tail := hP.linear c d hd d' (by simp [hd'])
      exact ha d' hmem _ ho rfl
  rw [hnone]

/-- In the program of the examples, an agent of class 1 has a variable of its own before any agent of class 0
is made, and not afterwards. -/
theorem C120_fails_own_witness :
    get demo (create demo 1 demoWorld).1 (create demo 1 demoWorld).2 ['a'] = .ok (.list []) ∧
    get demo (create demo 1 (run demo demoWorld [0])).1 (create demo 1 (run demo demoWorld [0])).2 ['a'] =
      .error .key := by
  refine ⟨?_, C120_fails_own demo_sane demo_name demo_fresh (b := 0) (by decide) (by decide) (by decide)
    (n := ['a']) (v := 1) (by simp [demo]) ?_⟩
  · rfl
  · intro d hd x hx
    have : d = 0 := by simpa [demo] using hd
    subst this
    have : x = (['k'], some 0) ∨ x = (['v', 'e', 'r'], none) := by simpa [demo] using hx
    rcases this with rfl | rfl <;> decide

/-- The annotations of a class with state variables cannot be had. -/
theorem C120_fails_annotations (x : Str × ℕ) (l : List (Str × ℕ)) :
    annotations (dictKeys.map String.toList) (x :: l) = .error .value := by
  rw [show annotations (dictKeys.map String.toList) (x :: l) = (unpack (dictKeys.map String.toList)).bind
    fun r => (annotations (dictKeys.map String.toList) l).bind fun rs => .ok ((x.1, r) :: rs) from rfl]
  have : unpack (dictKeys.map String.toList) = .error .value := by
    unfold dictKeys
    rw [List.map_cons, show "value".toList = ['v', 'a', 'l', 'u', 'e'] from by decide]
    rfl
  rw [this]
  rfl

/-- A table without rows is read beyond its end. -/
theorem C120_fails_rows {fields : List Str} (h : fields ≠ []) : singleResult fields [] 0 = .error .ub := by
  simp [singleResult, h]

end Cyclus.PyAgent
