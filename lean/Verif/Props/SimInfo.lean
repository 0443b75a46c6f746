import Verif.Model.SimInfo
import Verif.Props.Random
import Mathlib.Data.Nat.Digits.Defs
import Mathlib.Tactic.NormNum
import Mathlib.Tactic.IntervalCases

/-!
# C95: the general information about a simulation survives recording, loading and restarts
-/

namespace Cyclus.Info

variable {σ : Type}

/-- The 64 bit numbers that an `int` can stand for. -/
def Fits (n : ℕ) : Prop := n < 2 ^ 31 ∨ (2 ^ 64 - 2 ^ 31 ≤ n ∧ n < 2 ^ 64)

/-- The numbers of the information fit. -/
structure InfoFits (si : Info) : Prop where
  dt : Fits si.dt
  seed : Fits si.seed
  stride : Fits si.stride

/-- A chain of restarts, each in a new process from the rows of the one before: the id of the
simulation, the time step, and the state of the generator at the start of the process. -/
def restarts (b : Random.Boost σ) (junk : ℚ × ℚ) : List (ℕ × ℤ × σ) → Proc σ → Option (Proc σ)
  | [], p => some p
  | r :: rs, p =>
    match restart b junk p.rows r.1 r.2.1 (start r.2.2) with
    | (q, .ok _) => restarts b junk rs q
    | (_, .error _) => none

theorem castU64_castInt (n : ℕ) (h : n < 2 ^ 64) : castU64 (castInt n) = n ↔ Fits n := by
  unfold castU64 castInt Random.toInt32 Fits
  norm_num at h ⊢
  split <;> omega

theorem castU64_low (n : ℕ) : castU64 (castInt n) % 2 ^ 32 = n % 2 ^ 32 := by
  unfold castU64 castInt Random.toInt32
  norm_num
  split <;> omega

theorem Fits.lt {n : ℕ} (h : Fits n) : n < 2 ^ 64 := by
  unfold Fits at h; norm_num at h ⊢; omega

theorem Fits.cast {n : ℕ} (h : Fits n) : castU64 (castInt n) = n := (castU64_castInt n h.lt).mpr h

theorem castU64_fits (z : ℤ) (h0 : -2 ^ 31 ≤ z) (h1 : z < 2 ^ 31) : Fits (castU64 z) := by
  unfold castU64 Fits
  norm_num at h0 h1 ⊢
  omega

theorem readInfo_record (junk : ℚ × ℚ) (si : Info) :
    readInfo junk (record si Rows.empty) = .ok { si with
      parentType := "init"
      branchTime := -1
      dt := castU64 (castInt si.dt)
      seed := castU64 (castInt si.seed)
      stride := castU64 (castInt si.stride) } := rfl

theorem initSim_ok (b : Random.Boost σ) (si : Info) (p : Proc σ) (h0 : 1 ≤ si.m0) (h1 : si.m0 ≤ 12) :
    initSim b si p = ({ p with
      ctx := some si
      timer := some si
      time := if si.branchTime > -1 then si.branchTime else 0
      gen := b.seed (si.seed % 2 ^ 32)
      rows := record si p.rows }, .ok ()) := by
  unfold initSim timerInit
  rw [if_neg (by omega)]
  rfl

/-- C95 (recording and loading).  Whatever the information is: what `LoadInfo` reads from the rows of
`InitSim` agrees with it in the label, the decay mode, the duration, the start, the parent simulation,
the tolerances and the choice of inventory tables; it agrees in the length of a time step, the seed
and the stride exactly if these fit an `int`, and always in their lower 32 bits, so that the generator
is in the same state.  With no rows it throws a `StateError`.  The full statement asks for the same
information; the kind of the simulation and the branch time are not restored. -/
theorem C95_load_partial (b : Random.Boost σ) (junk : ℚ × ℚ) (si : Info) (h1 : si.dt < 2 ^ 64)
    (h2 : si.seed < 2 ^ 64) (h3 : si.stride < 2 ^ 64) :
    (∃ si', readInfo junk (record si Rows.empty) = .ok si' ∧
      si'.handle = si.handle ∧ si'.decay = si.decay ∧ si'.duration = si.duration ∧
      si'.y0 = si.y0 ∧ si'.m0 = si.m0 ∧ si'.parentSim = si.parentSim ∧ si'.eps = si.eps ∧
      si'.epsRsrc = si.epsRsrc ∧ si'.inv = si.inv ∧ si'.invCompact = si.invCompact ∧
      (si'.dt = si.dt ↔ Fits si.dt) ∧ (si'.seed = si.seed ↔ Fits si.seed) ∧
      (si'.stride = si.stride ↔ Fits si.stride) ∧
      (∀ s s', Random.initGen b si'.seed s = Random.initGen b si.seed s') ∧
      (si' = si ↔ InfoFits si ∧ si.parentType = "init" ∧ si.branchTime = -1)) ∧
    (∀ r : Rows, readInfo junk r = .error .state ↔
      r.info = [] ∨ r.decay = [] ∨ r.dt = [] ∨ r.eps = [] ∨ r.inv = []) := by
  constructor
  · refine ⟨_, readInfo_record junk si, rfl, rfl, rfl, rfl, rfl, rfl, rfl, rfl, rfl, rfl,
      castU64_castInt _ h1, castU64_castInt _ h2, castU64_castInt _ h3, ?_, ?_⟩
    · intro s s'
      simp only [Random.initGen]
      rw [castU64_low]
    · constructor
      · intro h
        refine ⟨⟨(castU64_castInt _ h1).mp (congrArg Info.dt h),
          (castU64_castInt _ h2).mp (congrArg Info.seed h),
          (castU64_castInt _ h3).mp (congrArg Info.stride h)⟩,
          (congrArg Info.parentType h).symm, (congrArg Info.branchTime h).symm⟩
      · rintro ⟨hf, h4, h5⟩
        rw [hf.dt.cast, hf.seed.cast, hf.stride.cast, ← h4, ← h5]
  · intro r
    obtain ⟨i, d, v, t, e⟩ := r
    cases i <;> cases d <;> cases v <;> cases t <;> cases e <;> simp [readInfo, first]

/-- A case of `C95_load_partial`: everything is set, the seed came from the number -1. -/
example : InfoFits (⟨"run", "never", 24, 2015, 3, 7, "restart", 5, 86400, 1 / 1000, 1 / 100, true,
    false, 2 ^ 64 - 1, 10⟩ : Info) :=
  ⟨Or.inl (by norm_num), Or.inr (by norm_num), Or.inl (by norm_num)⟩

/-- C95 (months).  `InitSim` accepts exactly the months 1 to 12, and then the context and the timer
hold the information, the clock is at the branch time or at 0, and the generator is seeded. -/
theorem C95_initialise (b : Random.Boost σ) (si : Info) (p : Proc σ) :
    ((initSim b si p).2 = .ok () ↔ 1 ≤ si.m0 ∧ si.m0 ≤ 12) ∧
    ((initSim b si p).2 = .error .value ↔ ¬ (1 ≤ si.m0 ∧ si.m0 ≤ 12)) ∧
    (1 ≤ si.m0 ∧ si.m0 ≤ 12 →
      (initSim b si p).1.ctx = some si ∧ (initSim b si p).1.timer = some si ∧
      (0 ≤ si.branchTime → (initSim b si p).1.time = si.branchTime) ∧
      (si.branchTime < 0 → (initSim b si p).1.time = 0) ∧
      (initSim b si p).1.gen = b.seed (si.seed % 2 ^ 32) ∧
      (initSim b si p).1.cyEps = p.cyEps ∧ (initSim b si p).1.cyEpsRsrc = p.cyEpsRsrc) := by
  by_cases h : 1 ≤ si.m0 ∧ si.m0 ≤ 12
  · rw [initSim_ok b si p h.1 h.2]
    refine ⟨by simp [h], by simp [h], fun _ => ⟨rfl, rfl, fun hb => ?_, fun hb => ?_, rfl, rfl, rfl⟩⟩
    · exact if_pos (by omega)
    · exact if_neg (by omega)
  · have hv : (initSim b si p).2 = .error .value := by
      unfold initSim timerInit
      rw [if_pos (by omega)]
    rw [hv]
    exact ⟨by simp [h], by simp [h], fun hh => absurd hh h⟩

/-- A case of `C95_initialise`. -/
example : (1 : ℤ) ≤ 3 ∧ (3 : ℤ) ≤ 12 ∧ ¬ (1 ≤ (13 : ℤ) ∧ (13 : ℤ) ≤ 12) := by omega

/-- C95 (rows).  `InitSim` adds one row to each of the five tables, with the values given, whether it
succeeds or not, and touches no earlier row; loading a simulation with `SimInit::Init` changes no row
of the process, whatever has been recorded and whatever is loaded. -/
theorem C95_rows (b : Random.Boost σ) (junk : ℚ × ℚ) (si : Info) (db : Rows) (p : Proc σ) :
    (∃ r : InfoRow, (initSim b si p).1.rows.info = p.rows.info ++ [r] ∧ r.handle = si.handle ∧
      r.year = si.y0 ∧ r.month = si.m0 ∧ r.duration = si.duration ∧ r.parentSim = si.parentSim ∧
      r.parentType = si.parentType ∧ r.branchTime = si.branchTime) ∧
    (initSim b si p).1.rows.decay = p.rows.decay ++ [si.decay] ∧
    (initSim b si p).1.rows.inv = p.rows.inv ++ [(si.inv, si.invCompact)] ∧
    (∃ z, (initSim b si p).1.rows.dt = p.rows.dt ++ [z] ∧ (Fits si.dt → castU64 z = si.dt)) ∧
    (initSim b si p).1.rows.eps = p.rows.eps ++ [(si.eps, si.epsRsrc)] ∧
    (initFrom b junk db p).1.rows = p.rows := by
  have hrows : (initSim b si p).1.rows = record si p.rows := by
    unfold initSim timerInit
    by_cases h : si.m0 < 1 ∨ si.m0 > 12
    · rw [if_pos h]
    · rw [if_neg h]
  rw [hrows]
  refine ⟨⟨_, rfl, rfl, rfl, rfl, rfl, rfl, rfl, rfl⟩, rfl, rfl, ⟨_, rfl, fun h => h.cast⟩, rfl, ?_⟩
  unfold initFrom
  split <;> rfl

/-- A case of `C95_rows`: an earlier row is there. -/
example : (initSim Random.counter (new (0, 0) 24 2015 3 "run" "manual")
    { start 0 with rows := ⟨[], ["never"], [], [], []⟩ }).1.rows.decay = ["never", "manual"] := by
  decide +kernel

theorem restart_ok (b : Random.Boost σ) (junk : ℚ × ℚ) (si : Info) (hf : InfoFits si)
    (h0 : 1 ≤ si.m0) (h1 : si.m0 ≤ 12) (id : ℕ) (t : ℤ) (p : Proc σ) :
    restart b junk (record si Rows.empty) id t p = ({ p with
      ctx := some { si with parentSim := id, parentType := "restart", branchTime := t }
      timer := some { si with parentSim := id, parentType := "restart", branchTime := t }
      time := if t > -1 then t else 0
      gen := b.seed (si.seed % 2 ^ 32)
      rows := record { si with parentSim := id, parentType := "restart", branchTime := t }
        Rows.empty }, .ok ()) := by
  unfold restart loadInfo
  rw [readInfo_record]
  simp only [initSim_ok, h0, h1, hf.dt.cast, hf.seed.cast, hf.stride.cast]

/-- C95 (restarts).  After any chain of restarts, each from the output of the one before and in a new
process, the context and the timer have the information of the first simulation, with the parent, the
kind and the branch time of the last restart; the clock is at the time step asked for (at 0 for a
negative one), and the rows of exactly this information are recorded once. -/
theorem C95_restarts (b : Random.Boost σ) (junk : ℚ × ℚ) (si : Info) (hf : InfoFits si) (g0 : σ)
    (p : Proc σ) (hp : initSim b si (start g0) = (p, .ok ())) (chain : List (ℕ × ℤ × σ)) (id : ℕ)
    (t : ℤ) (g : σ) :
    ∃ q, restarts b junk (chain ++ [(id, t, g)]) p = some q ∧
      q.ctx = some { si with parentSim := id, parentType := "restart", branchTime := t } ∧
      q.timer = q.ctx ∧ q.time = max t 0 ∧
      q.rows = record { si with parentSim := id, parentType := "restart", branchTime := t }
        Rows.empty := by
  have hm : 1 ≤ si.m0 ∧ si.m0 ≤ 12 := (C95_initialise b si (start g0)).1.mp (by rw [hp])
  have hrows : p.rows = record si Rows.empty := by
    rw [initSim_ok b si _ hm.1 hm.2] at hp
    have := congrArg (fun r => r.1.rows) hp
    exact this.symm
  clear hp
  induction chain generalizing si p with
  | nil =>
    simp only [List.nil_append, restarts]
    rw [hrows, restart_ok b junk si hf hm.1 hm.2]
    refine ⟨_, rfl, rfl, rfl, ?_, rfl⟩
    simp only
    split <;> omega
  | cons r rs ih =>
    simp only [List.cons_append, restarts]
    rw [hrows, restart_ok b junk si hf hm.1 hm.2]
    exact ih { si with parentSim := r.1, parentType := "restart", branchTime := r.2.1 }
      ⟨hf.dt, hf.seed, hf.stride⟩ _ hm rfl

/-- A case of `C95_restarts`. -/
example : InfoFits (new (0, 0) 24 2015 3 "run" "manual") ∧
    (initSim Random.counter (new (0, 0) 24 2015 3 "run" "manual") (start 0)).2 = .ok () :=
  ⟨⟨Or.inl (by decide), Or.inl (by decide), Or.inl (by decide)⟩, by decide +kernel⟩

/-! ## The input file -/

/-- The number with the given decimal digits. -/
def value (ds : List ℕ) : ℕ := Nat.ofDigits 10 ds.reverse

/-- The decimal digits of a number as text. -/
def Decimal (ds : List ℕ) (s : List Char) : Prop :=
  (∀ d ∈ ds, d < 10) ∧ s = ds.map fun d => Char.ofNat (d + 48)

theorem digit_ofNat {d : ℕ} (h : d < 10) : digit (Char.ofNat (d + 48)) = some d := by
  interval_cases d <;> decide

theorem space_ofNat {d : ℕ} (h : d < 10) : isSpace (Char.ofNat (d + 48)) = false ∧
    Char.ofNat (d + 48) ≠ '-' ∧ Char.ofNat (d + 48) ≠ '+' := by
  interval_cases d <;> decide

theorem readDigits_decimal (ds : List ℕ) (h : ∀ d ∈ ds, d < 10) (rest : List Char)
    (hr : ∀ c ∈ rest.head?, digit c = none) (acc : ℕ) :
    readDigits ((ds.map fun d => Char.ofNat (d + 48)) ++ rest) acc =
      Nat.ofDigits 10 ds.reverse + 10 ^ ds.length * acc := by
  induction ds generalizing acc with
  | nil =>
    cases rest with
    | nil => simp [readDigits]
    | cons c cs =>
      have := hr c rfl
      simp [readDigits, this]
  | cons d ds ih =>
    simp only [List.map_cons, List.cons_append, readDigits, digit_ofNat (h d (by simp))]
    rw [ih (fun x hx => h x (by simp [hx])), List.reverse_cons, Nat.ofDigits_append]
    simp only [List.length_reverse, List.length_cons, Nat.ofDigits_singleton, pow_succ]
    ring

theorem strtol_decimal (ds : List ℕ) (hne : ds ≠ []) (h : ∀ d ∈ ds, d < 10) (pre rest : List Char)
    (hp : ∀ c ∈ pre, isSpace c = true) (hr : ∀ c ∈ rest.head?, digit c = none) :
    strtol (pre ++ (ds.map fun d => Char.ofNat (d + 48)) ++ rest) =
      min (2 ^ 63 - 1) (value ds : ℤ) := by
  have hdrop : (pre ++ (ds.map fun d => Char.ofNat (d + 48)) ++ rest).dropWhile isSpace =
      (ds.map fun d => Char.ofNat (d + 48)) ++ rest := by
    rw [List.append_assoc, List.dropWhile_append_of_pos hp]
    cases ds with
    | nil => exact absurd rfl hne
    | cons d ds =>
      simp only [List.map_cons, List.cons_append, List.dropWhile_cons,
        (space_ofNat (h d (by simp))).1]
      rfl
  unfold strtol
  rw [hdrop]
  have key := readDigits_decimal ds h rest hr 0
  cases ds with
  | nil => exact absurd rfl hne
  | cons d ds =>
    simp only [List.map_cons, List.cons_append] at key ⊢
    have hs := space_ofNat (h d (by simp))
    split
    · rename_i heq
      injection heq with heq _
      exact absurd heq hs.2.1
    · rename_i heq
      injection heq with heq _
      exact absurd heq hs.2.2
    · rw [key, Nat.mul_zero, Nat.add_zero]; rfl

/-- C95 (numbers).  `strtol` reads decimal numbers with any white space before and any text after them,
with or without a sign, and stops at the limits of a 64 bit number. -/
theorem C95_numbers (ds : List ℕ) (hne : ds ≠ []) (s pre rest : List Char) (h : Decimal ds s)
    (hp : ∀ c ∈ pre, isSpace c = true) (hr : ∀ c ∈ rest.head?, digit c = none) :
    strtol (pre ++ s ++ rest) = min (2 ^ 63 - 1) (value ds : ℤ) ∧
    strtol (pre ++ '+' :: s ++ rest) = min (2 ^ 63 - 1) (value ds : ℤ) ∧
    strtol (pre ++ '-' :: s ++ rest) = max (-2 ^ 63) (-(value ds : ℤ)) := by
  obtain ⟨h, rfl⟩ := h
  have key := readDigits_decimal ds h rest hr 0
  rw [Nat.mul_zero, Nat.add_zero] at key
  refine ⟨strtol_decimal ds hne h pre rest hp hr, ?_, ?_⟩
  · have hdrop : (pre ++ '+' :: (ds.map fun d => Char.ofNat (d + 48)) ++ rest).dropWhile isSpace =
        '+' :: ((ds.map fun d => Char.ofNat (d + 48)) ++ rest) := by
      rw [List.append_assoc, List.dropWhile_append_of_pos hp]
      rfl
    unfold strtol
    rw [hdrop]
    simp only [key]
    rfl
  · have hdrop : (pre ++ '-' :: (ds.map fun d => Char.ofNat (d + 48)) ++ rest).dropWhile isSpace =
        '-' :: ((ds.map fun d => Char.ofNat (d + 48)) ++ rest) := by
      rw [List.append_assoc, List.dropWhile_append_of_pos hp]
      rfl
    unfold strtol
    rw [hdrop]
    simp only [key]
    rfl

/-- A case of `C95_numbers`: ` -12x`. -/
example : Decimal [1, 2] ['1', '2'] ∧ strtol [' ', '-', '1', '2', 'x'] = -12 :=
  ⟨⟨by decide, by decide⟩, by decide +kernel⟩

theorem castLong_small (z : ℤ) (h0 : -2 ^ 31 ≤ z) (h1 : z < 2 ^ 31) : castLong z = z := by
  unfold castLong Random.toInt32
  norm_num at h0 h1 ⊢
  split <;> omega

/-- C95 (input file).  For decimal numbers below `2 ^ 31` with any white space around and any values
of the optional elements: the first simulation has exactly the duration, start and other values of
the input file, and the documented defaults for those that are absent; the clock is at 0, the
generator has the seed of the file and the global tolerances are those of the file.  This is so after
loading the file, and still after `SimInit::Init` has loaded the simulation from the database.  The
full statement has no bound on the numbers; see `C95_fails_duration`. -/
theorem C95_input_partial (b : Random.Boost σ) (junk junk' : ℚ × ℚ) (c : Control)
    (dur month year : List ℕ) (pre post : List Char) (hpre : ∀ x ∈ pre, isSpace x = true)
    (hpost : ∀ x ∈ post.head?, digit x = none) (hd : dur ≠ []) (hm : month ≠ []) (hy : year ≠ [])
    (s1 s2 s3 : List Char) (h1 : Decimal dur s1) (h2 : Decimal month s2) (h3 : Decimal year s3)
    (c1 : c.duration = pre ++ s1 ++ post) (c2 : c.month = pre ++ s2 ++ post)
    (c3 : c.year = pre ++ s3 ++ post)
    (b1 : value dur < 2 ^ 31) (b3 : value year < 2 ^ 31)
    (m0 : 1 ≤ value month) (m1 : value month ≤ 12)
    (hdt : ∀ z ∈ c.dt, 0 ≤ z ∧ z < 2 ^ 31) (hseed : ∀ z ∈ c.seed, 0 ≤ z ∧ z < 2 ^ 31)
    (hstride : ∀ z ∈ c.stride, 0 ≤ z ∧ z < 2 ^ 31) (g : σ) :
    ∃ p q si, loadControl b junk c (start g) = (p, .ok ()) ∧
      initFrom b junk' p.rows p = (q, .ok ()) ∧ p.ctx = some si ∧ q.ctx = some si ∧
      q.timer = some si ∧ q.time = 0 ∧ q.rows = p.rows ∧
      si.duration = value dur ∧ si.m0 = value month ∧
      si.y0 = value year ∧ si.handle = c.handle.getD "" ∧
      si.decay = c.decay.getD "manual" ∧ si.inv = c.inv.getD false ∧
      si.invCompact = c.invCompact.getD false ∧ (si.dt : ℤ) = c.dt.getD 2629846 ∧
      (si.seed : ℤ) = c.seed.getD 20160212 ∧ (si.stride : ℤ) = c.stride.getD 10000 ∧
      si.eps = c.eps.getD (1 / 1000000) ∧ si.epsRsrc = c.epsRsrc.getD (1 / 1000000) ∧
      q.cyEps = si.eps ∧ q.cyEpsRsrc = si.epsRsrc ∧ q.gen = b.seed si.seed ∧
      si.parentType = "init" ∧ si.parentSim = 0 := by
  have e1 : castLong (strtol c.duration) = value dur := by
    rw [c1, h1.2, strtol_decimal dur hd h1.1 pre post hpre hpost, min_eq_right (by omega)]
    exact castLong_small _ (by omega) (by exact_mod_cast b1)
  have e2 : castLong (strtol c.month) = value month := by
    rw [c2, h2.2, strtol_decimal month hm h2.1 pre post hpre hpost, min_eq_right (by omega)]
    exact castLong_small _ (by omega) (by omega)
  have e3 : castLong (strtol c.year) = value year := by
    rw [c3, h3.2, strtol_decimal year hy h3.1 pre post hpre hpost, min_eq_right (by omega)]
    exact castLong_small _ (by omega) (by exact_mod_cast b3)
  have hnat : ∀ (o : Option ℤ) (n : ℕ), n < 2 ^ 31 → (∀ z ∈ o, 0 ≤ z ∧ z < 2 ^ 31) →
      castU64 (o.getD (castInt n)) = (o.getD (n : ℤ)).toNat ∧
      Fits (castU64 (o.getD (castInt n))) ∧ 0 ≤ o.getD (n : ℤ) ∧ o.getD (n : ℤ) < 2 ^ 31 := by
    intro o n hn ho
    have hz : ∀ z : ℤ, 0 ≤ z → z < 2 ^ 31 → castU64 z = z.toNat := by
      intro z z0 z1
      unfold castU64
      rw [Int.emod_eq_of_lt z0 (by omega)]
    cases o with
    | none =>
      have hc : castInt n = n := by
        unfold castInt Random.toInt32
        norm_num at hn ⊢
        split <;> omega
      simp only [Option.getD_none, hc]
      exact ⟨hz n (by omega) (by exact_mod_cast hn), castU64_fits n (by omega) (by exact_mod_cast hn),
        by omega, by exact_mod_cast hn⟩
    | some z =>
      obtain ⟨z0, z1⟩ := ho z rfl
      simp only [Option.getD_some]
      exact ⟨hz z z0 z1, castU64_fits z (by omega) z1, z0, z1⟩
  obtain ⟨d1, d2, d3, d4⟩ := hnat c.dt defaultDt (by decide) hdt
  obtain ⟨t1, t2, t3, t4⟩ := hnat c.seed defaultSeed (by decide) hseed
  obtain ⟨r1, r2, r3, r4⟩ := hnat c.stride defaultStride (by decide) hstride
  have hmm : (controlInfo junk c).m0 = value month := e2
  have hm0 : 1 ≤ (controlInfo junk c).m0 := by rw [hmm]; omega
  have hm1 : (controlInfo junk c).m0 ≤ 12 := by rw [hmm]; omega
  have hseedv : (controlInfo junk c).seed % 2 ^ 32 = (controlInfo junk c).seed := by
    have : (controlInfo junk c).seed = (c.seed.getD (defaultSeed : ℤ)).toNat := t1
    rw [this]
    apply Nat.mod_eq_of_lt
    omega
  have hload : loadControl b junk c (start g) = _ := initSim_ok b (controlInfo junk c)
    { start g with cyEps := (controlInfo junk c).eps, cyEpsRsrc := (controlInfo junk c).epsRsrc }
    hm0 hm1
  have hread : readInfo junk' (record (controlInfo junk c) Rows.empty) = .ok (controlInfo junk c) := by
    rw [readInfo_record, Fits.cast (n := (controlInfo junk c).dt) d2,
      Fits.cast (n := (controlInfo junk c).seed) t2, Fits.cast (n := (controlInfo junk c).stride) r2]
    rfl
  have hinit : ∀ p : Proc σ, p.rows = record (controlInfo junk c) Rows.empty →
      initFrom b junk' p.rows p = ({ p with
        ctx := some (controlInfo junk c)
        timer := some (controlInfo junk c)
        time := 0
        gen := b.seed ((controlInfo junk c).seed % 2 ^ 32) }, .ok ()) := by
    intro p hp
    unfold initFrom loadInfo
    rw [hp, hread]
    simp only
    rw [initSim_ok _ _ _ hm0 hm1]
    simp only [hp]
    rfl
  refine ⟨_, _, controlInfo junk c, hload, hinit _ rfl, rfl, rfl, rfl, rfl, rfl, e1, e2, e3, rfl, rfl,
    rfl, rfl, ?_, ?_, ?_, rfl, rfl, rfl, rfl, ?_, rfl, rfl⟩
  · show ((castU64 (c.dt.getD (castInt defaultDt)) : ℕ) : ℤ) = _
    rw [d1, Int.toNat_of_nonneg d3]; rfl
  · show ((castU64 (c.seed.getD (castInt defaultSeed)) : ℕ) : ℤ) = _
    rw [t1, Int.toNat_of_nonneg t3]; rfl
  · show ((castU64 (c.stride.getD (castInt defaultStride)) : ℕ) : ℤ) = _
    rw [r1, Int.toNat_of_nonneg r3]; rfl
  · show b.seed _ = _
    rw [hseedv]

/-- A case of `C95_input_partial`: `<duration> 24 </duration>`, month 03, year 2015. -/
example : Decimal [2, 4] ['2', '4'] ∧ Decimal [0, 3] ['0', '3'] ∧ Decimal [2, 0, 1, 5] ['2', '0', '1', '5'] ∧
    value [2, 4] = 24 ∧ strtol [' ', '2', '4', ' '] = 24 ∧
    (∀ x ∈ [' '], isSpace x = true) ∧ digit ' ' = none := by
  refine ⟨⟨by decide, by decide⟩, ⟨by decide, by decide⟩, ⟨by decide, by decide⟩, by decide,
    by decide, by decide, by decide⟩

/-! ## Disagreements -/

/-- C95 fails: the tolerances that the simulation uses (`eps()` and `eps_rsrc()`) are set from the
input file only.  After a restart of a simulation with any other tolerances than the default ones they
are back at the defaults, although the information of the context shows those of the simulation. -/
theorem C95_fails_tolerance (b : Random.Boost σ) (junk : ℚ × ℚ) (si : Info) (hf : InfoFits si)
    (h0 : 1 ≤ si.m0) (h1 : si.m0 ≤ 12) (he : si.eps ≠ 1 / 1000000) (id : ℕ) (t : ℤ) (g : σ) :
    ∃ q si', restart b junk (record si Rows.empty) id t (start g) = (q, .ok ()) ∧
      q.ctx = some si' ∧ si'.eps = si.eps ∧ q.cyEps ≠ si'.eps ∧ q.cyEps = 1 / 1000000 := by
  rw [restart_ok b junk si hf h0 h1]
  exact ⟨_, _, rfl, rfl, rfl, fun h => he h.symm, rfl⟩

/-- A case of `C95_fails_tolerance`. -/
example : InfoFits { new (0, 0) 24 2015 3 "run" "manual" with eps := 1 / 1000 } ∧
    (1 / 1000 : ℚ) ≠ 1 / 1000000 :=
  ⟨⟨Or.inl (by decide), Or.inl (by decide), Or.inl (by decide)⟩, by norm_num⟩

/-- C95 fails: the random numbers after a restart do not continue those of the simulation but begin
again: whatever the time step, the generator is in the state of a start with the seed, and so a
restarted simulation repeats the first numbers of the original one. -/
theorem C95_fails_random (b : Random.Boost σ) (junk : ℚ × ℚ) (si : Info) (hf : InfoFits si)
    (h0 : 1 ≤ si.m0) (h1 : si.m0 ≤ 12) (id : ℕ) (t : ℤ) (g : σ) (fuel : ℕ)
    (calls : List Random.Call) :
    Random.runAll b fuel calls (restart b junk (record si Rows.empty) id t (start g)).1.gen =
      Random.runAll b fuel calls (initSim b si (start g)).1.gen := by
  rw [restart_ok b junk si hf h0 h1, initSim_ok b si _ h0 h1]

/-- A case of `C95_fails_random`: the second draw of the original run differs from the first. -/
example : Random.runAll Random.counter 9 [.random, .random] (Random.counter.seed 5) =
    some ([5, 6], 7) := by decide +kernel

/-- C95 fails: a month outside of 1 to 12, which the schema accepts, is refused only after its rows
have been recorded. -/
theorem C95_fails_month (b : Random.Boost σ) (si : Info) (h : si.m0 < 1 ∨ 12 < si.m0) (p : Proc σ) :
    (initSim b si p).2 = .error .value ∧ (initSim b si p).1.rows = record si p.rows ∧
      (initSim b si p).1.rows ≠ p.rows := by
  have : initSim b si p = ({ p with rows := record si p.rows, ctx := some si }, .error .value) := by
    unfold initSim timerInit
    rw [if_pos (by omega)]
  rw [this]
  refine ⟨rfl, rfl, fun hc => ?_⟩
  have := congrArg (fun r => r.decay.length) hc
  simp [record] at this

/-- A case of `C95_fails_month`: month 0. -/
example : (new (0, 0) 24 2015 0 "run" "manual").m0 < 1 := by decide

/-- C95 fails: information built for a branch is always refused, and `Branch` always throws. -/
theorem C95_fails_branch (b : Random.Boost σ) (junk : ℚ × ℚ) (dur : ℤ) (parent : ℕ) (t : ℤ)
    (type handle : String) (p : Proc σ) :
    (initSim b (newBranch junk dur parent t type handle) p).2 = .error .value ∧
      (branch p).2 = .error .generic := by
  refine ⟨(C95_fails_month b _ (Or.inl ?_) p).1, rfl⟩
  show (-1 : ℤ) < 1
  omega

/-- C95 fails: the schema accepts every `nonNegativeInteger` as the duration, but a number beyond an
`int` loses its higher bits: 4294967301 steps become 5. -/
theorem C95_fails_duration :
    castLong (strtol ['4', '2', '9', '4', '9', '6', '7', '3', '0', '1']) = 5 := by decide +kernel

end Cyclus.Info
