import Verif.Model.Random

/-!
# Model of the general information about a simulation

Models `SimInfo` (`/repo/src/context.h:45-132`, `/repo/src/context.cc:24-83`), `Context::InitSim`
(`/repo/src/context.cc:273-321`), `Timer::Initialize` (`/repo/src/timer.cc:268-281`), the reading of
the control parameters (`/repo/src/xml_file_loader.cc:450-496`), and `LoadInfo`, `Init`, `Restart` and
`Branch` of `SimInit` (`/repo/src/sim_init.cc:25-47,49-73,148-176`).

* `int` is an integer; 64 bit unsigned numbers are naturals.  UUIDs are numbers.
* The versions of the libraries and the table `XMLPPInfo` are dropped: nothing reads them.
* The rows that belong to one simulation id are kept together (`CondInjector`, `sim_init.cc:52-54`).
* Of the process only the general information, the clock, the generator and the two global tolerances
  are kept.  Loading of the rest (C94 and others) happens between the two calls of `InitSim` of
  `Restart` and touches none of these.
* The queries of the input file are given as their results; `none` is an element that is absent.
-/

namespace Cyclus.Info

/-- `SimInfo` (`context.h:81-131`). -/
structure Info where
  handle : String
  decay : String
  duration : ℤ
  y0 : ℤ
  m0 : ℤ
  parentSim : ℕ
  parentType : String
  branchTime : ℤ
  dt : ℕ
  eps : ℚ
  epsRsrc : ℚ
  inv : Bool
  invCompact : Bool
  seed : ℕ
  stride : ℕ
  deriving DecidableEq

/-- `kDefaultTimeStepDur` (`context.h:23`). -/
def defaultDt : ℕ := 2629846
/-- `kDefaultSeed` (`context.h:25`). -/
def defaultSeed : ℕ := 20160212
/-- `kDefaultStride` (`context.h:27`). -/
def defaultStride : ℕ := 10000

/-- The constructor without default variables (`context.cc:53-66`).  The tolerances are not
initialised; `junk` are the values found there.  The nil UUID is 0. -/
def new (junk : ℚ × ℚ) (dur y0 m0 : ℤ) (handle decay : String) : Info where
  handle := handle
  decay := decay
  duration := dur
  y0 := y0
  m0 := m0
  parentSim := 0
  parentType := "init"
  branchTime := -1
  dt := defaultDt
  eps := junk.1
  epsRsrc := junk.2
  inv := false
  invCompact := false
  seed := defaultSeed
  stride := defaultStride

/-- The constructor for branches (`context.cc:68-83`). -/
def newBranch (junk : ℚ × ℚ) (dur : ℤ) (parentSim : ℕ) (branchTime : ℤ) (parentType handle : String) :
    Info :=
  { new junk dur (-1) (-1) handle "manual" with
    parentSim := parentSim
    branchTime := branchTime
    parentType := parentType }

/-- `static_cast<int>` of a 64 bit unsigned number (two's complement). -/
def castInt (n : ℕ) : ℤ := Random.toInt32 (n % 2 ^ 32)

/-- The conversion of an `int` to a 64 bit unsigned number. -/
def castU64 (z : ℤ) : ℕ := (z % 2 ^ 64).toNat

/-- A row of the table `Info` (`context.cc:274-283`). -/
structure InfoRow where
  handle : String
  year : ℤ
  month : ℤ
  duration : ℤ
  seed : ℤ
  stride : ℤ
  parentSim : ℕ
  parentType : String
  branchTime : ℤ
  deriving DecidableEq

/-- The tables `Info`, `DecayMode`, `InfoExplicitInv`, `TimeStepDur` and `Epsilon` of one
simulation. -/
structure Rows where
  info : List InfoRow
  decay : List String
  inv : List (Bool × Bool)
  dt : List ℤ
  eps : List (ℚ × ℚ)
  deriving DecidableEq

/-- No rows. -/
def Rows.empty : Rows := ⟨[], [], [], [], []⟩

/-- The rows recorded by `InitSim` (`context.cc:274-311`). -/
def record (si : Info) (r : Rows) : Rows where
  info := r.info ++ [⟨si.handle, si.y0, si.m0, si.duration, castInt si.seed, castInt si.stride,
    si.parentSim, si.parentType, si.branchTime⟩]
  decay := r.decay ++ [si.decay]
  inv := r.inv ++ [(si.inv, si.invCompact)]
  dt := r.dt ++ [castInt si.dt]
  eps := r.eps ++ [(si.eps, si.epsRsrc)]

/-- What a process keeps: the globals `cy_eps` and `cy_eps_rsrc`, the copies of the information in the
context and in the timer, the clock, the state of the generator, and the rows of its recorder. -/
structure Proc (σ : Type) where
  cyEps : ℚ
  cyEpsRsrc : ℚ
  ctx : Option Info
  timer : Option Info
  time : ℤ
  gen : σ
  rows : Rows

variable {σ : Type}

/-- A process at its start (`context.cc:21-22`, `timer.cc:287`). -/
def start (gen : σ) : Proc σ := ⟨1 / 1000000, 1 / 1000000, none, none, 0, gen, Rows.empty⟩

/-- `Timer::Initialize` (`timer.cc:268-281`). -/
def timerInit (si : Info) (p : Proc σ) : Outcome (Proc σ) Unit :=
  if si.m0 < 1 ∨ si.m0 > 12 then (p, .error .value)
  else ({ p with timer := some si, time := if si.branchTime > -1 then si.branchTime else 0 }, .ok ())

/-- `Context::InitSim` (`context.cc:273-321`). -/
def initSim (b : Random.Boost σ) (si : Info) (p : Proc σ) : Outcome (Proc σ) Unit :=
  match timerInit si { p with rows := record si p.rows, ctx := some si } with
  | (p, .error e) => (p, .error e)
  | (p, .ok _) => ({ p with gen := Random.initGen b si.seed p.gen }, .ok ())

/-- `GetVal` of the first row (`query_backend.h:456-477`). -/
def first {α : Type} (rows : List α) : Except Err α :=
  match rows with
  | [] => .error .state
  | r :: _ => .ok r

/-- `LoadInfo` up to the call of `InitSim` (`sim_init.cc:149-174`). -/
def readInfo (junk : ℚ × ℚ) (db : Rows) : Except Err Info :=
  match first db.info with
  | .error e => .error e
  | .ok r =>
    match first db.decay with
    | .error e => .error e
    | .ok d =>
      match first db.dt with
      | .error e => .error e
      | .ok dt =>
        match first db.eps with
        | .error e => .error e
        | .ok eps =>
          match first db.inv with
          | .error e => .error e
          | .ok inv =>
            .ok { new junk r.duration r.year r.month r.handle d with
              seed := castU64 r.seed
              stride := castU64 r.stride
              parentSim := r.parentSim
              dt := castU64 dt
              eps := eps.1
              epsRsrc := eps.2
              inv := inv.1
              invCompact := inv.2 }

/-- `LoadInfo` (`sim_init.cc:148-176`). -/
def loadInfo (b : Random.Boost σ) (junk : ℚ × ℚ) (db : Rows) (p : Proc σ) : Outcome (Proc σ) Info :=
  match readInfo junk db with
  | .error e => (p, .error e)
  | .ok si =>
    match initSim b si p with
    | (p, .error e) => (p, .error e)
    | (p, .ok _) => (p, .ok si)

/-- `SimInit::Init` (`sim_init.cc:25-30`): what is recorded meanwhile goes to a recorder that is
thrown away. -/
def initFrom (b : Random.Boost σ) (junk : ℚ × ℚ) (db : Rows) (p : Proc σ) :
    Outcome (Proc σ) Unit :=
  match loadInfo b junk db { p with rows := Rows.empty } with
  | (q, .error e) => ({ q with rows := p.rows }, .error e)
  | (q, .ok _) => ({ q with rows := p.rows }, .ok ())

/-- `SimInit::Restart` (`sim_init.cc:32-42`).  The new recorder has no backend while the simulation is
loaded; what it has buffered is dropped at the end (line 72). -/
def restart (b : Random.Boost σ) (junk : ℚ × ℚ) (db : Rows) (simId : ℕ) (t : ℤ) (p : Proc σ) :
    Outcome (Proc σ) Unit :=
  match loadInfo b junk db { p with rows := Rows.empty } with
  | (p, .error e) => (p, .error e)
  | (p, .ok si) =>
    initSim b { si with parentSim := simId, parentType := "restart", branchTime := t }
      { p with rows := Rows.empty }

/-- `SimInit::Branch` (`sim_init.cc:44-47`). -/
def branch (p : Proc σ) : Outcome (Proc σ) Unit := (p, .error .generic)

/-! ## The input file -/

/-- The value of a decimal digit. -/
def digit (c : Char) : Option ℕ :=
  if '0' ≤ c ∧ c ≤ '9' then some (c.toNat - '0'.toNat) else none

/-- The digits at the start of a text, added to those read before. -/
def readDigits : List Char → ℕ → ℕ
  | [], acc => acc
  | c :: cs, acc =>
    match digit c with
    | none => acc
    | some d => readDigits cs (10 * acc + d)

/-- White space of the "C" locale. -/
def isSpace (c : Char) : Bool :=
  c = ' ' ∨ c = '\t' ∨ c = '\n' ∨ c = '\x0b' ∨ c = '\x0c' ∨ c = '\r'

/-- `strtol(s, NULL, 10)` with a `long` of 64 bits. -/
def strtol (s : List Char) : ℤ :=
  match s.dropWhile isSpace with
  | '-' :: cs => max (-2 ^ 63) (-(readDigits cs 0 : ℤ))
  | '+' :: cs => min (2 ^ 63 - 1) (readDigits cs 0 : ℤ)
  | cs => min (2 ^ 63 - 1) (readDigits cs 0 : ℤ)

/-- The conversion of a `long` to `int` (two's complement). -/
def castLong (z : ℤ) : ℤ := Random.toInt32 (z % 2 ^ 32).toNat

/-- The contents of the element `control`. -/
structure Control where
  handle : Option String
  duration : List Char
  month : List Char
  year : List Char
  decay : Option String
  inv : Option Bool
  invCompact : Option Bool
  dt : Option ℤ
  eps : Option ℚ
  epsRsrc : Option ℚ
  seed : Option ℤ
  stride : Option ℤ

/-- The information that `LoadControlParams` gathers (`xml_file_loader.cc:455-492`). -/
def controlInfo (junk : ℚ × ℚ) (c : Control) : Info :=
  { new junk (castLong (strtol c.duration)) (castLong (strtol c.year)) (castLong (strtol c.month))
      (c.handle.getD "") (c.decay.getD "manual") with
    inv := c.inv.getD false
    invCompact := c.invCompact.getD false
    dt := castU64 (c.dt.getD (castInt defaultDt))
    eps := c.eps.getD (1 / 1000000)
    epsRsrc := c.epsRsrc.getD (1 / 1000000)
    seed := castU64 (c.seed.getD (castInt defaultSeed))
    stride := castU64 (c.stride.getD (castInt defaultStride)) }

/-- `LoadControlParams` (`xml_file_loader.cc:450-496`). -/
def loadControl (b : Random.Boost σ) (junk : ℚ × ℚ) (c : Control) (p : Proc σ) :
    Outcome (Proc σ) Unit :=
  let si := controlInfo junk c
  initSim b si { p with cyEps := si.eps, cyEpsRsrc := si.epsRsrc }

end Cyclus.Info
