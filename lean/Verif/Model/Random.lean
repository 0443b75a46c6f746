import Verif.Model.Basic
import Mathlib.Data.Rat.Floor

/-!
# Model of the random number generator and its distributions

Models `/repo/src/random_number_generator.h`, `/repo/src/random_number_generator.cc` and the
wrappers of `Context` (`/repo/src/context.cc:327-351`).

* Boost.Random is not part of the repository.  Its engine and its distributions are the arbitrary
  functions of `Boost`; what Boost documents about them is a hypothesis of the theorems that use it.
  A draw is a function of the parameters and of the state of the engine: distribution objects keep
  no state of their own between draws (true of the ziggurat version of `normal_distribution`).
* `RandomNumberGenerator::gen_` is `static` (line 43), so one engine state is passed through all
  calls of all contexts.
* `double` is `ℚ`; a loop gets `fuel` and gives `none` when that is used up.
* The assertions of Boost's constructors are not modelled.
* `PoissonDoubleDist`, `ExponentialDoubleDist` and `BinaryDoubleDist` (lines 149-202) are left out:
  they do not override the pure virtual `max` of `DoubleDistribution` (line 99), so that no object
  of these classes can exist.
-/

namespace Cyclus.Random

/-- The parts of Boost.Random that are used, for an engine with states `σ`: seeding with a 32 bit
number and draws (`random_number_generator.cc:16,22,26-27,31-32,37-38,43-44`;
`random_number_generator.h:117,129,151,171,188,223,241,267,289,307,326`). -/
structure Boost (σ : Type) where
  seed : ℕ → σ
  raw : σ → ℕ × σ
  uniform01 : σ → ℚ × σ
  uniformInt : ℤ → ℤ → σ → ℤ × σ
  uniformReal : ℚ → ℚ → σ → ℚ × σ
  normal : ℚ → ℚ → σ → ℚ × σ
  binomial : ℤ → ℚ → σ → ℤ × σ
  negBinomial : ℤ → ℚ → σ → ℤ × σ
  poisson : ℚ → σ → ℤ × σ
  exponential : ℚ → σ → ℚ × σ

variable {σ : Type}

/-- `Initialize` (`random_number_generator.cc:14-19`).  `SimInfo::seed` has 64 bits; the seed of
`mt19937` has 32, the conversion drops the rest. -/
def initGen (b : Boost σ) (seed : ℕ) (_ : σ) : σ := b.seed (seed % 2 ^ 32)

/-- The conversion of a 32 bit number to `int` (two's complement). -/
def toInt32 (n : ℕ) : ℤ := if n < 2 ^ 31 then n else n - 2 ^ 32

/-- `Context::random` (`context.cc:327-329`), which returns the `uint32_t` of
`RandomNumberGenerator::random` (`random_number_generator.cc:21-23`) as `int`. -/
def random (b : Boost σ) (s : σ) : ℤ × σ := (toInt32 (b.raw s).1, (b.raw s).2)

/-- The loop of the truncated normal distributions (`random_number_generator.cc:45-48,55-58,66-69,
74-77`): variates are drawn until one is neither below `lo` nor above `hi`. -/
def truncated (b : Boost σ) (mean sd lo hi : ℚ) : ℕ → σ → Option (ℚ × σ)
  | 0, _ => none
  | fuel + 1, s =>
    if (b.normal mean sd s).1 < lo ∨ (b.normal mean sd s).1 > hi then
      truncated b mean sd lo hi fuel (b.normal mean sd s).2
    else some (b.normal mean sd s)

/-- `std::lrint` in the default rounding mode: to the nearest integer, ties to the even one. -/
def lrint (x : ℚ) : ℤ :=
  if x - ⌊x⌋ < 1 / 2 then ⌊x⌋
  else if x - ⌊x⌋ > 1 / 2 then ⌊x⌋ + 1
  else if ⌊x⌋ % 2 = 0 then ⌊x⌋ else ⌊x⌋ + 1

/-- `random_normal_real` (`random_number_generator.cc:42-50`). -/
def normalReal (b : Boost σ) (mean sd lo hi : ℚ) (fuel : ℕ) (s : σ) : Option (ℚ × σ) :=
  truncated b mean sd lo hi fuel s

/-- `random_normal_int` (`random_number_generator.cc:52-61`).  (The `long` of `lrint` fits an
`int`, because it lies between two of them: `C93_int`.) -/
def normalInt (b : Boost σ) (mean sd : ℚ) (lo hi : ℤ) (fuel : ℕ) (s : σ) : Option (ℤ × σ) :=
  match truncated b mean sd lo hi fuel s with
  | none => none
  | some v => some (lrint v.1, v.2)

/-- The double from an object of `makeNormalDist`: its limits are not used
(`random_number_generator.h:67-72`). -/
def madeNormal (b : Boost σ) (mean sd _lo _hi : ℚ) (s : σ) : ℚ × σ := b.normal mean sd s

/-- The instantiable classes under `DoubleDistribution` with their data members
(`random_number_generator.h:102-146`). -/
inductive DDist where
  | fixed (value : ℚ)
  | uniform (min max : ℚ)
  | normal (mean sd min max : ℚ)
  deriving DecidableEq

/-- The constructor of `NormalDoubleDist` (lines 135-142; the warning is not modelled). -/
def newNormalD (mean sd min max : ℚ) : Except Err DDist :=
  if min = max then .error .value else .ok (.normal mean sd min max)

/-- `sample` (lines 109, 122; `random_number_generator.cc:65-71`). -/
def DDist.sample (b : Boost σ) (fuel : ℕ) (s : σ) : DDist → Option (ℚ × σ)
  | .fixed v => some (v, s)
  | .uniform lo hi => some (b.uniformReal lo hi s)
  | .normal m sd lo hi => truncated b m sd lo hi fuel s

/-- `max` (lines 110, 123, 145). -/
def DDist.max : DDist → ℚ
  | .fixed v => v
  | .uniform _ hi => hi
  | .normal _ _ _ hi => hi

/-- The classes under `IntDistribution` with their data members (lines 211-344). -/
inductive IDist where
  | fixed (value : ℤ)
  | uniform (min max : ℤ)
  | normal (mean sd : ℚ) (min max : ℤ)
  | binomial (trials : ℤ) (p : ℚ)
  | negBinomial (successes : ℤ) (p : ℚ)
  | poisson (mean : ℚ)
  | exponential (lambda : ℚ)
  | binary (p : ℚ) (reported : ℚ) (a b : ℤ)
  deriving DecidableEq

/-- The constructor of `NormalIntDist` (lines 241-248). -/
def newNormalI (mean sd : ℚ) (min max : ℤ) : Except Err IDist :=
  if min = max then .error .value else .ok (.normal mean sd min max)

/-- The constructor of `BinomialIntDist` (lines 264-271). -/
def newBinomial (trials : ℤ) (p : ℚ) : Except Err IDist :=
  if trials < 1 then .error .value
  else if p > 1 ∨ p < 0 then .error .value
  else .ok (.binomial trials p)

/-- The constructor of `NegativeBinomialIntDist` (lines 289-296). -/
def newNegBinomial (successes : ℤ) (p : ℚ) : Except Err IDist :=
  if successes < 1 then .error .value
  else if p > 1 ∨ p < 0 then .error .value
  else .ok (.negBinomial successes p)

/-- The constructor of `PoissonIntDist` (lines 310-314): the distribution is made from, and the test
made on, the member `mean_`, which is never initialised; `junk` is the value found there.  The
argument is not used. -/
def newPoisson (junk _mean : ℚ) : Except Err IDist :=
  if junk < 0 then .error .value else .ok (.poisson junk)

/-- The constructor of `ExponentialIntDist` (lines 327-331). -/
def newExponential (lambda : ℚ) : Except Err IDist :=
  if lambda < 0 then .error .value else .ok (.exponential lambda)

/-- The constructor of `BinaryIntDist` (lines 344-349): the member `p_success_`, which `p` reports,
is never initialised; `junk` is the value found there. -/
def newBinary (junk p : ℚ) (a b : ℤ) : Except Err IDist :=
  if p < 0 then .error .value else .ok (.binary p junk a b)

/-- The conversion of a double to `int`: towards zero.  (That the value fits is not checked.) -/
def trunc (x : ℚ) : ℤ := if 0 ≤ x then ⌊x⌋ else ⌈x⌉

/-- `sample` (lines 218, 230, 272, 297, 315, 332, 350-351; `random_number_generator.cc:73-79`). -/
def IDist.sample (b : Boost σ) (fuel : ℕ) (s : σ) : IDist → Option (ℤ × σ)
  | .fixed v => some (v, s)
  | .uniform lo hi => some (b.uniformInt lo hi s)
  | .normal m sd lo hi => normalInt b m sd lo hi fuel s
  | .binomial n p => some (b.binomial n p s)
  | .negBinomial k p => some (b.negBinomial k p s)
  | .poisson m => some (b.poisson m s)
  | .exponential l => some (trunc (b.exponential l s).1, (b.exponential l s).2)
  | .binary p _ x y =>
    some (if (b.binomial 1 p s).1 = 0 then y else x, (b.binomial 1 p s).2)

/-- `p` of the binomial distributions returns the probability as `int` (lines 274, 299); that of
`BinaryIntDist` returns the member (line 352). -/
def IDist.p : IDist → Option ℚ
  | .binomial _ p => some (trunc p)
  | .negBinomial _ p => some (trunc p)
  | .binary _ r _ _ => some r
  | _ => none

/-- A use of the generator by any part of a program. -/
inductive Call where
  | init (seed : ℕ)
  | random
  | random01
  | uniformInt (lo hi : ℤ)
  | uniformReal (lo hi : ℚ)
  | normalReal (mean sd lo hi : ℚ)
  | normalInt (mean sd : ℚ) (lo hi : ℤ)
  | sampleD (d : DDist)
  | sampleI (d : IDist)

/-- An integer result as a number. -/
def num (r : ℤ × σ) : ℚ × σ := (r.1, r.2)

/-- One use: the number returned (0 for `Initialize`, which returns nothing) and the state of the
engine (`context.cc:327-351`). -/
def Call.run (b : Boost σ) (fuel : ℕ) (s : σ) : Call → Option (ℚ × σ)
  | .init seed => some (0, initGen b seed s)
  | .random => some (num (Random.random b s))
  | .random01 => some (b.uniform01 s)
  | .uniformInt lo hi => some (num (b.uniformInt lo hi s))
  | .uniformReal lo hi => some (b.uniformReal lo hi s)
  | .normalReal m sd lo hi => Random.normalReal b m sd lo hi fuel s
  | .normalInt m sd lo hi => (Random.normalInt b m sd lo hi fuel s).map num
  | .sampleD d => d.sample b fuel s
  | .sampleI d => (d.sample b fuel s).map num

/-- A sequence of uses, with all numbers returned. -/
def runAll (b : Boost σ) (fuel : ℕ) : List Call → σ → Option (List ℚ × σ)
  | [], s => some ([], s)
  | c :: cs, s =>
    match c.run b fuel s with
    | none => none
    | some r =>
      match runAll b fuel cs r.2 with
      | none => none
      | some rs => some (r.1 :: rs.1, rs.2)

end Cyclus.Random
