import Verif.SpecRound
import Verif.SpecAdcNoise

/-! # Results of a crossbar with a real converter that computes with rounded numbers -/

namespace Acs.Spec

variable {K : Type} [Field K] [LinearOrder K]

/-- Rounding error of an operation of the converter, for a range in `[-R, R]` with `R = max |lo| |hi|`. -/
def adcRound (cfg : Cfg K) (lo hi : K) (q : Prec K) : K :=
  q.u * (4 * max |lo| |hi|) + q.η * (3 * max |lo| |hi| + 2 * cfg.N + 2)

/-- Error of a conversion before it is rounded to an integer: `c.2` cells that deviate by `ε`, the
roundings of the column, half a step, seven roundings in the converter, and the error of the scaling. -/
def roundDeviation (cfg : Cfg K) (lo hi ε : K) (q : Prec K) (n : Nat) (c : Int × Int) : K :=
  |(c.1 : K) / (cfg.lrs - cfg.hrs)| *
    ((1 + q.θ) * ((1 + q.u) * (c.2 * ε + columnError cfg ε q n) + adcStep cfg lo hi / 2 + 7 * adcRound cfg lo hi q)
      + (q.θ + 5 * q.u) * max |lo| |hi|) + q.η

/-- Error of a row. -/
def roundDeviationBound (cfg : Cfg K) (lo hi ε : K) (q : Prec K) (x : Vec Int) (n : Nat) : K :=
  ((readout cfg.mode x n).map fun c => roundDeviation cfg lo hi ε q n c + 1 / 2).sum

/-- The rounding to integers removes all errors. -/
def RoundAbsorbed (cfg : Cfg K) (lo hi ε : K) (q : Prec K) (x : Vec Int) (n : Nat) : Prop :=
  Absorbs cfg (roundDeviation cfg lo hi ε q n) x n

/-- Precise enough arithmetic for the range and the steps of a converter. -/
structure SmallConversion (cfg : Cfg K) (lo hi : K) (q : Prec K) : Prop where
  prec : q.u ≤ 1 / 8
  tiny : q.η ≤ 1 / 8
  res : cfg.resolution ≤ 24
  cells : cfg.N ≤ 2 ^ 24
  range : 32 * adcRound cfg lo hi q ≤ hi - lo
  step : 2 * q.η < adcStep cfg lo hi

/-- The nominal currents of a multiplication lie in the range of the converter, the numbers it produces are
small enough to be represented, and rounding errors of a column stay below the current of a cell. -/
structure RoundConverts (cfg : Cfg K) (lo hi ε : K) (q : Prec K) (W : Nat → Nat → Int) (res vec : Vec Int) (m n : Nat) :
    Prop where
  cols : 3 * n < 2 ^ 24
  col : columnError cfg ε q n ≤ topCurrent cfg ε
  range : ∀ i, i < m → ∀ c ∈ conversions cfg W vec n i, lo ≤ c.1 ∧ c.1 ≤ hi
  room : ∀ i, i < m → ((|res.get i| + 3 * n : Int) : K) +
    ((readout cfg.mode vec n).map fun c => 6 * (|(c.1 : K) / (cfg.lrs - cfg.hrs)| * max |lo| |hi|) + 1).sum ≤ 2 ^ 24

/-- Every multiplication meets such a converter. -/
def AllRoundConvert (cfg : Cfg K) (rg : String → K × K) (ε : K) (q : Prec K) : List Op → List Op → Prop :=
  EveryMvm fun h res vec m n l => AdcOk cfg l (rg l).1 (rg l).2 ∧ SmallConversion cfg (rg l).1 (rg l).2 q ∧
    RoundConverts cfg (rg l).1 (rg l).2 ε q (stored h) res vec m n

/-- The rounding to integers removes the errors of every multiplication. -/
def AllRoundAbsorbed (cfg : Cfg K) (rg : String → K × K) (ε : K) (q : Prec K) : List Op → List Op → Prop :=
  EveryMvm fun _ _ vec _ n l => RoundAbsorbed cfg (rg l).1 (rg l).2 ε q vec n

/-- A converter in binary32: at most 24 bits, steps that are at most a fifth of the window, and a range that is
neither far from zero, nor larger than `μ` windows. -/
structure SingleAdc (cfg : Cfg ℚ) (lo hi μ : ℚ) : Prop where
  res : cfg.resolution ≤ 24
  cells : cfg.N ≤ 2 ^ 24
  fine : adcStep cfg lo hi ≤ |cfg.lrs - cfg.hrs| / 5
  coarse : 2 ^ (-80 : ℤ) ≤ adcStep cfg lo hi
  range : max |lo| |hi| ≤ μ * |cfg.lrs - cfg.hrs|
  near : max |lo| |hi| ≤ 2 ^ 16 * (hi - lo)

/-- A multiplication in binary32 whose nominal currents are in the range, and whose size `n`, ratio `ρ` of the largest
current to the window, range of `μ` windows and buffer are small enough for 24 bits. -/
structure SingleMvm (cfg : Cfg ℚ) (lo hi ρ μ : ℚ) (W : Nat → Nat → Int) (res vec : Vec Int) (m n : Nat) : Prop where
  range : ∀ i, i < m → ∀ c ∈ conversions cfg W vec n i, lo ≤ c.1 ∧ c.1 ≤ hi
  size : (9 * n ^ 2 + 240 * n + 30) * ρ + 100 * μ + 4 ≤ 2 ^ 22
  buf : ∀ i, i < m → |res.get i| ≤ 2 ^ 20

/-- Largest error of such a conversion before it is rounded to an integer. -/
def singleError (cfg : Cfg ℚ) (lo hi ρ μ : ℚ) (n : Nat) : ℚ :=
  ((9 * n ^ 2 + 240 * n + 30) * ρ + 100 * μ + 4) * 2 ^ (-24 : ℤ) + 101 / 100 * (adcStep cfg lo hi / |cfg.lrs - cfg.hrs|)

/-- The rounding to integers removes these errors: always if all nominal values are integers; in BNN_III and BNN_IV
unless the fraction of the two conversions is close to one half. -/
def SingleAbsorbs (cfg : Cfg ℚ) (rg : String → ℚ × ℚ) (ρ μ : ℚ) (h ops : List Op) : Prop :=
  integral cfg.mode ∨ ((cfg.mode = .bnn3 ∨ cfg.mode = .bnn4) ∧ EveryMvm (fun _ _ vec _ n l =>
    Steady (shared cfg vec n) (singleError cfg (rg l).1 (rg l).2 ρ μ n)) h ops)

/-- Every multiplication is of this kind. -/
def AllSingle (cfg : Cfg ℚ) (rg : String → ℚ × ℚ) (ρ μ : ℚ) : List Op → List Op → Prop :=
  EveryMvm fun h res vec m n l => AdcOk cfg l (rg l).1 (rg l).2 ∧ SingleAdc cfg (rg l).1 (rg l).2 μ ∧
    SingleMvm cfg (rg l).1 (rg l).2 ρ μ (stored h) res vec m n

end Acs.Spec
