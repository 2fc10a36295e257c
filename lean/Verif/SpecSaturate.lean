import Verif.SpecShipped

/-! # Real converters whose range is too small -/

namespace Acs.Spec

variable {K : Type} [Field K] [LinearOrder K]

/-- Error of a conversion before it is rounded to an integer, for a nominal current up to `κ` outside the range: half a
step, and the deviations of the cells or the current that is cut off, whichever is larger. -/
def satDeviation (cfg : Cfg K) (lo hi κ ε : K) (c : Int × Int) : K :=
  |(c.1 : K) / (cfg.lrs - cfg.hrs)| * (max (c.2 * ε) κ + adcStep cfg lo hi / 2)

/-- Error of a row. -/
def satBound (cfg : Cfg K) (lo hi κ ε : K) (x : Vec Int) (n : Nat) : K :=
  ((readout cfg.mode x n).map fun c => satDeviation cfg lo hi κ ε c + 1 / 2).sum

/-- The rounding to integers removes all errors. -/
def SatAbsorbed (cfg : Cfg K) (lo hi κ ε : K) (x : Vec Int) (n : Nat) : Prop :=
  Absorbs cfg (satDeviation cfg lo hi κ ε) x n

/-- The nominal currents of a multiplication exceed the range of the converter by at most `κ`, and what the
converter can produce fits into the result. -/
structure Exceeds (cfg : Cfg K) (lo hi κ : K) (W : Nat → Nat → Int) (res vec : Vec Int) (m n : Nat) : Prop where
  range : ∀ i, i < m → ∀ c ∈ conversions cfg W vec n i, lo - κ ≤ c.1 ∧ c.1 ≤ hi + κ
  room : ∀ i, i < m → ((|res.get i| + 3 * n : Int) : K) + convPeak lo hi (conversions cfg W vec n i) ≤ 2147483647

/-- Every multiplication meets a converter with the range `rg` for its label, which its nominal currents exceed by at
most `κ` for its label and its number of columns. -/
def AllExceed (cfg : Cfg K) (rg : String → K × K) (κ : String → Nat → K) : List Op → List Op → Prop :=
  EveryMvm fun h res vec m n l =>
    AdcOk cfg l (rg l).1 (rg l).2 ∧ Exceeds cfg (rg l).1 (rg l).2 (κ l n) (stored h) res vec m n

/-- The rounding to integers removes the errors of every multiplication. -/
def AllSatAbsorbed (cfg : Cfg K) (rg : String → K × K) (κ : String → Nat → K) (ε : K) : List Op → List Op → Prop :=
  EveryMvm fun _ _ vec _ n l => SatAbsorbed cfg (rg l).1 (rg l).2 (κ l n) ε vec n

/-- How far the currents of `n` columns exceed the range of a converter with `MAX` calibration. -/
def overshoot (cfg : Cfg K) (n : Nat) : K :=
  match cfg.mode with
  | .tnn4 => n * cfg.hrs / 2
  | .tnn5 => 2 * n * cfg.hrs
  | _ => 0

/-! ## Rounded numbers -/

/-- Error of a conversion with rounded numbers: as `roundDeviation`, with the current that is cut off in place of the
deviations where it is larger, and ten roundings in the converter. -/
def roundSatDeviation (cfg : Cfg K) (lo hi κ ε : K) (q : Prec K) (n : Nat) (c : Int × Int) : K :=
  |(c.1 : K) / (cfg.lrs - cfg.hrs)| *
    ((1 + q.θ) * (max ((1 + q.u) * (c.2 * ε + columnError cfg ε q n) + q.u * κ) κ + adcStep cfg lo hi / 2
      + 10 * adcRound cfg lo hi q) + q.θ * (max |lo| |hi| + κ) + 5 * q.u * max |lo| |hi|) + q.η

/-- Error of a row. -/
def roundSatBound (cfg : Cfg K) (lo hi κ ε : K) (q : Prec K) (x : Vec Int) (n : Nat) : K :=
  ((readout cfg.mode x n).map fun c => roundSatDeviation cfg lo hi κ ε q n c + 1 / 2).sum

/-- As `RoundConverts`, with nominal currents that exceed the range by at most `κ`. -/
structure RoundExceeds (cfg : Cfg K) (lo hi κ ε : K) (q : Prec K) (W : Nat → Nat → Int) (res vec : Vec Int) (m n : Nat) :
    Prop where
  cols : 3 * n < 2 ^ 24
  col : columnError cfg ε q n ≤ topCurrent cfg ε
  pos : 0 ≤ κ
  range : ∀ i, i < m → ∀ c ∈ conversions cfg W vec n i, lo - κ ≤ c.1 ∧ c.1 ≤ hi + κ
  room : ∀ i, i < m → ((|res.get i| + 3 * n : Int) : K) +
    ((readout cfg.mode vec n).map fun c => 6 * (|(c.1 : K) / (cfg.lrs - cfg.hrs)| * max |lo| |hi|) + 1).sum ≤ 2 ^ 24

/-- Every multiplication meets such a converter. -/
def AllRoundExceed (cfg : Cfg K) (rg : String → K × K) (κ : String → Nat → K) (ε : K) (q : Prec K) : List Op → List Op → Prop :=
  EveryMvm fun h res vec m n l => AdcOk cfg l (rg l).1 (rg l).2 ∧ SmallConversion cfg (rg l).1 (rg l).2 q ∧
    RoundExceeds cfg (rg l).1 (rg l).2 (κ l n) ε q (stored h) res vec m n

/-- Error of the results of the analog files of TNN_IV and TNN_V with `n` columns. -/
def ternaryUnits (md : Mode) (n : Nat) : ℚ :=
  match md with
  | .tnn4 => 3 * n / 5 + 21 / 10
  | _ => 12 * n / 5 + 21 / 10

end Acs.Spec
