import Verif.SpecReading
import Verif.SpecShipped

/-! # The claims of `int-bindings/test/adc_test.py` -/

namespace Acs.Spec

section
variable {K : Type} [Field K] [LinearOrder K] [FloorRing K]

/-- The function `round` of Python: halves go to the even neighbour. -/
def pyRound (y : K) : Int :=
  if y - ⌊y⌋ < 1 / 2 ∨ y - ⌊y⌋ = 1 / 2 ∧ ⌊y⌋ % 2 = 0 then ⌊y⌋ else ⌊y⌋ + 1

/-- `delta` of the tests: the distance between two levels of the converter. -/
def testDelta (cfg : Cfg K) : K :=
  match cfg.adcType with
  | .sym => 2 * cfg.N * (cfg.lrs - cfg.hrs) / (2 ^ cfg.resolution.toNat - 2)
  | _ => cfg.N * cfg.lrs / (2 ^ cfg.resolution.toNat - 1)

/-- `max_error` of the tests. -/
def testError (cfg : Cfg K) : K := testDelta cfg / 2 / ((cfg.lrs - cfg.hrs) / (2 ^ cfg.wBit - 1))

/-- What the tests assert for a result `z` whose exact value is `c`, up to `d` units. -/
def WithinTest (cfg : Cfg K) (d c z : Int) : Prop :=
  pyRound ((c : K) - testError cfg) - d ≤ z ∧ z ≤ pyRound ((c : K) + testError cfg) + d

/-- What the tests assert for a multiplication that adds to the buffer `res`. -/
structure AddsTested (cfg : Cfg K) (d : Int) (r res : Vec Int) (W : Nat → Nat → Int) (x : Vec Int) (m n : Nat) : Prop where
  size : r.size = res.size
  head : ∀ i, i < m → WithinTest cfg d (prod W x n i) (r.get i - res.get i)
  tail : ∀ i, m ≤ i → r.get i = res.get i

/-- The same for all multiplications. -/
def AnswersTested (cfg : Cfg K) (d : Int) : List Op → List Op → List (Vec Int) → Prop :=
  AnswersBy fun h res vec m n _ r => AddsTested cfg d r res (stored h) vec m n

/-- A configuration as in the tests: one slice, one input bit, a real converter with `MAX` calibration and
`0 < HRS < LRS`. -/
structure OneSlice (cfg : Cfg K) : Prop where
  int : cfg.mode.isInt = true
  width : 1 ≤ cfg.wBit
  split : cfg.split = [cfg.wBit]
  input : cfg.iBit = 1
  calib : cfg.calibMode = .max
  adc : adcFits cfg
  low : 0 ≤ cfg.hrs
  high : cfg.hrs < cfg.lrs
  cols : 0 < cfg.N
  res : (if cfg.adcType = .sym then 2 else 1) ≤ cfg.resolution
  res30 : cfg.resolution ≤ 30

/-- The conductance of the lowest state is a whole number of units. -/
def WholeLeakage (cfg : Cfg K) : Prop := ∃ z : Int, leakage cfg = z

/-- The range of a `MAX` calibration. -/
def maxRange (cfg : Cfg K) : K × K :=
  match cfg.adcType with
  | .sym => (-(cfg.N * (cfg.lrs - cfg.hrs)), cfg.N * (cfg.lrs - cfg.hrs))
  | _ => (0, cfg.N * cfg.lrs)

end

/-- The documents that the tests write: `SYM_ADC_1.json` to `SYM_ADC_4.json` and `POS_ADC_1.json` with `SPLIT`, `I_BIT`,
`m_mode` and `resolution` replaced. -/
def adcTestFile {K : Type} [OfNat K 0] [OfNat K 5] [OfNat K 30] (md : Mode) (b : Int) : Json K :=
  .obj [("HRS", .num 5), ("HRS_NOISE", .num 0), ("I_BIT", .int 1), ("LRS", .num 30), ("LRS_NOISE", .num 0),
    ("M", .int 3), ("N", .int 5), ("SPLIT", .arr [.int 8]), ("W_BIT", .int 8),
    ("adc_type", .str (adcName (shippedAdc md))), ("digital_only", .bool false), ("m_mode", .str md.name),
    ("resolution", .int b), ("verbose", .bool false)]

end Acs.Spec
