import Verif.SpecAdcNoise
import Mathlib.Algebra.Order.Floor.Ring

/-! # What a multiplication through a real converter computes -/

namespace Acs.Spec

open Finset

variable {K : Type} [Field K] [LinearOrder K] [FloorRing K]

/-- The integer nearest to `y`; halves go away from zero. -/
def nearest (y : K) : Int := if y < 0 then -⌊-y + 1 / 2⌋ else ⌊y + 1 / 2⌋

/-- The number a converter with the range `lo`, `hi` delivers for the current `c.1` and the factor `c.2`: the current is
limited to the range, replaced by the nearest level, scaled, and rounded to an integer. -/
def reading (cfg : Cfg K) (lo hi : K) (c : K × K) : Int :=
  let q := adcStep cfg lo hi
  let level := nearest ((max lo (min hi c.1) - lo) / q)
  nearest ((lo + level * q) * c.2)

/-- What the cells in their lowest state contribute for one unit of the input, in the offset mapping. -/
def leakage (cfg : Cfg K) : K :=
  ∑ s ∈ range cfg.split.length,
    2 ^ shiftOf cfg.split s * (2 ^ cfg.split.getD s 0 - 1) * cfg.hrs / (cfg.lrs - cfg.hrs)

/-- The number that row `i` of a multiplication adds to the result: the readings of its conversions and the digital
corrections of the mapping.  `W` is the stored matrix, `x` the input. -/
def rowResult (cfg : Cfg K) (lo hi : K) (W : Nat → Nat → Int) (x : Vec Int) (n i : Nat) : Int :=
  let d := (conversions cfg W x n i).map (reading cfg lo hi)
  let k := fun t => d.getD t 0
  let weights := ∑ j ∈ range n, W i j
  let inputs := ∑ j ∈ range n, x.get j
  match cfg.mode with
  | .iDiffWDiff1 | .iDiffWDiff2 | .iUintWDiff => d.sum
  | .iOffsWDiff => d.sum - 2 ^ (cfg.iBit - 1) * weights
  -- the last bit is the sign bit
  | .iTcWDiff =>
    (d.take ((cfg.iBit - 1) * cfg.split.length)).sum - (d.drop ((cfg.iBit - 1) * cfg.split.length)).sum
  | .iUintWOffs => nearest ((d.sum : K) - inputs * (leakage cfg + 2 ^ (cfg.wBit - 1)))
  | .bnn1 => k 0 - weights
  | .bnn2 => k 0 + weights
  | .bnn3 => k 0 - k 1 - inputs
  | .bnn4 => k 1 - k 0 + inputs
  | .bnn5 => k 0 - n
  | .bnn6 | .tnn1 => k 0
  | .tnn2 => k 0 - k 1
  | .tnn3 => k 0 + k 1 - weights
  | .tnn4 => k 0 - k 1 - k 2 + k 3
  | .tnn5 => k 0 - k 1 + k 2 - k 3 - inputs

/-- Everything the conversions and the corrections can produce fits into the result. -/
structure ReadRoom (cfg : Cfg K) (lo hi : K) (W : Nat → Nat → Int) (res vec : Vec Int) (m n : Nat) : Prop where
  parts : ∀ i, i < m →
    ((|res.get i| + peak cfg n : Int) : K) + convPeak lo hi (conversions cfg W vec n i) ≤ 2147483647
  whole : cfg.mode = .iUintWOffs → ∀ i, i < m → |res.get i| + |rowResult cfg lo hi W vec n i| ≤ 2147483647

/-- `r` is the buffer `res` with what the converter makes of the product added to its first `m` entries. -/
structure AddsRead (cfg : Cfg K) (lo hi : K) (r res : Vec Int) (W : Nat → Nat → Int) (x : Vec Int) (m n : Nat) : Prop where
  size : r.size = res.size
  head : ∀ i, i < m → r.get i = res.get i + rowResult cfg lo hi W x n i
  tail : ∀ i, m ≤ i → r.get i = res.get i

/-- Every multiplication has a converter with the range `rg` for its label, and room for what that can produce. -/
def AllReadable (cfg : Cfg K) (rg : String → K × K) : List Op → List Op → Prop :=
  EveryMvm fun h res vec m n l =>
    AdcOk cfg l (rg l).1 (rg l).2 ∧ ReadRoom cfg (rg l).1 (rg l).2 (stored h) res vec m n

/-- The answers of a matrix store that reads its products through a converter. -/
def AnswersRead (cfg : Cfg K) (rg : String → K × K) : List Op → List Op → List (Vec Int) → Prop :=
  AnswersBy fun h res vec m n l r => AddsRead cfg (rg l).1 (rg l).2 r res (stored h) vec m n

end Acs.Spec
