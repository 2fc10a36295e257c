import Verif.SpecRoundAdc

/-!
# Results of the integer mappings with rounded numbers

Weights are cut into slices and inputs into bits, and each combination is converted and added on its own.
-/

namespace Acs.Spec

open Finset

variable {K : Type} [Field K] [LinearOrder K]

/-- Largest state of a cell of slice `s`. -/
def sliceTop (cfg : Cfg K) (s : Nat) : K := 2 ^ cfg.split.getD s 0 - 1

/-- The current per state of slice `s`, as computed. -/
def stateStep (E : Env K) (cfg : Cfg K) (s : Nat) : K := E.f32 (E.fsub cfg.lrs cfg.hrs / sliceTop cfg s)

/-- The currents per state, the factors that turn a current into a number and the offset of a weight are computed with
a relative error of `θ`, and states are small enough to be represented. -/
structure IntScale (E : Env K) (cfg : Cfg K) (q : Prec K) : Prop where
  th : q.θ ≤ 1
  width : cfg.wBit ≤ 24
  ne : ∀ s, s < cfg.split.length → stateStep E cfg s ≠ 0
  step : ∀ s, s < cfg.split.length →
    |stateStep E cfg s * sliceTop cfg s - (cfg.lrs - cfg.hrs)| ≤ q.θ * |cfg.lrs - cfg.hrs|
  scale : ∀ s, s < cfg.split.length → ∀ k, k < 64 → ∀ sg : K, sg = 1 ∨ sg = -1 →
    |E.f32 (E.f64 (2 ^ k / (sg * stateStep E cfg s))) * (cfg.lrs - cfg.hrs) - sg * (2 ^ k * sliceTop cfg s)|
      ≤ q.θ * (2 ^ k * sliceTop cfg s)
  window : E.fsub cfg.lrs cfg.hrs ≠ 0
  offset : |E.fmul (E.f32 (cfg.hrs / E.fsub cfg.lrs cfg.hrs)) (2 ^ cfg.wBit - 1)
      - cfg.hrs / (cfg.lrs - cfg.hrs) * (2 ^ cfg.wBit - 1)|
    ≤ q.θ * (|cfg.hrs / (cfg.lrs - cfg.hrs) * (2 ^ cfg.wBit - 1)| + 1)

/-- Programmed cells deviate from their nominal currents by at most `ε`: the error of the current per state and the
roundings of a product and a sum. -/
def CellsRound (cfg : Cfg K) (ε : K) (q : Prec K) : Prop :=
  q.θ * |cfg.lrs - cfg.hrs| + 2 * cellRound cfg ε q ≤ ε

/-- Error of the current of a column: cells that deviate by `ε`, and roundings. -/
def sliceDev (cfg : Cfg K) (ε : K) (q : Prec K) (n : Nat) : K := 2 * n * ε + columnError cfg ε q n

/-- Largest current of a column. -/
def sliceMax (cfg : Cfg K) (ε : K) (n : Nat) : K := 2 * n * topCurrent cfg ε

/-- Error of a number that an ideal converter produces with the factor `s`. -/
def scaledError (cfg : Cfg K) (ε : K) (q : Prec K) (n : Nat) (s : K) : K :=
  |s| * ((1 + q.u) * ((1 + q.θ) * ((1 + q.u) * sliceDev cfg ε q n + q.u * sliceMax cfg ε n + q.η)
      + q.θ * sliceMax cfg ε n) + q.u * sliceMax cfg ε n) + q.η

/-- Error of a number that a real converter produces with the factor `s`, before it is rounded to an integer. -/
def levelError (cfg : Cfg K) (lo hi ε : K) (q : Prec K) (n : Nat) (s : K) : K :=
  |s| * ((1 + q.θ) * ((1 + q.u) * sliceDev cfg ε q n + adcStep cfg lo hi / 2 + 7 * adcRound cfg lo hi q)
      + (q.θ + 5 * q.u) * max |lo| |hi|) + q.η

/-- What rounding to an integer leaves of an error: nothing if it is below one half. -/
def absorb (z : K) : K := if z < 1 / 2 then 0 else z + 1 / 2

/-- Error of adding a converted number to a result, if results stay below `A`.  With an ideal converter every sum is
truncated.  With a real converter sums are exact.  The offset mapping sums up numbers without truncation. -/
def stepError (cfg : Cfg K) (lo hi ε : K) (q : Prec K) (A : K) (n : Nat) (s : K) : K :=
  match cfg.mode, cfg.adcType with
  | .iUintWOffs, .inf => scaledError cfg ε q n s + (q.u * A + q.η)
  | .iUintWOffs, _ => levelError cfg lo hi ε q n s + 1 / 2 + (q.u * A + q.η)
  | _, .inf => 1 + scaledError cfg ε q n s + (q.u * A + q.η)
  | _, _ => absorb (levelError cfg lo hi ε q n s)

/-- Largest sum of the inputs. -/
def inputMax (cfg : Cfg K) (n : Nat) : K := n * 2 ^ cfg.iBit

/-- Offset of the weights of the offset mapping: its slices at `HRS` seem to hold this weight. -/
def weightOffset (cfg : Cfg K) : K := cfg.hrs / (cfg.lrs - cfg.hrs) * (2 ^ cfg.wBit - 1)

/-- Error of the computed offset. -/
def offsetError (cfg : Cfg K) (q : Prec K) : K :=
  q.θ * (|weightOffset cfg| + 1) + (q.u * (|weightOffset cfg| + q.θ * (|weightOffset cfg| + 1) + 2 ^ (cfg.wBit - 1)) + q.η)

/-- Largest number that the offset mapping subtracts. -/
def offsetMax (cfg : Cfg K) (q : Prec K) (n : Nat) : K :=
  inputMax cfg n * (|weightOffset cfg| + 2 ^ (cfg.wBit - 1) + offsetError cfg q)

/-- Error of the subtraction of the offset. -/
def offsetRound (cfg : Cfg K) (q : Prec K) (A : K) (n : Nat) : K :=
  inputMax cfg n * offsetError cfg q + (q.u * offsetMax cfg q n + q.η)
    + (q.u * (A + (offsetMax cfg q n + (q.u * offsetMax cfg q n + q.η))) + q.η)

/-- Error of row `i`. -/
def intError (cfg : Cfg K) (lo hi ε : K) (q : Prec K) (A : K) (W : Nat → Nat → Int) (x : Vec Int) (n i : Nat) : K :=
  let steps := ((conversions cfg W x n i).map fun c => stepError cfg lo hi ε q A n c.2).sum
  if cfg.mode = .iUintWOffs then absorb (steps + offsetRound cfg q A n) else steps

/-- The nominal currents of a multiplication are in the range of the converter, rounding errors of a column stay below
the current of a cell, and results below `A`. -/
structure IntRounds (cfg : Cfg K) (l : String) (lo hi ε : K) (q : Prec K) (A : K) (W : Nat → Nat → Int)
    (res vec : Vec Int) (m n : Nat) : Prop where
  prec : q.u ≤ 1 / 8
  col : columnError cfg ε q n ≤ topCurrent cfg ε
  pos : 0 ≤ A
  big : A ≤ 2 ^ 24
  input : cfg.mode = .iUintWOffs → (n : Int) * 2 ^ cfg.iBit ≤ 2 ^ 24
  real : cfg.adcType ≠ .inf → AdcOk cfg l lo hi ∧ SmallConversion cfg lo hi q ∧
    ∀ i, i < m → ∀ c ∈ conversions cfg W vec n i, lo ≤ c.1 ∧ c.1 ≤ hi
  room : ∀ i, i < m → |(res.get i : K)| +
    ((conversions cfg W vec n i).map fun c => |c.1 * c.2| + stepError cfg lo hi ε q A n c.2).sum ≤ A
  int : ∀ i, i < m → ((|res.get i| + peak cfg n : Int) : K) + intError cfg lo hi ε q A W vec n i ≤ 2147483647

/-- Every multiplication is of this kind. -/
def AllIntRounds (cfg : Cfg K) (rg : String → K × K) (ε : K) (q : Prec K) (A : K) : List Op → List Op → Prop :=
  EveryMvm fun h res vec m n l => IntRounds cfg l (rg l).1 (rg l).2 ε q A (stored h) res vec m n

/-- Every result is the product up to the error of its rows. -/
def IntWithin (cfg : Cfg K) (rg : String → K × K) (ε : K) (q : Prec K) (A : K) (h : List Op) (res vec : Vec Int)
    (m n : Nat) (l : String) (r : Vec Int) : Prop :=
  AddsUpTo (intError cfg (rg l).1 (rg l).2 ε q A (stored h) vec n) r res (stored h) vec m n

/-- The rounding to integers absorbs all errors: those of every conversion, or those of the whole sum of the offset
mapping, are below one half.  (The other mappings truncate the sums of an ideal converter, which absorbs nothing.) -/
def IntAbsorbed (cfg : Cfg K) (lo hi ε : K) (q : Prec K) (A : K) (W : Nat → Nat → Int) (x : Vec Int) (m n : Nat) : Prop :=
  if cfg.mode = .iUintWOffs then
    ∀ i, i < m → ((conversions cfg W x n i).map fun c => stepError cfg lo hi ε q A n c.2).sum + offsetRound cfg q A n < 1 / 2
  else cfg.adcType ≠ .inf ∧ ∀ i, i < m → ∀ c ∈ conversions cfg W x n i, levelError cfg lo hi ε q n c.2 < 1 / 2

/-- Every multiplication is of this kind. -/
def AllIntAbsorbed (cfg : Cfg K) (rg : String → K × K) (ε : K) (q : Prec K) (A : K) : List Op → List Op → Prop :=
  EveryMvm fun h _ vec m n l => IntAbsorbed cfg (rg l).1 (rg l).2 ε q A (stored h) vec m n

end Acs.Spec
