import Verif.SpecNoise
import Verif.SpecFloat

/-!
# Results of a crossbar that computes with rounded numbers

Bounds for the roundings of a multiplication.  They are stated for any arithmetic whose rounding has a
relative error `u` and an absolute error `η` (for binary32: `2 ^ -24` and `2 ^ -150`).
-/

namespace Acs.Spec

/-- Parameters of an arithmetic: relative and absolute rounding error, and the error of the factor
that turns a current into a number. -/
structure Prec (K : Type) where
  u : K
  η : K
  θ : K

/-- Binary32: rounding to nearest with 24 bits, the smallest number is `2 ^ -149`. -/
def prec32 : Prec ℚ := ⟨2 ^ (-24 : ℤ), 2 ^ (-150 : ℤ), 2 ^ (-21 : ℤ)⟩

variable {K : Type} [Field K] [LinearOrder K]

/-- Largest current of a cell that deviates by at most `ε`. -/
def topCurrent (cfg : Cfg K) (ε : K) : K := max |cfg.hrs| |cfg.lrs| + ε

/-- Rounding error of an operation on the currents of a single cell. -/
def cellRound (cfg : Cfg K) (ε : K) (q : Prec K) : K := q.u * (5 * topCurrent cfg ε) + q.η

/-- Rounding error of an operation on the current of a column. -/
def colRound (cfg : Cfg K) (ε : K) (q : Prec K) (n : Nat) : K := q.u * (4 * (n + 1) * topCurrent cfg ε) + q.η

/-- Error of the current of a column: seven roundings for each cell, one for each partial sum, three for
the offset. -/
def columnError (cfg : Cfg K) (ε : K) (q : Prec K) (n : Nat) : K :=
  n * (7 * cellRound cfg ε q + colRound cfg ε q n) + 3 * colRound cfg ε q n

/-- Rounding error of an operation on results, for a buffer with entries up to `A`. -/
def numRound (cfg : Cfg K) (ε : K) (q : Prec K) (A : K) (n : Nat) : K :=
  q.u * (A + 5 * (12 * (n + 1) * topCurrent cfg ε / |cfg.lrs - cfg.hrs|) + 10) + q.η

/-- Sum of the weights of the column currents that a mapping converts. -/
def roundGain : Mode → Nat
  | .bnn6 | .tnn1 => 1
  | .bnn1 | .bnn2 | .bnn5 => 2
  | .tnn2 | .tnn3 => 3
  | .bnn3 | .bnn4 => 4
  | _ => 6

/-- Error of a row due to rounding. -/
def roundError (cfg : Cfg K) (ε : K) (q : Prec K) (A : K) (n : Nat) : K :=
  roundGain cfg.mode * ((1 + q.θ) * columnError cfg ε q n + 4 * n * topCurrent cfg ε * q.θ) / |cfg.lrs - cfg.hrs|
    + 10 * numRound cfg ε q A n

/-- An arithmetic with the parameters `q` in which integers up to `2 ^ 24` are numbers. -/
structure Rounds (E : Env K) (q : Prec K) : Prop where
  pos : 0 ≤ q.u
  err : ∀ x, |E.f32 x - x| ≤ q.u * |x| + q.η
  int : ∀ k : Int, |k| ≤ 2 ^ 24 → E.f32 (k : K) = k

/-- The factors `s / (LRS − HRS)` are computed with an error below `θ`, relative to the window. -/
def ScaleError (E : Env K) (cfg : Cfg K) (q : Prec K) : Prop :=
  q.θ ≤ 1 ∧ ∀ s : K, s = 1 ∨ s = 2 → |E.f32 (s / E.fsub cfg.lrs cfg.hrs) * (cfg.lrs - cfg.hrs) - s| ≤ q.θ

/-- Rounding errors stay small: those of a column below the current of a cell, those of a result below one. -/
structure SmallRounding (cfg : Cfg K) (ε : K) (q : Prec K) (A : K) (n : Nat) : Prop where
  cols : 3 * n < 2 ^ 24
  col : columnError cfg ε q n ≤ topCurrent cfg ε
  num : numRound cfg ε q A n ≤ 1

/-- The result with its error fits into 32 bits, and the buffer holds numbers up to `A`. -/
def RoundRoom (cfg : Cfg K) (ε : K) (q : Prec K) (A : K) (res : Vec Int) (m n : Nat) : Prop :=
  ∀ i, i < m → |(res.get i : K)| ≤ A ∧ ((|res.get i| + 3 * n : Int) : K)
    + (noiseGain cfg.mode * n * ε / |cfg.lrs - cfg.hrs| + roundError cfg ε q A n) + 2 ≤ 2147483647

/-- No noise sample exceeds `σ`; there need not be a bound if no noise is configured. -/
def NoiseUpTo (E : Env K) (cfg : Cfg K) (σ : K) : Prop :=
  0 ≤ σ ∧ (0 < cfg.hrsNoise ∨ 0 < cfg.lrsNoise → ∀ k, |E.gauss k| ≤ σ)

/-- Every multiplication has room for its error, and rounding errors stay small in it. -/
def RoundRooms (cfg : Cfg K) (ε : K) (q : Prec K) (A : K) (ops : List Op) : Prop :=
  ∀ op ∈ ops, match op with
    | .mvm res _ _ m n _ => SmallRounding cfg ε q A n ∧ RoundRoom cfg ε q A res m n
    | .write .. => True

/-- Every multiplication adds to results up to `A`, and `n`, `A` and the ratio `ρ` of the largest current to the
window are small enough for 24 bits. -/
def SingleRooms (ρ A : ℚ) (ops : List Op) : Prop :=
  ∀ op ∈ ops, match op with
    | .mvm res _ _ m n _ => (∀ i, i < m → |(res.get i : ℚ)| ≤ A) ∧
        26 * n ^ 2 * ρ + 1300 * n * ρ + 700 * ρ + 10 * A + 200 ≤ 2 ^ 24
    | .write .. => True

end Acs.Spec
