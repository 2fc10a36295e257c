import Verif.SpecPar
import Verif.SpecAdcNoise
import Verif.SpecRound

/-! # Multiplications through resistive wires and a real converter -/

namespace Acs.Spec

/-- Size of the latest write. -/
def newestBlock : List Op → Option (Nat × Nat)
  | [] => none
  | .write _ m n :: _ => some (m, n)
  | .mvm .. :: t => newestBlock t

/-- Bit lines that contribute to a converted current. -/
def bitLines : Mode → Nat
  | .bnn3 | .bnn4 | .bnn5 | .tnn4 | .tnn5 => 1
  | _ => 2

variable {K : Type} [Field K] [LinearOrder K]

/-- An analog crossbar with a binary or ternary mapping and parasitic wires.  Device variation,
read disturb and a real converter are allowed. -/
structure Resistive (cfg : Cfg K) : Prop where
  analog : cfg.digitalOnly = false
  bin : cfg.mode.isInt = false
  par : cfg.parasitics = true
  prof : cfg.adcProfile = false
  hrs : 0 ≤ cfg.hrs
  lt : cfg.hrs < cfg.lrs
  read : cfg.vRead < 0
  wire : 0 < cfg.wRes

/-- What the `N` wire segments of a bit line take at most from `k` cells with a current of at most `I` each. -/
def lineLoss (cfg : Cfg K) (I k : K) : K := cfg.N * (k * I) ^ 2 * cfg.wRes / (-cfg.vRead * 1000000)

/-- Error of a conversion before it is rounded to an integer: half a step, the deviations of the cells and the
loss on the wires. -/
def wireDeviation (cfg : Cfg K) (lo hi ε : K) (c : Int × Int) : K :=
  |(c.1 : K) / (cfg.lrs - cfg.hrs)| *
    (c.2 * ε + lineLoss cfg (cfg.lrs + ε) (c.2 / bitLines cfg.mode) + adcStep cfg lo hi / 2)

/-- Error of a row. -/
def wireBound (cfg : Cfg K) (lo hi ε : K) (x : Vec Int) (n : Nat) : K :=
  ((readout cfg.mode x n).map fun c => wireDeviation cfg lo hi ε c + 1 / 2).sum

/-- The rounding to integers removes all errors. -/
def WireAbsorbed (cfg : Cfg K) (lo hi ε : K) (x : Vec Int) (n : Nat) : Prop :=
  Absorbs cfg (wireDeviation cfg lo hi ε) x n

/-- A multiplication of a block inside the latest write, whose lines fit into the crossbar. -/
structure Placed (cfg : Cfg K) (h : List Op) (m n : Nat) : Prop where
  block : ∃ b, newestBlock h = some b ∧ m ≤ b.1 ∧ n ≤ b.2 ∧ b.1 ≤ cfg.M ∧ b.2 * lines cfg.mode ≤ cfg.N
  taps : taps cfg m ≤ cfg.M

/-- All multiplications are placed, and the word lines of all writes fit into the crossbar. -/
def AllPlaced (cfg : Cfg K) (h ops : List Op) : Prop :=
  EveryMvm (fun h _ _ m n _ => Placed cfg h m n) h ops ∧
    ∀ mat m n, Op.write mat m n ∈ ops → n * lines cfg.mode ≤ cfg.N

/-- The rounding to integers removes the errors of every multiplication. -/
def AllWireAbsorbed (cfg : Cfg K) (rg : String → K × K) (ε : K) : List Op → List Op → Prop :=
  EveryMvm fun _ _ vec _ n l => WireAbsorbed cfg (rg l).1 (rg l).2 ε vec n

end Acs.Spec
