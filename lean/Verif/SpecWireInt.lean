import Verif.SpecWire
import Verif.SpecRoundInt

/-! # Integer mappings with resistive wires -/

namespace Acs.Spec

variable {K : Type} [Field K] [LinearOrder K]

/-- An analog crossbar with an integer mapping and parasitic wires.  Any converter is allowed. -/
structure ResistiveInt (cfg : Cfg K) : Prop where
  analog : cfg.digitalOnly = false
  int : cfg.mode.isInt = true
  par : cfg.parasitics = true
  c2c : cfg.c2c = false
  rd : cfg.readDisturb = false
  prof : cfg.adcProfile = false
  hrs : 0 ≤ cfg.hrs
  lt : cfg.hrs < cfg.lrs
  read : cfg.vRead < 0
  wire : 0 < cfg.wRes
  split : ∀ s ∈ cfg.split, 1 ≤ s
  width : cfg.wBit ≤ 24

/-- Error of a number that a real converter produces with the factor `s`, before it is rounded to an integer: the loss on
the wires of `n` cells and half a step. -/
def wireLevel (cfg : Cfg K) (lo hi : K) (n : Nat) (s : K) : K :=
  |s| * (lineLoss cfg cfg.lrs n + adcStep cfg lo hi / 2)

/-- Error of adding a converted number to a result.  With an ideal converter every sum is truncated.  The offset mapping
sums up numbers without truncation. -/
def wireStep (cfg : Cfg K) (lo hi : K) (n : Nat) (s : K) : K :=
  match cfg.mode, cfg.adcType with
  | .iUintWOffs, .inf => |s| * lineLoss cfg cfg.lrs n
  | .iUintWOffs, _ => wireLevel cfg lo hi n s + 1 / 2
  | _, .inf => 1 + |s| * lineLoss cfg cfg.lrs n
  | _, _ => absorb (wireLevel cfg lo hi n s)

/-- Error of row `i`. -/
def wireRow (cfg : Cfg K) (lo hi : K) (W : Nat → Nat → Int) (x : Vec Int) (n i : Nat) : K :=
  let steps := ((conversions cfg W x n i).map fun c => wireStep cfg lo hi n c.2).sum
  if cfg.mode = .iUintWOffs then absorb steps else steps

/-- The nominal currents of a multiplication are in the range of the converter, and results stay below `2 ^ 24`. -/
structure WireRoom (cfg : Cfg K) (l : String) (lo hi : K) (W : Nat → Nat → Int) (res vec : Vec Int) (m n : Nat) : Prop where
  input : cfg.mode = .iUintWOffs → (n : Int) * 2 ^ cfg.iBit ≤ 2 ^ 24
  real : cfg.adcType ≠ .inf → AdcOk cfg l lo hi ∧ cfg.resolution ≤ 24 ∧ cfg.N ≤ 2 ^ 24 ∧
    ∀ i, i < m → ∀ c ∈ conversions cfg W vec n i, lo ≤ c.1 ∧ c.1 ≤ hi
  room : ∀ i, i < m → |(res.get i : K)| +
    ((conversions cfg W vec n i).map fun c => |c.1 * c.2| + wireStep cfg lo hi n c.2).sum ≤ 2 ^ 24
  int : ∀ i, i < m → ((|res.get i| + peak cfg n : Int) : K) + wireRow cfg lo hi W vec n i ≤ 2147483647

/-- Every multiplication is of this kind. -/
def AllWireRoom (cfg : Cfg K) (rg : String → K × K) : List Op → List Op → Prop :=
  EveryMvm fun h res vec m n l => WireRoom cfg l (rg l).1 (rg l).2 (stored h) res vec m n

/-- A multiplication of a block inside the latest write, whose slices fit into the first `M` rows. -/
def PlacedInt (cfg : Cfg K) (h : List Op) (m n : Nat) : Prop :=
  ∃ b, newestBlock h = some b ∧ m ≤ b.1 ∧ n ≤ b.2 ∧ b.1 * cfg.split.length ≤ cfg.M ∧ b.2 ≤ cfg.N

/-- All multiplications are placed, and the slices of all writes fit into the first `M` rows. -/
def AllPlacedInt (cfg : Cfg K) (h ops : List Op) : Prop :=
  EveryMvm (fun h _ _ m n _ => PlacedInt cfg h m n) h ops ∧
    ∀ mat m n, Op.write mat m n ∈ ops → m * cfg.split.length ≤ cfg.M

/-- Every result is the product up to the error of its rows. -/
def WireIntWithin (cfg : Cfg K) (rg : String → K × K) (h : List Op) (res vec : Vec Int) (m n : Nat) (l : String)
    (r : Vec Int) : Prop :=
  AddsUpTo (wireRow cfg (rg l).1 (rg l).2 (stored h) vec n) r res (stored h) vec m n

/-- The rounding to integers absorbs all errors. -/
def WireIntAbsorbed (cfg : Cfg K) (lo hi : K) (W : Nat → Nat → Int) (x : Vec Int) (m n : Nat) : Prop :=
  if cfg.mode = .iUintWOffs then
    ∀ i, i < m → ((conversions cfg W x n i).map fun c => wireStep cfg lo hi n c.2).sum < 1 / 2
  else cfg.adcType ≠ .inf ∧ ∀ i, i < m → ∀ c ∈ conversions cfg W x n i, wireLevel cfg lo hi n c.2 < 1 / 2

/-- Every multiplication is of this kind. -/
def AllWireIntAbsorbed (cfg : Cfg K) (rg : String → K × K) : List Op → List Op → Prop :=
  EveryMvm fun h _ vec m n l => WireIntAbsorbed cfg (rg l).1 (rg l).2 (stored h) vec m n

end Acs.Spec
