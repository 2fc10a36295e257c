import Verif.SpecLoad
import Verif.SpecRd

/-! # Vocabulary of C81: which configurations a crossbar can be built from -/

namespace Acs.Spec

variable {K : Type} [Field K] [LinearOrder K] [IsStrictOrderedRing K] [FloorRing K]

/-- Position of a slice as `uint32_t`: `W_BIT` less the widths of this slice and the ones before. -/
def wrappedShift (cfg : Cfg K) (s : Nat) : Nat :=
  (((cfg.wBit : Int) - (cfg.split.take (s + 1)).sum) % 4294967296).toNat

/-- `1 << k` as `int32_t`. -/
def pow32 (k : Nat) : Int := if k = 31 then -2147483648 else 2 ^ k

/-- The largest value of slice `s`, at its position, can be computed with 32 bits. -/
def SliceFits (cfg : Cfg K) (s : Nat) : Prop :=
  wrappedShift cfg s < 32 ∧ -2147483648 ≤ pow32 (wrappedShift cfg s) * (2 ^ cfg.split.getD s 0 - 1) ∧
    pow32 (wrappedShift cfg s) * (2 ^ cfg.split.getD s 0 - 1) ≤ 2147483647

/-- Thermal voltage, as computed. -/
def thermal32 (E : Env K) : K :=
  E.f32 (E.f64 (E.fmul (E.lit (138064852 / 10 ^ 31)) (E.lit 300) / E.f64 (1602176634 / 10 ^ 28)))

/-- Exponent of the conductance decay, as computed. -/
def decay32 (E : Env K) (v : K) : K :=
  E.fmul (E.lit (68 / 10000)) (E.f32 (E.exp (E.f32 (E.fmul (E.lit (11 / 100)) |v| / thermal32 E))))

/-- No division by zero in the parameters of the read-disturb model. -/
def DecayDefined (E : Env K) (v : K) : Prop :=
  E.f64 (1602176634 / 10 ^ 28 : K) ≠ 0 ∧ thermal32 E ≠ 0 ∧ decay32 E v ≠ 0

/-- The resolution the converter gets: without a real converter the one of the configuration before. -/
def usedResolution (old cfg : Cfg K) : Int :=
  if cfg.digitalOnly = true ∨ cfg.adcType = .inf then old.resolution else cfg.resolution

/-- The switch of the read-disturb model and its voltage: digital configurations inherit both. -/
def usedDisturb (old cfg : Cfg K) : Bool × K :=
  if cfg.digitalOnly = true then (old.readDisturb, old.vRead) else (cfg.readDisturb, cfg.vRead)

/-- A crossbar can be built from `cfg` when the configuration before was `old`. -/
structure Buildable (E : Env K) (old cfg : Cfg K) : Prop where
  resolution : usedResolution old cfg ≤ 30
  wires : cfg.digitalOnly = false → cfg.parasitics = true → cfg.mode ≠ .iTcWDiff
  slices : cfg.mode.family = .int ∨ cfg.mode = .tnn4 → ∀ s ∈ cfg.split, s ≤ 30
  offset : cfg.mode = .iUintWOffs → ∀ s, s < cfg.split.length → SliceFits cfg s
  current : E.strict = true → cfg.digitalOnly = true → (cfg.mode.family = .int ∨ cfg.mode = .tnn4 → cfg.split = []) ∧
    cfg.mode ≠ .iUintWOffs
  disturb : (usedDisturb old cfg).1 = true → DecayDefined E (usedDisturb old cfg).2

/-- `set_config` can release the current crossbar. -/
def Releasable (w : World K) : Prop := w.xbar = none ∨ w.cfg.verbose = false ∨ w.cfg.mode.family = .int

end Acs.Spec
