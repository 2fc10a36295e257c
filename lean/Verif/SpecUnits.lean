import Verif.SpecFloat

/-! # The unit of the currents -/

namespace Acs.Spec

section
variable {K : Type} [Field K] [LinearOrder K] [IsStrictOrderedRing K] [FloorRing K]

/-- The configuration with all currents in a unit that is smaller by the factor `c`: cell currents, standard deviations and
calibrated converter ranges grow by `c`, resistances shrink. -/
def inUnit (c : K) (cfg : Cfg K) : Cfg K := { cfg with
  hrs := c * cfg.hrs
  lrs := c * cfg.lrs
  hrsNoise := c * cfg.hrsNoise
  lrsNoise := c * cfg.lrsNoise
  calibDict := cfg.calibDict.map fun p => (p.1, (c * p.2.1, c * p.2.2))
  wRes := cfg.wRes / c }

/-- The random samples of the currents in this unit. -/
def drawnIn (c : K) (E : Env K) : Env K := { E with gauss := fun i => c * E.gauss i, junk := c * E.junk }

/-- A positive factor that commutes with rounding. -/
structure Unitlike (E : Env K) (c : K) : Prop where
  pos : 0 < c
  f32 : ∀ x, E.f32 (c * x) = c * E.f32 x
  f64 : ∀ x, E.f64 (c * x) = c * E.f64 x

/-- Build a crossbar, perform the calls and collect the results. -/
def replies (E : Env K) (cfg : Cfg K) (ops : List Op) : C (List (Vec Int)) := do
  let x ← mkXbar E cfg 0 []
  let r ← exec E cfg x ops
  .ok r.2

/-- All currents of `x'` are those of `x` times `c`. -/
def CurrentsTimes (c : K) (x x' : Xbar K) : Prop :=
  ∀ i j, x'.mapper.core.ia.p.get i j = c * x.mapper.core.ia.p.get i j ∧
    x'.mapper.core.ia.m.get i j = c * x.mapper.core.ia.m.get i j

end

/-- The number with `p` bits nearest to `x`; the exponents have no bounds. -/
def rndWide (p : ℕ) (x : ℚ) : ℚ :=
  rndEven (x / 2 ^ (Int.log 2 |x| + 1 - p)) * 2 ^ (Int.log 2 |x| + 1 - p)

/-- `float` has 24 bits and `double` 53 bits, without underflow. -/
structure Wide (E : Env ℚ) : Prop where
  f32 : ∀ x, E.f32 x = rndWide 24 x
  f64 : ∀ x, E.f64 x = rndWide 53 x

end Acs.Spec
