import Verif.SpecReading

/-! # Inputs of the opposite sign -/

namespace Acs.Spec

/-- `x'` is `x` with the opposite sign. -/
def Opposite (x x' : Vec Int) (n : Nat) : Prop := ∀ j, j < n → x'.get j = -x.get j

/-- The numbers that were added to `res` to obtain `r` and `r'` have opposite signs. -/
def AddsOpposite (r r' res : Vec Int) (m : Nat) : Prop :=
  ∀ i, i < m → r'.get i - res.get i = -(r.get i - res.get i)

/-- The current is halfway between two levels of the converter. -/
def Halfway {K : Type} [Field K] [LinearOrder K] (cfg : Cfg K) (lo hi c : K) : Prop :=
  ∃ z : Int, max lo (min hi c) = lo + (z + 1 / 2) * adcStep cfg lo hi

/-- The range of the converter is symmetric, and so are its levels. -/
structure Centred {K : Type} [Field K] (cfg : Cfg K) (lo hi : K) : Prop where
  type : cfg.adcType = .sym
  range : lo = -hi

end Acs.Spec
