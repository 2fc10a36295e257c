import Verif.SpecOdd

/-! # Matrices of the opposite sign -/

namespace Acs.Spec

/-- Mappings that store a weight as the difference of two cells and treat both alike. -/
def balanced : Mode → Prop
  | .iDiffWDiff1 | .iDiffWDiff2 | .iOffsWDiff | .iTcWDiff | .iUintWDiff => True
  | .bnn1 | .bnn2 | .bnn6 | .tnn1 | .tnn2 | .tnn3 => True
  | .iUintWOffs | .bnn3 | .bnn4 | .bnn5 | .tnn4 | .tnn5 => False

/-- `W'` is `W` with the opposite sign. -/
def Mirrored (W W' : Nat → Nat → Int) (m n : Nat) : Prop := ∀ i j, i < m → j < n → W' i j = -W i j

/-- None of the currents that are converted is halfway between two levels. -/
def NoneHalfway {K : Type} [Field K] [LinearOrder K] (cfg : Cfg K) (lo hi : K) (W : Nat → Nat → Int) (x : Vec Int)
    (m n : Nat) : Prop :=
  ∀ i, i < m → ∀ c ∈ conversions cfg W x n i, ¬Halfway cfg lo hi c.1

end Acs.Spec
