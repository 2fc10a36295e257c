import Verif.Spec

/-! # Mappings that do the same -/

namespace Acs.Spec

variable {K : Type}

/-- The same crossbar with another mapping. -/
def withMode (cfg : Cfg K) (md : Mode) : Cfg K := { cfg with mode := md }

/-- How the operands and the result of two mappings correspond: factors 1 or -1 for the weights, the inputs and the numbers
that are added to the result. -/
structure Signs where
  w : Int
  x : Int
  r : Int

/-- Pairs of mappings that convert the same currents if the signs of the operands are adapted. -/
def related : Mode → Mode → Option Signs
  | .iDiffWDiff1, .iDiffWDiff2 => some ⟨1, 1, 1⟩
  | .bnn6, .tnn1 => some ⟨1, 1, 1⟩
  | .bnn1, .bnn2 => some ⟨-1, -1, 1⟩
  | .bnn3, .bnn4 => some ⟨-1, 1, -1⟩
  | _, _ => none

/-- `W'` and `x'` are `W` and `x` up to their signs. -/
structure Signed (s : Signs) (W W' : Nat → Nat → Int) (x x' : Vec Int) (m n : Nat) : Prop where
  mat : ∀ i j, i < m → j < n → W' i j = s.w * W i j
  vec : ∀ j, j < n → x'.get j = s.x * x.get j

end Acs.Spec
