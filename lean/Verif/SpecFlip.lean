import Verif.Spec

/-! # Opposite signs in some columns -/

namespace Acs.Spec

/-- `W'` and `x'` are `W` and `x` with opposite signs in the columns that `b` selects. -/
structure Flipped (b : Nat → Bool) (W W' : Nat → Nat → Int) (x x' : Vec Int) (m n : Nat) : Prop where
  mat : ∀ i j, i < m → j < n → W' i j = if b j then -W i j else W i j
  vec : ∀ j, j < n → x'.get j = if b j then -x.get j else x.get j

/-- Mappings whose currents depend on a weight and its input only through their product, and the mappings without negative
inputs, where only columns with the input zero can be selected. -/
def flipFree : Mode → Prop
  | .bnn5 | .bnn6 | .tnn1 | .iUintWDiff | .iUintWOffs => True
  | _ => False

end Acs.Spec
