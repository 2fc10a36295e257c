import Verif.Spec

/-! # Columns with the input zero -/

namespace Acs.Spec

/-- `x'` is `x` with zeros behind its first `n` entries, and `W'` has the weights of `W` in the first `n` columns. -/
structure Padded (W W' : Nat → Nat → Int) (x x' : Vec Int) (m n n' : Nat) : Prop where
  le : n ≤ n'
  mat : ∀ i j, i < m → j < n → W' i j = W i j
  vec : ∀ j, j < n → x'.get j = x.get j
  zero : ∀ j, n ≤ j → j < n' → x'.get j = 0

/-- Mappings that apply a voltage for the input zero. -/
def drivesZero : Mode → Prop
  | .iOffsWDiff | .tnn3 => True
  | _ => False

/-- The weights of the added columns are zero. -/
def ZeroPad (W' : Nat → Nat → Int) (m n n' : Nat) : Prop := ∀ i j, i < m → n ≤ j → j < n' → W' i j = 0

end Acs.Spec
