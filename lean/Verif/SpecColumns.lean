import Verif.SpecReading

/-! # The order of the columns -/

namespace Acs.Spec

/-- `W'` and `x'` are the leading `m × n` block of `W` and the first `n` entries of `x` with the columns in another order:
column `j` was column `π j`. -/
structure Reordered (π : Nat → Nat) (W W' : Nat → Nat → Int) (x x' : Vec Int) (m n : Nat) : Prop where
  maps : ∀ j, j < n → π j < n
  inj : ∀ j k, j < n → k < n → π j = π k → j = k
  mat : ∀ i j, i < m → j < n → W' i j = W i (π j)
  vec : ∀ j, j < n → x'.get j = x.get (π j)

end Acs.Spec
