import Verif.Spec

/-! # Where a row is stored -/

namespace Acs.Spec

variable {K : Type}

/-- Row `i'` of `W'` has the weights of row `i` of `W` in its first `n` columns. -/
def SameRow (W W' : Nat → Nat → Int) (n i i' : Nat) : Prop := ∀ j, j < n → W' i' j = W i j

/-- A crossbar of another height. -/
def withHeight (cfg : Cfg K) (M : Nat) : Cfg K := { cfg with M := M }

/-- `W'` and `res'` are the rows of `W` and the entries of `res` from row `a` on. -/
structure RowBlock (a : Nat) (W W' : Nat → Nat → Int) (res res' : Vec Int) (m n : Nat) : Prop where
  mat : ∀ i, i < m → SameRow W W' n (a + i) i
  res : ∀ i, i < m → res'.get i = res.get (a + i)

end Acs.Spec
