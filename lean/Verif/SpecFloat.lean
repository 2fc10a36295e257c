import Verif.Spec
import Mathlib.Data.Int.Log
import Mathlib.Data.Rat.Floor
import Mathlib.Algebra.Order.Ring.Rat

/-!
# IEEE 754 rounding

Round to nearest, ties to even, with gradual underflow.  There is no largest number: results that IEEE
arithmetic turns into an infinity are outside the model.
-/

namespace Acs.Spec

/-- The nearest integer, the even one in a tie. -/
def rndEven (x : ℚ) : ℤ :=
  if x - ⌊x⌋ < 1 / 2 then ⌊x⌋
  else if 1 / 2 < x - ⌊x⌋ then ⌊x⌋ + 1
  else if ⌊x⌋ % 2 = 0 then ⌊x⌋ else ⌊x⌋ + 1

/-- Exponent of the last place of `x` in a format with `p` bits and smallest positive number `2 ^ emin`. -/
def ulpExp (p : ℕ) (emin : ℤ) (x : ℚ) : ℤ := max (Int.log 2 |x| + 1 - p) emin

/-- The number of the format nearest to `x`. -/
def rnd (p : ℕ) (emin : ℤ) (x : ℚ) : ℚ := rndEven (x / 2 ^ ulpExp p emin x) * 2 ^ ulpExp p emin x

/-- Rounding to binary32. -/
def rnd32 : ℚ → ℚ := rnd 24 (-149)

/-- Rounding to binary64. -/
def rnd64 : ℚ → ℚ := rnd 53 (-1074)

/-- `float` is binary32 and `double` is binary64. -/
structure Ieee (E : Env ℚ) : Prop where
  f32 : ∀ x, E.f32 x = rnd32 x
  f64 : ∀ x, E.f64 x = rnd64 x

/-- `P` holds of the result buffer and the size of each multiplication in the list. -/
def EachMvm (P : Vec Int → Nat → Nat → Prop) : List Op → Prop
  | [] => True
  | .write _ _ _ :: ops => EachMvm P ops
  | .mvm res _ _ m n _ :: ops => P res m n ∧ EachMvm P ops

end Acs.Spec
