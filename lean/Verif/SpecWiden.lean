import Verif.SpecOdd

/-! # More input bits than necessary -/

namespace Acs.Spec

/-- The same crossbar with another number of input bits. -/
def withInputBits {K : Type} (cfg : Cfg K) (b : Nat) : Cfg K := { cfg with iBit := b }

/-- Mappings in which further input bits add nothing. -/
def widenFree : Mode → Prop
  | .iOffsWDiff | .iTcWDiff => False
  | _ => True

/-- Zero is a level of the converter. -/
def HasZero {K : Type} [Field K] (cfg : Cfg K) (lo hi : K) : Prop := Centred cfg lo hi ∨ lo = 0

/-- Two matrices with the same entries. -/
def SameBlock (W W' : Nat → Nat → Int) (m n : Nat) : Prop := ∀ i j, i < m → j < n → W' i j = W i j

end Acs.Spec
