import Verif.Spec

/-!
# Which calls return

Independent of the model: the arguments with which a write ends regularly.
-/

namespace Acs.Spec

open Finset

variable {K : Type}

/-- The numbers in a buffer are of type `int32_t`. -/
def Int32s (v : Vec Int) : Prop := ∀ k, -2147483648 ≤ v.get k ∧ v.get k ≤ 2147483647

/-- The weights that a mapping can process without an abort or an overflow, whether it can represent them or not. -/
def Writable (cfg : Cfg K) (W : Nat → Nat → Int) (m n : Nat) : Prop :=
  match cfg.mode with
  | .iDiffWDiff1 | .iDiffWDiff2 | .iOffsWDiff | .iTcWDiff | .iUintWDiff =>
    ∀ i, i < m → (∀ j, j < n → W i j ≠ -2147483648) ∧
      ∀ k, k ≤ n → -2147483648 ≤ ∑ j ∈ range k, W i j ∧ ∑ j ∈ range k, W i j ≤ 2147483647
  | .iUintWOffs => ∀ i j, i < m → j < n → W i j + 2 ^ (cfg.wBit - 1) ≤ 2147483647
  | .bnn1 | .bnn2 | .bnn5 | .bnn6 => ∀ i j, i < m → j < n → W i j = 1 ∨ W i j = -1
  | .bnn3 => ∀ i j, i < m → j < n → W i j ≠ 2147483647
  | .bnn4 => ∀ i j, i < m → j < n → W i j ≠ -2147483648
  | .tnn1 | .tnn2 | .tnn3 => ∀ i j, i < m → j < n → W i j = 1 ∨ W i j = -1 ∨ W i j = 0
  | .tnn4 => True
  | .tnn5 => ∀ i j, i < m → j < n → W i j ≠ 2147483647

/-- The weights that an analog crossbar can process: moreover, the cells of a binary or ternary mapping have two states. -/
def Programmable (cfg : Cfg K) (W : Nat → Nat → Int) (m n : Nat) : Prop :=
  match cfg.mode with
  | .bnn3 => ∀ i j, i < m → j < n → -1 ≤ W i j ∧ W i j ≤ 2
  | .bnn4 => ∀ i j, i < m → j < n → -2 ≤ W i j ∧ W i j ≤ 2
  | _ => Writable cfg W m n

end Acs.Spec
