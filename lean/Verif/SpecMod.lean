import Mathlib.Algebra.BigOperators.Group.Finset.Basic
import Mathlib.Algebra.Field.Defs
import Mathlib.Data.Int.ModEq
import Verif.Spec

/-!
# Integer operands of any size

What the integer mappings make of weights and inputs that do not fit their widths.
-/

namespace Acs.Spec

open Finset

variable {K : Type}

/-- The input a digital multiplication uses instead of `x`: `I_TC_W_DIFF` reads `I_BIT` bits in two's complement,
the other mappings the whole number. -/
def usedX (cfg : Cfg K) (x : Int) : Int :=
  if cfg.mode = .iTcWDiff then (x + 2 ^ (cfg.iBit - 1)) % 2 ^ cfg.iBit - 2 ^ (cfg.iBit - 1) else x

/-- `I_OFFS_W_DIFF` removes the offset of the inputs with the sum of the weights before they are cut. -/
def cutError (cfg : Cfg K) (W : Nat → Int) (n : Nat) : Int :=
  if cfg.mode = .iOffsWDiff then 2 ^ (cfg.iBit - 1) * ∑ j ∈ range n, (wrapW cfg (W j) - W j) else 0

/-- The input an analog multiplication uses instead of `x`, from the bits that are applied to the crossbar. -/
def readX (cfg : Cfg K) (x : Int) : Int :=
  match cfg.mode with
  | .iDiffWDiff1 | .iDiffWDiff2 => if 0 ≤ x then x % 2 ^ (cfg.iBit - 1) else -(-x % 2 ^ cfg.iBit)
  | .iOffsWDiff => (x + 2 ^ (cfg.iBit - 1)) % 2 ^ (cfg.iBit + 1) - 2 ^ (cfg.iBit - 1)
  | .iTcWDiff => (x + 2 ^ (cfg.iBit - 1)) % 2 ^ cfg.iBit - 2 ^ (cfg.iBit - 1)
  | .iUintWDiff | .iUintWOffs => x % 2 ^ cfg.iBit
  | _ => x

/-- `x` is an `int32_t` and so is the number an analog multiplication makes of it first: the magnitude or the sum with
the offset. -/
def Codes (cfg : Cfg K) (x : Int) : Prop :=
  InI32 x ∧ match cfg.mode with
    | .iDiffWDiff1 | .iDiffWDiff2 => InI32 (-x)
    | .iOffsWDiff => InI32 (2 ^ (cfg.iBit - 1) + x)
    | _ => True

/-- What a conversion of `I_UINT_W_OFFS` misses: it removes the offset of the weights and the current of the high
resistance state with the sum of the whole inputs. -/
def lostOffset [Field K] (cfg : Cfg K) (x : Nat → Int) (n : Nat) : K :=
  ((2 ^ cfg.wBit - 1) * cfg.hrs / (cfg.lrs - cfg.hrs) + 2 ^ (cfg.wBit - 1))
    * ((∑ j ∈ range n, (readX cfg (x j) - x j) : Int) : K)

end Acs.Spec
