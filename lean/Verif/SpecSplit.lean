import Verif.SpecMod

/-! # Vocabulary of C80: a `SPLIT` that does not match `W_BIT` -/

namespace Acs.Spec

open Finset

variable {K : Type}

/-- The lowest bits of a weight that no slice holds. -/
def lost (cfg : Cfg K) : Nat := cfg.wBit - cfg.split.sum

/-- The weight that the slices of an integer mapping represent: the bits of the magnitude (offset mapping: of the
shifted value) from `lost` on, as many as `SPLIT` provides. -/
def keptW (cfg : Cfg K) (w : Int) : Int :=
  if cfg.mode = .iUintWOffs then
    bits (w + 2 ^ (cfg.wBit - 1)) (lost cfg) cfg.split.sum * 2 ^ lost cfg - 2 ^ (cfg.wBit - 1)
  else if 0 ≤ w then bits w (lost cfg) cfg.split.sum * 2 ^ lost cfg
  else -(bits (-w) (lost cfg) cfg.split.sum * 2 ^ lost cfg)

/-- `I_OFFS_W_DIFF` removes the offset of the inputs with the sum of the weights it was given. -/
def keptError (cfg : Cfg K) (W : Nat → Int) (n : Nat) : Int :=
  if cfg.mode = .iOffsWDiff then 2 ^ (cfg.iBit - 1) * ∑ j ∈ range n, (keptW cfg (W j) - W j) else 0

/-- Word lengths of an integer mapping whose slices together hold at most the bits of a weight. -/
structure ShortSplit (cfg : Cfg K) : Prop where
  w1 : 1 ≤ cfg.wBit
  w31 : cfg.wBit ≤ 31
  i1 : 1 ≤ cfg.iBit
  i31 : cfg.iBit ≤ 31
  some : cfg.split ≠ []
  sum : cfg.split.sum ≤ cfg.wBit

end Acs.Spec
