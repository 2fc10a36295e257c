import Verif.SpecWiden

/-! # More weight bits than necessary -/

namespace Acs.Spec

/-- The same crossbar with one more cell per weight, for `c` further bits on top. -/
def withTopSlice {K : Type} (cfg : Cfg K) (c : Nat) : Cfg K := { cfg with split := c :: cfg.split, wBit := cfg.wBit + c }

/-- The integer mappings with two cells per slice. -/
def twoCells : Mode → Prop
  | .iDiffWDiff1 | .iDiffWDiff2 | .iOffsWDiff | .iTcWDiff | .iUintWDiff => True
  | _ => False

end Acs.Spec
