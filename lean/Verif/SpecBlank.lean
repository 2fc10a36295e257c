import Verif.SpecMirror
import Verif.SpecWiden

/-! # Rows of zeros -/

namespace Acs.Spec

/-- Row `i` consists of zeros. -/
def BlankRow (W : Nat → Nat → Int) (n i : Nat) : Prop := ∀ j, j < n → W i j = 0

end Acs.Spec
