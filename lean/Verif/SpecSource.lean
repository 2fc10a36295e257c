import Verif.SpecBuild
import Verif.SpecAdcTest
import Verif.Model.Host

/-! # Vocabulary of C96: where a configuration comes from -/

namespace Acs.Spec

variable {K : Type}

/-- The caller gives no name: a null pointer or an empty string. -/
def NoName (arg : Option String) : Prop := ∀ s, arg = some s → s = ""

/-- The file with the name `p` is the one to load: the caller names it, or gives no name and `CFG_FILE` does. -/
def Source (h : Host K) (arg : Option String) (p : String) : Prop :=
  arg = some p ∧ p ≠ "" ∨ NoName arg ∧ h.var = some p

end Acs.Spec
