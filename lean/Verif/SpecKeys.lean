import Verif.SpecUpdate

/-! # Vocabulary of C97: keys that are no parameters -/

namespace Acs.Spec

variable {K : Type}

/-- The keys with a meaning: those a crossbar is built from and six others. -/
def parameter (key : String) : Prop :=
  structural key ∨ key ∈ ["I_BIT", "verbose", "adc_profile_bin_size", "d2d_var", "c2c_var", "w_res"]

/-- What an update consists of: the members of an object, the elements of an array under their numbers, and every other
value but `null` under the empty key. -/
def Entry (j : Json K) (k : String) (v : Json K) : Prop :=
  match j with
  | .obj l => (k, v) ∈ l
  | .arr l => ∃ i : Nat, l[i]? = some v ∧ k = toString i
  | .null => False
  | j => k = "" ∧ v = j

/-- Two documents give the same values for all parameters. -/
def SameParameters (j j' : Json K) : Prop := ∀ k, parameter k → j'.find k = j.find k

end Acs.Spec
