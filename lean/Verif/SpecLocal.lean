import Verif.Model.Cpp

/-! # Buffers with the same first numbers -/

namespace Acs.Spec

/-- Both buffers hold at least `k` numbers, the same ones. -/
def SameFront (k : Nat) (v v' : Vec Int) : Prop := k ≤ v.size ∧ k ≤ v'.size ∧ ∀ i, i < k → v.get i = v'.get i

end Acs.Spec
