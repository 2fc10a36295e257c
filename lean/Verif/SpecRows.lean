import Verif.Spec

/-! # Rows of the weight matrix -/

namespace Acs.Spec

/-- Two calls that differ at most in the weights of other rows than `i` and in the other entries of the result buffer. -/
def SameForRow (i : Nat) : Op → Op → Prop
  | .write mat m n, .write mat' m' n' => m' = m ∧ n' = n ∧ (i < m → ∀ j, j < n → entry mat n i j = entry mat' n i j)
  | .mvm res vec _ m n l, .mvm res' vec' _ m' n' l' =>
    vec' = vec ∧ m' = m ∧ n' = n ∧ l' = l ∧ res.size = res'.size ∧ (i < res.size → res.get i = res'.get i)
  | _, _ => False

/-- The same entry `i` in every result. -/
def SameEntry (i : Nat) (rs rs' : List (Vec Int)) : Prop :=
  List.Forall₂ (fun r r' => r.size = r'.size ∧ (i < r.size → r.get i = r'.get i)) rs rs'

end Acs.Spec
