import Verif.SpecReading

/-! # The order of the results -/

namespace Acs.Spec

/-- The mappings that convert one current per row and correct the number by the same amount in every row. -/
def oneReading : Mode → Prop
  | .bnn5 | .bnn6 | .tnn1 => True
  | _ => False

/-- The numbers that were added to `res` to obtain `r` are in the order of the products. -/
def KeepsOrder (r res : Vec Int) (W : Nat → Nat → Int) (x : Vec Int) (m n : Nat) : Prop :=
  ∀ i i', i < m → i' < m → prod W x n i ≤ prod W x n i' → r.get i - res.get i ≤ r.get i' - res.get i'

/-- The answers of a matrix store each of whose multiplications keeps the order of the products. -/
def AnswersOrdered : List Op → List Op → List (Vec Int) → Prop :=
  AnswersBy fun h res vec m n _ r => KeepsOrder r res (stored h) vec m n

end Acs.Spec
