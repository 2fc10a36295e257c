import Verif.Spec

/-!
# The alphabets of the binary and ternary mappings

Independent of the model: the number a mapping works with when it is given any number.
-/

namespace Acs.Spec

variable {K : Type}

/-- The weight that a binary or ternary mapping works with when it is given `w`. -/
def seenW (md : Mode) (w : Int) : Int :=
  match md with
  | .bnn3 => 2 * ((w + 1) / 2) - 1
  | .bnn4 => 1 - 2 * (1 - w).tdiv 2
  | .tnn4 => (w + 2) % 4 - 2
  | .tnn5 => (w + 1) % 4 - 1
  | _ => w

/-- The input that a binary or ternary mapping works with when it is given `x`. -/
def seenX (md : Mode) (x : Int) : Int :=
  match md with
  | .bnn1 => 2 * ((x + 1) / 2) - 1
  | .bnn2 => 1 - 2 * (1 - x).tdiv 2
  | .tnn2 => if x = 0 then 0 else if x = -1 then -1 else 1
  | .tnn3 => (x + 1) % 4 - 1
  | _ => x

/-- The weights with which a mapping computes correctly. -/
def trueW (md : Mode) (w : Int) : Prop :=
  match md with
  | .bnn1 | .bnn2 | .bnn5 | .bnn6 => w = 1 ∨ w = -1
  | .bnn3 | .bnn4 => w % 2 = 1
  | .tnn1 | .tnn2 | .tnn3 => w = 1 ∨ w = -1 ∨ w = 0
  | .tnn4 => -2 ≤ w ∧ w ≤ 1
  | .tnn5 => -1 ≤ w ∧ w ≤ 2
  | _ => False

/-- The inputs with which a mapping computes correctly. -/
def trueX (md : Mode) (x : Int) : Prop :=
  match md with
  | .bnn3 | .bnn4 | .bnn5 | .bnn6 => x = 1 ∨ x = -1
  | .bnn1 | .bnn2 => x % 2 = 1
  | .tnn1 | .tnn2 | .tnn4 | .tnn5 => x = 1 ∨ x = -1 ∨ x = 0
  | .tnn3 => -1 ≤ x ∧ x ≤ 2
  | _ => False

/-- A buffer with a function applied to every number. -/
def seenVec (f : Int → Int) (v : Vec Int) : Vec Int := ⟨v.size, fun j => f (v.get j)⟩

/-- A call with the operands as the mapping sees them. -/
def seenOp (md : Mode) : Op → Op
  | .write mat m n => .write (seenVec (seenW md) mat) m n
  | .mvm res vec mat m n l => .mvm res (seenVec (seenX md) vec) mat m n l

end Acs.Spec
