import Verif.Spec
import Mathlib.Data.Finset.Prod

/-!
# What the tests of the getters look at

Independent of the model: which cells are switched on by the weights written last, and how many cells of an array hold
a value.  The tests are `test_get_gd` (`int-bindings/test/digital_mapping_test.py:170-186`) and `test_get_ia`
(`int-bindings/test/analog_mapping_test.py:170-188`).
-/

namespace Acs.Spec

open Finset

variable {α : Type}

/-- Mappings with one row of cells per row of weights, whose cells are off or on. -/
def twoState : Mode → Prop
  | .bnn1 | .bnn2 | .bnn3 | .bnn4 | .bnn5 | .bnn6 | .tnn1 | .tnn2 | .tnn3 => True
  | _ => False

/-- The weight that switches the plus cell on. -/
def onP : Mode → Int
  | .bnn4 => -1
  | _ => 1

/-- The weight that switches the minus cell on, where minus cells are used. -/
def onM : Mode → Option Int
  | .bnn3 | .bnn4 => none
  | _ => some (-1)

/-- The plus cell at `(i, j)` is on after the calls `h`. -/
def litP (md : Mode) (h : List Op) (i j : Nat) : Bool := lastWrite h i j == some (onP md)

/-- The minus cell at `(i, j)` is on after the calls `h`. -/
def litM (md : Mode) (h : List Op) (i j : Nat) : Bool :=
  match onM md with
  | none => false
  | some v => lastWrite h i j == some v

/-- The `m` x `n` matrix `mat` has the entry `v` at `(i, j)`. -/
def holds (mat : Vec Int) (m n : Nat) (v : Int) (i j : Nat) : Bool := decide (i < m ∧ j < n ∧ entry mat n i j = v)

/-- Number of positions in `r` rows and `c` columns where `p` holds. -/
def places (r c : Nat) (p : Nat → Nat → Bool) : Nat :=
  ((range r ×ˢ range c).filter fun q => p q.1 q.2 = true).card

/-- Number of entries of `A` that equal `a`, like `(A == a).sum()`. -/
def countOf [DecidableEq α] (A : Mat α) (a : α) : Nat := places A.rows A.cols fun i j => decide (A.get i j = a)

end Acs.Spec
