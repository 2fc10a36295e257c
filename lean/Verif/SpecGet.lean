import Verif.Spec

/-!
# What the getters should return

Independent of the model: a matrix of cell states and the weights it stands for.
-/

namespace Acs.Spec

open Finset

variable {K : Type}

/-- The weight at position `(i, j)` that the states `P` and `M` of the plus and minus cells stand for. -/
def decode (cfg : Cfg K) (P M : Mat Nat) (i j : Nat) : Int :=
  match cfg.mode with
  | .iDiffWDiff1 | .iDiffWDiff2 | .iOffsWDiff | .iTcWDiff | .iUintWDiff =>
    ∑ s ∈ range cfg.split.length, ((P.get (i * cfg.split.length + s) j : Int)
      - M.get (i * cfg.split.length + s) j) * 2 ^ shiftOf cfg.split s
  | .iUintWOffs =>
    ∑ s ∈ range cfg.split.length, (P.get (i * cfg.split.length + s) j : Int) * 2 ^ shiftOf cfg.split s
      - 2 ^ (cfg.wBit - 1)
  | .bnn1 | .bnn2 | .bnn5 | .bnn6 | .tnn1 | .tnn2 | .tnn3 => (P.get i j : Int) - M.get i j
  | .bnn3 => 2 * (P.get i j : Int) - 1
  | .bnn4 => 1 - 2 * (P.get i j : Int)
  | .tnn4 => (P.get i j : Int) - 2 * M.get i j
  | .tnn5 => (P.get i j : Int) + 2 * M.get i j - 1

/-- State of the plus cell in row `r` and column `j` after the calls `h`. -/
def heldP (cfg : Cfg K) (h : List Op) (r j : Nat) : Int :=
  match lastWrite h (rowOf cfg r).1 j with
  | none => 0
  | some v => encP cfg v (rowOf cfg r).2

/-- State of the minus cell in row `r` and column `j` after the calls `h`. -/
def heldM (cfg : Cfg K) (h : List Op) (r j : Nat) : Int :=
  match lastWrite h (rowOf cfg r).1 j with
  | none => 0
  | some v => encM cfg v (rowOf cfg r).2

/-- `A` has `r` rows and `c` columns and holds `f` there. -/
def Shows {α : Type} (A : Mat α) (r c : Nat) (f : Nat → Nat → α) : Prop :=
  A.rows = r ∧ A.cols = c ∧ ∀ i j, i < r → j < c → A.get i j = f i j

end Acs.Spec
