import Verif.SpecRd
import Mathlib.Algebra.BigOperators.Group.Finset.Basic

/-!
# Specification vocabulary: the wear of a whole crossbar
-/

namespace Acs.Spec

open Finset

variable {K : Type}

/-- Sum of a quantity over all cells of an array. -/
def overCells (cfg : Cfg K) (f : Nat → Nat → Nat) : Nat := ∑ r ∈ range cfg.R, ∑ k ∈ range cfg.N, f r k

/-- Switching cycles of all cells of both arrays. -/
def allCycles (cfg : Cfg K) (rd : Rd K) : Nat :=
  overCells cfg fun r k => rd.cycP.get r k + rd.cycM.get r k

/-- Number of times that a write switched some cell of the two arrays from LRS to HRS. -/
def allSwitches (cfg : Cfg K) (h : List Op) : Nat :=
  overCells cfg fun r k =>
    switched (fun w => encP cfg w (rowOf cfg r).2) h (rowOf cfg r).1 k +
    switched (fun w => encM cfg w (rowOf cfg r).2) h (rowOf cfg r).1 k

variable [Field K] [LinearOrder K] [IsStrictOrderedRing K] [FloorRing K]

/-- Number of times that some cell was refreshed and the refresh was counted for the cell: a cell of the
first array, or a cell of the second array in a differential mapping. -/
noncomputable def allRefreshes (E : Env K) (cfg : Cfg K) (t : List (Step K)) : Nat :=
  overCells cfg fun r k => times (fun s => RefreshP E cfg s r k) t +
    times (fun s => cfg.mode.isDiff = true ∧ RefreshM E cfg s r k) t

end Acs.Spec
