import Verif.Spec

/-! # Equal rows of the weight matrix -/

namespace Acs.Spec

/-- A call that treats the rows `i` and `i'` alike: it writes the same weights to both, or multiplies with both and starts
from the same entries of the result buffer. -/
def EqualRows (i i' : Nat) : Op → Prop
  | .write mat m n => (i < m ↔ i' < m) ∧ (i < m → ∀ j, j < n → entry mat n i j = entry mat n i' j)
  | .mvm res _ _ m _ _ => (i < m ↔ i' < m) ∧ (i < res.size → i' < res.size → res.get i = res.get i')

/-- The same entries `i` and `i'` in every result. -/
def EqualEntries (i i' : Nat) (rs : List (Vec Int)) : Prop := ∀ r ∈ rs, i < r.size → i' < r.size → r.get i = r.get i'

/-- Settings with which the state of a cell depends only on the weights written to it and on the multiplications with it.
In the integer mappings cycle-to-cycle variation only reaches some of the rows of cells; with several slices the simulator
counts reads of rows outside the matrix. -/
def EvenCells {K : Type} [Zero K] [LE K] (cfg : Cfg K) : Prop :=
  cfg.digitalOnly = true ∨ if cfg.mode.isInt then cfg.c2c = false ∧ cfg.readDisturb = false
    else cfg.hrsNoise ≤ 0 ∧ cfg.lrsNoise ≤ 0 ∧ (cfg.readDisturb = true → cfg.strategy = .cellBased → cfg.S ≤ 1)

end Acs.Spec
