import Verif.SpecApi
import Verif.Model.Numpy

/-!
# Arrays passed from Python

Independent of what the library does with them: the elements of an array, and the layouts.
-/

namespace Acs.Spec

/-- What numpy shows at `[i, j]`: strides are counted from the first element. -/
def elem (a : NpArray) (i j : Nat) : Int := a.mem.get (a.offs + i * a.sr + j * a.sc).toNat

/-- All elements lie in the memory of the array. -/
def InMem (a : NpArray) : Prop :=
  ∀ i j, i < a.rows → j < a.cols →
    0 ≤ (a.offs : Int) + i * a.sr + j * a.sc ∧ (a.offs : Int) + i * a.sr + j * a.sc < a.mem.size

/-- The elements follow each other row by row. -/
def RowByRow (a : NpArray) : Prop := (a.rows ≤ 1 ∨ a.sr = a.cols) ∧ (a.cols ≤ 1 ∨ a.sc = 1)

/-- Arrays that the calls read as numpy shows them: of `int32` row by row, or of another type and not transposed. -/
def AsShown (a : NpArray) : Prop :=
  InMem a ∧ if a.int32 then RowByRow a else a.rows ≤ 1 ∨ a.sc.natAbs ≤ a.sr.natAbs

/-- The elements that numpy shows, row by row. -/
def shownVec (a : NpArray) : Vec Int := ⟨a.rows * a.cols, fun k => elem a (k / a.cols) (k % a.cols)⟩

end Acs.Spec
