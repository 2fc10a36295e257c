import Verif.Lemmas.Columns
import Verif.SpecPlace

/-! # Where a row is stored -/

set_option linter.unusedSectionVars false

namespace Acs

open Finset Spec

section
variable {K : Type} [Field K] [LinearOrder K] [IsStrictOrderedRing K] [FloorRing K]
variable {cfg : Cfg K} {x : Vec Int} {M n i i' : Nat} {lo hi : K} {W W' : Nat → Nat → Int}

theorem nominal_place (s : Nat) (g : Int) : nominal cfg (i * cfg.split.length + s) g = nominal cfg s g := by
  simp [nominal, Cfg.S, Nat.mul_add_mod_self_right]

theorem convBy_place (G : (Int → Int → K) → K) (t : Int) : convBy cfg G n i t = convBy cfg G n 0 t := by
  unfold convBy
  simp only [nominal_place]

theorem sum_row (h : SameRow W W' n i i') {A : Type} [AddCommMonoid A] (F : Int → Int → A) :
    ∑ j ∈ range n, F (W' i' j) (x.get j) = ∑ j ∈ range n, F (W i j) (x.get j) :=
  sum_congr rfl fun j hj => by rw [h j (mem_range.1 hj)]

theorem conversions_place (h : SameRow W W' n i i') : conversions cfg W' x n i' = conversions cfg W x n i := by
  rw [conversions_by, conversions_by, convBy_place (i := i), convBy_place (i := i')]
  congr 1
  funext F
  exact sum_row h F

theorem conversions_height : conversions (withHeight cfg M) W x n i = conversions cfg W x n i := rfl

theorem rowResult_height : rowResult (withHeight cfg M) lo hi W x n i = rowResult cfg lo hi W x n i := rfl

theorem rowResult_place (h : SameRow W W' n i i') : rowResult cfg lo hi W' x n i' = rowResult cfg lo hi W x n i := by
  unfold rowResult
  rw [conversions_place h, sum_row (x := x) h fun w _ => w]

end

end Acs
