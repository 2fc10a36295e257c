import Verif.Lemmas.Columns
import Verif.SpecRelated

/-! # Mappings that do the same -/

set_option linter.unusedSectionVars false

namespace Acs

open Finset Spec

section
variable {K : Type} [Field K] [LinearOrder K] [IsStrictOrderedRing K] [FloorRing K]
variable {cfg : Cfg K} {x x' : Vec Int} {m n i : Nat} {lo hi : K} {W W' : Nat → Nat → Int} {s : Signs} {md md' : Mode}

theorem withMode_self (h : cfg.mode = md) : withMode cfg md = cfg := by subst h; rfl

theorem sum_signed (h : Signed s W W' x x' m n) (hi : i < m) {A : Type} [AddCommMonoid A] (F : Int → Int → A) :
    ∑ j ∈ range n, F (W' i j) (x'.get j) = ∑ j ∈ range n, F (s.w * W i j) (s.x * x.get j) :=
  sum_congr rfl fun j hj => by rw [h.mat i j hi (mem_range.1 hj), h.vec j (mem_range.1 hj)]

theorem conv_same (h : Signed ⟨1, 1, 1⟩ W W' x x' m n) (hi : i < m) : conversions cfg W' x' n i = conversions cfg W x n i := by
  rw [conversions_by, conversions_by, sum_signed h hi fun _ y => y]
  simp only [one_mul]
  congr 1
  funext F
  rw [sum_signed h hi F]
  simp only [one_mul]

theorem row_same (h : Signed ⟨1, 1, 1⟩ W W' x x' m n) (hi' : i < m) :
    rowResult cfg lo hi W' x' n i = rowResult cfg lo hi W x n i := by
  unfold rowResult
  rw [conv_same h hi', sum_signed h hi' (fun w _ => w), sum_signed h hi' fun _ y => y]
  simp only [one_mul]

theorem conv_bnn2 (h : Signed ⟨-1, -1, 1⟩ W W' x x' m n) (hi : i < m) :
    conversions (withMode cfg .bnn2) W' x' n i = conversions (withMode cfg .bnn1) W x n i := by
  unfold conversions
  simp only [withMode]
  rw [← sum_neg_distrib]
  congr 2
  refine sum_congr rfl fun j hj => ?_
  rw [h.mat i j hi (mem_range.1 hj), h.vec j (mem_range.1 hj)]
  have e1 : (if (-1 : Int) * x.get j = -1 then (1 : Int) else 0) = if x.get j = 1 then 1 else 0 := if_congr (by omega) rfl rfl
  have e2 : (if (-1 : Int) * W i j = 1 then (1 : Int) else 0) = if W i j = -1 then 1 else 0 := if_congr (by omega) rfl rfl
  have e3 : (if (-1 : Int) * W i j = -1 then (1 : Int) else 0) = if W i j = 1 then 1 else 0 := if_congr (by omega) rfl rfl
  simp only [nominal, encP, encM, e1, e2, e3]
  ring

theorem conv_bnn4 (h : Signed ⟨-1, 1, -1⟩ W W' x x' m n) (hl : ∀ j, j < n → W i j = 1 ∨ W i j = -1) (hi : i < m) :
    conversions (withMode cfg .bnn4) W' x' n i = conversions (withMode cfg .bnn3) W x n i := by
  have e : ∀ j, j < n → encP (withMode cfg .bnn4) (W' i j) 0 = encP (withMode cfg .bnn3) (W i j) 0 := fun j hj => by
    rw [h.mat i j hi hj]
    rcases hl j hj with hw | hw <;> rw [hw] <;> rfl
  have ex : ∀ j, j < n → x'.get j = x.get j := fun j hj => by rw [h.vec j hj, one_mul]
  have et : ∑ j ∈ range n, x'.get j = ∑ j ∈ range n, x.get j := sum_congr rfl fun j hj => ex j (mem_range.1 hj)
  have es : ∀ v : Int → Int, ∑ j ∈ range n, nominal (withMode cfg .bnn4) (i * cfg.split.length + 0) (encP (withMode cfg .bnn4) (W' i j) 0)
      * (v (x'.get j) : K) = ∑ j ∈ range n, nominal (withMode cfg .bnn3) (i * cfg.split.length + 0) (encP (withMode cfg .bnn3) (W i j) 0)
      * (v (x.get j) : K) := fun v => sum_congr rfl fun j hj => by
    rw [e j (mem_range.1 hj), ex j (mem_range.1 hj)]
    rfl
  have e1 := es fun y => if y = 1 then 1 else 0
  have e2 := es fun y => if y = -1 then 1 else 0
  unfold conversions
  show [(_ - ((∑ j ∈ range n, x'.get j : Int) : K) * _, _), _] = [(_ - ((∑ j ∈ range n, x.get j : Int) : K) * _, _), _]
  rw [et]
  exact congrArg₂ (fun a b => [(a - ((∑ j ∈ range n, x.get j : Int) : K) * cfg.hrs, 2 / (cfg.lrs - cfg.hrs)), (b, 2 / (cfg.lrs - cfg.hrs))]) e1 e2

theorem row_related (hs : related md md' = some s) (hm : cfg.mode = md) (h : Signed s W W' x x' m n)
    (hl : ∀ j, j < n → LegalW cfg (W i j)) (hi' : i < m) :
    rowResult (withMode cfg md') lo hi W' x' n i = s.r * rowResult cfg lo hi W x n i := by
  have key : rowResult (withMode cfg md') lo hi W' x' n i = s.r * rowResult (withMode cfg md) lo hi W x n i := by
    unfold related at hs
    split at hs <;> cases hs
    · rw [row_same h hi']
      exact (one_mul _).symm
    · rw [row_same h hi']
      exact (one_mul _).symm
    · have hw : ∑ j ∈ range n, W' i j = -∑ j ∈ range n, W i j := by
        rw [← sum_neg_distrib]
        exact sum_congr rfl fun j hj => by rw [h.mat i j hi' (mem_range.1 hj), neg_one_mul]
      unfold rowResult
      rw [conv_bnn2 h hi', hw]
      show _ + -(∑ j ∈ range n, W i j) = 1 * (_ - ∑ j ∈ range n, W i j)
      rw [one_mul]
      rfl
    · have hx : ∑ j ∈ range n, x'.get j = ∑ j ∈ range n, x.get j :=
        sum_congr rfl fun j hj => by rw [h.vec j (mem_range.1 hj), one_mul]
      unfold rowResult
      rw [conv_bnn4 h (fun j hj => by have := hl j hj; unfold LegalW at this; rw [hm] at this; exact this) hi', hx]
      show (_ - _ + ∑ j ∈ range n, x.get j : Int) = -1 * (_ - _ - ∑ j ∈ range n, x.get j)
      rw [neg_one_mul, neg_sub, sub_sub_eq_add_sub, add_comm, add_sub_assoc]
      rfl
  rwa [withMode_self hm] at key

/-- The numbers that bound the currents are the same, too. -/
theorem conv_related (hs : related md md' = some s) (hm : cfg.mode = md) (h : Signed s W W' x x' m n)
    (hl : ∀ j, j < n → LegalW cfg (W i j)) (hi' : i < m) :
    conversions (withMode cfg md') W' x' n i = conversions cfg W x n i := by
  have key : conversions (withMode cfg md') W' x' n i = conversions (withMode cfg md) W x n i := by
    unfold related at hs
    split at hs <;> cases hs
    · rw [conv_same h hi']
      rfl
    · rw [conv_same h hi']
      rfl
    · exact conv_bnn2 h hi'
    · exact conv_bnn4 h (fun j hj => by have := hl j hj; unfold LegalW at this; rw [hm] at this; exact this) hi'
  rwa [withMode_self hm] at key

end

end Acs
