import Verif.Lemmas.Reading
import Verif.SpecColumns

/-! # The order of the columns -/

set_option linter.unusedSectionVars false

namespace Acs

open Finset Spec

section
variable {K : Type} [Field K] [LinearOrder K] [IsStrictOrderedRing K] [FloorRing K]
variable {cfg : Cfg K} {x x' : Vec Int} {m n i : Nat} {lo hi : K} {W W' : Nat → Nat → Int} {π : Nat → Nat}

theorem sum_reordered {M : Type} [AddCommMonoid M] (h1 : ∀ j, j < n → π j < n)
    (h2 : ∀ j k, j < n → k < n → π j = π k → j = k) (f : Nat → M) : ∑ j ∈ range n, f (π j) = ∑ j ∈ range n, f j := by
  have e : (range n).image π = range n := by
    refine eq_of_subset_of_card_le (fun k hk => ?_) ?_
    · obtain ⟨j, hj, rfl⟩ := mem_image.1 hk
      exact mem_range.2 (h1 j (mem_range.1 hj))
    · rw [card_image_of_injOn fun j hj k hk => h2 j k (mem_range.1 hj) (mem_range.1 hk)]
  conv_rhs => rw [← e]
  exact (sum_image fun j hj k hk => h2 j k (mem_range.1 hj) (mem_range.1 hk)).symm

theorem sum_pair (h : Reordered π W W' x x' m n) (hi : i < m) {M : Type} [AddCommMonoid M] (F : Int → Int → M) :
    ∑ j ∈ range n, F (W' i j) (x'.get j) = ∑ j ∈ range n, F (W i j) (x.get j) := by
  rw [← sum_reordered h.maps h.inj fun j => F (W i j) (x.get j)]
  exact sum_congr rfl fun j hj => by rw [h.mat i j hi (mem_range.1 hj), h.vec j (mem_range.1 hj)]

/-- `conversions` in terms of the sums over the columns. -/
def convBy (cfg : Cfg K) (G : (Int → Int → K) → K) (n i : Nat) (t : Int) : List (K × K) :=
  let Δ := cfg.lrs - cfg.hrs
  let S := cfg.split.length
  let p := fun s (w : Int) => nominal cfg (i * S + s) (encP cfg w s)
  let q := fun s (w : Int) => nominal cfg (i * S + s) (encM cfg w s)
  let sum := fun (f : Int → K) (v : Int → Int) => G fun w y => f w * (v y : K)
  let d := fun w => p 0 w - q 0 w
  let up := fun y : Int => if y = 1 then 1 else 0
  let dn := fun y : Int => if y = -1 then 1 else 0
  let tot : K := (t : K)
  let slices := fun (f : Nat → Int → K) (sg : K) (v : Int → Int) (N : Nat) =>
    (List.range N).flatMap fun b => (List.range S).map fun s =>
      (sum (f s) fun y => bits (v y) b 1,
        sg * (2 ^ (shiftOf cfg.split s + b) * (2 ^ cfg.split.getD s 0 - 1)) / Δ)
  let ds := fun s w => p s w - q s w
  match cfg.mode with
  | .iDiffWDiff1 | .iDiffWDiff2 =>
    slices ds 1 (fun y => max y 0) (cfg.iBit - 1) ++ slices ds (-1) (fun y => max (-y) 0) cfg.iBit
  | .iOffsWDiff => slices ds 1 (fun y => y + 2 ^ (cfg.iBit - 1)) (cfg.iBit + 1)
  | .iTcWDiff | .iUintWDiff => slices ds 1 id cfg.iBit
  | .iUintWOffs => slices p 1 id cfg.iBit
  | .bnn1 => [(sum d up, 2 / Δ)]
  | .bnn2 => [(-sum d dn, 2 / Δ)]
  | .bnn3 | .bnn4 => [(sum (p 0) up - tot * cfg.hrs, 2 / Δ), (sum (p 0) dn, 2 / Δ)]
  | .bnn5 => [(sum (p 0) up + sum (q 0) dn - n * cfg.hrs, 2 / Δ)]
  | .bnn6 | .tnn1 => [(sum d up - sum d dn, 1 / Δ)]
  | .tnn2 => [(sum d abs, 1 / Δ), (sum d dn, 2 / Δ)]
  | .tnn3 => [(sum d (fun y => 1 - |y|), 1 / Δ), (sum d up, 2 / Δ)]
  | .tnn4 => [(sum (p 0) up + tot * (cfg.hrs / 2), 1 / Δ), (sum (p 0) dn - tot * (cfg.hrs / 2), 1 / Δ),
      (sum (q 0) up, 2 / Δ), (sum (q 0) dn, 2 / Δ)]
  | .tnn5 => [(sum (p 0) up, 1 / Δ), (sum (p 0) dn + 3 * tot * cfg.hrs, 1 / Δ),
      (sum (q 0) up, 2 / Δ), (sum (q 0) dn, 2 / Δ)]

theorem conversions_by : conversions cfg W x n i
    = convBy cfg (fun F => ∑ j ∈ range n, F (W i j) (x.get j)) n i (∑ j ∈ range n, x.get j) := by
  unfold conversions convBy
  cases cfg.mode <;> rfl

theorem conversions_reordered (h : Reordered π W W' x x' m n) (hi : i < m) :
    conversions cfg W' x' n i = conversions cfg W x n i := by
  rw [conversions_by, conversions_by, sum_pair h hi fun _ y => y]
  congr 1
  funext F
  exact sum_pair h hi F

theorem rowResult_reordered (h : Reordered π W W' x x' m n) (hi' : i < m) :
    rowResult cfg lo hi W' x' n i = rowResult cfg lo hi W x n i := by
  unfold rowResult
  rw [conversions_reordered h hi', sum_pair h hi' fun w _ => w, sum_pair h hi' fun _ y => y]

theorem prod_reordered (h : Reordered π W W' x x' m n) (hi : i < m) : prod W' x' n i = prod W x n i :=
  sum_pair h hi fun w y => w * y

theorem readRoom_reordered {res : Vec Int} (h : Reordered π W W' x x' m n) (hr : ReadRoom cfg lo hi W res x m n) :
    ReadRoom cfg lo hi W' res x' m n :=
  ⟨fun i hi' => by rw [conversions_reordered h hi']; exact hr.parts i hi',
    fun hm i hi' => by rw [rowResult_reordered h hi']; exact hr.whole hm i hi'⟩

end

end Acs
