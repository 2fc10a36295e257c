import Verif.Lemmas.Columns
import Verif.SpecFlip

/-! # Opposite signs in some columns -/

set_option linter.unusedSectionVars false

namespace Acs

open Finset Spec

section
variable {K : Type} [Field K] [LinearOrder K] [IsStrictOrderedRing K] [FloorRing K]
variable {cfg : Cfg K} {x x' : Vec Int} {m n i : Nat} {lo hi : K} {W W' : Nat → Nat → Int} {b : Nat → Bool}

theorem sum_flip (h : Flipped b W W' x x' m n) (hi : i < m) {A : Type} [AddCommMonoid A] (F : Int → Int → A)
    (hF : ∀ j, j < n → b j = true → F (-W i j) (-x.get j) = F (W i j) (x.get j)) :
    ∑ j ∈ range n, F (W' i j) (x'.get j) = ∑ j ∈ range n, F (W i j) (x.get j) :=
  sum_congr rfl fun j hj => by
    have hj := mem_range.1 hj
    rw [h.mat i j hi hj, h.vec j hj]
    by_cases hb : b j = true
    · rw [if_pos hb, if_pos hb, hF j hj hb]
    · rw [if_neg hb, if_neg hb]

theorem prod_flip (h : Flipped b W W' x x' m n) (hi : i < m) : prod W' x' n i = prod W x n i :=
  sum_flip h hi (fun w y => w * y) fun _ _ _ => neg_mul_neg _ _

/-- Without negative inputs the selected columns have the input zero. -/
theorem flip_zero (hm : cfg.mode = .iUintWDiff ∨ cfg.mode = .iUintWOffs) (h : Flipped b W W' x x' m n)
    (hx : LegalVec cfg x n) (hx' : LegalVec cfg x' n) {j : Nat} (hj : j < n) (hb : b j = true) : x.get j = 0 := by
  have h1 := hx j hj
  have h2 := hx' j hj
  rw [h.vec j hj, if_pos hb] at h2
  unfold LegalX at h1 h2
  rcases hm with hm | hm <;> simp only [hm] at h1 h2 <;> omega

/-- Columns with the input zero add no current in these mappings. -/
theorem convBy_flip {G G' : (Int → Int → K) → K} {t : Int} (hm : cfg.mode = .iUintWDiff ∨ cfg.mode = .iUintWOffs)
    (hG : ∀ F : Int → Int → K, (∀ w, F w 0 = 0) → G' F = G F) : convBy cfg G' n i t = convBy cfg G n i t := by
  have h1 := fun (f : Int → K) b => hG (fun w y => f w * (bits (id y) b 1 : K)) fun w => by simp [bits]
  unfold convBy
  rcases hm with hm | hm <;> simp only [hm, h1]

theorem conversions_flip (hm : flipFree cfg.mode) (h : Flipped b W W' x x' m n) (hx : LegalVec cfg x n)
    (hx' : LegalVec cfg x' n) (hi : i < m) : conversions cfg W' x' n i = conversions cfg W x n i := by
  have hP : cfg.mode = .bnn5 ∨ cfg.mode = .bnn6 ∨ cfg.mode = .tnn1 → ∀ w, encP cfg (-w) 0 = encM cfg w 0 := fun hm w => by
    unfold encP encM
    rcases hm with hm | hm | hm <;> simp only [hm] <;> exact if_congr (by omega) rfl rfl
  have hM : cfg.mode = .bnn5 ∨ cfg.mode = .bnn6 ∨ cfg.mode = .tnn1 → ∀ w, encM cfg (-w) 0 = encP cfg w 0 := fun hm w => by
    unfold encP encM
    rcases hm with hm | hm | hm <;> simp only [hm] <;> exact if_congr (by omega) rfl rfl
  have hu : ∀ y : Int, (if -y = 1 then (1 : Int) else 0) = if y = -1 then 1 else 0 := fun y => if_congr (by omega) rfl rfl
  have hd : ∀ y : Int, (if -y = -1 then (1 : Int) else 0) = if y = 1 then 1 else 0 := fun y => if_congr (by omega) rfl rfl
  by_cases hu' : cfg.mode = .iUintWDiff ∨ cfg.mode = .iUintWOffs
  · rw [conversions_by, conversions_by, sum_flip h hi (fun _ y => y) fun j hj hb => by
      rw [flip_zero hu' h hx hx' hj hb, neg_zero]]
    exact convBy_flip hu' fun F hF => sum_flip h hi F fun j hj hb => by
      rw [flip_zero hu' h hx hx' hj hb, neg_zero, hF, hF]
  unfold conversions
  cases hc : cfg.mode <;> simp only [hc, flipFree] at hm ⊢
  · exact (hu' (Or.inl hc)).elim
  · exact (hu' (Or.inr hc)).elim
  · rw [← sum_add_distrib, ← sum_add_distrib]
    rw [sum_flip h hi (fun w y => nominal cfg (i * cfg.split.length + 0) (encP cfg w 0) * ((if y = 1 then (1 : Int) else 0 : Int) : K)
      + nominal cfg (i * cfg.split.length + 0) (encM cfg w 0) * ((if y = -1 then (1 : Int) else 0 : Int) : K)) fun j _ _ => by
        rw [hP (Or.inl hc), hM (Or.inl hc), hu, hd, add_comm]]
  all_goals
    rw [← sum_sub_distrib, ← sum_sub_distrib]
    rw [sum_flip h hi (fun w y => (nominal cfg (i * cfg.split.length + 0) (encP cfg w 0)
        - nominal cfg (i * cfg.split.length + 0) (encM cfg w 0)) * ((if y = 1 then (1 : Int) else 0 : Int) : K)
      - (nominal cfg (i * cfg.split.length + 0) (encP cfg w 0)
        - nominal cfg (i * cfg.split.length + 0) (encM cfg w 0)) * ((if y = -1 then (1 : Int) else 0 : Int) : K)) fun j _ _ => by
        rw [hP (by tauto), hM (by tauto), hu, hd]; ring]

theorem rowResult_flip (hm : flipFree cfg.mode) (h : Flipped b W W' x x' m n) (hx : LegalVec cfg x n)
    (hx' : LegalVec cfg x' n) (hi' : i < m) : rowResult cfg lo hi W' x' n i = rowResult cfg lo hi W x n i := by
  unfold rowResult
  rw [conversions_flip hm h hx hx' hi']
  cases hc : cfg.mode <;> simp only [hc, flipFree] at hm ⊢
  rw [sum_flip h hi' (fun _ y => y) fun j hj hb => by rw [flip_zero (Or.inr hc) h hx hx' hj hb, neg_zero]]

end

end Acs
