import Verif.Lemmas.Columns
import Verif.SpecPad

/-! # Columns with the input zero -/

set_option linter.unusedSectionVars false

namespace Acs

open Finset Spec

section
variable {K : Type} [Field K] [LinearOrder K] [IsStrictOrderedRing K] [FloorRing K]
variable {cfg : Cfg K} {x x' : Vec Int} {m n n' i : Nat} {lo hi : K} {W W' : Nat → Nat → Int}

theorem sum_pad (h : Padded W W' x x' m n n') (hi : i < m) {A : Type} [AddCommMonoid A] (F : Int → Int → A)
    (hF : ∀ j, n ≤ j → j < n' → F (W' i j) 0 = 0) :
    ∑ j ∈ range n', F (W' i j) (x'.get j) = ∑ j ∈ range n, F (W i j) (x.get j) := by
  obtain ⟨k, rfl⟩ := Nat.exists_eq_add_of_le h.le
  rw [sum_range_add, sum_eq_zero (s := range k), add_zero]
  · exact sum_congr rfl fun j hj => by rw [h.mat i j hi (mem_range.1 hj), h.vec j (mem_range.1 hj)]
  · intro j hj
    have := mem_range.1 hj
    rw [h.zero (n + j) (by omega) (by omega)]
    exact hF _ (by omega) (by omega)

/-- The sums of the currents do not change. -/
theorem convBy_pad {G G' : (Int → Int → K) → K} {t : Int} (h0 : LegalX cfg 0) (hm : ¬drivesZero cfg.mode)
    (hG : ∀ F : Int → Int → K, (∀ w, F w 0 = 0) → G' F = G F) : convBy cfg G' n' i t = convBy cfg G n i t := by
  have hs : ∀ (f : Int → K) (v : Int → Int), v 0 = 0 → G' (fun w y => f w * (v y : K)) = G fun w y => f w * (v y : K) :=
    fun f v hv => hG _ fun w => by simp [hv]
  have h1 := fun f => hs f (fun y => if y = 1 then 1 else 0) rfl
  have h2 := fun f => hs f (fun y => if y = -1 then 1 else 0) rfl
  have h3 := fun f => hs f abs rfl
  have h4 := fun f b => hs f (fun y => bits (max y 0) b 1) (by simp [bits])
  have h5 := fun f b => hs f (fun y => bits (max (-y) 0) b 1) (by simp [bits])
  have h6 := fun f b => hs f (fun y => bits (id y) b 1) (by simp [bits])
  unfold convBy
  unfold LegalX at h0
  cases hc : cfg.mode <;> simp only [hc, drivesZero] at h0 hm ⊢
  all_goals first
    | (exfalso; revert h0; decide)
    | (exfalso; exact hm trivial)
    | simp only [h4, h5]
    | simp only [h6]
    | simp only [h1, h2, h3]

/-- Zero weights do not add to the difference of the currents either. -/
theorem convBy_zero {G G' : (Int → Int → K) → K} {t : Int} (hm : drivesZero cfg.mode)
    (hG : ∀ F : Int → Int → K, F 0 0 = 0 → G' F = G F) : convBy cfg G' n' i t = convBy cfg G n i t := by
  have hs : ∀ (f : Int → K) (v : Int → Int), f 0 = 0 → G' (fun w y => f w * (v y : K)) = G fun w y => f w * (v y : K) :=
    fun f v hv => hG _ (by simp [hv])
  unfold convBy
  cases hc : cfg.mode <;> simp only [hc, drivesZero] at hm ⊢
  · have hz : ∀ s : Nat, nominal cfg (i * cfg.split.length + s) (encP cfg 0 s)
        - nominal cfg (i * cfg.split.length + s) (encM cfg 0 s) = 0 := fun s => by simp [encP, encM, hc, bits]
    have h1 := fun s v => hs (fun w => nominal cfg (i * cfg.split.length + s) (encP cfg w s)
        - nominal cfg (i * cfg.split.length + s) (encM cfg w s)) v (hz s)
    have h2 := fun s b => h1 s fun y => bits (y + 2 ^ (cfg.iBit - 1)) b 1
    simp only [h2]
  · have hz : nominal cfg (i * cfg.split.length + 0) (encP cfg 0 0)
        - nominal cfg (i * cfg.split.length + 0) (encM cfg 0 0) = 0 := by simp [encP, encM, hc]
    have h1 := fun v => hs (fun w => nominal cfg (i * cfg.split.length + 0) (encP cfg w 0)
        - nominal cfg (i * cfg.split.length + 0) (encM cfg w 0)) v hz
    rw [h1, h1]

theorem conversions_pad (h : Padded W W' x x' m n n') (h0 : n < n' → LegalX cfg 0)
    (hz : drivesZero cfg.mode → ZeroPad W' m n n') (hi : i < m) :
    conversions cfg W' x' n' i = conversions cfg W x n i := by
  rw [conversions_by, conversions_by, sum_pad h hi (fun _ y => y) fun _ _ _ => rfl]
  rcases h.le.eq_or_lt with rfl | hlt
  · congr 1
    funext F
    exact sum_pad h hi F fun j _ _ => by omega
  by_cases hm : drivesZero cfg.mode
  · exact convBy_zero hm fun F hF => sum_pad h hi F fun j a b => by rw [hz hm i j hi a b, hF]
  · exact convBy_pad (h0 hlt) hm fun F hF => sum_pad h hi F fun j _ _ => hF _

theorem rowResult_pad (h : Padded W W' x x' m n n') (h0 : n < n' → LegalX cfg 0)
    (hz : drivesZero cfg.mode → ZeroPad W' m n n') (hi' : i < m) :
    rowResult cfg lo hi W' x' n' i = rowResult cfg lo hi W x n i := by
  have e : drivesZero cfg.mode → ∑ j ∈ range n', W' i j = ∑ j ∈ range n, W i j := fun hm =>
    sum_pad h hi' (fun w _ => w) fun j a b => hz hm i j hi' a b
  have hb : n < n' → cfg.mode.family ≠ .bnn := fun hlt hf => by
    have h1 := h0 hlt
    unfold LegalX at h1
    cases hc : cfg.mode <;> simp [hc, Mode.family] at h1 hf
  rcases h.le.eq_or_lt with rfl | hlt
  · unfold rowResult
    rw [conversions_pad h h0 hz hi', sum_pad h hi' (fun w _ => w) fun j _ _ => by omega,
      sum_pad h hi' (fun _ y => y) fun _ _ _ => rfl]
  · unfold rowResult
    rw [conversions_pad h h0 hz hi', sum_pad h hi' (fun _ y => y) fun _ _ _ => rfl]
    have hb := hb hlt
    cases hc : cfg.mode <;> simp only [hc, drivesZero, Mode.family] at e hb ⊢
    all_goals first
      | rw [e trivial]
      | exact absurd rfl hb

end

end Acs
