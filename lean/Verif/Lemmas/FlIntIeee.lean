import Verif.Lemmas.FlIntExec
import Verif.Lemmas.FlIeee

/-! # Rounding errors of the integer mappings in binary32 -/

set_option linter.unusedSectionVars false

namespace Acs

open Finset Spec

variable {E : Env ℚ} {cfg : Cfg ℚ}

/-- Two relative errors. -/
theorem rel_trans {x y z a b : ℚ} (ha : 0 ≤ a) (h1 : |x - y| ≤ a * |y|) (h2 : |y - z| ≤ b * |z|) :
    |x - z| ≤ (a * (1 + b) + b) * |z| := by
  have h3 := near_size h2 le_rfl
  have h4 := near_trans h1 h2
  have h5 := mul_le_mul_of_nonneg_left h3 ha
  linarith

/-- The relative error of an inverse. -/
theorem rel_inv {y z b c : ℚ} (hz : z ≠ 0) (hb : b ≤ 1 / 100) (h : |y - z| ≤ b * |z|) :
    y ≠ 0 ∧ |c / y - c / z| ≤ 101 / 99 * b * |c / z| := by
  have hz' : 0 < |z| := abs_pos.2 hz
  have hb0 : 0 ≤ b := nonneg_of_mul_nonneg_left ((abs_nonneg _).trans h) hz'
  have h1 : 99 / 100 * |z| ≤ |y| := by
    have := abs_sub_abs_le_abs_sub z y
    rw [abs_sub_comm] at this
    have := mul_le_mul_of_nonneg_right hb hz'.le
    linarith
  have hy' : 0 < |y| := lt_of_lt_of_le (by positivity) h1
  have hy : y ≠ 0 := abs_pos.1 hy'
  refine ⟨hy, ?_⟩
  have e : c / y - c / z = c / z * ((z - y) / y) := by field_simp
  rw [e, abs_mul, mul_comm]
  refine mul_le_mul_of_nonneg_right ?_ (abs_nonneg _)
  rw [abs_div, div_le_iff₀ hy', abs_sub_comm]
  have := mul_le_mul_of_nonneg_left h1 (by positivity : 0 ≤ 101 / 99 * b)
  have k : b * |z| ≤ 101 / 99 * b * (99 / 100 * |z|) := by
    have : 0 ≤ b * |z| := by positivity
    linarith
  linarith

/-- Rounding a number that is not tiny. -/
theorem f32_rel (hE : Ieee E) {x : ℚ} (hx : 2 ^ (-100 : ℤ) ≤ |x|) : |E.f32 x - x| ≤ 11 / 10 * 2 ^ (-24 : ℤ) * |x| := by
  have h := (ieee_rounds hE).err x
  simp only [prec32] at h
  refine h.trans ?_
  generalize |x| = a at hx ⊢
  norm_num at hx ⊢
  linarith

theorem f64_rel (hE : Ieee E) {x : ℚ} (hx : 2 ^ (-100 : ℤ) ≤ |x|) : |E.f64 x - x| ≤ 1 / 100 * 2 ^ (-24 : ℤ) * |x| := by
  rw [hE.f64]
  have h := rnd_err (p := 53) (emin := -1074) x
  unfold rnd64
  have e1 : (2 : ℚ) ^ (-((53 : ℕ) : ℤ)) ≤ 1 / 200 * 2 ^ (-24 : ℤ) := by norm_num
  have e2 : (2 : ℚ) ^ (-1074 : ℤ) / 2 ≤ 1 / 200 * 2 ^ (-24 : ℤ) * 2 ^ (-100 : ℤ) := by
    have : (2 : ℚ) ^ (-1074 : ℤ) ≤ 2 ^ (-140 : ℤ) := zpow_le_zpow_right₀ (by norm_num) (by norm_num)
    refine (div_le_div_of_nonneg_right this (by norm_num)).trans ?_
    norm_num
  have h1 := mul_le_mul_of_nonneg_left e1 (abs_nonneg x)
  have h2 := mul_le_mul_of_nonneg_left hx (by positivity : (0 : ℚ) ≤ 1 / 200 * 2 ^ (-24 : ℤ))
  linarith

section
variable (hE : Ieee E) (h1 : 2 ^ (-64 : ℤ) ≤ |cfg.lrs - cfg.hrs|) (h2 : |cfg.lrs - cfg.hrs| ≤ 2 ^ (64 : ℤ))
include hE h1

theorem intWindow32 : |E.fsub cfg.lrs cfg.hrs - (cfg.lrs - cfg.hrs)| ≤ 11 / 10 * 2 ^ (-24 : ℤ) * |cfg.lrs - cfg.hrs| :=
  f32_rel hE (le_trans (by norm_num) h1)

theorem intStep32 {s : Nat} (ht : 1 ≤ sliceTop cfg s) (ht' : sliceTop cfg s ≤ 2 ^ 24) :
    |stateStep E cfg s - (cfg.lrs - cfg.hrs) / sliceTop cfg s|
      ≤ 23 / 10 * 2 ^ (-24 : ℤ) * |(cfg.lrs - cfg.hrs) / sliceTop cfg s| := by
  have hw := intWindow32 hE h1
  have ht0 : 0 < sliceTop cfg s := lt_of_lt_of_le one_pos ht
  have k1 : |E.fsub cfg.lrs cfg.hrs / sliceTop cfg s - (cfg.lrs - cfg.hrs) / sliceTop cfg s|
      ≤ 11 / 10 * 2 ^ (-24 : ℤ) * |(cfg.lrs - cfg.hrs) / sliceTop cfg s| := by
    rw [← sub_div, abs_div, abs_div, abs_of_pos ht0, ← mul_div_assoc]
    exact div_le_div_of_nonneg_right hw ht0.le
  have k2 : 2 ^ (-100 : ℤ) ≤ |E.fsub cfg.lrs cfg.hrs / sliceTop cfg s| := by
    rw [abs_div, abs_of_pos ht0, le_div_iff₀ ht0]
    have a1 := mul_le_mul_of_nonneg_left ht' (by positivity : (0 : ℚ) ≤ 2 ^ (-100 : ℤ))
    refine a1.trans ?_
    clear k1 a1
    generalize cfg.lrs - cfg.hrs = d at *
    generalize E.fsub cfg.lrs cfg.hrs = d' at *
    have a2 := abs_sub_abs_le_abs_sub d d'
    rw [abs_sub_comm] at a2
    generalize |d' - d| = c at *
    generalize |d'| = b at *
    generalize |d| = a at *
    norm_num at *
    linarith
  have k3 := f32_rel hE k2
  have k4 := rel_trans (by positivity) k3 k1
  unfold stateStep
  refine k4.trans (mul_le_mul_of_nonneg_right (by norm_num) (abs_nonneg _))

theorem intScaleK32 (h2 : |cfg.lrs - cfg.hrs| ≤ 2 ^ (64 : ℤ)) {s : Nat} (ht : 1 ≤ sliceTop cfg s) (ht' : sliceTop cfg s ≤ 2 ^ 24) (k : Nat) {sg : ℚ} (hsg : sg = 1 ∨ sg = -1) :
    |E.f32 (E.f64 (2 ^ k / (sg * stateStep E cfg s))) - sg * (2 ^ k * sliceTop cfg s) / (cfg.lrs - cfg.hrs)|
      ≤ 8 * 2 ^ (-24 : ℤ) * |sg * (2 ^ k * sliceTop cfg s) / (cfg.lrs - cfg.hrs)| := by
  have hd : 0 < |cfg.lrs - cfg.hrs| := lt_of_lt_of_le (by positivity) h1
  have hd' : cfg.lrs - cfg.hrs ≠ 0 := abs_pos.1 hd
  have ht0 : 0 < sliceTop cfg s := lt_of_lt_of_le one_pos ht
  have hst := intStep32 hE h1 ht ht'
  have hz : (cfg.lrs - cfg.hrs) / sliceTop cfg s ≠ 0 := div_ne_zero hd' ht0.ne'
  obtain ⟨hne, k1⟩ := rel_inv (c := sg * 2 ^ k) hz (by norm_num) hst
  have hsg2 : sg * sg = 1 := by rcases hsg with rfl | rfl <;> norm_num
  have hsg0 : sg ≠ 0 := by rcases hsg with rfl | rfl <;> norm_num
  have hsga : |sg| = 1 := by rcases hsg with rfl | rfl <;> norm_num
  have e1 : (2 : ℚ) ^ k / (sg * stateStep E cfg s) = sg * 2 ^ k / stateStep E cfg s := by
    rw [div_eq_div_iff (mul_ne_zero hsg0 hne) hne]
    linear_combination (-(2 : ℚ) ^ k * stateStep E cfg s) * hsg2
  have e2 : sg * 2 ^ k / ((cfg.lrs - cfg.hrs) / sliceTop cfg s) = sg * (2 ^ k * sliceTop cfg s) / (cfg.lrs - cfg.hrs) := by
    field_simp
  rw [e2] at k1
  rw [e1]
  have hT : 2 ^ (-64 : ℤ) ≤ |sg * (2 ^ k * sliceTop cfg s) / (cfg.lrs - cfg.hrs)| := by
    rw [abs_div, abs_mul, hsga, one_mul, abs_of_pos (by positivity), le_div_iff₀ hd]
    have a1 := mul_le_mul_of_nonneg_left h2 (by positivity : (0 : ℚ) ≤ 2 ^ (-64 : ℤ))
    have a2 : (1 : ℚ) ≤ 2 ^ k := one_le_pow₀ (by norm_num)
    have a3 : (1 : ℚ) ≤ 2 ^ k * sliceTop cfg s := one_le_mul_of_one_le_of_one_le a2 ht
    have a4 : (2 : ℚ) ^ (-64 : ℤ) * 2 ^ (64 : ℤ) = 1 := by norm_num
    linarith
  generalize sg * (2 ^ k * sliceTop cfg s) / (cfg.lrs - cfg.hrs) = Z at k1 hT ⊢
  generalize sg * 2 ^ k / stateStep E cfg s = Y at k1 ⊢
  have big : ∀ {y a : ℚ}, a ≤ 1 / 2 → |y - Z| ≤ a * |Z| → 2 ^ (-100 : ℤ) ≤ |y| := fun {y a} ha h => by
    have a2 := abs_sub_abs_le_abs_sub Z y
    rw [abs_sub_comm] at a2
    have a3 := mul_le_mul_of_nonneg_right ha (abs_nonneg Z)
    have a4 : (2 : ℚ) ^ (-100 : ℤ) ≤ 1 / 2 * 2 ^ (-64 : ℤ) := by norm_num
    have a5 := mul_le_mul_of_nonneg_left hT (by norm_num : (0 : ℚ) ≤ 1 / 2)
    refine a4.trans (a5.trans ?_)
    linarith
  have k2 := rel_trans (by positivity) (f64_rel hE (big (by norm_num) k1)) k1
  have k3 := rel_trans (by positivity) (f32_rel hE (big (by norm_num) k2)) k2
  exact k3.trans (mul_le_mul_of_nonneg_right (by norm_num) (abs_nonneg _))

theorem intOffset32 {M : ℚ} (hM : 0 ≤ M) (hM' : M ≤ 2 ^ 24) :
    |E.fmul (E.f32 (cfg.hrs / E.fsub cfg.lrs cfg.hrs)) M - cfg.hrs / (cfg.lrs - cfg.hrs) * M|
      ≤ 8 * 2 ^ (-24 : ℤ) * (|cfg.hrs / (cfg.lrs - cfg.hrs) * M| + 1) := by
  have hd : 0 < |cfg.lrs - cfg.hrs| := lt_of_lt_of_le (by positivity) h1
  have R := (ieee_rounds hE).err
  simp only [prec32] at R
  obtain ⟨_, k1⟩ := rel_inv (c := cfg.hrs) (abs_pos.1 hd) (by norm_num) (intWindow32 hE h1)
  generalize cfg.hrs / (cfg.lrs - cfg.hrs) = z at k1 ⊢
  generalize cfg.hrs / E.fsub cfg.lrs cfg.hrs = y at k1 ⊢
  have k2 := near_trans (R y) k1
  have k3 := near_size k1 le_rfl
  generalize E.f32 y = y' at k2 ⊢
  have k4 : |y' - z| ≤ 23 / 10 * 2 ^ (-24 : ℤ) * |z| + 2 ^ (-150 : ℤ) := by
    have := abs_nonneg z
    generalize |z| = a at *
    generalize |y| = b at *
    norm_num at *
    linarith
  have k5 : |y' * M - z * M| ≤ 23 / 10 * 2 ^ (-24 : ℤ) * |z * M| + 2 ^ (-126 : ℤ) := by
    rw [← sub_mul, abs_mul, abs_mul, abs_of_nonneg hM]
    have a1 := mul_le_mul_of_nonneg_right k4 hM
    have a2 := mul_le_mul_of_nonneg_left hM' (by positivity : (0 : ℚ) ≤ 2 ^ (-150 : ℤ))
    have a3 : (2 : ℚ) ^ (-150 : ℤ) * 2 ^ 24 = 2 ^ (-126 : ℤ) := by norm_num
    rw [a3] at a2
    rw [add_mul, mul_assoc] at a1
    linarith
  have k6 := near_trans (R (y' * M)) k5
  have k7 := near_size k5 le_rfl
  have := abs_nonneg (z * M)
  unfold Env.fmul
  refine k6.trans ?_
  generalize |z * M| = a at *
  generalize |y' * M| = b at *
  norm_num at *
  linarith

/-- Binary32 computes the factors of the integer mappings with a relative error of `2 ^ -21`. -/
theorem intScale32 (h2 : |cfg.lrs - cfg.hrs| ≤ 2 ^ (64 : ℤ)) (hok : CfgOk cfg) (hi : cfg.mode.isInt = true)
    (hs : ∀ s ∈ cfg.split, 1 ≤ s) (hw : cfg.wBit ≤ 24) : IntScale E cfg prec32 := by
  have hI := intOk hok hi
  have hd : 0 < |cfg.lrs - cfg.hrs| := lt_of_lt_of_le (by positivity) h1
  have hd' : cfg.lrs - cfg.hrs ≠ 0 := abs_pos.1 hd
  have hθ : prec32.θ = 8 * 2 ^ (-24 : ℤ) := by norm_num [prec32]
  have top : ∀ s, s < cfg.split.length → (1 : ℚ) ≤ sliceTop cfg s ∧ sliceTop cfg s ≤ 2 ^ 24 := fun s hs' => by
    refine ⟨sliceTop_pos ?_, ?_⟩
    · rw [List.getD_eq_getElem _ _ hs']; exact hs _ (List.getElem_mem hs')
    · have a1 : cfg.split.getD s 0 ≤ 24 := by
        have := shiftOf_add_le cfg.split s
        have := hI.sum
        omega
      have a2 : (2 : ℚ) ^ cfg.split.getD s 0 ≤ 2 ^ 24 := pow_le_pow_right₀ (by norm_num) a1
      unfold sliceTop
      linarith
  have hwin := intWindow32 hE h1
  refine ⟨by norm_num [prec32], hw, fun s hs' => ?_, fun s hs' => ?_, fun s hs' k _ sg hsg => ?_, ?_, ?_⟩
  · have ht := top s hs'
    exact (rel_inv (c := 1) (div_ne_zero hd' (lt_of_lt_of_le one_pos ht.1).ne') (by norm_num) (intStep32 hE h1 ht.1 ht.2)).1
  · have ht := top s hs'
    have ht0 : 0 < sliceTop cfg s := lt_of_lt_of_le one_pos ht.1
    have k := intStep32 hE h1 ht.1 ht.2
    have k' := mul_le_mul_of_nonneg_right k ht0.le
    have e1 : |stateStep E cfg s - (cfg.lrs - cfg.hrs) / sliceTop cfg s| * sliceTop cfg s
        = |stateStep E cfg s * sliceTop cfg s - (cfg.lrs - cfg.hrs)| := by
      conv_lhs => rw [← abs_of_pos ht0, ← abs_mul, abs_of_pos ht0, sub_mul, div_mul_cancel₀ _ ht0.ne']
    have e2 : |(cfg.lrs - cfg.hrs) / sliceTop cfg s| * sliceTop cfg s = |cfg.lrs - cfg.hrs| := by
      rw [abs_div, abs_of_pos ht0, div_mul_cancel₀ _ ht0.ne']
    rw [e1, mul_assoc, e2] at k'
    rw [hθ]
    exact k'.trans (mul_le_mul_of_nonneg_right (by norm_num) hd.le)
  · have ht := top s hs'
    have ht0 : 0 < sliceTop cfg s := lt_of_lt_of_le one_pos ht.1
    have k0 := intScaleK32 hE h1 h2 ht.1 ht.2 k hsg
    have hsga : |sg| = 1 := by rcases hsg with rfl | rfl <;> norm_num
    rw [abs_div, abs_mul sg, hsga, one_mul, abs_of_pos (show (0 : ℚ) < 2 ^ k * sliceTop cfg s by positivity), ← mul_div_assoc,
      le_div_iff₀ hd, ← abs_mul, sub_mul, div_mul_cancel₀ _ hd'] at k0
    rw [hθ]
    exact k0
  · exact (rel_inv (c := 1) hd' (by norm_num) hwin).1
  · rw [hθ]
    have a1 : (2 : ℚ) ^ cfg.wBit ≤ 2 ^ 24 := pow_le_pow_right₀ (by norm_num) hw
    have a2 : (1 : ℚ) ≤ 2 ^ cfg.wBit := one_le_pow₀ (by norm_num)
    exact intOffset32 hE h1 (by linarith) (by linarith)

omit hE in
theorem cellsRound32 : CellsRound cfg (eps32 cfg) prec32 := by
  have hd : 2 ^ (-80 : ℤ) ≤ |cfg.lrs - cfg.hrs| := le_trans (by norm_num) h1
  have k1 := cellRound32 hd
  have k2 := window_le (cfg := cfg)
  have k3 := top_big hd
  unfold CellsRound
  have hθ : prec32.θ = 2 ^ (-21 : ℤ) := rfl
  rw [hθ]
  unfold eps32 at *
  generalize |cfg.lrs - cfg.hrs| = d at *
  generalize max |cfg.hrs| |cfg.lrs| = T at *
  norm_num at *
  linarith

end

end Acs
