import Verif.SpecUnits
import Mathlib.Tactic.FieldSimp
import Mathlib.Tactic.Linarith

/-! # Rounding without underflow commutes with powers of two -/

namespace Acs

open Spec

theorem log_two_pow_mul {x : ℚ} (hx : 0 < x) (k : ℤ) : Int.log 2 (2 ^ k * x) = Int.log 2 x + k := by
  have hk : (0 : ℚ) < 2 ^ k := zpow_pos (by norm_num) _
  have h2 : (2 : ℚ) ≠ 0 := by norm_num
  apply le_antisymm
  · have h1 : ((2 : ℕ) : ℚ) ^ Int.log 2 (2 ^ k * x) ≤ 2 ^ k * x := Int.zpow_log_le_self (by decide) (mul_pos hk hx)
    have : Int.log 2 (2 ^ k * x) - k ≤ Int.log 2 x := by
      rw [← Int.zpow_le_iff_le_log (by decide) hx]
      push_cast at h1 ⊢
      rw [zpow_sub₀ h2, div_le_iff₀ hk, mul_comm x]
      exact h1
    omega
  · rw [← Int.zpow_le_iff_le_log (by decide) (mul_pos hk hx)]
    have h1 : ((2 : ℕ) : ℚ) ^ Int.log 2 x ≤ x := Int.zpow_log_le_self (by decide) hx
    push_cast at h1 ⊢
    rw [zpow_add₀ h2, mul_comm]
    exact mul_le_mul_of_nonneg_left h1 hk.le

theorem rndWide_two_pow (p : ℕ) (k : ℤ) (x : ℚ) : rndWide p (2 ^ k * x) = 2 ^ k * rndWide p x := by
  have hk : (0 : ℚ) < 2 ^ k := zpow_pos (by norm_num) _
  have h2 : (2 : ℚ) ≠ 0 := by norm_num
  by_cases hx : x = 0
  · subst hx
    have h0 : ∀ p, rndWide p 0 = 0 := by
      intro p
      unfold rndWide
      rw [zero_div]
      simp [rndEven]
    rw [mul_zero, h0, mul_zero]
  · unfold rndWide
    rw [abs_mul, abs_of_pos hk, log_two_pow_mul (abs_pos.mpr hx)]
    have e : (2 : ℚ) ^ (Int.log 2 |x| + k + 1 - p) = 2 ^ k * 2 ^ (Int.log 2 |x| + 1 - p) := by
      rw [← zpow_add₀ h2]
      congr 1
      ring
    rw [e, mul_div_mul_left _ _ hk.ne']
    ring

/-- In the normal range the formats agree. -/
theorem rnd_eq_rndWide {p : ℕ} {emin : ℤ} {x : ℚ} (h : 2 ^ (emin + p - 1) ≤ |x|) : rnd p emin x = rndWide p x := by
  have hx : 0 < |x| := lt_of_lt_of_le (zpow_pos (by norm_num) _) h
  have h1 : emin + p - 1 ≤ Int.log 2 |x| := by
    rw [← Int.zpow_le_iff_le_log (by decide) hx]
    exact_mod_cast h
  unfold rnd rndWide ulpExp
  rw [max_eq_left (by omega)]

end Acs
