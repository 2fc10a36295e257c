import Verif.SpecFloat
import Mathlib.Tactic.Ring
import Mathlib.Tactic.Linarith
import Mathlib.Tactic.NormNum
import Mathlib.Tactic.Positivity
import Mathlib.Tactic.FieldSimp

/-!
# Numbers that rounding keeps
-/

namespace Acs.Spec

variable {p : ℕ} {emin e t : ℤ} {x y : ℚ} {z : ℤ}

theorem rndEven_int (z : ℤ) : rndEven (z : ℚ) = z := by
  unfold rndEven
  rw [Int.floor_intCast, sub_self, if_pos (by norm_num)]

/-- A multiple of the last place is a number of the format. -/
theorem rnd_mult (h : x = z * 2 ^ ulpExp p emin x) : rnd p emin x = x := by
  have h2 : (2 : ℚ) ^ ulpExp p emin x ≠ 0 := (zpow_pos two_pos _).ne'
  unfold rnd
  have e1 : x / 2 ^ ulpExp p emin x = z := by rw [div_eq_iff h2]; exact h
  rw [e1, rndEven_int]
  exact h.symm

theorem ulpExp_zero : rnd p emin 0 = 0 := by
  refine rnd_mult (z := 0) ?_
  simp

/-- A number with at most `p` significant bits and exponent at least `emin` is a number of the format. -/
theorem rnd_fix (hp : 1 ≤ p) (hz : |z| ≤ 2 ^ p) (he : emin ≤ e) :
    rnd p emin (z * 2 ^ e) = z * 2 ^ e := by
  rcases eq_or_ne z 0 with rfl | h0
  · simp only [Int.cast_zero, zero_mul]; exact ulpExp_zero
  have h2 : (0 : ℚ) < 2 ^ e := zpow_pos two_pos _
  have hx0 : (0 : ℚ) < |(z : ℚ) * 2 ^ e| := by
    rw [abs_pos]; exact mul_ne_zero (by exact_mod_cast h0) h2.ne'
  have hlog := Int.zpow_log_le_self (b := 2) (by norm_num) hx0
  have hle : |(z : ℚ) * 2 ^ e| ≤ 2 ^ ((p : ℤ) + e) := by
    rw [abs_mul, abs_of_pos h2, zpow_add₀ (by norm_num)]
    have h3 : |(z : ℚ)| ≤ 2 ^ (p : ℤ) := by exact_mod_cast hz
    exact mul_le_mul_of_nonneg_right h3 h2.le
  have hL : Int.log 2 |(z : ℚ) * 2 ^ e| ≤ p + e := by
    have h5 := hlog.trans hle
    have h6 : (2 : ℚ) ^ Int.log 2 |(z : ℚ) * 2 ^ e| ≤ 2 ^ ((p : ℤ) + e) := by exact_mod_cast h5
    exact (zpow_le_zpow_iff_right₀ one_lt_two).1 h6
  rcases lt_or_eq_of_le hL with hL | hL
  · -- the last place is at most `2 ^ e`
    have hu : ulpExp p emin ((z : ℚ) * 2 ^ e) ≤ e := by unfold ulpExp; omega
    obtain ⟨k, hk⟩ := Int.eq_ofNat_of_zero_le (sub_nonneg.2 hu)
    refine rnd_mult (z := z * 2 ^ k) ?_
    push_cast
    rw [mul_assoc, ← zpow_natCast (2 : ℚ) k, ← zpow_add₀ (by norm_num)]
    congr 2
    omega
  · -- a power of two
    have hge : (2 : ℚ) ^ ((p : ℤ) + e) ≤ |(z : ℚ) * 2 ^ e| := by rw [← hL]; exact_mod_cast hlog
    have hab : |(z : ℚ)| = 2 ^ p := by
      have h4 := le_antisymm hle hge
      rw [abs_mul, abs_of_pos h2, zpow_add₀ (by norm_num), zpow_natCast] at h4
      exact mul_right_cancel₀ h2.ne' h4
    have hab' : |z| = 2 ^ p := by exact_mod_cast hab
    have hu : ulpExp p emin ((z : ℚ) * 2 ^ e) = e + 1 := by unfold ulpExp; rw [hL]; omega
    obtain ⟨q, rfl⟩ : ∃ q, p = q + 1 := ⟨p - 1, by omega⟩
    rcases abs_eq (by positivity) |>.1 hab' with h | h
    · refine rnd_mult (z := 2 ^ q) ?_
      rw [hu, h, zpow_add₀ (by norm_num)]; push_cast; ring
    · refine rnd_mult (z := -2 ^ q) ?_
      rw [hu, h, zpow_add₀ (by norm_num)]; push_cast; ring

theorem rnd32_fix (hz : |z| ≤ 2 ^ 24) (he : -149 ≤ e) : rnd32 (z * 2 ^ e) = z * 2 ^ e :=
  rnd_fix (by norm_num) hz he

theorem rnd64_fix (hz : |z| ≤ 2 ^ 53) (he : -1074 ≤ e) : rnd64 (z * 2 ^ e) = z * 2 ^ e :=
  rnd_fix (by norm_num) hz he

theorem rnd32_int (hz : |z| ≤ 2 ^ 24) : rnd32 (z : ℚ) = z := by
  have := rnd32_fix (e := 0) hz (by norm_num)
  simpa using this

theorem rnd32_pow (he : -149 ≤ e) : rnd32 (2 ^ e) = 2 ^ e := by
  have := rnd32_fix (z := 1) (e := e) (by norm_num) he
  simpa using this

theorem rnd64_pow (he : -1074 ≤ e) : rnd64 (2 ^ e) = 2 ^ e := by
  have := rnd64_fix (z := 1) (e := e) (by norm_num) he
  simpa using this

/-! ## Size of the error -/

theorem rndEven_near (x : ℚ) : |(rndEven x : ℚ) - x| ≤ 1 / 2 := by
  have h1 := Int.floor_le x
  have h2 := Int.lt_floor_add_one x
  unfold rndEven
  split_ifs
  · rw [abs_le]; constructor <;> linarith
  · push_cast; rw [abs_le]; constructor <;> linarith
  · rw [abs_le]; constructor <;> linarith
  · push_cast; rw [abs_le]; constructor <;> linarith

theorem rnd_near (x : ℚ) : |rnd p emin x - x| ≤ 2 ^ ulpExp p emin x / 2 := by
  have h2 : (0 : ℚ) < 2 ^ ulpExp p emin x := zpow_pos two_pos _
  have h := rndEven_near (x / 2 ^ ulpExp p emin x)
  have e1 : rnd p emin x - x
      = ((rndEven (x / 2 ^ ulpExp p emin x) : ℚ) - x / 2 ^ ulpExp p emin x) * 2 ^ ulpExp p emin x := by
    unfold rnd; field_simp
  rw [e1, abs_mul, abs_of_pos h2]
  calc _ ≤ 1 / 2 * (2 : ℚ) ^ ulpExp p emin x := mul_le_mul_of_nonneg_right h h2.le
    _ = _ := by ring

/-- The error is at most half a last place: relative `2 ^ -p`, or half the smallest number. -/
theorem rnd_err (x : ℚ) : |rnd p emin x - x| ≤ |x| * 2 ^ (-(p : ℤ)) + 2 ^ emin / 2 := by
  rcases eq_or_ne x 0 with rfl | h0
  · rw [ulpExp_zero, sub_self, abs_zero, zero_mul, zero_add]
    exact (half_pos (zpow_pos two_pos _)).le
  · refine (rnd_near x).trans ?_
    have hx0 : (0 : ℚ) < |x| := abs_pos.2 h0
    have hlog : (2 : ℚ) ^ Int.log 2 |x| ≤ |x| := by exact_mod_cast Int.zpow_log_le_self (b := 2) (by norm_num) hx0
    have hpp : (0 : ℚ) < 2 ^ (-(p : ℤ)) := zpow_pos two_pos _
    have hem : (0 : ℚ) < 2 ^ emin := zpow_pos two_pos _
    unfold ulpExp
    rcases le_total (Int.log 2 |x| + 1 - p) emin with h | h
    · rw [max_eq_right h]; nlinarith [mul_pos hx0 hpp]
    · rw [max_eq_left h, show Int.log 2 |x| + 1 - (p : ℤ) = Int.log 2 |x| + (-(p : ℤ)) + 1 by ring,
        zpow_add₀ (by norm_num), zpow_add₀ (by norm_num), zpow_one]
      have := mul_le_mul_of_nonneg_right hlog hpp.le
      linarith

end Acs.Spec
