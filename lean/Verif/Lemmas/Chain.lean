import Verif.SpecPar
import Mathlib.Tactic.Linarith
import Mathlib.Tactic.Positivity
import Mathlib.Tactic.FieldSimp
import Mathlib.Tactic.Ring
import Mathlib.Algebra.Order.BigOperators.Group.Finset
import Mathlib.Algebra.BigOperators.Ring.Finset

/-! # A column as a chain of wire segments -/

namespace Acs
open Spec (chain)

variable {K : Type} [Field K] [LinearOrder K] [IsStrictOrderedRing K]

theorem ser_nonneg {b w : K} (hb : 0 ≤ b) (hw : 0 < w) : 0 ≤ b * w / (b + w) := by positivity

theorem ser_le {b w : K} (hb : 0 ≤ b) (hw : 0 < w) : b * w / (b + w) ≤ b := by
  rw [div_le_iff₀ (by positivity)]
  nlinarith [mul_nonneg hb hb]

theorem ser_lt {b w : K} (hb : 0 < b) (hw : 0 < w) : b * w / (b + w) < b := by
  rw [div_lt_iff₀ (by positivity)]
  nlinarith [mul_pos hb hb]

theorem ser_pos {b w : K} (hb : 0 < b) (hw : 0 < w) : 0 < b * w / (b + w) := by positivity

theorem ser_le_wire {b w : K} (hb : 0 ≤ b) (hw : 0 < w) : b * w / (b + w) ≤ w := by
  rw [div_le_iff₀ (by positivity)]
  nlinarith [mul_nonneg hw.le hw.le]

/-- Series connection is monotone in both conductances. -/
theorem ser_mono {b b' w w' : K} (hb : 0 ≤ b) (hbb : b ≤ b') (hw : 0 < w) (hww : w ≤ w') :
    b * w / (b + w) ≤ b' * w' / (b' + w') := by
  have hb' : 0 ≤ b' := hb.trans hbb
  have hw' : 0 < w' := hw.trans_le hww
  rw [div_le_div_iff₀ (by positivity) (by positivity)]
  nlinarith [mul_nonneg (mul_nonneg hb hb') (sub_nonneg.2 hww),
    mul_nonneg (mul_nonneg hw.le hw'.le) (sub_nonneg.2 hbb)]

/-- A single segment costs at most `b^2 / w`. -/
theorem ser_ge {b w : K} (hb : 0 ≤ b) (hw : 0 < w) : b - b * b / w ≤ b * w / (b + w) := by
  rw [sub_div' hw.ne', div_le_div_iff₀ hw (by positivity)]
  nlinarith [mul_nonneg (mul_nonneg hb hb) hb]

theorem chain_nonneg {w : K} {g : Nat → K} (hw : 0 < w) {N : Nat} (hg : ∀ r, r < N → 0 ≤ g r) :
    0 ≤ chain w g N := by
  induction N with
  | zero => exact le_refl _
  | succ k ih =>
    exact ser_nonneg (add_nonneg (ih fun r hr => hg r (by omega)) (hg k (by omega))) hw

theorem chain_le {w : K} {g : Nat → K} (hw : 0 < w) {N : Nat} (hg : ∀ r, r < N → 0 ≤ g r) :
    chain w g N ≤ (Finset.range N).sum g := by
  induction N with
  | zero => simp [chain]
  | succ k ih =>
    have h := ih fun r hr => hg r (by omega)
    have h0 := chain_nonneg hw (N := k) fun r hr => hg r (by omega)
    rw [Finset.sum_range_succ]
    exact (ser_le (add_nonneg h0 (hg k (by omega))) hw).trans (by linarith)

theorem chain_zero {w : K} {g : Nat → K} {N : Nat} (hg : ∀ r, r < N → g r = 0) :
    chain w g N = 0 := by
  induction N with
  | zero => rfl
  | succ k ih =>
    rw [chain, ih fun r hr => hg r (by omega), hg k (by omega)]
    simp

/-- Some conducting row makes the column conduct. -/
theorem chain_pos {w : K} {g : Nat → K} (hw : 0 < w) {N : Nat} (hg : ∀ r, r < N → 0 ≤ g r)
    (hp : ∃ r, r < N ∧ 0 < g r) : 0 < chain w g N := by
  induction N with
  | zero => obtain ⟨r, hr, _⟩ := hp; omega
  | succ k ih =>
    have h0 := chain_nonneg hw (N := k) fun r hr => hg r (by omega)
    obtain ⟨r, hr, hp⟩ := hp
    refine ser_pos ?_ hw
    rcases Nat.lt_succ_iff_lt_or_eq.1 hr with h | h
    · have := ih (fun r hr => hg r (by omega)) ⟨r, h, hp⟩
      have := hg k (by omega)
      linarith
    · subst h; linarith

/-- ... and then strictly less than without wires. -/
theorem chain_lt {w : K} {g : Nat → K} (hw : 0 < w) {N : Nat} (hg : ∀ r, r < N → 0 ≤ g r)
    (hp : ∃ r, r < N ∧ 0 < g r) : chain w g N < (Finset.range N).sum g := by
  induction N with
  | zero => obtain ⟨r, hr, _⟩ := hp; omega
  | succ k ih =>
    have h0 := chain_nonneg hw (N := k) fun r hr => hg r (by omega)
    have h1 := chain_le hw (N := k) fun r hr => hg r (by omega)
    have hk := hg k (by omega)
    rw [Finset.sum_range_succ]
    rcases (add_nonneg h0 hk).lt_or_eq with h | h
    · exact (ser_lt h hw).trans_le (by linarith)
    · have := chain_pos hw hg hp
      rw [chain, ← h, zero_mul, zero_div] at this
      exact absurd this (lt_irrefl _)

theorem chain_mono {w w' : K} {g g' : Nat → K} (hw : 0 < w) (hww : w ≤ w') {N : Nat}
    (hg : ∀ r, r < N → 0 ≤ g r) (hgg : ∀ r, r < N → g r ≤ g' r) :
    chain w g N ≤ chain w' g' N := by
  induction N with
  | zero => exact le_refl _
  | succ k ih =>
    have h0 := chain_nonneg hw (N := k) fun r hr => hg r (by omega)
    exact ser_mono (add_nonneg h0 (hg k (by omega)))
      (add_le_add (ih (fun r hr => hg r (by omega)) fun r hr => hgg r (by omega))
        (hgg k (by omega))) hw hww

/-- The loss against the ideal column: at most `N * T^2 / w` where `T` is the ideal conductance. -/
theorem chain_ge {w : K} {g : Nat → K} (hw : 0 < w) {N : Nat} (hg : ∀ r, r < N → 0 ≤ g r) {T : K}
    (hT : (Finset.range N).sum g ≤ T) :
    (Finset.range N).sum g - N * (T * T / w) ≤ chain w g N := by
  induction N with
  | zero => simp [chain]
  | succ k ih =>
    rw [Finset.sum_range_succ] at hT ⊢
    have hk := hg k (by omega)
    have h := ih (fun r hr => hg r (by omega)) (by linarith)
    have h0 := chain_nonneg hw (N := k) fun r hr => hg r (by omega)
    have h1 := chain_le hw (N := k) fun r hr => hg r (by omega)
    have h2 := ser_ge (add_nonneg h0 hk) hw
    have h3 : (chain w g k + g k) * (chain w g k + g k) / w ≤ T * T / w := by
      refine div_le_div_of_nonneg_right ?_ hw.le
      exact mul_le_mul (by linarith) (by linarith) (by linarith) (by linarith)
    rw [chain]
    push_cast
    linarith

theorem chain_congr {w : K} {g g' : Nat → K} {N : Nat} (h : ∀ r, r < N → g r = g' r) :
    chain w g N = chain w g' N := by
  induction N with
  | zero => rfl
  | succ k ih => rw [chain, chain, ih fun r hr => h r (by omega), h k (by omega)]

end Acs
