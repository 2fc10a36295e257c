import Verif.Lemmas.RdInv
import Verif.SpecRd
import Mathlib.Tactic.Positivity

/-! # The read-disturb formula -/

set_option linter.unusedSectionVars false

namespace Acs

open Spec

section
variable {K : Type} [Field K] [LinearOrder K] [IsStrictOrderedRing K] [FloorRing K]
variable {E : Env K} {cfg : Cfg K} {rd : Rd K}

theorem RdArith.f32_nonneg (hE : RdArith E) {a : K} (h : 0 ≤ a) : 0 ≤ E.f32 a := by
  rw [← hE.f32_zero]; exact hE.f32 h

theorem RdArith.f64_nonneg (hE : RdArith E) {a : K} (h : 0 ≤ a) : 0 ≤ E.f64 a := by
  rw [← hE.f64_zero]; exact hE.f64 h

theorem RdArith.lit_nonneg (hE : RdArith E) {a : K} (h : 0 ≤ a) : 0 ≤ E.lit a :=
  RdArith.f32_nonneg hE (RdArith.f64_nonneg hE h)

/-- The parameters of the model are not negative. -/
theorem mkRd_nonneg (hE : RdArith E) (h : mkRd E cfg = .ok rd) : 0 ≤ rd.p ∧ 0 ≤ rd.expTt := by
  unfold mkRd at h
  rw [bind_eq_ok] at h
  obtain ⟨p, h1, h⟩ := h
  rw [bind_eq_ok] at h
  obtain ⟨e, h2, h⟩ := h
  rw [ok_inj] at h
  subst h
  have hp : 0 ≤ p := by
    unfold rdCalcP at h1
    rw [bind_eq_ok] at h1
    obtain ⟨kt, _, h1⟩ := h1
    rw [bind_eq_ok] at h1
    obtain ⟨x, _, h1⟩ := h1
    rw [ok_inj] at h1
    rw [← h1]
    exact RdArith.f32_nonneg hE (mul_nonneg (RdArith.lit_nonneg hE (by positivity))
      (RdArith.f32_nonneg hE (hE.exp _)))
  refine ⟨hp, ?_⟩
  unfold Env.fdiv at h2
  split at h2
  · cases h2
  · rw [ok_inj] at h2
    show 0 ≤ e
    rw [← h2]
    exact RdArith.f32_nonneg hE (by positivity)

theorem rdExp_mono (hE : RdArith E) {a b : Nat} (h : a ≤ b) : rdExp E a ≤ rdExp E b := by
  unfold rdExp
  have h1 : (a : K) ≤ b := by exact_mod_cast h
  refine hE.f64 (mul_le_mul_of_nonneg_left (hE.f64 (hE.pow_mono _ _ _ ?_ (hE.f64 h1) ?_)) ?_)
  · exact RdArith.f64_nonneg hE (by positivity)
  · exact RdArith.lit_nonneg hE (by positivity)
  · exact RdArith.lit_nonneg hE (by positivity)

theorem rdTime_nonneg (hE : RdArith E) (c : Nat) : 0 ≤ rdTime E rd c := by
  unfold rdTime
  dsimp only
  split
  · exact le_refl 0
  · next h =>
    refine RdArith.f32_nonneg hE (RdArith.f64_nonneg hE (mul_nonneg ?_ ?_))
    · exact RdArith.f32_nonneg hE (mul_nonneg (RdArith.lit_nonneg hE (by positivity))
        (RdArith.f32_nonneg hE (hE.pow_nonneg _ _ (RdArith.lit_nonneg hE (by positivity)))))
    · exact RdArith.f64_nonneg hE (hE.pow_nonneg _ _ (RdArith.f64_nonneg hE (by linarith)))

theorem rdTime_anti (hE : RdArith E) (hp : 0 ≤ rd.expTt) {a b : Nat} (h : a ≤ b) :
    rdTime E rd b ≤ rdTime E rd a := by
  have h0 := rdTime_nonneg (rd := rd) hE a
  have h1 := rdExp_mono hE h
  unfold rdTime at h0 ⊢
  dsimp only at h0 ⊢
  by_cases hb : 1 ≤ rdExp E b
  · rw [if_pos hb]; exact h0
  · rw [if_neg hb, if_neg (by linarith)]
    refine hE.f32 (hE.f64 (mul_le_mul_of_nonneg_left (hE.f64 (hE.pow_mono _ _ _ ?_ (hE.f64 ?_) hp)) ?_))
    · exact RdArith.f64_nonneg hE (by linarith)
    · linarith
    · exact RdArith.f32_nonneg hE (mul_nonneg (RdArith.lit_nonneg hE (by positivity))
        (RdArith.f32_nonneg hE (hE.pow_nonneg _ _ (RdArith.lit_nonneg hE (by positivity)))))

theorem rdStress_mono (hE : RdArith E) (ht : 0 ≤ cfg.tRead) {a b : Nat} (h : a ≤ b) :
    rdStress E cfg a ≤ rdStress E cfg b := by
  unfold rdStress Env.fmul
  have h1 : (a : K) ≤ b := by exact_mod_cast h
  exact hE.f32 (mul_le_mul_of_nonneg_right (hE.f32 h1) ht)

theorem rdStress_nonneg (hE : RdArith E) (ht : 0 ≤ cfg.tRead) (a : Nat) : 0 ≤ rdStress E cfg a :=
  RdArith.f32_nonneg hE (mul_nonneg (RdArith.f32_nonneg hE (by positivity)) ht)

/-- Cases of the formula. -/
theorem rdFactor_cases {r c : Nat} {f : K} (h : rdFactor E cfg rd r c = .ok f) :
    (rdStress E cfg r < rdTime E rd c ∧ f = 1) ∨
    (rdTime E rd c ≤ rdStress E cfg r ∧ rdTime E rd c = 0 ∧ rdStress E cfg r ≠ 0 ∧ f = 0) ∨
    (rdTime E rd c ≤ rdStress E cfg r ∧ rdTime E rd c ≠ 0 ∧
      f = E.f32 (E.pow (E.f32 (rdStress E cfg r / rdTime E rd c)) (-rd.p))) := by
  unfold rdFactor at h
  dsimp only at h
  split at h
  · next h1 => exact Or.inl ⟨h1, (ok_inj.1 h).symm⟩
  · next h1 =>
    rw [not_lt] at h1
    split at h
    · next h2 =>
      split at h
      · cases h
      · next h3 => exact Or.inr (Or.inl ⟨h1, h2, h3, (ok_inj.1 h).symm⟩)
    · next h2 =>
      rw [bind_eq_ok] at h
      obtain ⟨q, h3, h⟩ := h
      unfold Env.fdiv at h3
      rw [if_neg h2, ok_inj] at h3
      refine Or.inr (Or.inr ⟨h1, h2, ?_⟩)
      rw [h3]
      exact (ok_inj.1 h).symm

theorem rdFactor_range (hE : RdArith E) (hp : 0 ≤ rd.p) {r c : Nat} {f : K}
    (h : rdFactor E cfg rd r c = .ok f) : 0 ≤ f ∧ f ≤ 1 := by
  rcases rdFactor_cases h with ⟨_, h⟩ | ⟨_, _, _, h⟩ | ⟨h1, h2, h⟩
  · rw [h]; exact ⟨zero_le_one, le_refl 1⟩
  · rw [h]; exact ⟨le_refl 0, zero_le_one⟩
  · have h0 := rdTime_nonneg (rd := rd) hE c
    have h3 : 0 < rdTime E rd c := lt_of_le_of_ne h0 (Ne.symm h2)
    have h4 : 1 ≤ E.f32 (rdStress E cfg r / rdTime E rd c) := by
      rw [← hE.f32_one]
      exact hE.f32 ((one_le_div h3).2 h1)
    rw [h]
    refine ⟨RdArith.f32_nonneg hE (hE.pow_nonneg _ _ (by linarith)), ?_⟩
    have h5 := hE.pow_anti 1 _ rd.p (by norm_num) h4 hp
    rw [hE.pow_one] at h5
    calc _ ≤ E.f32 1 := hE.f32 h5
      _ = 1 := hE.f32_one

theorem rdFactor_anti (hE : RdArith E) (hp : 0 ≤ rd.p) (he : 0 ≤ rd.expTt) (ht : 0 ≤ cfg.tRead)
    {r r' c c' : Nat} {f f' : K} (hr : r ≤ r') (hc : c ≤ c') (h : rdFactor E cfg rd r c = .ok f)
    (h' : rdFactor E cfg rd r' c' = .ok f') : f' ≤ f := by
  have hs := rdStress_mono (cfg := cfg) hE ht hr
  have htm := rdTime_anti hE he hc
  have hr1 := rdFactor_range hE hp h
  have hr2 := rdFactor_range hE hp h'
  have h0 := rdTime_nonneg (rd := rd) hE c
  have h0' := rdTime_nonneg (rd := rd) hE c'
  rcases rdFactor_cases h with ⟨_, e⟩ | ⟨a1, a2, a3, e⟩ | ⟨a1, a2, e⟩
  · rw [e]; exact hr2.2
  · rcases rdFactor_cases h' with ⟨b1, e'⟩ | ⟨_, _, _, e'⟩ | ⟨b1, b2, e'⟩
    · have := rdStress_nonneg (cfg := cfg) hE ht r'
      linarith
    · rw [e, e']
    · exact absurd (le_antisymm (by linarith) h0') b2
  · have p1 : 0 < rdTime E rd c := lt_of_le_of_ne h0 (Ne.symm a2)
    rcases rdFactor_cases h' with ⟨b1, e'⟩ | ⟨_, _, _, e'⟩ | ⟨b1, b2, e'⟩
    · linarith
    · rw [e']; exact hr1.1
    · have p2 : 0 < rdTime E rd c' := lt_of_le_of_ne h0' (Ne.symm b2)
      rw [e, e']
      have h4 : 1 ≤ E.f32 (rdStress E cfg r / rdTime E rd c) := by
        rw [← hE.f32_one]
        exact hE.f32 ((one_le_div p1).2 a1)
      refine hE.f32 (hE.pow_anti _ _ _ (by linarith) (hE.f32 ?_) hp)
      exact div_le_div₀ (rdStress_nonneg hE ht r') hs p2 htm

/-- When the formula has no value. -/
theorem rdFactor_undefined {r c : Nat} {e : Fault} (h : rdFactor E cfg rd r c = .error e) :
    rdTime E rd c = 0 ∧ rdStress E cfg r = 0 := by
  unfold rdFactor at h
  dsimp only at h
  split at h
  · cases h
  · split at h
    · next h2 =>
      split at h
      · next h3 => exact ⟨h2, h3⟩
      · cases h
    · next h2 =>
      unfold Env.fdiv at h
      rw [if_neg h2] at h
      cases h

/-- Bound that the software check leaves. -/
theorem rdFactor_software (hE : RdArith E) (hx : ExactArith E) (hp : 0 ≤ rd.p) (he : 0 ≤ rd.expTt)
    (hfp : 1 ≤ cfg.fp) {r c w : Nat} {f : K} (hc : c ≤ w)
    (hck : rdCheckSoftware E cfg rd r w = false) (h : rdFactor E cfg rd r c = .ok f) :
    E.pow cfg.fp (-rd.p) ≤ f := by
  have htm := rdTime_anti hE he hc
  have h0 := rdTime_nonneg (rd := rd) hE c
  unfold rdCheckSoftware at hck
  rw [decide_eq_false_iff_not, not_le] at hck
  unfold Env.fmul at hck
  rw [hx.f32] at hck
  have hck : rdStress E cfg r < cfg.fp * rdTime E rd c :=
    lt_of_lt_of_le hck (mul_le_mul_of_nonneg_left htm (by linarith))
  have hone : E.pow cfg.fp (-rd.p) ≤ 1 := by
    have := hE.pow_anti 1 cfg.fp rd.p (by norm_num) hfp hp
    rwa [hE.pow_one] at this
  rcases rdFactor_cases h with ⟨_, e⟩ | ⟨a1, a2, a3, e⟩ | ⟨a1, a2, e⟩
  · rw [e]; exact hone
  · rw [a2] at hck a1
    linarith
  · have p1 : 0 < rdTime E rd c := lt_of_le_of_ne h0 (Ne.symm a2)
    rw [e, hx.f32, hx.f32]
    refine hE.pow_anti _ _ _ (div_pos (by linarith) p1) ?_ hp
    rw [div_le_iff₀ p1]
    exact hck.le

end

end Acs
