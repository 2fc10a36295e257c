import Verif.Lemmas.SaturateFl
import Verif.Lemmas.Shipped

/-! # TNN_IV and TNN_V with the configuration files of the repository -/

set_option linter.unusedSectionVars false

namespace Acs

open Finset Spec

section
variable {E : Env ℚ} {c : Cfg ℚ} {md : Mode} {vec : Vec Int} {n : Nat}

theorem exact_rounds (hE : ExactArith E) : Rounds E prec32 where
  pos := by norm_num [prec32]
  err := fun x => by
    rw [hE.f32, sub_self, abs_zero]
    unfold prec32
    positivity
  int := fun _ _ => hE.f32 _

theorem exact_scale (hE : ExactArith E) (hne : c.hrs ≠ c.lrs) : ScaleError E c prec32 := by
  refine ⟨by norm_num [prec32], fun s _ => ?_⟩
  unfold Env.fsub
  rw [hE.f32, hE.f32, div_mul_cancel₀ _ (sub_ne_zero.2 hne.symm), sub_self, abs_zero]
  unfold prec32
  positivity

theorem shipped_window (h : AnalogShipped md c) : |c.lrs - c.hrs| = 25 := by
  rw [h.hrs, h.lrs]
  norm_num

theorem shipped_single_adc (h : AnalogShipped md c) : SingleAdc c (shippedRange md).1 (shippedRange md).2 (192 / 5) := by
  have hst := h.step
  refine ⟨by rw [h.res]; decide, by rw [h.N]; decide, ?_, ?_, ?_, ?_⟩
  · rw [hst, h.hrs, h.lrs]
    split <;> norm_num
  · rw [hst]
    split <;> norm_num
  · rw [h.hrs, h.lrs]
    unfold shippedRange
    split <;> norm_num
  · unfold shippedRange
    split <;> norm_num

theorem shipped_size {n : Nat} (hn : n ≤ 32) :
    (9 * (n : ℚ) ^ 2 + 240 * n + 30) * (6 / 5) + 100 * (192 / 5) + 4 ≤ 24156 := by
  have : (n : ℚ) ≤ 32 := by exact_mod_cast hn
  have h0 : (0 : ℚ) ≤ n := Nat.cast_nonneg n
  nlinarith

theorem overshoot_shipped (h : AnalogShipped md c) (h45 : md = .tnn4 ∨ md = .tnn5) :
    0 ≤ overshoot c n ∧ overshoot c n * 6 / 25 + 21 / 10 = ternaryUnits md n ∧ overshoot c n ≤ 10 * n := by
  have h0 : (0 : ℚ) ≤ n := Nat.cast_nonneg n
  unfold overshoot ternaryUnits
  rw [h.mode, h.hrs]
  rcases h45 with rfl | rfl
  · exact ⟨by positivity, by dsimp only; ring, by dsimp only; linarith⟩
  · exact ⟨by positivity, by dsimp only; ring, by dsimp only; linarith⟩

theorem shipped_sat_bound (h : AnalogShipped md c) (h45 : md = .tnn4 ∨ md = .tnn5) (hn : n ≤ 32) :
    roundSatBound c (shippedRange md).1 (shippedRange md).2 (overshoot c n) (eps32 c) prec32 vec n ≤ ternaryUnits md n := by
  obtain ⟨o0, o1, o2⟩ := overshoot_shipped (n := n) h h45
  rw [← o1]
  have hn' : (n : ℚ) ≤ 32 := by exact_mod_cast hn
  have hn0 : (0 : ℚ) ≤ n := Nat.cast_nonneg n
  have hd : 2 ^ (-80 : ℤ) ≤ |c.lrs - c.hrs| := by rw [shipped_window h]; norm_num
  have hw : c.lrs - c.hrs = 25 := by rw [h.hrs, h.lrs]; norm_num
  have hmx : max |c.hrs| |c.lrs| = 30 := by rw [h.hrs, h.lrs]; norm_num
  have hrg : max |(shippedRange (K := ℚ) md).1| |(shippedRange (K := ℚ) md).2| = 960 := by
    rcases h45 with rfl | rfl <;> unfold shippedRange <;> rw [if_neg (by decide)] <;> norm_num
  have hst : adcStep c (shippedRange md).1 (shippedRange md).2 = 960 / 1048575 := by
    rw [h.step]
    rcases h45 with rfl | rfl <;> rw [if_neg (by decide)]
  have k1 := columnError32 (n := n) hd
  rw [hmx] at k1
  have k2 := adcRound32 hd (shipped_single_adc h)
  rw [hrg] at k2
  have e32 : eps32 c = 30 * 2 ^ (-19 : ℤ) := by unfold eps32; rw [hmx]
  have one : ∀ p ∈ readout c.mode vec n,
      roundSatDeviation c (shippedRange md).1 (shippedRange md).2 (overshoot c n) (eps32 c) prec32 n p
        ≤ p.1 * (overshoot c n / 25) + p.1 * (1 / 120) := fun p hp => by
    obtain ⟨hs1, hc0⟩ := readout_scale p hp
    have hc2 : (p.2 : ℚ) ≤ 2 * n := by exact_mod_cast readout_count p hp
    have hp1 : (0 : ℚ) ≤ p.1 := by rcases hs1 with e | e <;> rw [e] <;> norm_num
    have hp1' : (1 : ℚ) ≤ p.1 := by rcases hs1 with e | e <;> rw [e] <;> norm_num
    unfold roundSatDeviation
    rw [hw, hrg, hst, abs_of_nonneg (by positivity), e32]
    have hu : prec32.u = 2 ^ (-24 : ℤ) := rfl
    have hθ : prec32.θ = 2 ^ (-21 : ℤ) := rfl
    have hη : prec32.η ≤ 1 / 10 ^ 6 := by norm_num [prec32]
    generalize prec32.η = η at hη
    rw [e32] at k1
    generalize columnError c (30 * 2 ^ (-19 : ℤ)) prec32 n = X at k1
    generalize adcRound c (shippedRange md).1 (shippedRange md).2 prec32 = A at k2
    rw [hu, hθ]
    have m1 : max ((1 + (2 : ℚ) ^ (-24 : ℤ)) * (p.2 * (30 * 2 ^ (-19 : ℤ)) + X) + 2 ^ (-24 : ℤ) * overshoot c n) (overshoot c n)
        ≤ overshoot c n + 1 / 60 := by
      refine max_le ?_ (by linarith)
      have : X ≤ 11 / 1000 := by
        norm_num at k1
        nlinarith
      norm_num
      linarith
    generalize max ((1 + (2 : ℚ) ^ (-24 : ℤ)) * (p.2 * (30 * 2 ^ (-19 : ℤ)) + X) + 2 ^ (-24 : ℤ) * overshoot c n) (overshoot c n)
      = M at m1
    generalize overshoot c n = o at o0 o2 m1
    have m2 : (1 + (2 : ℚ) ^ (-21 : ℤ)) * (M + 960 / 1048575 / 2 + 10 * A) + 2 ^ (-21 : ℤ) * (960 + o) + 5 * 2 ^ (-24 : ℤ) * 960
        ≤ o + 1 / 5 := by
      norm_num at k2 ⊢
      linarith
    have m3 := mul_le_mul_of_nonneg_left m2 (by positivity : (0 : ℚ) ≤ p.1 / 25)
    linarith
  unfold roundSatBound
  have e : (readout c.mode vec n).map (fun p => (p.1 : ℚ) * (overshoot c n / 25) + p.1 * (1 / 120) + 1 / 2)
      = [(1 : ℚ), 1, 2, 2].map fun s => s * (overshoot c n / 25) + s * (1 / 120) + 1 / 2 := by
    rw [h.mode]
    rcases h45 with rfl | rfl <;> simp [readout]
  have := List.sum_le_sum (l := readout c.mode vec n) fun p hp => add_le_add (one p hp) (le_refl (1 / 2 : ℚ))
  rw [e] at this
  refine this.trans ?_
  simp only [List.map_cons, List.map_nil, List.sum_cons, List.sum_nil]
  linarith

/-- TNN_IV and TNN_V answer every legal sequence of calls up to an error that grows with the columns. -/
theorem shipped_ternary (hq : Rounds E prec32) (hsc : ScaleError E c prec32) (h : AnalogShipped md c)
    (h45 : md = .tnn4 ∨ md = .tnn5) (hok : CfgOk c) {x : Xbar ℚ} {w : Nat} {hist ops : List Op} (hr : Runs E c hist x)
    (hh : HistOk c w hist) (hl : LegalOps c w hist ops) (hB : SmallBuffers (2 ^ 20) hist ops) :
    ∃ x' rs, exec E c x ops = .ok (x', rs) ∧ AnswersUpTo (fun _ _ n => ternaryUnits md n) hist ops rs := by
  have hbin : c.mode.isInt = false := by
    rw [h.mode]
    rcases h45 with rfl | rfl <;> rfl
  have hd : 2 ^ (-80 : ℤ) ≤ |c.lrs - c.hrs| := by rw [shipped_window h]; norm_num
  have hρ : max |c.hrs| |c.lrs| ≤ 6 / 5 * |c.lrs - c.hrs| := by rw [h.hrs, h.lrs]; norm_num
  have key := EveryMvm.and (legal_everyMvm hh hl) hB
  obtain ⟨x', rs, h3, h4⟩ := exec_roundSat (q := prec32) (ε := eps32 c) (σ := 0) (rg := fun _ => shippedRange md)
    (κs := fun _ n => overshoot c n) hq hsc hok
    ⟨h.digital, hbin, h.par, h.prof, by rw [h.hrs, h.lrs]; norm_num⟩ h.rd (by rw [h.hrs]; norm_num) (by rw [h.lrs]; norm_num)
    ⟨le_rfl, fun k => by rcases k with k | k <;> first | linarith [h.hrsNoise] | linarith [h.lrsNoise]⟩
    (by
      have e : spread c (0 : ℚ) = 0 := by unfold spread; split <;> norm_num
      rw [e, zero_add]
      exact eps32_ok hd)
    (by unfold eps32; positivity) hr hh hl
    (everyMvm_imp (fun g res vec m n l k => by
      have hn : n ≤ 32 := h.N ▸ k.1.2.dims.2.1
      have hsz := shipped_size hn
      obtain ⟨s1, s2⟩ := single_size hd hρ (shipped_single_adc h) (n := n) (hsz.trans (by norm_num))
      refine ⟨h.adcOk l, single_small hd (h.adcOk l) (shipped_single_adc h), s1, s2, (overshoot_shipped h h45).1, ?_, ?_⟩
      · exact fun i hi => conversions_overshoot (by rw [h.hrs]; norm_num) (by rw [h.hrs, h.lrs]; norm_num) h.calib h.fits
          (h.adcOk "").range k.1.2.dims.2.1 (fun i j hi hj => ((legal_of k.1.1 k.1.2).val hi hj).1) k.1.2.vals hi
      · exact single_room hd hρ (shipped_single_adc h) (hsz.trans (by norm_num)) k.2) key)
  refine ⟨x', rs, h3, ?_⟩
  clear h3
  have kk : EveryMvm (fun _ _ _ _ n _ => n ≤ 32) hist ops :=
    everyMvm_imp (fun g res vec m n l k => h.N ▸ k.1.2.dims.2.1) key
  clear hB hr hh hl key
  unfold AnswersUpTo at h4 ⊢
  induction h4 with
  | nil => exact .nil
  | write _ ih => exact .write (ih kk)
  | mvm a _ ih =>
    obtain ⟨a1, a2, a3⟩ := a
    exact .mvm ⟨a1, fun i hi => (a2 i hi).trans (shipped_sat_bound h h45 kk.1), a3⟩ (ih kk.2)

end

end Acs
