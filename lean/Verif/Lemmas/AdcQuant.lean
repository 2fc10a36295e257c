import Verif.Lemmas.Shape
import Verif.Spec

/-! # Converters -/

set_option linter.unusedSectionVars false

namespace Acs

open Finset Spec

section
variable {K : Type} [Field K] [LinearOrder K] [IsStrictOrderedRing K] [FloorRing K]
variable {E : Env K} {cfg : Cfg K} {adc : Adc} {cur scale off lo hi y : K} {l : String}

/-! ## Rounding -/

theorem roundAway_mono : Monotone (roundAway : K → Int) := by
  intro x y h
  unfold roundAway
  split
  · next hx =>
    rw [if_pos (hx.trans h)]
    exact Int.floor_le_floor (by linarith)
  · next hx =>
    split
    · next hy =>
      have h1 : ⌈x - 1 / 2⌉ ≤ 0 := by
        rw [Int.ceil_le]; push_cast; linarith [not_le.1 hx]
      have h2 : 0 ≤ ⌊y + 1 / 2⌋ := by
        rw [Int.le_floor]; push_cast; linarith
      omega
    · exact Int.ceil_le_ceil (by linarith)

theorem roundAway_int (z : Int) : roundAway (z : K) = z := by
  unfold roundAway
  split
  · rw [Int.floor_eq_iff]; constructor <;> linarith
  · rw [Int.ceil_eq_iff]; constructor <;> linarith

theorem roundAway_near (x : K) : |(roundAway x : K) - x| ≤ 1 / 2 := by
  unfold roundAway
  rw [abs_le]
  split
  · have h1 := Int.floor_le (x + 1 / 2)
    have h2 := Int.lt_floor_add_one (x + 1 / 2)
    constructor <;> linarith
  · have h1 := Int.le_ceil (x - 1 / 2)
    have h2 := Int.ceil_lt_add_one (x - 1 / 2)
    constructor <;> linarith

theorem truncZ_int (z : Int) : truncZ (z : K) = z := by
  unfold truncZ
  split
  · exact Int.floor_intCast z
  · exact Int.ceil_intCast z

theorem toI32_int {z : Int} (h : InI32 z) : toI32 (z : K) = .ok z := by
  unfold toI32
  rw [truncZ_int, if_pos h]

/-- An integer within a distance below one half is the rounded value. -/
theorem roundAway_of_near {x : K} {z : Int} (h : |x - z| < 1 / 2) : roundAway x = z := by
  rw [abs_lt] at h
  unfold roundAway
  split
  · rw [Int.floor_eq_iff]; constructor <;> linarith [h.1, h.2]
  · rw [Int.ceil_eq_iff]; constructor <;> linarith [h.1, h.2]

/-! ## Clipping -/

theorem clip_mono (lo hi : K) : Monotone fun c => clip c lo hi := by
  intro a b h
  simp only [clip]
  split_ifs <;> linarith

theorem clip_mem (h : lo ≤ hi) (c : K) : lo ≤ clip c lo hi ∧ clip c lo hi ≤ hi := by
  simp only [clip]
  split_ifs <;> constructor <;> linarith

theorem clip_id {c : K} (h1 : lo ≤ c) (h2 : c ≤ hi) : clip c lo hi = c := by
  simp only [clip]
  split_ifs <;> linarith

theorem clip_low {c : K} (h : lo ≤ hi) (h1 : c ≤ lo) : clip c lo hi = lo := by
  simp only [clip]
  split_ifs <;> linarith

theorem clip_high {c : K} (h1 : hi ≤ c) : clip c lo hi = hi := by
  simp only [clip]
  split_ifs <;> linarith

/-! ## The transfer curve -/

theorem fdiv_eq_ok {a b y : K} (h : E.fdiv a b = .ok y) : b ≠ 0 ∧ y = E.f32 (a / b) := by
  unfold Env.fdiv at h
  split at h
  · cases h
  · next hb => exact ⟨hb, ((Except.ok.injEq _ _).mp h).symm⟩

/-- A conversion by a real converter that returns. -/
theorem convQuant_inv (h : convQuant E cfg adc cur scale off l = .ok y) :
    ∃ mn mx step : K, getCurrents E cfg adc.kind l = .ok (mn, mx) ∧ step ≠ 0 ∧
      E.fdiv (E.fsub mx mn) (E.ofInt (adc.steps - 1)) = .ok step ∧
      subI adc.steps 1 = .ok (adc.steps - 1) ∧
      y = roundAway (E.fmul (E.fadd (E.fmul (roundAway
        (E.f32 (E.fsub (clip (E.fadd cur off) mn mx) mn / step)) : K) step) mn) scale) := by
  unfold convQuant at h
  rw [bind_eq_ok] at h
  obtain ⟨⟨mn, mx⟩, h1, h⟩ := h
  dsimp only at h
  rw [bind_eq_ok] at h
  obtain ⟨d, h2, h⟩ := h
  have hd : d = adc.steps - 1 := by
    unfold subI i32 at h2
    split at h2
    · exact ((Except.ok.injEq _ _).mp h2).symm
    · cases h2
  subst hd
  rw [bind_eq_ok] at h
  obtain ⟨step, h3, h⟩ := h
  rw [bind_eq_ok] at h
  obtain ⟨q, h4, h⟩ := h
  obtain ⟨h5, rfl⟩ := fdiv_eq_ok h4
  exact ⟨mn, mx, step, h1, h5, h3, h2, ((Except.ok.injEq _ _).mp h).symm⟩

/-- The transfer curve is monotone for every monotone rounding of the arithmetic. -/
theorem conv1_mono (hm : Monotone E.f32) (hs : 0 ≤ scale) {c1 c2 y1 y2 : K} (hc : c1 ≤ c2)
    (h1 : conv1 E cfg adc c1 scale off l = .ok y1) (h2 : conv1 E cfg adc c2 scale off l = .ok y2) :
    y1 ≤ y2 := by
  have quant : convQuant E cfg adc c1 scale off l = .ok y1 →
      convQuant E cfg adc c2 scale off l = .ok y2 → y1 ≤ y2 := by
    intro h1 h2
    obtain ⟨mn, mx, step, a1, a2, a3, _, rfl⟩ := convQuant_inv h1
    obtain ⟨mn', mx', step', b1, b2, b3, _, rfl⟩ := convQuant_inv h2
    obtain ⟨rfl, rfl⟩ : mn = mn' ∧ mx = mx' := by
      rw [a1] at b1
      exact (Prod.mk.injEq _ _ _ _).mp ((Except.ok.injEq _ _).mp b1)
    obtain rfl : step = step' := by
      rw [a3] at b3
      exact (Except.ok.injEq _ _).mp b3
    have hclip : E.fsub (clip (E.fadd c1 off) mn mx) mn ≤ E.fsub (clip (E.fadd c2 off) mn mx) mn := by
      unfold Env.fsub Env.fadd
      refine hm (sub_le_sub_right (clip_mono mn mx (hm ?_)) _)
      linarith
    have hk : (roundAway (E.f32 (E.fsub (clip (E.fadd c1 off) mn mx) mn / step)) : K) * step
        ≤ (roundAway (E.f32 (E.fsub (clip (E.fadd c2 off) mn mx) mn / step)) : K) * step := by
      rcases lt_or_gt_of_ne a2 with hst | hst
      · refine mul_le_mul_of_nonpos_right ?_ hst.le
        exact_mod_cast roundAway_mono (hm (div_le_div_of_nonpos_of_le hst.le hclip))
      · refine mul_le_mul_of_nonneg_right ?_ hst.le
        exact_mod_cast roundAway_mono (hm (div_le_div_of_nonneg_right hclip hst.le))
    exact_mod_cast roundAway_mono (hm (mul_le_mul_of_nonneg_right
      (hm (add_le_add_left (hm hk) _)) hs))
  unfold conv1 at h1 h2
  cases hk : adc.kind <;> simp only [hk] at h1 h2
  · rw [← (Except.ok.injEq _ _).mp h1, ← (Except.ok.injEq _ _).mp h2]
    exact hm (mul_le_mul_of_nonneg_right (hm (by linarith)) hs)
  · exact quant h1 h2
  · exact quant h1 h2

/-- The output depends on the current only through the clipped value. -/
theorem conv1_clip (hk : adc.kind ≠ .inf) {mn mx c1 c2 : K}
    (hg : getCurrents E cfg adc.kind l = .ok (mn, mx))
    (hc : clip (E.fadd c1 off) mn mx = clip (E.fadd c2 off) mn mx) :
    conv1 E cfg adc c1 scale off l = conv1 E cfg adc c2 scale off l := by
  have quant : convQuant E cfg adc c1 scale off l = convQuant E cfg adc c2 scale off l := by
    unfold convQuant
    simp only [hg, ok_bind, hc]
  unfold conv1
  cases h : adc.kind
  · exact absurd h hk
  · exact quant
  · exact quant

/-! ## Exact arithmetic -/

theorem adcSteps_ok (h0 : 0 ≤ cfg.resolution) (h : cfg.resolution ≤ 30) :
    adcSteps cfg.resolution = .ok (2 ^ cfg.resolution.toNat) := by
  unfold adcSteps
  rw [if_neg (by omega), if_pos h]

theorem mkAdc_inv (h : mkAdc cfg = .ok adc) : adc.kind = cfg.adcType := by
  unfold mkAdc at h
  rw [bind_eq_ok] at h
  obtain ⟨st, _, h⟩ := h
  cases hk : cfg.adcType <;> simp only [hk] at h
  · rw [← (Except.ok.injEq _ _).mp h]
  · rw [bind_eq_ok] at h
    obtain ⟨s, _, h⟩ := h
    rw [← (Except.ok.injEq _ _).mp h]
  · rw [← (Except.ok.injEq _ _).mp h]

theorem two_pow_res (h : cfg.resolution ≤ 30) : (2 : Int) ^ cfg.resolution.toNat ≤ 1073741824 := by
  calc (2 : Int) ^ cfg.resolution.toNat ≤ 2 ^ 30 := pow_le_pow_right₀ (by norm_num) (by omega)
    _ = _ := by norm_num

theorem mkAdc_steps (h0 : 0 ≤ cfg.resolution) (h30 : cfg.resolution ≤ 30)
    (hinf : cfg.adcType ≠ .inf) (h : mkAdc cfg = .ok adc) : adc.steps = adcLevels cfg := by
  unfold mkAdc at h
  rw [adcSteps_ok h0 h30, ok_bind] at h
  have := two_pow_res h30
  have hp : (0 : Int) < 2 ^ cfg.resolution.toNat := by positivity
  unfold adcLevels
  cases hk : cfg.adcType <;> simp only [hk] at h ⊢
  · exact absurd hk hinf
  · rw [subI_ok (by constructor <;> omega), ok_bind] at h
    rw [← (Except.ok.injEq _ _).mp h]
  · rw [← (Except.ok.injEq _ _).mp h]

theorem getCurrents_exact (hE : ExactArith E) (hinf : cfg.adcType ≠ .inf)
    (h : adcRange cfg l = some (lo, hi)) : getCurrents E cfg cfg.adcType l = .ok (lo, hi) := by
  unfold adcRange at h
  unfold getCurrents
  cases hc : cfg.calibMode <;> simp only [hc] at h ⊢
  · cases hk : cfg.adcType <;> simp only [hk] at h hinf
    · exact absurd rfl hinf
    · rw [Option.some.injEq, Prod.mk.injEq] at h
      simp only [minCurrent, maxCurrent, Env.fmul, Env.fsub, Env.ofInt, hE.f32]
      rw [← h.1, ← h.2]
      push_cast
      rw [neg_mul]
    · rw [Option.some.injEq, Prod.mk.injEq] at h
      simp only [minCurrent, maxCurrent, Env.fmul, Env.ofInt, hE.f32]
      rw [← h.1, ← h.2]
      push_cast
      rfl
  · rw [h]

theorem adcOk_levels (h : AdcOk cfg l lo hi) : 2 ≤ adcLevels cfg := by
  have h1 := h.res
  unfold adcLevels
  cases hk : cfg.adcType <;> simp only [hk] at h1 ⊢
  · exact absurd hk h.real
  · rw [if_pos trivial] at h1
    have : (2 : Int) ^ 2 ≤ 2 ^ cfg.resolution.toNat := pow_le_pow_right₀ (by norm_num) (by omega)
    norm_num at this ⊢; omega
  · rw [if_neg (by decide)] at h1
    have : (2 : Int) ^ 1 ≤ 2 ^ cfg.resolution.toNat := pow_le_pow_right₀ (by norm_num) (by omega)
    norm_num at this ⊢; omega

theorem adcOk_levels_le (h : AdcOk cfg l lo hi) : adcLevels cfg ≤ 1073741824 := by
  have h1 := two_pow_res h.res30
  unfold adcLevels
  split <;> omega

theorem adcOk_step_pos (h : AdcOk cfg l lo hi) : 0 < adcStep cfg lo hi := by
  have h1 := adcOk_levels h
  have h2 := h.lt
  unfold adcStep
  refine div_pos (by linarith) ?_
  exact_mod_cast (by omega : (0 : Int) < adcLevels cfg - 1)

/-- Level number chosen for a (clipped) current. -/
def levelOf (cfg : Cfg K) (lo hi c : K) : Int := roundAway ((clip c lo hi - lo) / adcStep cfg lo hi)

/-- Closed form of the conversion in exact arithmetic. -/
theorem conv1_exact (hE : ExactArith E) (ha : mkAdc cfg = .ok adc) (h : AdcOk cfg l lo hi)
    (cur scale off : K) : conv1 E cfg adc cur scale off l = .ok (roundAway
      ((levelOf cfg lo hi (cur + off) * adcStep cfg lo hi + lo) * scale) : K) := by
  have h0 : 0 ≤ cfg.resolution := by have := h.res; split at this <;> omega
  have hk := mkAdc_inv ha
  have hs := mkAdc_steps h0 h.res30 h.real ha
  have hl := adcOk_levels h
  have hl' := adcOk_levels_le h
  have hst := adcOk_step_pos h
  have quant : convQuant E cfg adc cur scale off l = .ok (roundAway
      ((levelOf cfg lo hi (cur + off) * adcStep cfg lo hi + lo) * scale) : K) := by
    have hd : ((adcLevels cfg - 1 : Int) : K) ≠ 0 := by
      exact_mod_cast (by omega : adcLevels cfg - 1 ≠ 0)
    unfold convQuant
    rw [hk, getCurrents_exact hE h.real h.range, ok_bind, hs, subI_ok (by constructor <;> omega),
      ok_bind]
    simp only [Env.fdiv, Env.fsub, Env.fadd, Env.fmul, Env.ofInt, hE.f32]
    unfold adcStep at hst
    rw [if_neg hd, ok_bind, if_neg hst.ne', ok_bind]
    rfl
  unfold conv1
  cases hk' : adc.kind
  · exact absurd (hk'.symm.trans hk).symm h.real
  · exact quant
  · exact quant

theorem levelOf_mem (h : AdcOk cfg l lo hi) (c : K) :
    0 ≤ levelOf cfg lo hi c ∧ levelOf cfg lo hi c ≤ adcLevels cfg - 1 := by
  have hst := adcOk_step_pos h
  obtain ⟨h1, h2⟩ := clip_mem h.lt.le c
  have hl := adcOk_levels h
  have hd : (0 : K) < ((adcLevels cfg - 1 : Int) : K) := by
    exact_mod_cast (by omega : (0 : Int) < adcLevels cfg - 1)
  unfold levelOf
  constructor
  · have := roundAway_mono (K := K) (div_nonneg (sub_nonneg.2 h1) hst.le)
    have h0 := roundAway_int (K := K) 0
    rw [Int.cast_zero] at h0
    rw [h0] at this
    exact this
  · rw [← roundAway_int (K := K) (adcLevels cfg - 1)]
    refine roundAway_mono ?_
    rw [div_le_iff₀ hst]
    unfold adcStep
    rw [mul_div_cancel₀ _ hd.ne']
    linarith

theorem levels_mul_step (h : AdcOk cfg l lo hi) :
    ((adcLevels cfg - 1 : Int) : K) * adcStep cfg lo hi = hi - lo := by
  have hl := adcOk_levels h
  have hd : ((adcLevels cfg - 1 : Int) : K) ≠ 0 := by
    exact_mod_cast (by omega : adcLevels cfg - 1 ≠ 0)
  unfold adcStep
  rw [mul_div_cancel₀ _ hd]

/-- The value of a level lies in the range. -/
theorem level_range (h : AdcOk cfg l lo hi) (c : K) :
    lo ≤ levelOf cfg lo hi c * adcStep cfg lo hi + lo ∧
      levelOf cfg lo hi c * adcStep cfg lo hi + lo ≤ hi := by
  obtain ⟨h1, h2⟩ := levelOf_mem h c
  have hst := adcOk_step_pos h
  have h3 := levels_mul_step h
  have h1' : (0 : K) ≤ levelOf cfg lo hi c := by exact_mod_cast h1
  have h2' : (levelOf cfg lo hi c : K) ≤ ((adcLevels cfg - 1 : Int) : K) := by exact_mod_cast h2
  constructor
  · nlinarith
  · nlinarith

/-- Inside the range a level is at most half a step away. -/
theorem level_near (h : AdcOk cfg l lo hi) {c : K} (h1 : lo ≤ c) (h2 : c ≤ hi) :
    |levelOf cfg lo hi c * adcStep cfg lo hi + lo - c| ≤ adcStep cfg lo hi / 2 := by
  have hst := adcOk_step_pos h
  have h3 := roundAway_near ((c - lo) / adcStep cfg lo hi)
  unfold levelOf
  rw [clip_id h1 h2]
  generalize roundAway ((c - lo) / adcStep cfg lo hi) = k at h3 ⊢
  have e : (k : K) * adcStep cfg lo hi + lo - c
      = ((k : K) - (c - lo) / adcStep cfg lo hi) * adcStep cfg lo hi := by
    field_simp
    ring
  rw [e, abs_mul, abs_of_pos hst]
  nlinarith

end

end Acs
