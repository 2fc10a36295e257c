import Verif.Lemmas.NoCalib
import Verif.Lemmas.XDigital
import Verif.Props.Ex
import Mathlib.Data.Finset.Card
import Mathlib.Data.Finset.Image
import Mathlib.Order.Interval.Finset.Nat

/-! # Properties of the converters -/

set_option linter.unusedSectionVars false

namespace Acs.Ex

/-- Analog crossbar with a signed converter of 4 bits. -/
def symCfg (md : Mode) : Cfg ℚ := { acfg md with adcType := .sym, resolution := 4 }
/-- Analog crossbar with an unsigned converter of 4 bits. -/
def posCfg (md : Mode) : Cfg ℚ := { acfg md with adcType := .pos, resolution := 4 }
/-- Calibrated converter for the layer `conv1`. -/
def calCfg (md : Mode) : Cfg ℚ :=
  { symCfg md with calibMode := .calib, calibDict := [("conv1", (-4, 6))] }

theorem sym_ok (md : Mode) (l : String) : Spec.AdcOk (symCfg md) l (-15) 15 where
  real := by simp [symCfg]
  res := by simp [symCfg]
  res30 := by simp [symCfg]
  range := by simp [symCfg, Spec.adcRange, acfg, cfg]; norm_num
  lt := by norm_num

theorem pos_ok (md : Mode) (l : String) : Spec.AdcOk (posCfg md) l 0 30 where
  real := by simp [posCfg]
  res := by simp [posCfg]
  res30 := by simp [posCfg]
  range := by simp [posCfg, Spec.adcRange, acfg, cfg]; norm_num
  lt := by norm_num

theorem cal_ok (md : Mode) : Spec.AdcOk (calCfg md) "conv1" (-4) 6 where
  real := by simp [calCfg, symCfg]
  res := by simp [calCfg, symCfg]
  res30 := by simp [calCfg, symCfg]
  range := by simp [calCfg, Spec.adcRange, List.lookup]
  lt := by norm_num

theorem env_exact : Spec.ExactArith env := ⟨fun _ => rfl, fun _ => rfl⟩

end Acs.Ex

namespace Acs.Props

open Spec

section
variable {K : Type} [Field K] [LinearOrder K] [IsStrictOrderedRing K] [FloorRing K]
variable {E : Env K} {cfg : Cfg K} {adc : Adc} {scale off lo hi : K} {l : String}

/-- C21.  Every converter is monotone, for every monotone rounding of the float operations, every
range and resolution. -/
theorem C21_adc_monotone (hm : Monotone E.f32) (hs : 0 ≤ scale) {c1 c2 y1 y2 : K} (hc : c1 ≤ c2)
    (h1 : conv1 E cfg adc c1 scale off l = .ok y1) (h2 : conv1 E cfg adc c2 scale off l = .ok y2) :
    y1 ≤ y2 := conv1_mono hm hs hc h1 h2

example : Monotone Ex.env.f32 ∧ (7 : ℚ) ≤ 8 ∧
    Ex.okAnd (conv1 Ex.env (Ex.symCfg .bnn1) ⟨.sym, 15⟩ 7 (2 / 5) 0 "") (· == 3) = true ∧
    Ex.okAnd (conv1 Ex.env (Ex.symCfg .bnn1) ⟨.sym, 15⟩ 10 (2 / 5) 0 "") (· == 4) = true :=
  ⟨monotone_id, by norm_num, by decide +kernel, by decide +kernel⟩

/-- C22.  Two currents beyond the same limit of the range are converted to the same value, for every
rounding of the arithmetic. -/
theorem C22_adc_saturates (hk : adc.kind ≠ .inf) {mn mx : K} (hle : mn ≤ mx)
    (hg : getCurrents E cfg adc.kind l = .ok (mn, mx)) {c1 c2 : K}
    (h : (mx ≤ E.f32 (c1 + off) ∧ mx ≤ E.f32 (c2 + off)) ∨
      (E.f32 (c1 + off) ≤ mn ∧ E.f32 (c2 + off) ≤ mn)) :
    conv1 E cfg adc c1 scale off l = conv1 E cfg adc c2 scale off l := by
  refine conv1_clip hk hg ?_
  unfold Env.fadd
  rcases h with ⟨h1, h2⟩ | ⟨h1, h2⟩
  · rw [clip_high h1, clip_high h2]
  · rw [clip_low hle h1, clip_low hle h2]

example : ∃ y : ℚ, conv1 Ex.env (Ex.calCfg .bnn1) ⟨.sym, 15⟩ 100 1 0 "conv1" = .ok y ∧ y = 6 ∧
    conv1 Ex.env (Ex.calCfg .bnn1) ⟨.sym, 15⟩ 100 1 0 "conv1" =
      conv1 Ex.env (Ex.calCfg .bnn1) ⟨.sym, 15⟩ 6 1 0 "conv1" := by
  obtain ⟨y, h1, h2⟩ := Ex.okAnd_spec (x := conv1 Ex.env (Ex.calCfg .bnn1) ⟨.sym, 15⟩ 100 1 0 "conv1")
    (p := (· == 6)) (by decide +kernel)
  refine ⟨y, h1, by simpa using h2, ?_⟩
  refine C22_adc_saturates (mn := -4) (mx := 6) (by decide) (by norm_num) rfl (Or.inl ?_)
  constructor <;> norm_num [Ex.env]

/-- C22.  The output lies between the images of the range limits. -/
theorem C22_adc_output_range (hE : ExactArith E) (ha : mkAdc cfg = .ok adc)
    (hok : AdcOk cfg l lo hi) (hs : 0 ≤ scale) (cur : K) :
    ∃ y, conv1 E cfg adc cur scale off l = .ok y ∧ (roundAway (lo * scale) : K) ≤ y ∧
      y ≤ (roundAway (hi * scale) : K) ∧
      conv1 E cfg adc (lo - off) scale off l = .ok (roundAway (lo * scale) : K) ∧
      conv1 E cfg adc (hi - off) scale off l = .ok (roundAway (hi * scale) : K) := by
  have hst := adcOk_step_pos hok
  obtain ⟨h1, h2⟩ := level_range hok (cur + off)
  refine ⟨_, conv1_exact hE ha hok _ _ _, ?_, ?_, ?_, ?_⟩
  · exact_mod_cast roundAway_mono (mul_le_mul_of_nonneg_right h1 hs)
  · exact_mod_cast roundAway_mono (mul_le_mul_of_nonneg_right h2 hs)
  · rw [conv1_exact hE ha hok]
    congr 3
    unfold levelOf
    rw [clip_low hok.lt.le (by rw [sub_add_cancel]), sub_self, zero_div]
    have : roundAway (0 : K) = 0 := by exact_mod_cast roundAway_int (K := K) 0
    rw [this]; push_cast; ring
  · rw [conv1_exact hE ha hok]
    congr 3
    unfold levelOf
    rw [clip_high (by rw [sub_add_cancel]), ← levels_mul_step hok, mul_div_cancel_right₀ _ hst.ne',
      roundAway_int, levels_mul_step hok]
    ring

example : ExactArith Ex.env ∧ mkAdc (Ex.posCfg .bnn3) = .ok ⟨.pos, 16⟩ ∧
    AdcOk (Ex.posCfg .bnn3) "" 0 30 ∧ (0 : ℚ) ≤ 2 / 5 :=
  ⟨Ex.env_exact, rfl, Ex.pos_ok _ _, by norm_num⟩

/-- C23.  Inside the range the output is within half a step (scaled) and the final rounding to an
integer. -/
theorem C23_adc_half_step (hE : ExactArith E) (ha : mkAdc cfg = .ok adc) (hok : AdcOk cfg l lo hi)
    {cur : K} (h1 : lo ≤ cur + off) (h2 : cur + off ≤ hi) :
    ∃ y : Int, conv1 E cfg adc cur scale off l = .ok (y : K) ∧
      |(y : K) - scale * (cur + off)| ≤ |scale| * (adcStep cfg lo hi / 2) + 1 / 2 := by
  refine ⟨_, conv1_exact hE ha hok _ _ _, ?_⟩
  have h3 := level_near hok h1 h2
  generalize (levelOf cfg lo hi (cur + off) : K) * adcStep cfg lo hi + lo = v at h3 ⊢
  have h4 := roundAway_near (v * scale)
  have h5 : |scale * (v - (cur + off))| ≤ |scale| * (adcStep cfg lo hi / 2) := by
    rw [abs_mul]
    exact mul_le_mul_of_nonneg_left h3 (abs_nonneg _)
  calc |(roundAway (v * scale) : K) - scale * (cur + off)|
      = |((roundAway (v * scale) : K) - v * scale) + scale * (v - (cur + off))| := by ring_nf
    _ ≤ |(roundAway (v * scale) : K) - v * scale| + |scale * (v - (cur + off))| := abs_add_le _ _
    _ ≤ _ := by linarith

example : ExactArith Ex.env ∧ mkAdc (Ex.symCfg .bnn1) = .ok ⟨.sym, 15⟩ ∧
    AdcOk (Ex.symCfg .bnn1) "" (-15) 15 ∧ (-15 : ℚ) ≤ 7 + 1 ∧ (7 + 1 : ℚ) ≤ 15 :=
  ⟨Ex.env_exact, rfl, Ex.sym_ok _ _, by norm_num, by norm_num⟩

/-- C24.  Zero current is converted to zero by a signed converter with the theoretical range. -/
theorem C24_sym_zero (hE : ExactArith E) (ha : mkAdc cfg = .ok adc) (hsym : cfg.adcType = .sym)
    (hmax : cfg.calibMode = .max) (hr : 2 ≤ cfg.resolution) (hr' : cfg.resolution ≤ 30)
    (hN : 0 < cfg.N) (hd : cfg.hrs < cfg.lrs) : conv1 E cfg adc 0 scale 0 l = .ok 0 := by
  have hN' : (0 : K) < cfg.N := by exact_mod_cast hN
  have hok : AdcOk cfg l (-(cfg.N * (cfg.lrs - cfg.hrs))) (cfg.N * (cfg.lrs - cfg.hrs)) := by
    refine ⟨by rw [hsym]; decide, by rw [hsym]; exact hr, hr', ?_, ?_⟩
    · unfold adcRange; rw [hmax, hsym]
    · nlinarith [mul_pos hN' (sub_pos.2 hd)]
  have hst := adcOk_step_pos hok
  have hl := levels_mul_step hok
  rw [conv1_exact hE ha hok, add_zero]
  set hi : K := cfg.N * (cfg.lrs - cfg.hrs) with hhi
  obtain ⟨k, hk⟩ : ∃ k : Int, adcLevels cfg - 1 = 2 * k := by
    unfold adcLevels
    rw [hsym]
    obtain ⟨r, hr⟩ : ∃ r, cfg.resolution.toNat = r + 1 := ⟨cfg.resolution.toNat - 1, by omega⟩
    refine ⟨2 ^ r - 1, ?_⟩
    dsimp only
    rw [hr, pow_succ]
    ring
  have h1 : levelOf cfg (-hi) hi 0 = k := by
    unfold levelOf
    have hpos : 0 < hi := mul_pos hN' (sub_pos.2 hd)
    rw [clip_id (by linarith) hpos.le]
    rw [hk] at hl
    push_cast at hl
    have : (0 - -hi) / adcStep cfg (-hi) hi = (k : K) := by
      rw [div_eq_iff hst.ne']
      linarith
    rw [this, roundAway_int]
  have h2 : (k : K) * adcStep cfg (-hi) hi + -hi = 0 := by
    rw [hk] at hl
    push_cast at hl
    linarith
  have h3 : roundAway (0 : K) = 0 := by exact_mod_cast roundAway_int (K := K) 0
  rw [h1, h2, zero_mul, h3, Int.cast_zero]

example : ExactArith Ex.env ∧ mkAdc (Ex.symCfg .bnn1) = .ok ⟨.sym, 15⟩ ∧
    (Ex.symCfg .bnn1).adcType = .sym ∧ (Ex.symCfg .bnn1).calibMode = .max ∧
    2 ≤ (Ex.symCfg .bnn1).resolution ∧ 0 < (Ex.symCfg .bnn1).N ∧
    (Ex.symCfg .bnn1).hrs < (Ex.symCfg .bnn1).lrs :=
  ⟨Ex.env_exact, rfl, rfl, rfl, by decide, by decide, by decide +kernel⟩

/-- The hypothesis on the resolution is needed: with one bit the signed converter has a single level
and divides by zero. -/
theorem C24_one_bit : ∃ cfg : Cfg ℚ, ∃ adc, cfg.adcType = .sym ∧ cfg.calibMode = .max ∧
    cfg.resolution = 1 ∧ 0 < cfg.N ∧ cfg.hrs < cfg.lrs ∧ mkAdc cfg = .ok adc ∧
    conv1 Ex.env cfg adc 0 1 0 "" = .error .nonfinite :=
  ⟨{ Ex.symCfg .bnn1 with resolution := 1 }, ⟨.sym, 1⟩, rfl, rfl, rfl, by decide,
    by decide +kernel, rfl, Ex.failsWith_spec (by decide +kernel)⟩

/-- C25.  The outputs of a converter over all currents form a set of at most `2 ^ resolution`
(unsigned) or `2 ^ resolution - 1` (signed) elements. -/
theorem C25_code_count (hE : ExactArith E) (ha : mkAdc cfg = .ok adc) (hok : AdcOk cfg l lo hi)
    (scale off : K) : ∃ codes : Finset K,
      codes.card ≤ (if cfg.adcType = .sym then 2 ^ cfg.resolution.toNat - 1
        else 2 ^ cfg.resolution.toNat) ∧
      ∀ cur y, conv1 E cfg adc cur scale off l = .ok y → y ∈ codes := by
  classical
  have hl := adcOk_levels hok
  refine ⟨(Finset.range (adcLevels cfg).toNat).image fun k : Nat =>
    (roundAway ((((k : Int) : K) * adcStep cfg lo hi + lo) * scale) : K), ?_, ?_⟩
  · refine Finset.card_image_le.trans ?_
    rw [Finset.card_range]
    unfold adcLevels
    have e : (2 : Int) ^ cfg.resolution.toNat = ((2 ^ cfg.resolution.toNat : Nat) : Int) := by
      push_cast; rfl
    rw [e]
    generalize 2 ^ cfg.resolution.toNat = z
    cases hk : cfg.adcType <;> simp only [reduceIte, reduceCtorEq]
    · exact absurd hk hok.real
    · omega
    · omega
  · intro cur y h
    rw [conv1_exact hE ha hok] at h
    rw [← (Except.ok.injEq _ _).mp h, Finset.mem_image]
    obtain ⟨h1, h2⟩ := levelOf_mem hok (cur + off)
    refine ⟨(levelOf cfg lo hi (cur + off)).toNat, ?_, ?_⟩
    · rw [Finset.mem_range]; omega
    · rw [Int.toNat_of_nonneg h1]

example : ExactArith Ex.env ∧ mkAdc (Ex.calCfg .tnn1) = .ok ⟨.sym, 15⟩ ∧
    AdcOk (Ex.calCfg .tnn1) "conv1" (-4) 6 := ⟨Ex.env_exact, rfl, Ex.cal_ok _⟩

/-- C28.  With calibration data the range is the interval stored for the layer, whatever the
theoretical currents are: the output never leaves it. -/
theorem C28_calibrated_range (hE : ExactArith E) (ha : mkAdc cfg = .ok adc)
    (hc : cfg.calibMode = .calib) (hk : cfg.adcType ≠ .inf) (hl : cfg.calibDict.lookup l = some (lo, hi))
    (hlt : lo < hi) (hr : (if cfg.adcType = .sym then 2 else 1) ≤ cfg.resolution)
    (hr' : cfg.resolution ≤ 30) (hs : 0 ≤ scale) (cur : K) :
    ∃ y, conv1 E cfg adc cur scale off l = .ok y ∧ (roundAway (lo * scale) : K) ≤ y ∧
      y ≤ (roundAway (hi * scale) : K) ∧
      (hi ≤ cur + off → y = (roundAway (hi * scale) : K)) ∧
      (cur + off ≤ lo → y = (roundAway (lo * scale) : K)) := by
  have hok : AdcOk cfg l lo hi := ⟨hk, hr, hr', by unfold adcRange; rw [hc]; exact hl, hlt⟩
  have hk' : adc.kind ≠ .inf := by rw [mkAdc_inv ha]; exact hk
  have hg : getCurrents E cfg adc.kind l = .ok (lo, hi) := by
    rw [mkAdc_inv ha]; exact getCurrents_exact hE hk hok.range
  obtain ⟨y, h1, h2, h3, h4, h5⟩ := C22_adc_output_range (off := off) hE ha hok hs cur
  refine ⟨y, h1, h2, h3, fun h => ?_, fun h => ?_⟩
  · have := C22_adc_saturates (scale := scale) (off := off) hk' hlt.le hg (c1 := cur) (c2 := hi - off)
      (Or.inl ⟨by rw [hE.f32]; exact h, by rw [hE.f32, sub_add_cancel]⟩)
    rw [h1, h5] at this
    exact (Except.ok.injEq _ _).mp this
  · have := C22_adc_saturates (scale := scale) (off := off) hk' hlt.le hg (c1 := cur) (c2 := lo - off)
      (Or.inr ⟨by rw [hE.f32]; exact h, by rw [hE.f32, sub_add_cancel]⟩)
    rw [h1, h4] at this
    exact (Except.ok.injEq _ _).mp this

example : ExactArith Ex.env ∧ mkAdc (Ex.calCfg .tnn1) = .ok ⟨.sym, 15⟩ ∧
    (Ex.calCfg .tnn1).calibMode = .calib ∧
    (Ex.calCfg .tnn1).calibDict.lookup "conv1" = some (-4, 6) := ⟨Ex.env_exact, rfl, rfl, rfl⟩

/-- C28.  A conversion for a layer without calibration data ends the program. -/
theorem C28_uncalibrated_conversion (hk : adc.kind ≠ .inf) (hc : cfg.calibMode = .calib)
    (hl : cfg.calibDict.lookup l = none) (cur : K) :
    conv1 E cfg adc cur scale off l = .error .exited := by
  have hq : convQuant E cfg adc cur scale off l = .error .exited := by
    unfold convQuant getCurrents
    rw [hc, hl]
    rfl
  unfold conv1
  cases h : adc.kind
  · exact absurd h hk
  · exact hq
  · exact hq

example : (Ex.calCfg .tnn1).calibDict.lookup "conv2" = none := rfl

/-- C28.  A multiplication for a layer without calibration data does not return: in every mode,
after every history, whatever the noise, disturb and wire settings are. -/
theorem C28_uncalibrated_mvm {h : List Op} {x : Xbar K} (hr : Runs E cfg h x)
    (hcfg : CfgOk cfg) (ha : cfg.digitalOnly = false) (hk : cfg.adcType ≠ .inf)
    (hc : cfg.calibMode = .calib) (hl : cfg.calibDict.lookup l = none) {res vec mat : Vec Int}
    {m n : Nat} (hm : 0 < m) (out : Xbar K × Vec Int) :
    xMvm E cfg x res vec mat m n l ≠ .ok out := by
  have hsh := runs_shape hr
  have key : ∀ mp : Mapper K, mp.core.mode = cfg.mode → mkAdc cfg = .ok mp.core.adc →
      Never (aMvm E cfg mp.core mp.aux res vec m n l) := by
    intro mp h1 h2
    refine never_aMvm (never_conv1 (by rw [mkAdc_inv h2]; exact hk) hc hl) hm fun hi => ?_
    have := intOk hcfg (by rw [← h1]; exact hi)
    exact ⟨cfgOk_S_pos hcfg, this.i1, by have := this.i31; omega⟩
  have hmain : Never (xMvm E cfg x res vec mat m n l) := by
    unfold xMvm
    simp only [ha]
    rw [if_neg (by simp)]
    by_cases h2 : cfg.c2c
    · rw [if_pos h2]
      intro o ho
      rw [bind_eq_ok] at ho
      obtain ⟨mp, h3, h4⟩ := ho
      obtain ⟨e1, e2⟩ := addC2C_core h3
      refine Never.bind_left (key mp ?_ ?_) o h4
      · rw [e1]; exact hsh.core.mode
      · rw [e2]; exact hsh.core.adc
    · rw [if_neg h2, ok_bind]
      exact Never.bind_left (key x.mapper hsh.core.mode hsh.core.adc)
  exact hmain out

example : ∃ x, Runs Ex.env (Ex.calCfg .tnn1) [.write Ex.matT 2 3] x ∧
    (Ex.failsWith (xMvm Ex.env (Ex.calCfg .tnn1) x Ex.res Ex.vecT Ex.matT 2 3 "conv2") .exited &&
     Ex.okAnd (xMvm Ex.env (Ex.calCfg .tnn1) x Ex.res Ex.vecT Ex.matT 2 3 "conv1")
      fun _ => true) = true :=
  Ex.wrote (fun x => Ex.failsWith (xMvm Ex.env (Ex.calCfg .tnn1) x Ex.res Ex.vecT Ex.matT 2 3 "conv2")
    .exited && Ex.okAnd (xMvm Ex.env (Ex.calCfg .tnn1) x Ex.res Ex.vecT Ex.matT 2 3 "conv1")
      fun _ => true) (by decide +kernel)

end

end Acs.Props
