import Verif.Lemmas.FlXbar
import Verif.Lemmas.AdcDev
import Verif.SpecRoundAdc

/-! # A real converter in floating point -/

set_option linter.unusedSectionVars false

namespace Acs

open Finset Spec

section
variable {K : Type} [Field K] [LinearOrder K] [IsStrictOrderedRing K] [FloorRing K]
variable {E : Env K} {cfg : Cfg K} {c : Core K} {a : Aux K} {mat vec res r : Vec Int} {m n w : Nat} {l : String}
variable {x x' : Xbar K} {h : List Op} {ε σ lo hi lo' hi' κ R : K} {rg : String → K × K} {q : Prec K} {adc : Adc} {d : Int}
variable {L : Nat → Nat → Option Int} {P Q W : Nat → Nat → Int}

/-! ## Ranges -/

theorem clip_near' {T y δ : K} (hle : lo' ≤ hi') (h1 : lo ≤ T) (h2 : T ≤ hi) (hl : |lo' - lo| ≤ κ) (hh : |hi' - hi| ≤ κ)
    (h : |y - T| ≤ δ) (hκ : κ ≤ δ) : |clip y lo' hi' - T| ≤ δ := by
  have h3 := abs_le.1 h
  have h4 := abs_le.1 hl
  have h5 := abs_le.1 hh
  simp only [clip]
  split_ifs <;> refine abs_le.2 ⟨?_, ?_⟩ <;> linarith

/-- The value of the level of a current. -/
def rndLevel (E : Env K) (lo hi : K) (d : Int) (y : K) : K :=
  E.fadd (E.fmul (roundAway (E.f32 (E.fsub (clip y lo hi) lo / E.f32 (E.fsub hi lo / E.ofInt d))) : K)
    (E.f32 (E.fsub hi lo / E.ofInt d))) lo

/-- What the analysis of a conversion needs. -/
structure RndConv (E : Env K) (q : Prec K) (lo hi lo' hi' : K) (d : Int) (R κ : K) : Prop where
  rnd : Rounds E q
  u8 : q.u ≤ 1 / 8
  eta : 0 ≤ q.η
  nlo : |lo' - lo| ≤ κ
  nhi : |hi' - hi| ≤ κ
  loR : |lo| ≤ R
  hiR : |hi| ≤ R
  small : 32 * κ ≤ hi - lo
  k4 : q.u * (4 * R) + q.η ≤ κ
  kd : q.u * (4 * R) + q.η * (3 * R) ≤ κ
  dpos : 1 ≤ d
  dint : E.ofInt d = (d : K)
  step : 2 * q.η < (hi - lo) / d

namespace RndConv
variable (H : RndConv E q lo hi lo' hi' d R κ)
include H

theorem R0 : 0 ≤ R := (abs_nonneg _).trans H.loR

theorem k0 : 0 ≤ κ := by
  have := H.k4
  have := H.eta
  have := mul_nonneg H.rnd.pos H.R0
  linarith

theorem kR : 16 * κ ≤ R := by
  have h1 := H.small
  have h2 := (abs_le.1 H.loR).1
  have h3 := (abs_le.1 H.hiR).2
  linarith

theorem op {z : K} (hz : |z| ≤ 4 * R) : |E.f32 z - z| ≤ κ := (rounds_to H.rnd (4 * R) z hz).trans H.k4

theorem le : lo' ≤ hi' := by
  have h1 := H.small
  have h2 := (abs_le.1 H.nlo).2
  have h3 := (abs_le.1 H.nhi).1
  have := H.k0
  linarith

/-- The computed step. -/
theorem stepNear : 0 < E.f32 (E.fsub hi' lo' / E.ofInt d) ∧
    |E.f32 (E.fsub hi' lo' / E.ofInt d) - (hi - lo) / d| ≤ 4 * κ := by
  have hk := H.k0
  have hkR := H.kR
  have h1 := abs_le.1 H.nlo
  have h2 := abs_le.1 H.nhi
  have h3 := abs_le.1 H.loR
  have h4 := abs_le.1 H.hiR
  have hs := H.small
  rw [H.dint]
  have hd : (1 : K) ≤ d := by exact_mod_cast H.dpos
  have hd0 : (0 : K) < d := by linarith
  unfold Env.fsub
  have r1 := abs_le.1 (H.op (z := hi' - lo') (abs_le.2 ⟨by linarith, by linarith⟩))
  generalize E.f32 (hi' - lo') = r' at r1
  have e1 : |r' - (hi - lo)| ≤ 3 * κ := abs_le.2 ⟨by linarith, by linarith⟩
  have e1' := abs_le.1 e1
  have rpos : 0 ≤ r' := by linarith
  have r4 : r' ≤ 4 * R := by linarith
  have e2 : |r' / d - (hi - lo) / d| ≤ 3 * κ := by
    rw [← sub_div, abs_div, abs_of_pos hd0]
    exact (div_le_self (abs_nonneg _) hd).trans e1
  have q1 : |r' / d| ≤ 4 * R := by
    rw [abs_of_nonneg (div_nonneg rpos hd0.le)]
    exact (div_le_self rpos hd).trans r4
  have r2 := H.op q1
  refine ⟨?_, ?_⟩
  · have k1 := H.rnd.err (r' / d)
    rw [abs_of_nonneg (div_nonneg rpos hd0.le)] at k1
    have k2 := (abs_le.1 k1).1
    have k3 : 29 / 32 * ((hi - lo) / d) ≤ r' / d := by
      rw [← mul_div_assoc]
      exact div_le_div_of_nonneg_right (by linarith) hd0.le
    have k4 := H.step
    have k5 := mul_le_mul_of_nonneg_right H.u8 (div_nonneg rpos hd0.le)
    have k6 := H.eta
    linarith
  · have := abs_add_le (E.f32 (r' / d) - r' / d) (r' / d - (hi - lo) / d)
    rw [sub_add_sub_cancel] at this
    linarith

/-- The value of the level of a current near a current in the range. -/
theorem level {T y δ : K} (h1 : lo ≤ T) (h2 : T ≤ hi) (hy : |y - T| ≤ δ) (hκ : κ ≤ δ) :
    |rndLevel E lo' hi' d y - T| ≤ δ + (hi - lo) / d / 2 + 6 * κ ∧ |rndLevel E lo' hi' d y| ≤ 5 / 2 * R := by
  obtain ⟨s0, s1⟩ := H.stepNear
  unfold rndLevel
  generalize E.f32 (E.fsub hi' lo' / E.ofInt d) = st at s0 s1
  have hk := H.k0
  have hkR := H.kR
  have a1 := abs_le.1 H.nlo
  have a2 := abs_le.1 H.nhi
  have a3 := abs_le.1 H.loR
  have a4 := abs_le.1 H.hiR
  have hd : (1 : K) ≤ d := by exact_mod_cast H.dpos
  have hs := H.small
  have s2 : (hi - lo) / d ≤ 2 * R := (div_le_self (by linarith) hd).trans (by linarith)
  have s3 := abs_le.1 s1
  generalize (hi - lo) / (d : K) = S at s1 s2 s3
  have c1 := abs_le.1 (clip_near' H.le h1 h2 H.nlo H.nhi hy hκ)
  obtain ⟨c2, c3⟩ := clip_mem H.le y
  generalize clip y lo' hi' = C at c1 c2 c3
  unfold Env.fadd Env.fmul Env.fsub
  have y1 := abs_le.1 (H.op (z := C - lo') (abs_le.2 ⟨by linarith, by linarith⟩))
  generalize E.f32 (C - lo') = Y at y1
  have yR : |Y| ≤ 3 * R := abs_le.2 ⟨by linarith, by linarith⟩
  have q1 : |E.f32 (Y / st) * st - Y| ≤ κ := by
    have k1 := H.rnd.err (Y / st)
    have k2 := mul_le_mul_of_nonneg_right k1 s0.le
    have k3 : |E.f32 (Y / st) * st - Y| = |E.f32 (Y / st) - Y / st| * st := by
      conv_rhs => rw [← abs_of_pos s0, ← abs_mul, abs_of_pos s0, sub_mul, div_mul_cancel₀ _ s0.ne']
    have k4 : |Y / st| * st = |Y| := by
      conv_lhs => rw [← abs_of_pos s0, ← abs_mul, abs_of_pos s0, div_mul_cancel₀ _ s0.ne']
    rw [k3]
    have k5 := mul_le_mul_of_nonneg_left yR H.rnd.pos
    have k6 := mul_le_mul_of_nonneg_left (by linarith : st ≤ 3 * R) H.eta
    have k7 := H.kd
    have k8 := mul_nonneg H.rnd.pos H.R0
    rw [add_mul, mul_assoc, k4] at k2
    linarith
  have n1 : |(roundAway (E.f32 (Y / st)) : K) * st - Y| ≤ st / 2 + κ := by
    have k1 := mul_le_mul_of_nonneg_right (roundAway_near (E.f32 (Y / st))) s0.le
    rw [← abs_of_pos s0, ← abs_mul, abs_of_pos s0, sub_mul] at k1
    have := abs_add_le ((roundAway (E.f32 (Y / st)) : K) * st - E.f32 (Y / st) * st) (E.f32 (Y / st) * st - Y)
    rw [sub_add_sub_cancel] at this
    linarith
  have n2 := abs_le.1 n1
  generalize (roundAway (E.f32 (Y / st)) : K) * st = Z at n2
  have z1 := abs_le.1 (H.op (z := Z) (abs_le.2 ⟨by linarith, by linarith⟩))
  generalize E.f32 Z = M at z1
  have u1 := abs_le.1 (H.op (z := M + lo') (abs_le.2 ⟨by linarith, by linarith⟩))
  generalize E.f32 (M + lo') = U at u1
  exact ⟨abs_le.2 ⟨by linarith, by linarith⟩, abs_le.2 ⟨by linarith, by linarith⟩⟩

end RndConv

theorem top_range (T : K) (h1 : lo ≤ T) (h2 : T ≤ hi) : |T| ≤ max |lo| |hi| := by
  have h3 := abs_le.1 (le_max_left |lo| |hi|)
  have h4 := abs_le.1 (le_max_right |lo| |hi|)
  exact abs_le.2 ⟨by linarith, by linarith⟩

/-- The computed range. -/
theorem getCurrents_near (hq : Rounds E q) (hs : SmallConversion cfg lo hi q) (hA : AdcOk cfg l lo hi) :
    ∃ lo' hi', getCurrents E cfg cfg.adcType l = .ok (lo', hi') ∧ |lo' - lo| ≤ adcRound cfg lo hi q ∧
      |hi' - hi| ≤ adcRound cfg lo hi q := by
  have hu := hq.pos
  have he := eta_nonneg hq
  have hR : 0 ≤ max |lo| |hi| := (abs_nonneg _).trans (le_max_left _ _)
  have hN : (0 : K) ≤ cfg.N := Nat.cast_nonneg _
  have hN' : E.ofInt cfg.N = (cfg.N : K) := by
    unfold Env.ofInt
    rw [hq.int _ (by rw [Nat.abs_cast]; exact_mod_cast hs.cells), Int.cast_natCast]
  have k0 : 0 ≤ adcRound cfg lo hi q := by unfold adcRound; positivity
  have h := hA.range
  unfold adcRange at h
  unfold getCurrents
  have one : ∀ z : K, |z| ≤ max |lo| |hi| → |E.f32 z - z| ≤ adcRound cfg lo hi q := fun z hz => by
    have k1 := hq.err z
    have k2 := mul_le_mul_of_nonneg_left hz hu
    have k3 := mul_nonneg hu hR
    have k4 := mul_nonneg he hR
    have k5 := mul_nonneg he hN
    unfold adcRound
    linarith
  have two : ∀ d g : K, |g| = cfg.N → |g * d| ≤ max |lo| |hi| →
      |E.f32 (g * E.f32 d) - g * d| ≤ adcRound cfg lo hi q := fun d g hg hd => by
    have k1 : |g * E.f32 d - g * d| ≤ q.u * max |lo| |hi| + cfg.N * q.η := by
      rw [← mul_sub, abs_mul]
      have := mul_le_mul_of_nonneg_left (hq.err d) (abs_nonneg g)
      have e : |g| * (q.u * |d| + q.η) = q.u * |g * d| + cfg.N * q.η := by rw [abs_mul, hg]; ring
      rw [e] at this
      linarith [mul_le_mul_of_nonneg_left hd hu]
    have k2 := hq.err (g * E.f32 d)
    have k3 : |g * E.f32 d| ≤ max |lo| |hi| + (q.u * max |lo| |hi| + cfg.N * q.η) := by
      have := abs_add_le (g * E.f32 d - g * d) (g * d)
      rw [sub_add_cancel] at this
      linarith
    have k4 := mul_le_mul_of_nonneg_left k3 hu
    have k5 := abs_add_le (E.f32 (g * E.f32 d) - g * E.f32 d) (g * E.f32 d - g * d)
    rw [sub_add_sub_cancel] at k5
    have k6 := mul_le_mul_of_nonneg_right hs.prec (mul_nonneg hu hR)
    have k7 := mul_le_mul_of_nonneg_right hs.prec (mul_nonneg hN he)
    have k8 := mul_nonneg hu hR
    have k9 := mul_nonneg he hR
    have k10 := mul_nonneg hN he
    unfold adcRound
    linarith
  cases hc : cfg.calibMode <;> simp only [hc] at h ⊢
  · cases hk : cfg.adcType <;> simp only [hk] at h ⊢
    · exact absurd h (by simp)
    · rw [Option.some.injEq, Prod.mk.injEq] at h
      refine ⟨_, _, rfl, ?_, ?_⟩
      · simp only [minCurrent, Env.fmul, Env.fsub, hN']
        have := two (cfg.lrs - cfg.hrs) (-cfg.N) (by rw [abs_neg, abs_of_nonneg hN])
          (by rw [neg_mul, h.1]; exact le_max_left _ _)
        rwa [neg_mul _ (cfg.lrs - cfg.hrs), h.1] at this
      · simp only [maxCurrent, Env.fmul, Env.fsub, hN']
        have := two (cfg.lrs - cfg.hrs) cfg.N (abs_of_nonneg hN) (by rw [h.2]; exact le_max_right _ _)
        rwa [h.2] at this
    · rw [Option.some.injEq, Prod.mk.injEq] at h
      refine ⟨_, _, rfl, ?_, ?_⟩
      · simp only [minCurrent]
        rw [h.1, sub_self, abs_zero]
        exact k0
      · simp only [maxCurrent, Env.fmul, hN']
        rw [h.2]
        exact one _ (le_max_right _ _)
  · rw [h]
    exact ⟨lo, hi, rfl, by rwa [sub_self, abs_zero], by rwa [sub_self, abs_zero]⟩

theorem levels24 (hs : SmallConversion cfg lo hi q) : adcLevels cfg ≤ 2 ^ 24 := by
  have h1 : (2 : Int) ^ cfg.resolution.toNat ≤ 2 ^ 24 := by
    refine pow_le_pow_right₀ (by norm_num) ?_
    have := hs.res
    omega
  unfold adcLevels
  split <;> omega

theorem rndConv (hq : Rounds E q) (hs : SmallConversion cfg lo hi q) (hA : AdcOk cfg l lo hi)
    (h1 : |lo' - lo| ≤ adcRound cfg lo hi q) (h2 : |hi' - hi| ≤ adcRound cfg lo hi q) :
    RndConv E q lo hi lo' hi' (adcLevels cfg - 1) (max |lo| |hi|) (adcRound cfg lo hi q) := by
  have he := eta_nonneg hq
  have hR : 0 ≤ max |lo| |hi| := (abs_nonneg _).trans (le_max_left _ _)
  have hN : (0 : K) ≤ cfg.N := Nat.cast_nonneg _
  have k1 := mul_nonneg he hR
  have k2 := mul_nonneg he hN
  have hl := adcOk_levels hA
  have hl' := levels24 hs
  exact {
    rnd := hq
    u8 := hs.prec
    eta := he
    nlo := h1
    nhi := h2
    loR := le_max_left _ _
    hiR := le_max_right _ _
    small := hs.range
    k4 := by unfold adcRound; linarith
    kd := by unfold adcRound; linarith
    dpos := by omega
    dint := hq.int _ (by rw [abs_of_nonneg (by omega)]; omega)
    step := hs.step }

/-- Closed form of a conversion. -/
theorem conv1_rounded (H : RndConv E q lo hi lo' hi' (adcLevels cfg - 1) R κ) (ha : mkAdc cfg = .ok adc)
    (h : AdcOk cfg l lo hi) (hg : getCurrents E cfg cfg.adcType l = .ok (lo', hi')) (t off sc : K) :
    conv1 E cfg adc t sc off l
      = .ok (roundAway (E.fmul (rndLevel E lo' hi' (adcLevels cfg - 1) (E.fadd t off)) sc) : K) := by
  have h0 : 0 ≤ cfg.resolution := by have := h.res; split at this <;> omega
  have hk := mkAdc_inv ha
  have hs := mkAdc_steps h0 h.res30 h.real ha
  have hl := adcOk_levels h
  have hl' := adcOk_levels_le h
  have hst := H.stepNear.1
  have hd : E.ofInt (adcLevels cfg - 1) ≠ 0 := by
    rw [H.dint]
    exact_mod_cast (by omega : adcLevels cfg - 1 ≠ 0)
  have quant : convQuant E cfg adc t sc off l
      = .ok (roundAway (E.fmul (rndLevel E lo' hi' (adcLevels cfg - 1) (E.fadd t off)) sc) : K) := by
    unfold convQuant
    rw [hk, hg, ok_bind, hs, subI_ok (by constructor <;> omega), ok_bind]
    unfold Env.fdiv
    rw [if_neg hd, ok_bind]
    dsimp only
    rw [if_neg hst.ne', ok_bind]
    rfl
  unfold conv1
  cases hk' : adc.kind
  · exact absurd (hk'.symm.trans hk).symm h.real
  · exact quant
  · exact quant

/-- Error of a conversion before the rounding to an integer, for a current that is off by `δ`. -/
def rndQ (cfg : Cfg K) (lo hi : K) (q : Prec K) (s : Int) (δ : K) : K :=
  |(s : K) / (cfg.lrs - cfg.hrs)| *
    ((1 + q.θ) * ((1 + q.u) * δ + adcStep cfg lo hi / 2 + 7 * adcRound cfg lo hi q)
      + (q.θ + 5 * q.u) * max |lo| |hi|) + q.η

/-- Largest result of a conversion. -/
def rndZ (cfg : Cfg K) (lo hi : K) (s : Int) : Int :=
  ⌊6 * (|(s : K) / (cfg.lrs - cfg.hrs)| * max |lo| |hi|) + 1⌋

theorem theta_nonneg (hsc : ScaleError E cfg q) : 0 ≤ q.θ := (abs_nonneg _).trans (hsc.2 1 (Or.inl rfl))

/-- A level near a current, scaled. -/
theorem rnd_scaled (hq : Rounds E q) (hsc : ScaleError E cfg q) (hI : Binary cfg) (hs : SmallConversion cfg lo hi q)
    {s : Int} (hs' : s = 1 ∨ s = 2) {U T ρ R' : K} (u1 : |U - T| ≤ ρ) (u2 : |U| ≤ 5 / 2 * max |lo| |hi|) (hT : |T| ≤ R') :
    |roundAway (E.fmul U (scaleOf E cfg s))| ≤ rndZ cfg lo hi s ∧
      |E.fmul U (scaleOf E cfg s) - T * ((s : K) / (cfg.lrs - cfg.hrs))| ≤ |(s : K) / (cfg.lrs - cfg.hrs)| *
        ((1 + q.θ) * ρ + q.θ * R' + 5 * q.u * max |lo| |hi|) + q.η := by
  have hu := hq.pos
  have hu8 := hs.prec
  have he := eta_nonneg hq
  have hR : 0 ≤ max |lo| |hi| := (abs_nonneg _).trans (le_max_left _ _)
  have hR' : 0 ≤ R' := (abs_nonneg _).trans hT
  have hθ := theta_nonneg hsc
  -- the scale
  have hd : 0 < |cfg.lrs - cfg.hrs| := abs_pos.2 (sub_ne_zero.2 hI.ne.symm)
  have hd' : cfg.lrs - cfg.hrs ≠ 0 := sub_ne_zero.2 hI.ne.symm
  have hs1 : (1 : K) ≤ |(s : K)| := by rcases hs' with rfl | rfl <;> norm_num
  have s1 : |scaleOf E cfg s - s / (cfg.lrs - cfg.hrs)| ≤ q.θ * |(s : K) / (cfg.lrs - cfg.hrs)| := by
    have k1 := hsc.2 s (by rcases hs' with rfl | rfl <;> simp)
    have k2 : scaleOf E cfg s - s / (cfg.lrs - cfg.hrs)
        = (scaleOf E cfg s * (cfg.lrs - cfg.hrs) - s) / (cfg.lrs - cfg.hrs) := by
      field_simp
    rw [k2, abs_div, abs_div, ← mul_div_assoc]
    refine div_le_div_of_nonneg_right (k1.trans ?_) hd.le
    nlinarith
  have s2 : |scaleOf E cfg s| ≤ (1 + q.θ) * |(s : K) / (cfg.lrs - cfg.hrs)| := by
    have := abs_add_le (scaleOf E cfg s - s / (cfg.lrs - cfg.hrs)) (s / (cfg.lrs - cfg.hrs))
    rw [sub_add_cancel] at this
    linarith
  have hg0 := abs_nonneg ((s : K) / (cfg.lrs - cfg.hrs))
  generalize scaleOf E cfg s = S at s1 s2
  -- the product
  have p1 : |U * S| ≤ 5 * (|(s : K) / (cfg.lrs - cfg.hrs)| * max |lo| |hi|) := by
    rw [abs_mul]
    have k1 : |S| ≤ 2 * |(s : K) / (cfg.lrs - cfg.hrs)| := by nlinarith [hsc.1]
    have := mul_le_mul u2 k1 (abs_nonneg _) (by linarith)
    linarith
  have p2 : |U * S - T * ((s : K) / (cfg.lrs - cfg.hrs))| ≤ |(s : K) / (cfg.lrs - cfg.hrs)| *
      ((1 + q.θ) * ρ + q.θ * R') := by
    have e : U * S - T * ((s : K) / (cfg.lrs - cfg.hrs)) = (U - T) * S + T * (S - s / (cfg.lrs - cfg.hrs)) := by ring
    rw [e]
    refine (abs_add_le _ _).trans ?_
    rw [abs_mul, abs_mul]
    have k1 := mul_le_mul u1 s2 (abs_nonneg _) ((abs_nonneg _).trans u1)
    have k2 := mul_le_mul hT s1 (abs_nonneg _) hR'
    linarith
  have p3 := hq.err (U * S)
  have p4 := mul_le_mul_of_nonneg_left p1 hu
  have hW := mul_nonneg hg0 hR
  constructor
  · unfold rndZ Env.fmul
    rw [Int.le_floor, Int.cast_abs]
    have k1 := roundAway_near (E.f32 (U * S))
    have k2 := abs_add_le ((roundAway (E.f32 (U * S)) : K) - E.f32 (U * S)) (E.f32 (U * S))
    rw [sub_add_cancel] at k2
    have k3 := abs_add_le (E.f32 (U * S) - U * S) (U * S)
    rw [sub_add_cancel] at k3
    have k4 := hs.tiny
    have k5 := mul_le_mul_of_nonneg_right hu8 hW
    linarith
  · unfold Env.fmul
    have k1 := abs_add_le (E.f32 (U * S) - U * S) (U * S - T * ((s : K) / (cfg.lrs - cfg.hrs)))
    rw [sub_add_sub_cancel] at k1
    linarith

theorem realHyp_rounded (hq : Rounds E q) (hsc : ScaleError E cfg q) (hI : Binary cfg) (hc : CoreShape E cfg c)
    (hA : AdcOk cfg l lo hi) (hs : SmallConversion cfg lo hi q) :
    ∃ cf, RealHyp E cfg c l cf lo hi (rndZ cfg lo hi) (rndQ cfg lo hi q) (2 ^ 24) := by
  obtain ⟨lo', hi', hg, n1, n2⟩ := getCurrents_near hq hs hA
  have H := rndConv hq hs hA n1 n2
  refine ⟨_, {
    fl := {
      one := fun t off sc => conv1_rounded H hc.adc hA hg t off sc
      prof := hI.prof
      iMM := by rw [hc.iMM, hI.analog, if_neg (by decide)]
      ne := window_ne hq hsc }
    int := hq.int
    conv := fun s hs' t off T δ h1 h2 ht => ?_ }⟩
  have hu := hq.pos
  have hk := H.k0
  have hR := H.R0
  have hT := top_range T h1 h2
  have hδ : 0 ≤ δ := (abs_nonneg _).trans ht
  -- the current
  have x1 : |E.fadd t off - T| ≤ (1 + q.u) * δ + adcRound cfg lo hi q := by
    have k1 := hq.err (t + off)
    have k2 : |t + off| ≤ max |lo| |hi| + δ := by
      have := abs_add_le (t + off - T) T
      rw [sub_add_cancel] at this
      linarith
    have k3 := mul_le_mul_of_nonneg_left k2 hu
    have k4 := abs_add_le (E.f32 (t + off) - (t + off)) (t + off - T)
    rw [sub_add_sub_cancel] at k4
    have k5 := H.k4
    have k6 := mul_nonneg hu hR
    unfold Env.fadd
    linarith
  obtain ⟨u1, u2⟩ := H.level h1 h2 x1 (by linarith [mul_nonneg hu hδ])
  have e0 : (hi - lo) / ((adcLevels cfg - 1 : Int) : K) = adcStep cfg lo hi := rfl
  rw [e0] at u1
  obtain ⟨r1, r2⟩ := rnd_scaled hq hsc hI hs hs' u1 u2 hT
  refine ⟨_, _, rfl, r1, rfl, r2.trans (le_of_eq ?_)⟩
  unfold rndQ
  ring

/-! ## The currents -/

theorem Bits.abs {f : Nat → Int} (hf : Bits f n) : ∀ j, j < n → |f j| ≤ 1 := fun j hj => by
  rcases hf j hj with e | e <;> rw [e] <;> norm_num

theorem colSum_unique {term : Nat → Nat → C K} {S S' : Nat → K} {i : Nat} (h : ColSum E term m n S)
    (h' : ColSum E term m n S') (hi : i < m) : S i = S' i := by
  have e := (h (Vec.const m 0) le_rfl).symm.trans (h' (Vec.const m 0) le_rfl)
  have := congrArg (fun v => Vec.get v i) ((Except.ok.injEq _ _).mp e)
  simp only [Vec.over_lt hi] at this
  exact this

theorem FlCols.colHyp {I ρ1 ρ2 : K} (H : FlCols E cfg c a P Q W vec res m n ε I ρ1 ρ2) :
    ColHyp E cfg c a P Q W vec res m n (fun k => (k : K) * ε + n * (7 * ρ1 + ρ2)) (2 * ρ2) := by
  have X := H.cells.colHyp
  have h2 := H.p2
  have via : ∀ {x y z e e' : K}, |x - y| ≤ e' → |y - z| ≤ e → |x - z| ≤ e + e' := fun {x y z e e'} h h' => by
    have := abs_add_le (x - y) (y - z)
    rw [sub_add_sub_cancel] at this
    linarith
  exact {
    ne := X.ne
    par := X.par
    w1 := X.w1
    sw := X.sw
    vdP := X.vdP
    vdM := X.vdM
    tmp := X.tmp
    tmpP := X.tmpP
    tmpM := X.tmpM
    tmpFp := X.tmpFp
    vec := X.vec
    res := X.res
    n31 := X.n31
    om := by linarith
    off := fun k hk => (H.offset hk).1.trans (by linarith)
    half := fun k hk => by
      obtain ⟨k1, k2⟩ := H.offset (k := k) (by have := abs_nonneg k; omega)
      constructor
      · have := (H.halfOff k1 k2).1
        rwa [mul_div_assoc] at this
      · have := (H.halfOff (x := -E.fmul (E.ofInt k) cfg.hrs) (X := -(k * cfg.hrs))
          (by rw [neg_sub_neg, abs_sub_comm]; exact k1) (by rwa [abs_neg])).1
        rwa [neg_div (2 : K) (k * cfg.hrs), mul_div_assoc, sub_neg_eq_add] at this
    p := fun u f hu hf => ⟨_, fun tmp ht => H.colP hu ht, fun i hi => by
      obtain ⟨S, k1, k2⟩ := X.p u f hu hf
      have k3 := colSum_unique k1 (fun tmp ht => H.cells.cp hu ht) hi
      have k4 := k2 i hi
      rw [k3] at k4
      exact via (H.nearP hi hf.abs).1 k4⟩
    q := fun u f hu hf => ⟨_, fun tmp ht => H.colM hu ht, fun i hi => by
      obtain ⟨S, k1, k2⟩ := X.q u f hu hf
      have k3 := colSum_unique k1 (fun tmp ht => H.cells.cm hu ht) hi
      have k4 := k2 i hi
      rw [k3] at k4
      exact via (H.nearM hi hf.abs).1 k4⟩
    diff := fun u f hu hf => ⟨_, fun tmp ht => H.colDiff hu ht, fun i hi => by
      obtain ⟨S, k1, k2⟩ := X.diff u f hu hf
      have k3 := colSum_unique k1 (fun tmp ht => H.cells.cDiff hu ht) hi
      have k4 := k2 i hi
      rw [k3] at k4
      exact via (H.nearDiff hi hf.abs).1 k4⟩
    neg := fun u f hu hf => ⟨_, fun tmp ht => H.colDiffNeg hu ht, fun i hi => by
      obtain ⟨S, k1, k2⟩ := X.neg u f hu hf
      have k3 := colSum_unique k1 (fun tmp ht => H.cells.cDiffNeg hu ht) hi
      have k4 := k2 i hi
      rw [k3] at k4
      exact via (H.nearDiffNeg hi hf.abs).1 k4⟩
    five := fun u u' f f' hu hu' hf hf' => ⟨_, fun tmp ht => H.col5 hu hu' ht, fun i hi => by
      obtain ⟨S, k1, k2⟩ := X.five u u' f f' hu hu' hf hf'
      have k3 := colSum_unique k1 (fun tmp ht => H.cells.c5 hu hu' ht) hi
      have k4 := k2 i hi
      rw [k3] at k4
      exact via (H.near5 hi hf.abs hf'.abs).1 k4⟩
    quad := fun u u' f f' hu hu' hf hf' => ⟨_, fun tmp ht => H.colQuad hu hu' ht, fun i hi => by
      obtain ⟨S, k1, k2⟩ := X.quad u u' f f' hu hu' hf hf'
      have k3 := colSum_unique k1 (fun tmp ht => H.cells.cQuad hu hu' ht) hi
      have k4 := k2 i hi
      rw [k3] at k4
      exact via (H.nearQuad hi hf.abs hf'.abs).1 k4⟩ }

/-! ## One multiplication -/

theorem roomy_rounded_room (hC : ∀ i, i < m → ((|res.get i| + 3 * n : Int) : K) +
      ((readout cfg.mode vec n).map fun c => 6 * (|(c.1 : K) / (cfg.lrs - cfg.hrs)| * max |lo| |hi|) + 1).sum ≤ 2 ^ 24) :
    Roomy res m n (2 ^ 24) ((readout cfg.mode vec n).map fun c => rndZ cfg lo hi c.1).sum := by
  have key : ∀ i, i < m → |res.get i| + ((readout cfg.mode vec n).map fun c => rndZ cfg lo hi c.1).sum + 3 * n
      ≤ 2 ^ 24 := fun i hi' => by
    have h1 := hC i hi'
    have h2 : ((((readout cfg.mode vec n).map fun c => rndZ cfg lo hi c.1).sum : Int) : K)
        ≤ ((readout cfg.mode vec n).map fun c => 6 * (|(c.1 : K) / (cfg.lrs - cfg.hrs)| * max |lo| |hi|) + 1).sum := by
      generalize readout cfg.mode vec n = cs
      induction cs with
      | nil => simp
      | cons c cs ih =>
        simp only [List.map_cons, List.sum_cons, Int.cast_add]
        exact add_le_add (Int.floor_le _) ih
    have h3 : ((|res.get i| + ((readout cfg.mode vec n).map fun c => rndZ cfg lo hi c.1).sum + 3 * n : Int) : K)
        ≤ ((2 ^ 24 : Int) : K) := by
      push_cast at h1 ⊢
      push_cast at h2
      linarith
    exact Int.cast_le.1 h3
  exact ⟨fun i hi' => (key i hi').trans (by norm_num), key⟩

theorem roomy_rounded (hC : RoundConverts cfg lo hi ε q W res vec m n) :
    Roomy res m n (2 ^ 24) ((readout cfg.mode vec n).map fun c => rndZ cfg lo hi c.1).sum :=
  roomy_rounded_room hC.room

/-- The error of a conversion. -/
theorem rndQ_le (hq : Rounds E q) (hsc : ScaleError E cfg q) (h0 : 0 ≤ topCurrent cfg ε) (c : Int × Int) :
    rndQ cfg lo hi q c.1 ((c.2 : K) * ε + n * (7 * cellRound cfg ε q + colRound cfg ε q n) + 2 * colRound cfg ε q n)
      ≤ roundDeviation cfg lo hi ε q n c := by
  have hu := hq.pos
  have he := eta_nonneg hq
  have hθ := theta_nonneg hsc
  have hρ : 0 ≤ colRound cfg ε q n := by unfold colRound; positivity
  unfold rndQ roundDeviation
  refine add_le_add_left (mul_le_mul_of_nonneg_left (add_le_add_left (mul_le_mul_of_nonneg_left ?_ (by linarith)) _)
    (abs_nonneg _)) _
  refine add_le_add_left (add_le_add_left (mul_le_mul_of_nonneg_left ?_ (by linarith)) _) _
  unfold columnError
  linarith

theorem columnError_nonneg (hq : Rounds E q) (h0 : 0 ≤ topCurrent cfg ε) : 0 ≤ columnError cfg ε q n := by
  have hu := hq.pos
  have he := eta_nonneg hq
  unfold columnError cellRound colRound
  positivity

theorem roundDeviation_nonneg (hq : Rounds E q) (hsc : ScaleError E cfg q) (h0 : 0 ≤ ε) (hI : Binary cfg)
    (hA : AdcOk cfg l lo hi) {c : Int × Int} (hc : 0 ≤ c.2) : 0 ≤ roundDeviation cfg lo hi ε q n c := by
  have hu := hq.pos
  have he := eta_nonneg hq
  have hθ := theta_nonneg hsc
  have h1 := columnError_nonneg (n := n) hq (top_pos hI.ne h0).le
  have h2 := (adcOk_step_pos hA).le
  have h3 : (0 : K) ≤ c.2 := by exact_mod_cast hc
  have h4 : 0 ≤ adcRound cfg lo hi q := by
    have : 0 ≤ max |lo| |hi| := (abs_nonneg _).trans (le_max_left _ _)
    unfold adcRound
    positivity
  have h5 : 0 ≤ max |lo| |hi| := (abs_nonneg _).trans (le_max_left _ _)
  unfold roundDeviation
  positivity

/-- The result of a multiplication with a real converter and rounding: an error bound, and no error at all if
the rounding to integers absorbs the deviations. -/
def RoundConverted (cfg : Cfg K) (lo hi ε : K) (q : Prec K) (W : Nat → Nat → Int) (res vec : Vec Int) (m n : Nat)
    (r : Vec Int) : Prop :=
  AddsUpTo (fun _ => roundDeviationBound cfg lo hi ε q vec n) r res W vec m n ∧
    (RoundAbsorbed cfg lo hi ε q vec n → Adds r res W vec m n)

theorem aMvm_roundConverted (hq : Rounds E q) (hsc : ScaleError E cfg q) (hok : CfgOk cfg) (hI : Binary cfg)
    (hc : CoreShape E cfg c) (ha : AuxShape cfg a) (hL : Cells cfg c.gd L) (hl : Legal cfg L m n)
    (hd : Accepted cfg m n) (h0 : 0 ≤ ε)
    (hw : NearNominal cfg ε L c.ia m n) (hv : n ≤ vec.size) (hr : m ≤ res.size) (hx : LegalVec cfg vec n)
    (hs : keepsRowSums cfg.mode → ∀ i, i < m → c.gd.sumW.get i = ∑ j ∈ range n, val L i j)
    (hA : AdcOk cfg l lo hi) (hS : SmallConversion cfg lo hi q) (hC : RoundConverts cfg lo hi ε q (val L) res vec m n) :
    ∃ a' r, aMvm E cfg c a res vec m n l = .ok (a', r) ∧ RoundConverted cfg lo hi ε q (val L) res vec m n r := by
  have htop := (top_pos hI.ne h0).le
  have H := (flCols (vec := vec) (res := res) hq hC.cols hC.col hok hI hc ha hL hl hd h0 hw hv hr).colHyp
  obtain ⟨cf, R⟩ := realHyp_rounded hq hsc hI hc hA hS
  obtain ⟨a', f, e, hf, hz⟩ := H.real R (roomy_rounded hC) hI.bin hc.mode hok (fun i j r hi hj => by
      rw [stateP hI.bin hL hl hi hj, nominal_bin hI.bin]; unfold cur; push_cast; ring) (fun i j r hi hj => by
      rw [stateM hI.bin hL hl hi hj, nominal_bin hI.bin]; unfold cur; push_cast; ring) (fun i j hi hj => by
      rw [stateP hI.bin hL hl hi hj, stateM hI.bin hL hl hi hj]
      exact cellRel hI.bin (hl.val hi hj).1) hx hs hC.range le_rfl
  have hρ : 0 ≤ colRound cfg ε q n := by
    have := hq.pos
    have := eta_nonneg hq
    unfold colRound
    positivity
  have hρ1 := cellRound_nonneg (cfg := cfg) (ε := ε) hq htop
  have hQ : ∀ c ∈ readout cfg.mode vec n, 0 ≤ rndQ cfg lo hi q c.1
      ((c.2 : K) * ε + n * (7 * cellRound cfg ε q + colRound cfg ε q n) + 2 * colRound cfg ε q n) := fun c hc => by
    have k1 : (0 : K) ≤ c.2 := by exact_mod_cast (readout_scale c hc).2
    have hu := hq.pos
    have he := eta_nonneg hq
    have hθ := theta_nonneg hsc
    have h2 := (adcOk_step_pos hA).le
    have h5 : 0 ≤ max |lo| |hi| := (abs_nonneg _).trans (le_max_left _ _)
    have h4 : 0 ≤ adcRound cfg lo hi q := by unfold adcRound; positivity
    unfold rndQ
    positivity
  refine ⟨a', _, e, ⟨rfl, fun i hi' => ?_, fun i hi => Vec.over_ge hi⟩, fun hab =>
    ⟨rfl, fun i hi' => ?_, fun i hi => Vec.over_ge hi⟩⟩
  · rw [Vec.over_lt hi']
    refine (hf i hi').trans (List.sum_le_sum fun c hc => ?_)
    have k1 := rndQ_le (lo := lo) (hi := hi) (n := n) hq hsc htop c
    exact (convE_le _ (hQ c hc)).trans (by linarith)
  · rw [Vec.over_lt hi']
    refine hz (hab.mono fun c => ?_) i hi'
    exact rndQ_le (n := n) hq hsc htop c

/-! ## Crossbars -/

/-- Deviating cells without cycle-to-cycle variation; read disturb may follow. -/
theorem mvm_roundConverted (hq : Rounds E q) (hsc : ScaleError E cfg q) (hok : CfgOk cfg) (hI : Binary cfg)
    (hc2 : cfg.c2c = false) (hr : Runs E cfg h x) (hl : Legal cfg (lastWrite h) m n) (hd : Accepted cfg m n) (h0 : 0 ≤ ε)
    (hw : NearNominal cfg ε (lastWrite h) x.mapper.core.ia m n) (hv : n ≤ vec.size) (hres : m ≤ res.size)
    (hx : LegalVec cfg vec n)
    (hs : keepsRowSums cfg.mode → ∀ i, i < m →
      x.mapper.core.gd.sumW.get i = ∑ j ∈ range n, val (lastWrite h) i j)
    (hA : AdcOk cfg l lo hi) (hS : SmallConversion cfg lo hi q)
    (hC : RoundConverts cfg lo hi ε q (stored h) res vec m n) :
    (∀ x' r, xMvm E cfg x res vec mat m n l = .ok (x', r) → RoundConverted cfg lo hi ε q (stored h) res vec m n r) ∧
    (cfg.readDisturb = false → ∃ x' r, xMvm E cfg x res vec mat m n l = .ok (x', r)) := by
  have hsh := runs_shape hr
  exact mvm_of_aMvm hI.analog hc2 (aMvm_roundConverted hq hsc hok hI hsh.core hsh.aux (runs_cells hok hr) hl hd h0 hw hv
    hres hx hs hA hS hC)

theorem exec_roundConverted (hq : Rounds E q) (hsc : ScaleError E cfg q) (hok : CfgOk cfg) (hI : Binary cfg)
    (hrd : cfg.readDisturb = false) (h1 : 0 ≤ cfg.hrs) (h2 : 0 ≤ cfg.lrs) (hg : NoiseUpTo E cfg σ)
    (hε : spread cfg σ + 5 * cellRound cfg ε q ≤ ε) (h0 : 0 ≤ ε) {ops : List Op}
    (hr : Runs E cfg h x) (hh : HistOk cfg w h) (hl : LegalOps cfg w h ops) (hC : AllRoundConvert cfg rg ε q h ops) :
    ∃ x' rs, exec E cfg x ops = .ok (x', rs) ∧ AnswersBy (fun h res vec m n l r =>
      RoundConverted cfg (rg l).1 (rg l).2 ε q (stored h) res vec m n r) h ops rs :=
  exec_by hok hI (fun {h x res vec mat m n l} hr hh k1 hC0 =>
    mvm_spread_rounded hq hok hI hrd h1 h2 hg hε h0 hr (legal_of hh k1) k1.dims fun c a hc ha hgd hw =>
      aMvm_roundConverted hq hsc hok hI hc ha (by rw [hgd]; exact runs_cells hok hr) (legal_of hh k1) k1.dims
        h0 hw k1.vecBuf k1.resBuf k1.vals
        (fun hk i _ => by rw [hgd]; exact sums_of hr hh k1 hk i) hC0.1 hC0.2.1 hC0.2.2) hr hh hl hC

theorem answersBy_roundAbsorbed {ops : List Op} {rs : List (Vec Int)}
    (ha : AnswersBy (fun h res vec m n l r =>
      RoundConverted cfg (rg l).1 (rg l).2 ε q (stored h) res vec m n r) h ops rs)
    (hb : AllRoundAbsorbed cfg rg ε q h ops) : Answers h ops rs := by
  induction ha with
  | nil => exact .nil
  | write _ ih => exact .write (ih hb)
  | mvm a _ ih => exact .mvm (a.2 hb.1) (ih hb.2)

end

end Acs
