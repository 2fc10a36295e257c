import Verif.Lemmas.Refine
import Verif.SpecApi

/-! # Inversion of `apply_config` -/

set_option linter.unusedSectionVars false

namespace Acs

open Spec

section
variable {K : Type} [Field K] [LinearOrder K] [IsStrictOrderedRing K] [FloorRing K]
variable {E : Env K} {j j' : Json K} {c c' d d' : Cfg K}

theorem exitIf_ok {p : Prop} [Decidable p] {u : Unit} : exitIf p = .ok u ↔ ¬p := by
  unfold exitIf
  split <;> simp_all

theorem via {α : Type} (p : Cfg K → α) {a b : Cfg K} (e : a = b) {r : α} (h : p b = r) : p a = r :=
  (congrArg p e).trans h

/-! ## Frames: which fields a stage may change -/

theorem applyDims_inv (h : applyDims j c = .ok c') : ∃ m n, getReq j "M" Json.asU32 = .ok m ∧
    getReq j "N" Json.asU32 = .ok n ∧ 0 < m ∧ 0 < n ∧ c' = { c with M := m, N := n } := by
  unfold applyDims at h
  simp only [bind_eq_ok, exitIf_ok] at h
  obtain ⟨m, h1, n, h2, _, h3, h4⟩ := h
  exact ⟨m, n, h1, h2, by omega, by omega, (ok_inj.1 h4).symm⟩

theorem applyMode_inv (h : applyMode j c = .ok c') : ∃ s md, getReq j "m_mode" Json.asStr = .ok s ∧
    modeOfName s = some md ∧ c' = { c with mode := md } := by
  unfold applyMode at h
  rw [bind_eq_ok] at h
  obtain ⟨s, h1, h⟩ := h
  split at h
  · cases h
  · next md hm => exact ⟨s, md, h1, hm, (ok_inj.1 h).symm⟩

theorem applyStates_inv (h : applyStates E j c = .ok c') : ∃ hrs lrs s a,
    getReq j "HRS" (Json.asF32 E) = .ok hrs ∧ getReq j "LRS" (Json.asF32 E) = .ok lrs ∧
    getReq j "adc_type" Json.asStr = .ok s ∧ adcOfName s = some a ∧ 0 < hrs ∧ 0 < lrs ∧
    c' = { c with hrs := hrs, lrs := lrs, adcType := a } := by
  unfold applyStates at h
  simp only [bind_eq_ok] at h
  obtain ⟨x, h1, y, h2, s, h3, h⟩ := h
  split at h
  · cases h
  · next a ha =>
    simp only [bind_eq_ok, exitIf_ok, not_or, not_le] at h
    obtain ⟨_, ⟨h4, h5⟩, h6⟩ := h
    exact ⟨x, y, s, a, h1, h2, h3, ha, h4, h5, (ok_inj.1 h6).symm⟩

theorem applyCalib_inv (h : applyCalib E j c = .ok c') : ∃ s,
    getDef j "adc_calib_mode" Json.asStr "MAX" = .ok s ∧
    ((s = "MAX" ∧ c' = { c with calibMode := .max }) ∨
     (s = "CALIB" ∧ ∃ d, getReq j "adc_calib_dict" (Json.asDict E) = .ok d ∧ d ≠ [] ∧
       c' = { c with calibMode := .calib, calibDict := d })) := by
  unfold applyCalib at h
  rw [bind_eq_ok] at h
  obtain ⟨s, h1, h⟩ := h
  refine ⟨s, h1, ?_⟩
  split at h
  · next hs => exact Or.inl ⟨hs, (ok_inj.1 h).symm⟩
  · split at h
    · next hs =>
      simp only [bind_eq_ok, exitIf_ok] at h
      obtain ⟨d, h2, _, h3, h4⟩ := h
      exact Or.inr ⟨hs, d, h2, fun hd => h3 (by simp [hd]), (ok_inj.1 h4).symm⟩
    · cases h

theorem applyProfile_inv (h : applyProfile j c = .ok c') : ∃ p,
    getDef j "adc_profile" Json.asBool false = .ok p ∧
    ((p = false ∧ c' = { c with adcProfile := false }) ∨
     (p = true ∧ ∃ b, getDef j "adc_profile_bin_size" Json.asI32 10 = .ok b ∧
       c' = { c with adcProfile := true, binSize := b })) := by
  unfold applyProfile at h
  rw [bind_eq_ok] at h
  obtain ⟨p, h1, h⟩ := h
  refine ⟨p, h1, ?_⟩
  cases p with
  | false => exact Or.inl ⟨rfl, (ok_inj.1 h).symm⟩
  | true =>
    simp only [if_true, bind_eq_ok] at h
    obtain ⟨b, h2, h3⟩ := h
    exact Or.inr ⟨rfl, b, h2, (ok_inj.1 h3).symm⟩

theorem applyAdc_inv (h : applyAdc E j c = .ok c') :
    (c.adcType = .inf ∧ c' = c) ∨
    (c.adcType ≠ .inf ∧ c.resolution ≠ -1 ∧ ∃ r c1, getReq j "resolution" Json.asI32 = .ok r ∧
      applyCalib E j { c with resolution := r } = .ok c1 ∧ applyProfile j c1 = .ok c') := by
  unfold applyAdc at h
  split at h
  · next hi => exact Or.inl ⟨hi, (ok_inj.1 h).symm⟩
  · next hi =>
    simp only [bind_eq_ok, exitIf_ok] at h
    obtain ⟨_, h1, r, h2, c1, h3, h4⟩ := h
    exact Or.inr ⟨hi, h1, r, c1, h2, h3, h4⟩

theorem applyAdc_frame (h : applyAdc E j c = .ok c') :
    c' = { c with
      resolution := c'.resolution
      calibMode := c'.calibMode
      calibDict := c'.calibDict
      adcProfile := c'.adcProfile
      binSize := c'.binSize } := by
  rcases applyAdc_inv h with ⟨_, rfl⟩ | ⟨_, _, r, c1, _, h1, h2⟩
  · rfl
  · obtain ⟨s, _, ⟨_, rfl⟩ | ⟨_, d, _, _, rfl⟩⟩ := applyCalib_inv h1 <;>
    obtain ⟨p, _, ⟨_, rfl⟩ | ⟨_, b, _, rfl⟩⟩ := applyProfile_inv h2 <;> rfl

theorem applyNoise_inv (h : applyNoise E j c = .ok c') : ∃ hn ln a b,
    getReq j "HRS_NOISE" (Json.asF32 E) = .ok hn ∧ getReq j "LRS_NOISE" (Json.asF32 E) = .ok ln ∧
    getDef j "d2d_var" Json.asBool true = .ok a ∧ getDef j "c2c_var" Json.asBool false = .ok b ∧
    ¬(c.mode.isInt && (a && b)) = true ∧
    c' = { c with hrsNoise := hn, lrsNoise := ln, d2d := a, c2c := b } := by
  unfold applyNoise at h
  simp only [bind_eq_ok, exitIf_ok] at h
  obtain ⟨x, h1, y, h2, a, h3, b, h4, _, h5, h6⟩ := h
  exact ⟨x, y, a, b, h1, h2, h3, h4, h5, (ok_inj.1 h6).symm⟩

theorem applyVRead_inv (h : applyVRead E j c = .ok c') : ∃ rd par,
    getDef j "read_disturb" Json.asBool false = .ok rd ∧
    getDef j "parasitics" Json.asBool false = .ok par ∧
    (((par || rd) = true ∧ ∃ v, getReq j "V_read" (Json.asF32 E) = .ok v ∧ v < 0 ∧
        c' = { c with readDisturb := rd, parasitics := par, vRead := v }) ∨
     ((par || rd) = false ∧ c' = { c with readDisturb := rd, parasitics := par })) := by
  unfold applyVRead at h
  simp only [bind_eq_ok] at h
  obtain ⟨rd, h1, par, h2, h⟩ := h
  refine ⟨rd, par, h1, h2, ?_⟩
  split at h
  · next hp =>
    simp only [bind_eq_ok, exitIf_ok, ge_iff_le, not_le] at h
    obtain ⟨v, h3, _, h4, h5⟩ := h
    exact Or.inl ⟨hp, v, h3, h4, (ok_inj.1 h5).symm⟩
  · next hp => exact Or.inr ⟨by simpa using hp, (ok_inj.1 h).symm⟩

theorem applyStates_frame (h : applyStates E j c = .ok c') :
    c' = { c with hrs := c'.hrs, lrs := c'.lrs, adcType := c'.adcType } := by
  obtain ⟨_, _, _, _, _, _, _, _, _, _, e⟩ := applyStates_inv h
  rw [e]

theorem applyNoise_frame (h : applyNoise E j c = .ok c') :
    c' = { c with
      hrsNoise := c'.hrsNoise
      lrsNoise := c'.lrsNoise
      d2d := c'.d2d
      c2c := c'.c2c } := by
  obtain ⟨_, _, _, _, _, _, _, _, _, e⟩ := applyNoise_inv h
  rw [e]

theorem applyVRead_frame (h : applyVRead E j c = .ok c') :
    c' = { c with
      readDisturb := c'.readDisturb
      parasitics := c'.parasitics
      vRead := c'.vRead } := by
  obtain ⟨_, _, _, _, ⟨_, _, _, _, e⟩ | ⟨_, e⟩⟩ := applyVRead_inv h <;> rw [e]

theorem applyMitigation_inv (h : applyMitigation E j c = .ok c') :
    (c.strategy = .off ∧ c' = c) ∨
    (c.strategy = .software ∧ ∃ f, getReq j "read_disturb_mitigation_fp" (Json.asF32 E) = .ok f ∧
      1 ≤ f ∧ c' = { c with fp := f }) ∨
    (c.strategy = .cellBased ∧ ∃ t,
      getReq j "read_disturb_update_tolerance" (Json.asF32 E) = .ok t ∧ 0 ≤ t ∧ t ≤ 1 ∧
      c' = { c with tol := t }) := by
  unfold applyMitigation at h
  split at h
  · next hs =>
    simp only [bind_eq_ok, exitIf_ok, not_lt] at h
    obtain ⟨f, h1, _, h2, h3⟩ := h
    exact Or.inr (Or.inl ⟨hs, f, h1, h2, (ok_inj.1 h3).symm⟩)
  · next hs =>
    simp only [bind_eq_ok, exitIf_ok, not_or, not_lt, gt_iff_lt] at h
    obtain ⟨t, h1, _, h2, h3⟩ := h
    exact Or.inr (Or.inr ⟨hs, t, h1, h2.1, h2.2, (ok_inj.1 h3).symm⟩)
  · next hs => exact Or.inl ⟨hs, (ok_inj.1 h).symm⟩

theorem applyRd_inv (h : applyRd E j c = .ok c') :
    (c.readDisturb = false ∧ c' = c) ∨
    (c.readDisturb = true ∧ c.mode.isInt = false ∧ ∃ t f s st,
      getReq j "t_read" (Json.asF32 E) = .ok t ∧
      getDef j "read_disturb_update_freq" Json.asU32 1 = .ok f ∧
      getDef j "read_disturb_mitigation_strategy" Json.asStr "OFF" = .ok s ∧
      strategyOfName s = some st ∧
      applyMitigation E j { c with tRead := t, updFreq := f, strategy := st } = .ok c') := by
  unfold applyRd at h
  split at h
  · next hr =>
    simp only [bind_eq_ok, exitIf_ok] at h
    obtain ⟨_, h1, t, h2, f, h3, s, h4, h⟩ := h
    split at h
    · cases h
    · next st hst => exact Or.inr ⟨hr, by simpa using h1, t, f, s, st, h2, h3, h4, hst, h⟩
  · next hr => exact Or.inl ⟨by simpa using hr, (ok_inj.1 h).symm⟩

theorem applyRd_frame (h : applyRd E j c = .ok c') :
    c' = { c with
      tRead := c'.tRead
      updFreq := c'.updFreq
      strategy := c'.strategy
      fp := c'.fp
      tol := c'.tol } := by
  rcases applyRd_inv h with ⟨_, rfl⟩ | ⟨_, _, t, f, s, st, _, _, _, _, h1⟩
  · rfl
  · obtain ⟨_, rfl⟩ | ⟨_, f, _, _, rfl⟩ | ⟨_, t, _, _, _, rfl⟩ := applyMitigation_inv h1 <;> rfl

theorem applyPar_inv (h : applyPar E j c = .ok c') :
    (c.parasitics = false ∧ c' = c) ∨
    (c.parasitics = true ∧ ∃ w, getReq j "w_res" (Json.asF32 E) = .ok w ∧
      c' = { c with wRes := w, parasitics := decide (w ≠ 0) }) := by
  unfold applyPar at h
  split at h
  · next hp =>
    rw [bind_eq_ok] at h
    obtain ⟨w, h1, h2⟩ := h
    exact Or.inr ⟨hp, w, h1, (ok_inj.1 h2).symm⟩
  · next hp => exact Or.inl ⟨by simpa using hp, (ok_inj.1 h).symm⟩

theorem applyPar_frame (h : applyPar E j c = .ok c') :
    c' = { c with wRes := c'.wRes, parasitics := c'.parasitics } := by
  rcases applyPar_inv h with ⟨_, rfl⟩ | ⟨_, w, _, rfl⟩ <;> rfl

theorem applyBits_inv (h : applyBits j c = .ok c') :
    (c.mode.isInt = true ∧ ∃ w i s, getReq j "W_BIT" Json.asU32 = .ok w ∧
      getReq j "I_BIT" Json.asU32 = .ok i ∧ getReq j "SPLIT" Json.asU32s = .ok s ∧ 0 < w ∧ 0 < i ∧
      c' = { c with wBit := w, iBit := i, split := s }) ∨
    ((c.mode = .tnn4 ∨ c.mode = .tnn5) ∧ getReq j "W_BIT" Json.asU32 = .ok 2 ∧
      getReq j "SPLIT" Json.asU32s = .ok [1, 1] ∧ c' = { c with wBit := 2, split := [1, 1] }) ∨
    (c.mode.isInt = false ∧ ¬(c.mode = .tnn4 ∨ c.mode = .tnn5) ∧ c' = { c with split := [0] }) := by
  unfold applyBits at h
  split at h
  · next hi =>
    simp only [bind_eq_ok, exitIf_ok] at h
    obtain ⟨w, h1, i, h2, s, h3, _, h4, h5⟩ := h
    exact Or.inl ⟨hi, w, i, s, h1, h2, h3, by omega, by omega, (ok_inj.1 h5).symm⟩
  · next hi =>
    split at h
    · next ht =>
      simp only [bind_eq_ok, exitIf_ok, ne_eq, not_not] at h
      obtain ⟨w, h1, s, h2, _, rfl, _, rfl, h5⟩ := h
      exact Or.inr (Or.inl ⟨ht, h1, h2, (ok_inj.1 h5).symm⟩)
    · next ht => exact Or.inr (Or.inr ⟨by simpa using hi, ht, (ok_inj.1 h).symm⟩)

theorem applyBits_frame (h : applyBits j c = .ok c') :
    c' = { c with wBit := c'.wBit, iBit := c'.iBit, split := c'.split } := by
  rcases applyBits_inv h with ⟨_, w, i, s, _, _, _, _, _, rfl⟩ | ⟨_, _, _, rfl⟩ | ⟨_, _, rfl⟩ <;> rfl

/-- The stages of the analog block. -/
structure AnalogStages (E : Env K) (j : Json K) (c c' : Cfg K) where
  c1 : Cfg K
  c2 : Cfg K
  c3 : Cfg K
  c4 : Cfg K
  c5 : Cfg K
  states : applyStates E j c = .ok c1
  adc : applyAdc E j c1 = .ok c2
  allowed : adcAllowed c2.mode c2.adcType = true
  noise : applyNoise E j c2 = .ok c3
  vRead : applyVRead E j c3 = .ok c4
  rd : applyRd E j c4 = .ok c5
  par : applyPar E j c5 = .ok c'

theorem applyAnalog_inv (h : applyAnalog E j c = .ok c') : Nonempty (AnalogStages E j c c') := by
  unfold applyAnalog at h
  simp only [bind_eq_ok, exitIf_ok, Bool.not_eq_false] at h
  obtain ⟨c1, h1, c2, h2, _, h3, c3, h4, c4, h5, c5, h6, h7⟩ := h
  exact ⟨⟨c1, c2, c3, c4, c5, h1, h2, h3, h4, h5, h6, h7⟩⟩

/-- The stages of `apply_config`. -/
structure Stages (E : Env K) (j : Json K) (c c' : Cfg K) where
  c1 : Cfg K
  c2 : Cfg K
  c3 : Cfg K
  c4 : Cfg K
  dig : Bool
  verb : Bool
  dims : applyDims j c = .ok c1
  mode : applyMode j c1 = .ok c2
  digital : getReq j "digital_only" Json.asBool = .ok dig
  analog : (if dig then .ok { c2 with digitalOnly := dig } else
    applyAnalog E j { c2 with digitalOnly := dig }) = .ok c3
  bits : applyBits j c3 = .ok c4
  verbose : getReq j "verbose" Json.asBool = .ok verb
  out : c' = { c4 with verbose := verb }

theorem applyConfig_inv (h : applyConfig E j c = .ok c') : Nonempty (Stages E j c c') := by
  unfold applyConfig at h
  simp only [bind_eq_ok] at h
  obtain ⟨c1, h1, c2, h2, d, h3, c3, h4, c4, h5, v, h6, h7⟩ := h
  exact ⟨⟨c1, c2, c3, c4, d, v, h1, h2, h3, h4, h5, h6, (ok_inj.1 h7).symm⟩⟩

end

end Acs
