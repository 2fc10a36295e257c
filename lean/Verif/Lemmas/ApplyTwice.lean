import Verif.Lemmas.ApplyRel

/-! # Consequences of comparing two runs of `apply_config` -/

set_option linter.unusedSectionVars false

namespace Acs

open Spec

section
variable {K : Type} [Field K] [LinearOrder K] [IsStrictOrderedRing K] [FloorRing K]
variable {E : Env K} {j j' : Json K} {c c' d d' : Cfg K}

theorem Stages.modeEq (s : Stages E j c c') : c'.mode = s.c2.mode :=
  (via Cfg.mode s.tail rfl : c'.mode = s.c3.mode).trans s.pre.2.2

theorem Stages.dimsEq (s : Stages E j c c') : c'.M = s.c1.M ∧ c'.N = s.c1.N :=
  ⟨(via Cfg.M s.tail rfl : c'.M = s.c3.M).trans s.pre.1,
    (via Cfg.N s.tail rfl : c'.N = s.c3.N).trans s.pre.2.1⟩

theorem Stages.bitsEq (s : Stages E j c c') :
    c'.split = s.c4.split ∧ c'.wBit = s.c4.wBit ∧ c'.iBit = s.c4.iBit :=
  ⟨via Cfg.split s.out rfl, via Cfg.wBit s.out rfl, via Cfg.iBit s.out rfl⟩

/-- All fields that belong to the analog block. -/
structure SameAnalog (c d : Cfg K) : Prop where
  states : d.statesPart = c.statesPart
  adc : d.adcPart = c.adcPart
  noise : d.noisePart = c.noisePart
  volt : d.voltPart = c.voltPart
  rd : d.rdPart = c.rdPart
  par : d.parasitics = c.parasitics ∧ d.wRes = c.wRes

theorem Stages.analogEq (s : Stages E j c c') : SameAnalog s.c3 c' :=
  ⟨via Cfg.statesPart s.tail rfl, via Cfg.adcPart s.tail rfl, via Cfg.noisePart s.tail rfl,
    via Cfg.voltPart s.tail rfl, via Cfg.rdPart s.tail rfl, via Cfg.parasitics s.tail rfl,
    via Cfg.wRes s.tail rfl⟩

/-- The fields read before the analog block do not influence the analog fields of the result. -/
theorem Stages.preAnalog (s : Stages E j c c') : SameAnalog c { s.c2 with digitalOnly := s.dig } := by
  obtain ⟨c1, c2, c3, c4, dig, verb, h1, h2, h3, h4, h5, h6, h7⟩ := s
  obtain ⟨_, _, _, _, _, _, rfl⟩ := applyDims_inv h1
  obtain ⟨_, _, _, _, rfl⟩ := applyMode_inv h2
  exact ⟨rfl, rfl, rfl, rfl, rfl, rfl, rfl⟩

theorem Cfg.eq_of {c d : Cfg K} (h1 : d.M = c.M ∧ d.N = c.N) (h2 : d.mode = c.mode)
    (h3 : d.digitalOnly = c.digitalOnly) (h4 : d.split = c.split ∧ d.wBit = c.wBit)
    (h5 : d.statesPart = c.statesPart)
    (h6 : d.resolution = c.resolution ∧ d.calibMode = c.calibMode ∧ d.calibDict = c.calibDict ∧
      d.adcProfile = c.adcProfile)
    (h7 : d.hrsNoise = c.hrsNoise ∧ d.lrsNoise = c.lrsNoise) (h8 : d.voltPart = c.voltPart)
    (h9 : d.rdPart = c.rdPart) :
    d = { c with
      iBit := d.iBit
      verbose := d.verbose
      d2d := d.d2d
      c2c := d.c2c
      parasitics := d.parasitics
      wRes := d.wRes
      binSize := d.binSize } := by
  obtain ⟨⟩ := c
  obtain ⟨⟩ := d
  simp only [Cfg.statesPart, Cfg.voltPart, Cfg.rdPart, Prod.mk.injEq] at *
  obtain ⟨rfl, rfl⟩ := h1
  subst h2 h3
  obtain ⟨rfl, rfl⟩ := h4
  obtain ⟨rfl, rfl, rfl⟩ := h5
  obtain ⟨rfl, rfl, rfl, rfl⟩ := h6
  obtain ⟨rfl, rfl⟩ := h7
  obtain ⟨rfl, rfl⟩ := h8
  obtain ⟨rfl, rfl, rfl, rfl, rfl⟩ := h9
  rfl

/-- `d` differs from `c` at most in parameters that are not structural. -/
def SameStruct (c d : Cfg K) : Prop :=
  d = { c with
    iBit := d.iBit
    verbose := d.verbose
    d2d := d.d2d
    c2c := d.c2c
    parasitics := d.parasitics
    wRes := d.wRes
    binSize := d.binSize }

/-- Applying data with the same structural values again changes no structural parameter. -/
theorem apply_again (ag : SameKeys j j') (h : applyConfig E j c = .ok c')
    (h' : applyConfig E j' c' = .ok d') : SameStruct c' d' ∧
      (c'.digitalOnly = true → d'.parasitics = c'.parasitics ∧ d'.wRes = c'.wRes ∧ d'.d2d = c'.d2d ∧
        d'.c2c = c'.c2c ∧ d'.binSize = c'.binSize) ∧
      (j'.find "w_res" = j.find "w_res" → d'.parasitics = c'.parasitics ∧
        (c'.parasitics = true → d'.wRes = c'.wRes)) ∧
      (c'.digitalOnly = false → getDef j "parasitics" Json.asBool false = .ok false →
        d'.parasitics = false ∧ c'.parasitics = false) := by
  obtain ⟨s⟩ := applyConfig_inv h
  obtain ⟨t⟩ := applyConfig_inv h'
  have hM := applyDims_rel ag s.dims t.dims
  have hmd := applyMode_rel ag s.mode t.mode
  have hdig := req_same (ag _ (structural_of (by decide))) s.digital t.digital
  have hb := applyBits_rel ag s.bits t.bits (t.pre.2.2.trans (hmd.trans s.pre.2.2.symm))
  have hbits : d'.split = c'.split ∧ d'.wBit = c'.wBit := by
    refine ⟨by rw [t.bitsEq.1, hb.1, s.bitsEq.1], ?_⟩
    rw [t.bitsEq.2.1, s.bitsEq.2.1]
    by_cases hm : s.c3.mode.isInt = true ∨ s.c3.mode = .tnn4 ∨ s.c3.mode = .tnn5
    · exact hb.2.1 hm
    · simp only [not_or] at hm
      have h1 := hb.2.2.1 (by simpa using hm.1) hm.2.1 hm.2.2
      have h3 : t.c3.wBit = t.c2.wBit := by
        rcases t.split with ⟨_, _, e⟩ | ⟨_, _, ⟨a⟩⟩
        · rw [e]
        · have := a.digitalPart
          simp only [Cfg.digitalPart, Prod.mk.injEq] at this
          exact this.2.2.2.2.2.1
      have h4 : t.c2.wBit = c'.wBit := by
        obtain ⟨_, _, _, _, _, _, e⟩ := applyDims_inv t.dims
        obtain ⟨_, _, _, _, e'⟩ := applyMode_inv t.mode
        rw [e', e]
      rw [h1.1, h3, h4, s.bitsEq.2.1]
  have hdims : d'.M = c'.M ∧ d'.N = c'.N :=
    ⟨by rw [t.dimsEq.1, hM.1, s.dimsEq.1], by rw [t.dimsEq.2, hM.2, s.dimsEq.2]⟩
  have hmode : d'.mode = c'.mode := by rw [t.modeEq, hmd, s.modeEq]
  rcases s.split with ⟨hd, hd', e⟩ | ⟨hd, hd', ⟨a⟩⟩
  · rcases t.split with ⟨gd, gd', f⟩ | ⟨gd, gd', ⟨b⟩⟩
    · have hs : SameAnalog c' d' := by
        have h1 := t.analogEq
        have h2 := t.preAnalog
        rw [gd', ← f] at h2
        exact ⟨h1.1.trans h2.1, h1.2.trans h2.2, h1.3.trans h2.3, h1.4.trans h2.4, h1.5.trans h2.5,
          h1.6.1.trans h2.6.1, h1.6.2.trans h2.6.2⟩
      have hadc := hs.adc
      have hno := hs.noise
      simp only [Cfg.adcPart, Cfg.noisePart, Prod.mk.injEq] at hadc hno
      exact ⟨Cfg.eq_of hdims hmode (by rw [gd, hd]) hbits hs.states
        ⟨hadc.1, hadc.2.1, hadc.2.2.1, hadc.2.2.2.1⟩ ⟨hno.1, hno.2.1⟩ hs.volt hs.rd,
        fun _ => ⟨hs.par.1, hs.par.2, hno.2.2.1, hno.2.2.2, hadc.2.2.2.2⟩,
        fun _ => ⟨hs.par.1, fun _ => hs.par.2⟩,
        fun e => by rw [hd] at e; cases e⟩
    · rw [hdig, hd'] at gd'; cases gd'
  · rcases t.split with ⟨gd, gd', f⟩ | ⟨gd, gd', ⟨b⟩⟩
    · rw [hdig, hd'] at gd'; cases gd'
    · -- the analog block ran twice
      have A := s.analogEq
      have B := t.analogEq
      have P := t.preAnalog
      rw [gd'] at P
      have hst : d'.statesPart = c'.statesPart := by
        rw [B.states, b.statesPart, applyStates_rel ag a.states b.states, A.states, a.statesPart]
      have hty : b.c1.adcType = a.c1.adcType := by
        have := applyStates_rel ag a.states b.states
        simp only [Cfg.statesPart, Prod.mk.injEq] at this
        exact this.2.2
      -- converter
      have b1 : b.c1.adcPart = c'.adcPart :=
        (via Cfg.adcPart (applyStates_frame b.states) rfl : b.c1.adcPart = _).trans P.adc
      have hadc : d'.resolution = c'.resolution ∧ d'.calibMode = c'.calibMode ∧
          d'.calibDict = c'.calibDict ∧ d'.adcProfile = c'.adcProfile := by
        have h1 : d'.adcPart = b.c2.adcPart := B.adc.trans b.adcPart
        have h2 : c'.adcPart = a.c2.adcPart := A.adc.trans a.adcPart
        by_cases hi : a.c1.adcType = .inf
        · rcases applyAdc_inv b.adc with ⟨_, e⟩ | ⟨hn, _⟩
          · rw [e, b1] at h1
            simp only [Cfg.adcPart, Prod.mk.injEq] at h1
            exact ⟨h1.1, h1.2.1, h1.2.2.1, h1.2.2.2.1⟩
          · exact absurd (hty.trans hi) hn
        · have r := applyAdc_rel ag a.adc b.adc hi (by rw [hty]; exact hi)
          simp only [Cfg.adcPart, Prod.mk.injEq] at h1 h2 b1
          refine ⟨by rw [h1.1, r.res, h2.1], by rw [h1.2.1, r.calib, h2.2.1], ?_,
            by rw [h1.2.2.2.1, r.prof, h2.2.2.2.1]⟩
          rw [h1.2.2.1]
          by_cases hc : a.c2.calibMode = .calib
          · rw [r.dict hc, h2.2.2.1]
          · rw [r.nodict hc, b1.2.2.1]
      -- variability
      have hno : d'.hrsNoise = c'.hrsNoise ∧ d'.lrsNoise = c'.lrsNoise := by
        have h1 : d'.noisePart = b.c3.noisePart := B.noise.trans b.noisePart
        have h2 : c'.noisePart = a.c3.noisePart := A.noise.trans a.noisePart
        have r := (applyNoise_rel ag a.noise b.noise).1
        simp only [Cfg.noisePart, Prod.mk.injEq] at h1 h2
        exact ⟨by rw [h1.1, r.1, h2.1], by rw [h1.2.1, r.2, h2.2.1]⟩
      -- voltage
      have r := applyVRead_rel ag a.vRead b.vRead
      have hv1 : d'.voltPart = b.c4.voltPart := B.volt.trans b.voltPart.1
      have hv2 : c'.voltPart = a.c4.voltPart := A.volt.trans a.voltPart.1
      have hb3 : b.c3.vRead = c'.vRead := by
        have h1 : b.c3.voltPart = b.c2.voltPart := via Cfg.voltPart (applyNoise_frame b.noise) rfl
        have h2 : b.c2.voltPart = b.c1.voltPart := via Cfg.voltPart (applyAdc_frame b.adc) rfl
        have h3 : b.c1.voltPart = c'.voltPart :=
          (via Cfg.voltPart (applyStates_frame b.states) rfl : b.c1.voltPart = _).trans P.volt
        have := h1.trans (h2.trans h3)
        simp only [Cfg.voltPart, Prod.mk.injEq] at this
        exact this.2
      have hvolt : d'.voltPart = c'.voltPart := by
        simp only [Cfg.voltPart, Prod.mk.injEq] at hv1 hv2 ⊢
        refine ⟨by rw [hv1.1, r.1, hv2.1], ?_⟩
        rw [hv1.2]
        cases h1 : a.c4.readDisturb
        · cases h2 : a.c4.parasitics
          · rw [(r.2.2.2 h1 h2).1, hb3]
          · rw [r.2.2.1 (Or.inr h2), hv2.2]
        · rw [r.2.2.1 (Or.inl h1), hv2.2]
      -- read disturb
      have hrd : d'.rdPart = c'.rdPart := by
        have h1 : d'.rdPart = b.c5.rdPart := B.rd.trans b.rdPart
        have h2 : c'.rdPart = a.c5.rdPart := A.rd.trans a.rdPart
        have b4 : b.c4.rdPart = c'.rdPart := by
          have e1 : b.c4.rdPart = b.c3.rdPart := via Cfg.rdPart (applyVRead_frame b.vRead) rfl
          have e2 : b.c3.rdPart = b.c2.rdPart := via Cfg.rdPart (applyNoise_frame b.noise) rfl
          have e3 : b.c2.rdPart = b.c1.rdPart := via Cfg.rdPart (applyAdc_frame b.adc) rfl
          have e4 : b.c1.rdPart = c'.rdPart :=
            (via Cfg.rdPart (applyStates_frame b.states) rfl : b.c1.rdPart = _).trans P.rd
          exact e1.trans (e2.trans (e3.trans e4))
        cases hr : a.c4.readDisturb
        · rcases applyRd_inv b.rd with ⟨_, e⟩ | ⟨hn, _⟩
          · rw [h1, e, b4]
          · rw [r.1, hr] at hn; cases hn
        · have q := applyRd_rel ag a.rd b.rd hr (by rw [r.1, hr])
          simp only [Cfg.rdPart, Prod.mk.injEq] at h1 h2 b4 ⊢
          refine ⟨by rw [h1.1, q.tRead, h2.1], by rw [h1.2.1, q.freq, h2.2.1],
            by rw [h1.2.2.1, q.strat, h2.2.2.1], ?_, ?_⟩
          · rw [h1.2.2.2.1]
            by_cases hs : a.c5.strategy = .software
            · rw [q.fp hs, h2.2.2.2.1]
            · rw [q.nofp hs, b4.2.2.2.1]
          · rw [h1.2.2.2.2]
            by_cases hs : a.c5.strategy = .cellBased
            · rw [q.tol hs, h2.2.2.2.2]
            · rw [q.notol hs, b4.2.2.2.2]
      have hpar5 : b.c5.parasitics = a.c5.parasitics := by
        rw [b.voltPart.2, a.voltPart.2, r.2.1]
      refine ⟨Cfg.eq_of hdims hmode (by rw [gd, hd]) hbits hst hadc hno hvolt hrd,
        fun e => absurd (hd.symm.trans e) (by decide), fun hw => ?_, fun _ hp => ?_⟩
      · have q := applyPar_rel a.par b.par hpar5 hw
        refine ⟨by rw [B.par.1, q.1, A.par.1], fun hp => ?_⟩
        rw [B.par.2, A.par.2]
        exact q.2 (by rw [← A.par.1]; exact hp)
      · have e : a.c5.parasitics = false := by
          rw [a.voltPart.2]
          obtain ⟨rd, par, _, h2, ⟨_, v, _, _, e⟩ | ⟨_, e⟩⟩ := applyVRead_inv a.vRead <;>
          · rw [e]
            show par = false
            rw [hp] at h2
            exact (ok_inj.1 h2).symm
        have e' : b.c5.parasitics = false := by rw [hpar5, e]
        constructor
        · rw [B.par.1]
          rcases applyPar_inv b.par with ⟨_, x⟩ | ⟨hn, _⟩
          · rw [x, e']
          · rw [e'] at hn; cases hn
        · rw [A.par.1]
          rcases applyPar_inv a.par with ⟨_, x⟩ | ⟨hn, _⟩
          · rw [x, e]
          · rw [e] at hn; cases hn

/-- Applying the same data to two configurations gives the same effective parameters, up to the
switches for read disturb and profiling, which need the analog block and a real converter. -/
theorem apply_twice (h : applyConfig E j c = .ok c') (h' : applyConfig E j d = .ok d') :
    SameEffective c' d' ∧
    (c'.digitalOnly = false → d'.readDisturb = c'.readDisturb ∧
      (c'.adcType ≠ .inf → d'.adcProfile = c'.adcProfile)) ∧
    (c'.digitalOnly = true → SameAnalog c c' ∧ SameAnalog d d') ∧
    (c'.digitalOnly = false → c'.adcType = .inf →
      c'.adcPart = c.adcPart ∧ d'.adcPart = d.adcPart) := by
  have ag := SameKeys.refl j
  obtain ⟨s⟩ := applyConfig_inv h
  obtain ⟨t⟩ := applyConfig_inv h'
  have hM := applyDims_rel ag s.dims t.dims
  have hmd := applyMode_rel ag s.mode t.mode
  have hdig := req_same (ag _ (structural_of (by decide))) s.digital t.digital
  have hb := applyBits_rel ag s.bits t.bits (t.pre.2.2.trans (hmd.trans s.pre.2.2.symm))
  have hmode' : c'.mode = s.c3.mode := via Cfg.mode s.tail rfl
  have hdims : d'.M = c'.M ∧ d'.N = c'.N :=
    ⟨by rw [t.dimsEq.1, hM.1, s.dimsEq.1], by rw [t.dimsEq.2, hM.2, s.dimsEq.2]⟩
  have hmode : d'.mode = c'.mode := by rw [t.modeEq, hmd, s.modeEq]
  have hsp : d'.split = c'.split := by rw [t.bitsEq.1, hb.1, s.bitsEq.1]
  have hw : c'.mode.family = .int ∨ c'.mode = .tnn4 ∨ c'.mode = .tnn5 → d'.wBit = c'.wBit := fun e => by
    rw [hmode', ← isInt_iff] at e
    rw [t.bitsEq.2.1, s.bitsEq.2.1, hb.2.1 e]
  have hib : c'.mode.family = .int → d'.iBit = c'.iBit := fun e => by
    rw [hmode', ← isInt_iff] at e
    rw [t.bitsEq.2.2, s.bitsEq.2.2, hb.2.2.2.1 rfl e]
  have hverb : d'.verbose = c'.verbose := by
    have e1 : d'.verbose = t.verb := via Cfg.verbose t.out rfl
    have e2 : c'.verbose = s.verb := via Cfg.verbose s.out rfl
    rw [e1, e2]
    exact req_same rfl s.verbose t.verbose
  rcases s.split with ⟨hd, hd', e⟩ | ⟨hd, hd', ⟨a⟩⟩
  · rcases t.split with ⟨gd, gd', f⟩ | ⟨gd, gd', ⟨b⟩⟩
    · have no : ∀ {P : Prop}, c'.digitalOnly = false → P := fun e => by rw [hd] at e; cases e
      refine ⟨⟨hdims, hmode, by rw [gd, hd], hverb, hsp, hw, hib, no, no, no, no, no, no, no, no, no,
        no, no, no, no⟩, no, fun _ => ⟨?_, ?_⟩, no⟩
      · have h1 := s.analogEq
        have h2 := s.preAnalog
        rw [hd', ← e] at h2
        exact ⟨h1.1.trans h2.1, h1.2.trans h2.2, h1.3.trans h2.3, h1.4.trans h2.4, h1.5.trans h2.5,
          h1.6.1.trans h2.6.1, h1.6.2.trans h2.6.2⟩
      · have h1 := t.analogEq
        have h2 := t.preAnalog
        rw [gd', ← f] at h2
        exact ⟨h1.1.trans h2.1, h1.2.trans h2.2, h1.3.trans h2.3, h1.4.trans h2.4, h1.5.trans h2.5,
          h1.6.1.trans h2.6.1, h1.6.2.trans h2.6.2⟩
    · rw [hdig, hd'] at gd'; cases gd'
  · rcases t.split with ⟨gd, gd', f⟩ | ⟨gd, gd', ⟨b⟩⟩
    · rw [hdig, hd'] at gd'; cases gd'
    · have A := s.analogEq
      have B := t.analogEq
      have hst : d'.statesPart = c'.statesPart := by
        rw [B.states, b.statesPart, applyStates_rel ag a.states b.states, A.states, a.statesPart]
      have hty : b.c1.adcType = a.c1.adcType := by
        have := applyStates_rel ag a.states b.states
        simp only [Cfg.statesPart, Prod.mk.injEq] at this
        exact this.2.2
      have hty' : c'.adcType = a.c1.adcType := by
        have := A.states.trans a.statesPart
        simp only [Cfg.statesPart, Prod.mk.injEq] at this
        exact this.2.2
      have h1 : d'.adcPart = b.c2.adcPart := B.adc.trans b.adcPart
      have h2 : c'.adcPart = a.c2.adcPart := A.adc.trans a.adcPart
      have hadc : c'.adcType ≠ .inf → AdcRel j j b.c1 a.c2 b.c2 := fun hi => by
        rw [hty'] at hi
        exact applyAdc_rel ag a.adc b.adc hi (by rw [hty]; exact hi)
      have h1' := h1
      have h2' := h2
      simp only [Cfg.adcPart, Prod.mk.injEq] at h1' h2'
      have hn1 : d'.noisePart = b.c3.noisePart := B.noise.trans b.noisePart
      have hn2 : c'.noisePart = a.c3.noisePart := A.noise.trans a.noisePart
      have rn := applyNoise_rel ag a.noise b.noise
      simp only [Cfg.noisePart, Prod.mk.injEq] at hn1 hn2
      have r := applyVRead_rel ag a.vRead b.vRead
      have hv1 : d'.voltPart = b.c4.voltPart := B.volt.trans b.voltPart.1
      have hv2 : c'.voltPart = a.c4.voltPart := A.volt.trans a.voltPart.1
      simp only [Cfg.voltPart, Prod.mk.injEq] at hv1 hv2
      have hpar5 : b.c5.parasitics = a.c5.parasitics := by
        rw [b.voltPart.2, a.voltPart.2, r.2.1]
      have q := applyPar_rel a.par b.par hpar5 rfl
      have hpc : c'.parasitics = true → a.c4.parasitics = true := fun hp => by
        rw [A.par.1] at hp
        rcases applyPar_inv a.par with ⟨_, x⟩ | ⟨hn, _⟩
        · rw [x, a.voltPart.2] at hp; exact hp
        · rw [a.voltPart.2] at hn; exact hn
      have hr1 : d'.rdPart = b.c5.rdPart := B.rd.trans b.rdPart
      have hr2 : c'.rdPart = a.c5.rdPart := A.rd.trans a.rdPart
      simp only [Cfg.rdPart, Prod.mk.injEq] at hr1 hr2
      have hrd : c'.readDisturb = true → RdRel b.c4 a.c5 b.c5 := fun hr => by
        rw [hv2.1] at hr
        exact applyRd_rel ag a.rd b.rd hr (by rw [r.1, hr])
      simp only [Cfg.statesPart, Prod.mk.injEq] at hst
      refine ⟨⟨hdims, hmode, by rw [gd, hd], hverb, hsp, hw, hib, fun _ => ⟨hst.1, hst.2.1⟩,
        fun _ => hst.2.2, fun _ hi => ?_, fun _ hi hc => ?_, fun _ hi hp => ?_, fun _ => ?_, fun _ => ?_,
        fun _ => ?_, fun _ hp => ?_, fun _ hr => ?_, fun _ hr hs => ?_, fun _ hr hs => ?_,
        fun _ hp => ?_⟩, fun _ => ⟨?_, fun hi => ?_⟩, fun e => ?_, fun _ hi => ?_⟩
      · exact ⟨by rw [h1'.1, (hadc hi).res, h2'.1], by rw [h1'.2.1, (hadc hi).calib, h2'.2.1]⟩
      · rw [h1'.2.2.1, (hadc hi).dict (by rw [← h2'.2.1]; exact hc), h2'.2.2.1]
      · rw [h1'.2.2.2.2, (hadc hi).bin rfl (by rw [← h2'.2.2.2.1]; exact hp), h2'.2.2.2.2]
      · exact ⟨by rw [hn1.1, rn.1.1, hn2.1], by rw [hn1.2.1, rn.1.2, hn2.2.1]⟩
      · exact ⟨by rw [hn1.2.2.1, rn.2.1 rfl, hn2.2.2.1], by rw [hn1.2.2.2, rn.2.2 rfl, hn2.2.2.2]⟩
      · rw [B.par.1, q.1, A.par.1]
      · rw [hv1.2, hv2.2]
        refine r.2.2.1 ?_
        rcases hp with hp | hp
        · exact Or.inl (by rw [← hv2.1]; exact hp)
        · exact Or.inr (hpc hp)
      · exact ⟨by rw [hr1.1, (hrd hr).tRead, hr2.1], by rw [hr1.2.1, (hrd hr).freq, hr2.2.1],
          by rw [hr1.2.2.1, (hrd hr).strat, hr2.2.2.1]⟩
      · rw [hr1.2.2.2.1, (hrd hr).fp (by rw [← hr2.2.2.1]; exact hs), hr2.2.2.2.1]
      · rw [hr1.2.2.2.2, (hrd hr).tol (by rw [← hr2.2.2.1]; exact hs), hr2.2.2.2.2]
      · rw [B.par.2, q.2 (by rw [← A.par.1]; exact hp), A.par.2]
      · rw [hv1.1, r.1, hv2.1]
      · rw [h1'.2.2.2.1, (hadc hi).prof, h2'.2.2.2.1]
      · rw [hd] at e; cases e
      · rw [hty'] at hi
        have P := s.preAnalog
        have Q := t.preAnalog
        rw [hd'] at P
        rw [gd'] at Q
        constructor
        · rcases applyAdc_inv a.adc with ⟨_, e⟩ | ⟨hn, _⟩
          · rw [h2, e]
            exact (via Cfg.adcPart (applyStates_frame a.states) rfl : a.c1.adcPart = _).trans P.adc
          · exact absurd hi hn
        · rcases applyAdc_inv b.adc with ⟨_, e⟩ | ⟨hn, _⟩
          · rw [h1, e]
            exact (via Cfg.adcPart (applyStates_frame b.states) rfl : b.c1.adcPart = _).trans Q.adc
          · exact absurd (hty.trans hi) hn

end

end Acs
