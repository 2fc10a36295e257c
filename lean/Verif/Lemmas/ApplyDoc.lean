import Verif.Lemmas.ApplyInv

/-! # What an accepted configuration satisfies -/

set_option linter.unusedSectionVars false

namespace Acs

open Spec

section
variable {K : Type} [Field K] [LinearOrder K] [IsStrictOrderedRing K] [FloorRing K]
variable {E : Env K} {j j' : Json K} {c c' d d' : Cfg K}

/-- The part of a configuration that the analog block leaves alone. -/
def Cfg.digitalPart (c : Cfg K) : Nat × Nat × Mode × Bool × List Nat × Nat × Nat × Bool :=
  (c.M, c.N, c.mode, c.digitalOnly, c.split, c.wBit, c.iBit, c.verbose)

theorem AnalogStages.digitalPart (s : AnalogStages E j c c') : c'.digitalPart = c.digitalPart :=
  (via Cfg.digitalPart (applyPar_frame s.par) rfl : Cfg.digitalPart c' = Cfg.digitalPart s.c5).trans <|
    (via Cfg.digitalPart (applyRd_frame s.rd) rfl : Cfg.digitalPart s.c5 = Cfg.digitalPart s.c4).trans <|
    (via Cfg.digitalPart (applyVRead_frame s.vRead) rfl : Cfg.digitalPart s.c4 = Cfg.digitalPart s.c3).trans <|
    (via Cfg.digitalPart (applyNoise_frame s.noise) rfl : Cfg.digitalPart s.c3 = Cfg.digitalPart s.c2).trans <|
    (via Cfg.digitalPart (applyAdc_frame s.adc) rfl : Cfg.digitalPart s.c2 = Cfg.digitalPart s.c1).trans <|
    (via Cfg.digitalPart (applyStates_frame s.states) rfl : Cfg.digitalPart s.c1 = Cfg.digitalPart c)

theorem AnalogStages.mode (s : AnalogStages E j c c') :
    s.c1.mode = c.mode ∧ s.c2.mode = c.mode ∧ s.c3.mode = c.mode ∧ s.c4.mode = c.mode ∧
    s.c5.mode = c.mode ∧ c'.mode = c.mode := by
  have h1 : s.c1.mode = c.mode := (via Cfg.mode (applyStates_frame s.states) rfl : Cfg.mode s.c1 = Cfg.mode c)
  have h2 : s.c2.mode = s.c1.mode := (via Cfg.mode (applyAdc_frame s.adc) rfl : Cfg.mode s.c2 = Cfg.mode s.c1)
  have h3 : s.c3.mode = s.c2.mode := (via Cfg.mode (applyNoise_frame s.noise) rfl : Cfg.mode s.c3 = Cfg.mode s.c2)
  have h4 : s.c4.mode = s.c3.mode := (via Cfg.mode (applyVRead_frame s.vRead) rfl : Cfg.mode s.c4 = Cfg.mode s.c3)
  have h5 : s.c5.mode = s.c4.mode := (via Cfg.mode (applyRd_frame s.rd) rfl : Cfg.mode s.c5 = Cfg.mode s.c4)
  have h6 : c'.mode = s.c5.mode := (via Cfg.mode (applyPar_frame s.par) rfl : Cfg.mode c' = Cfg.mode s.c5)
  exact ⟨h1, by rw [h2, h1], by rw [h3, h2, h1], by rw [h4, h3, h2, h1], by rw [h5, h4, h3, h2, h1],
    by rw [h6, h5, h4, h3, h2, h1]⟩

def Cfg.statesPart (c : Cfg K) : K × K × AdcType := (c.hrs, c.lrs, c.adcType)
def Cfg.adcPart (c : Cfg K) : Int × CalibMode × List (String × (K × K)) × Bool × Int :=
  (c.resolution, c.calibMode, c.calibDict, c.adcProfile, c.binSize)
def Cfg.noisePart (c : Cfg K) : K × K × Bool × Bool := (c.hrsNoise, c.lrsNoise, c.d2d, c.c2c)
def Cfg.voltPart (c : Cfg K) : Bool × K := (c.readDisturb, c.vRead)
def Cfg.rdPart (c : Cfg K) : K × Nat × Strategy × K × K := (c.tRead, c.updFreq, c.strategy, c.fp, c.tol)

/-- States and converter type survive the later stages. -/
theorem AnalogStages.statesPart (s : AnalogStages E j c c') : c'.statesPart = s.c1.statesPart :=
  (via Cfg.statesPart (applyPar_frame s.par) rfl : Cfg.statesPart c' = Cfg.statesPart s.c5).trans <|
    (via Cfg.statesPart (applyRd_frame s.rd) rfl : Cfg.statesPart s.c5 = Cfg.statesPart s.c4).trans <|
    (via Cfg.statesPart (applyVRead_frame s.vRead) rfl : Cfg.statesPart s.c4 = Cfg.statesPart s.c3).trans <|
    (via Cfg.statesPart (applyNoise_frame s.noise) rfl : Cfg.statesPart s.c3 = Cfg.statesPart s.c2).trans <|
    (via Cfg.statesPart (applyAdc_frame s.adc) rfl : Cfg.statesPart s.c2 = Cfg.statesPart s.c1)

/-- The converter parameters survive the later stages. -/
theorem AnalogStages.adcPart (s : AnalogStages E j c c') : c'.adcPart = s.c2.adcPart :=
  (via Cfg.adcPart (applyPar_frame s.par) rfl : Cfg.adcPart c' = Cfg.adcPart s.c5).trans <|
    (via Cfg.adcPart (applyRd_frame s.rd) rfl : Cfg.adcPart s.c5 = Cfg.adcPart s.c4).trans <|
    (via Cfg.adcPart (applyVRead_frame s.vRead) rfl : Cfg.adcPart s.c4 = Cfg.adcPart s.c3).trans <|
    (via Cfg.adcPart (applyNoise_frame s.noise) rfl : Cfg.adcPart s.c3 = Cfg.adcPart s.c2)

/-- The variability parameters survive the later stages. -/
theorem AnalogStages.noisePart (s : AnalogStages E j c c') : c'.noisePart = s.c3.noisePart :=
  (via Cfg.noisePart (applyPar_frame s.par) rfl : Cfg.noisePart c' = Cfg.noisePart s.c5).trans <|
    (via Cfg.noisePart (applyRd_frame s.rd) rfl : Cfg.noisePart s.c5 = Cfg.noisePart s.c4).trans <|
    (via Cfg.noisePart (applyVRead_frame s.vRead) rfl : Cfg.noisePart s.c4 = Cfg.noisePart s.c3)

/-- Read voltage and the switch of read disturb survive the later stages. -/
theorem AnalogStages.voltPart (s : AnalogStages E j c c') :
    c'.voltPart = s.c4.voltPart ∧ s.c5.parasitics = s.c4.parasitics :=
  ⟨(via Cfg.voltPart (applyPar_frame s.par) rfl : Cfg.voltPart c' = Cfg.voltPart s.c5).trans <|
    (via Cfg.voltPart (applyRd_frame s.rd) rfl : Cfg.voltPart s.c5 = Cfg.voltPart s.c4), (via Cfg.parasitics (applyRd_frame s.rd) rfl : Cfg.parasitics s.c5 = Cfg.parasitics s.c4)⟩

/-- The parameters of read disturb survive the last stage. -/
theorem AnalogStages.rdPart (s : AnalogStages E j c c') : c'.rdPart = s.c5.rdPart :=
  (via Cfg.rdPart (applyPar_frame s.par) rfl : Cfg.rdPart c' = Cfg.rdPart s.c5)

theorem adcAllowed_matches {md : Mode} {a : AdcType} (h : adcAllowed md a = true) :
    a = .inf ∨ (a = .sym ∧ signedCurrents md) ∨ (a = .pos ∧ ¬signedCurrents md) := by
  cases md <;> cases a <;> simp_all [adcAllowed, signedCurrents]

theorem isInt_iff {md : Mode} : md.isInt = true ↔ md.family = .int := by
  simp [Mode.isInt]

theorem AnalogStages.ok (s : AnalogStages E j c c') : AnalogOk c' := by
  have hst := s.statesPart
  have had := s.adcPart
  have hno := s.noisePart
  have hvo := s.voltPart
  have hrd := s.rdPart
  obtain ⟨m1, m2, m3, m4, m5, m6⟩ := s.mode
  simp only [Cfg.statesPart, Cfg.adcPart, Cfg.noisePart, Cfg.voltPart, Cfg.rdPart,
    Prod.mk.injEq] at hst had hno hvo hrd
  obtain ⟨hrs, lrs, st, a, _, _, _, _, hp, lp, e1⟩ := applyStates_inv s.states
  constructor
  · rw [hst.1, hst.2.1, e1]
    exact ⟨hp, lp⟩
  · have h := adcAllowed_matches s.allowed
    have e2 : s.c2.adcType = c'.adcType := (via Cfg.adcType (applyAdc_frame s.adc) rfl : Cfg.adcType s.c2 = Cfg.adcType s.c1).trans hst.2.2.symm
    rw [e2, m2, ← m6] at h
    exact h
  · intro hi hc
    rw [hst.2.2] at hi
    rw [had.2.1] at hc
    rw [had.2.2.1]
    rcases applyAdc_inv s.adc with ⟨hi', _⟩ | ⟨_, _, r, d1, _, h1, h2⟩
    · exact absurd hi' hi
    · obtain ⟨t, _, ⟨_, rfl⟩ | ⟨_, d, _, hd, rfl⟩⟩ := applyCalib_inv h1 <;>
      obtain ⟨p, _, ⟨_, e⟩ | ⟨_, b, _, e⟩⟩ := applyProfile_inv h2 <;> rw [e] at hc ⊢ <;>
      first | exact hd | cases hc
  · intro h
    rw [hvo.1.1] at h
    rw [hvo.1.2]
    obtain ⟨rd, par, _, _, ⟨_, v, _, hv, e⟩ | ⟨hf, e⟩⟩ := applyVRead_inv s.vRead
    · rw [e]; exact hv
    · exfalso
      have hr : s.c4.readDisturb = rd := by rw [e]
      have hpar : s.c4.parasitics = par := by rw [e]
      simp only [Bool.or_eq_false_iff] at hf
      rw [hf.1] at hpar
      rw [hf.2] at hr
      rcases h with h | h
      · rw [hr] at h; cases h
      · rcases applyPar_inv s.par with ⟨h', e'⟩ | ⟨h', _⟩
        · rw [e', h'] at h; cases h
        · rw [hvo.2, hpar] at h'; cases h'
  · intro h
    rw [hvo.1.1] at h
    rcases applyRd_inv s.rd with ⟨h', _⟩ | ⟨_, h', _⟩
    · rw [h'] at h; cases h
    · rw [m4, ← m6] at h'
      intro hf
      rw [isInt_iff.2 hf] at h'
      cases h'
  · intro h hs
    rw [hvo.1.1] at h
    rw [hrd.2.2.1] at hs
    rw [hrd.2.2.2.1]
    rcases applyRd_inv s.rd with ⟨h', _⟩ | ⟨_, _, t, f, nm, st, _, _, _, _, h1⟩
    · rw [h'] at h; cases h
    · obtain ⟨h2, e⟩ | ⟨h2, f, _, hf, e⟩ | ⟨h2, t, _, _, _, e⟩ := applyMitigation_inv h1
      · rw [e] at hs; rw [hs] at h2; cases h2
      · rw [e]; exact hf
      · rw [e] at hs
        exact absurd (h2.symm.trans hs) (by decide)
  · intro h hs
    rw [hvo.1.1] at h
    rw [hrd.2.2.1] at hs
    rw [hrd.2.2.2.2]
    rcases applyRd_inv s.rd with ⟨h', _⟩ | ⟨_, _, t, f, nm, st, _, _, _, _, h1⟩
    · rw [h'] at h; cases h
    · obtain ⟨h2, e⟩ | ⟨h2, f, _, hf, e⟩ | ⟨h2, t, _, ht, ht', e⟩ := applyMitigation_inv h1
      · rw [e] at hs; rw [hs] at h2; cases h2
      · rw [e] at hs
        exact absurd (h2.symm.trans hs) (by decide)
      · rw [e]; exact ⟨ht, ht'⟩
  · intro hf
    obtain ⟨_, _, a, b, _, _, _, _, hab, e⟩ := applyNoise_inv s.noise
    rw [hno.2.2.1, hno.2.2.2, e]
    rw [m2, ← m6, isInt_iff.2 hf] at hab
    simpa using hab
  · intro h
    rcases applyPar_inv s.par with ⟨h', e⟩ | ⟨_, w, _, e⟩
    · rw [e, h'] at h; cases h
    · rw [e] at h ⊢
      simpa using h

theorem Stages.split (s : Stages E j c c') :
    (c'.digitalOnly = true ∧ s.dig = true ∧ s.c3 = { s.c2 with digitalOnly := true }) ∨
    (c'.digitalOnly = false ∧ s.dig = false ∧
      Nonempty (AnalogStages E j { s.c2 with digitalOnly := false } s.c3)) := by
  have h := s.analog
  have hd : c'.digitalOnly = s.c3.digitalOnly :=
    (via Cfg.digitalOnly s.out rfl : c'.digitalOnly = s.c4.digitalOnly).trans
      (via Cfg.digitalOnly (applyBits_frame s.bits) rfl)
  cases hb : s.dig
  · rw [hb] at h
    simp only [Bool.false_eq_true, if_false] at h
    obtain ⟨a⟩ := applyAnalog_inv h
    refine Or.inr ⟨?_, rfl, ⟨a⟩⟩
    have := a.digitalPart
    simp only [Cfg.digitalPart, Prod.mk.injEq] at this
    rw [hd, this.2.2.2.1]
  · rw [hb] at h
    simp only [if_true] at h
    have e := (ok_inj.1 h).symm
    exact Or.inl ⟨by rw [hd, e], rfl, e⟩

theorem Stages.pre (s : Stages E j c c') : s.c3.M = s.c1.M ∧ s.c3.N = s.c1.N ∧ s.c3.mode = s.c2.mode := by
  obtain ⟨_, _, _, _, e2⟩ := applyMode_inv s.mode
  have h2 : s.c2.M = s.c1.M ∧ s.c2.N = s.c1.N := by rw [e2]; exact ⟨rfl, rfl⟩
  rw [← h2.1, ← h2.2]
  rcases s.split with ⟨_, _, e⟩ | ⟨_, _, ⟨a⟩⟩
  · rw [e]; exact ⟨rfl, rfl, rfl⟩
  · have := a.digitalPart
    simp only [Cfg.digitalPart, Prod.mk.injEq] at this
    exact ⟨this.1, this.2.1, this.2.2.1⟩

/-- The fields untouched by the last two steps. -/
theorem Stages.tail (s : Stages E j c c') :
    c' = { s.c3 with wBit := c'.wBit, iBit := c'.iBit, split := c'.split, verbose := c'.verbose } := by
  obtain ⟨c1, c2, c3, c4, dig, verb, _, _, _, _, h5, _, rfl⟩ := s
  exact congrArg (fun c : Cfg K => { c with verbose := verb }) (applyBits_frame h5)

theorem Spec.AnalogOk.congr {c d : Cfg K} (h : AnalogOk c)
    (e : d = { c with wBit := d.wBit, iBit := d.iBit, split := d.split, verbose := d.verbose }) :
    AnalogOk d := by
  rw [e]
  exact ⟨h.states, h.adc, h.calib, h.vRead, h.family, h.software, h.cell, h.variability, h.wires⟩

theorem applyConfig_ok (h : applyConfig E j c = .ok c') :
    0 < c'.M ∧ 0 < c'.N ∧ BitsOk c' ∧ (c'.digitalOnly = false → AnalogOk c') := by
  obtain ⟨s⟩ := applyConfig_inv h
  obtain ⟨m, n, _, _, hm, hn, e1⟩ := applyDims_inv s.dims
  have hp := s.pre
  have ht := s.tail
  refine ⟨?_, ?_, ?_, fun hd => ?_⟩
  · rw [ht]; show 0 < s.c3.M; rw [hp.1, e1]; exact hm
  · rw [ht]; show 0 < s.c3.N; rw [hp.2.1, e1]; exact hn
  · have key : BitsOk s.c4 := by
      rcases applyBits_inv s.bits with ⟨hi, w, i, sp, _, _, _, hw, hb, e⟩ | ⟨ht, _, _, e⟩ | ⟨hi, ht, e⟩ <;>
        rw [e]
      · refine ⟨fun _ => ⟨hw, hb⟩, fun h => ?_, fun h => absurd (isInt_iff.1 hi) h⟩
        rcases h with h | h <;> rw [show s.c3.mode = _ from h] at hi <;> cases hi
      · refine ⟨fun h => ?_, fun _ => ⟨rfl, rfl⟩, fun _ h1 h2 => ?_⟩
        · rcases ht with ht | ht <;> rw [show Cfg.mode _ = _ from ht] at h <;> cases h
        · rcases ht with ht | ht
          · exact absurd ht h1
          · exact absurd ht h2
      · refine ⟨fun h => ?_, fun h => absurd h ht, fun _ _ _ => rfl⟩
        rw [isInt_iff.2 h] at hi
        cases hi
    rw [s.out]
    exact key
  · rcases s.split with ⟨h', _⟩ | ⟨_, _, ⟨a⟩⟩
    · rw [h'] at hd; cases hd
    · exact a.ok.congr ht

end

end Acs
