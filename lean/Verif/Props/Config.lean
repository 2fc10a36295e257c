import Verif.Lemmas.CfgInv
import Verif.Props.ExApi

/-!
# Configurations: C29, C44, C46, C54 (acceptance), C56

Statements about the states a program can reach through the interface, with every configuration file
and every update document.
-/

namespace Acs.Props

open Spec

variable {K : Type} [Field K] [LinearOrder K] [IsStrictOrderedRing K] [FloorRing K]
variable {E : Env K} {w w' : World K} {j : Json K}

/-! ## C56: names and modes -/

/-- A name is accepted for `m_mode` exactly if it is the printed name of a mode, which is then the mode
that is chosen. -/
theorem C56_names (s : String) (md : Mode) : modeOfName s = some md ↔ s = md.name := by
  constructor
  · intro h
    unfold modeOfName at h
    iterate 17
      obtain ⟨e, rfl⟩ | h := ite_some h
      · exact e
    cases h
  · rintro rfl
    cases md <;> decide

/-- No two modes have the same name. -/
theorem C56_injective (a b : Mode) (h : a.name = b.name) : a = b := by
  have h1 := (C56_names a.name a).2 rfl
  have h2 := (C56_names a.name b).2 h
  rw [h1] at h2
  exact Option.some.inj h2

/-- Every mode belongs to exactly one family, and the family is visible in its name. -/
theorem C56_family (md : Mode) :
    (md.isInt = true ↔ "I_".toList <+: md.name.toList) ∧
    (md.isBnn = true ↔ "BNN_".toList <+: md.name.toList) ∧
    (md.isTnn = true ↔ "TNN_".toList <+: md.name.toList) ∧
    ((md.isInt = true ∧ md.isBnn = false ∧ md.isTnn = false) ∨
     (md.isInt = false ∧ md.isBnn = true ∧ md.isTnn = false) ∨
     (md.isInt = false ∧ md.isBnn = false ∧ md.isTnn = true)) := by
  cases md <;> decide

/-- The mode of a loaded configuration is the one named in the file. -/
theorem C56_loaded (h : setConfig E (.good j) w = .ok w') :
    j.find "m_mode" = some (.str w'.cfg.mode.name) := by
  obtain ⟨_, x, _, _, h4⟩ := setConfig_inv h
  rcases h4 with ⟨h4, _⟩ | ⟨j', h4, _, h5⟩
  · cases h4
  · cases h4
    obtain ⟨s⟩ := applyConfig_inv h5
    obtain ⟨v, md, h1, h2, h3⟩ := applyMode_inv s.mode
    have e : w'.cfg.mode = md := by rw [s.modeEq, h3]
    rw [e, ← (C56_names v md).1 h2]
    unfold getReq at h1
    split at h1
    · cases h1
    · next u hu =>
      rw [hu]
      split at h1
      · cases h1
      · unfold Json.asStr at h1
        split at h1
        · cases h1; rfl
        · cases h1

example : ∃ w', setConfig Ex.env (.good (Ex.digital .tnn4)) world0 = .ok w' ∧
    decide (w'.cfg.mode = .tnn4) = true :=
  Ex.goes_spec (by decide +kernel)

/-! ## C29: converters and mappings -/

/-- In every state a program can reach, also after exceptions, an analog configuration combines the
mapping with a converter that fits the sign of its currents. -/
theorem C29_converter_fits {exc : Bool} (h : Reach E exc w) (ha : w.cfg.digitalOnly = false) :
    AdcMatches w.cfg := by
  rcases cfg_reach h with e | ⟨j, c, e⟩
  · rw [e]; exact Or.inl rfl
  · exact ((applyConfig_ok e).2.2.2 ha).adc

example : ∃ w, Reach Ex.env true w ∧
    decide (w.cfg.digitalOnly = false ∧ w.cfg.adcType = .pos ∧ w.cfg.mode = .bnn3) = true :=
  Ex.arrived (.good (Ex.analog .bnn1 [("adc_type", .str "SYM_RANGE_ADC")]))
    [.update (.good (.obj [("m_mode", .str "BNN_III"), ("adc_type", .str "POS_RANGE_ONLY_ADC")]))] _
    (by decide +kernel)

/-- The other combinations are refused: the program ends. -/
example : Ex.dies (setConfig Ex.env
    (.good (Ex.analog .bnn3 [("adc_type", .str "SYM_RANGE_ADC")])) world0) .exited = true := by
  decide +kernel

/-! ## C44: documented constraints -/

/-- In every state a program can reach, either no configuration was ever accepted, or the current one
satisfies the documented constraints.

Full statement: additionally `ResolutionOk w.cfg`, and `w.cfg.readDisturb = true →
w.cfg.mode.family ≠ .int` also for digital configurations.  Missing: both are false for the code, see
`C44_false_resolution` and `C44_false_disturb`. -/
theorem C44_constraints_partial {exc : Bool} (h : Reach E exc w) :
    w.cfg = cfg0 ∨ (0 < w.cfg.M ∧ 0 < w.cfg.N ∧ BitsOk w.cfg ∧
      (w.cfg.digitalOnly = false → AnalogOk w.cfg)) := by
  rcases cfg_reach h with e | ⟨j, c, e⟩
  · exact Or.inl e
  · exact Or.inr (applyConfig_ok e)

/-- A file that `set_config` accepts. -/
theorem C44_loaded_partial (h : setConfig E (.good j) w = .ok w') :
    0 < w'.cfg.M ∧ 0 < w'.cfg.N ∧ BitsOk w'.cfg ∧
      (w'.cfg.digitalOnly = false → AnalogOk w'.cfg) := by
  obtain ⟨_, x, _, _, h4⟩ := setConfig_inv h
  rcases h4 with ⟨h4, _⟩ | ⟨j', _, _, h5⟩
  · cases h4
  · exact applyConfig_ok h5

/-- An update that changes something and is accepted. -/
theorem C44_updated_partial (hk : DistinctKeys j) (hc : ∃ k, Changes E w.data j k)
    (h : updateConfig E (.good j) w = .ok (w', 0)) :
    0 < w'.cfg.M ∧ 0 < w'.cfg.N ∧ BitsOk w'.cfg ∧
      (w'.cfg.digitalOnly = false → AnalogOk w'.cfg) := by
  rcases updateConfig_inv h with ⟨_, h2, _⟩ | ⟨x, j', q, _, hj, _, hq, h2⟩
  · cases h2
  · cases hj
    obtain ⟨_, _, _, a4, _, a6, _⟩ := updateCfg_inv hk hq
    have e : w'.cfg = q.1.cfg := by
      rcases h2 with ⟨_, _, _, _, _, _, h6, _⟩ | ⟨_, rfl⟩
      · exact h6
      · rfl
    rw [e]
    exact applyConfig_ok (a6 (a4.2 hc))

example : ∃ w, Reach Ex.env true w ∧
    (decide (w.xbar.isSome = true ∧ w.cfg.M ≠ 0 ∧ w.cfg.digitalOnly = false) &&
      w.cfg.readDisturb) = true :=
  Ex.arrived (.good (Ex.disturb .bnn6)) [] _ (by decide +kernel)

/-- A resolution of 0 is accepted for a real converter, and the first multiplication then divides by
zero. -/
theorem C44_false_resolution : ∃ (w : World ℚ), Reach Ex.env false w ∧ ¬ResolutionOk w.cfg ∧
    exeMvm Ex.env Ex.res Ex.vec Ex.mat 2 3 "" w = .error (.dead .nonfinite) := by
  obtain ⟨w, h1, h2⟩ := Ex.arrived (E := Ex.env) (b := false)
    (.good (Ex.analog .bnn3 [("adc_type", .str "POS_RANGE_ONLY_ADC"), ("resolution", .int 0)]))
    [.write Ex.mat 2 3]
    (fun w => decide (w.cfg.adcType = .pos) && (decide (w.cfg.resolution = 0) &&
      Ex.dies (exeMvm Ex.env Ex.res Ex.vec Ex.mat 2 3 "" w) .nonfinite)) (by decide +kernel)
  rw [Bool.and_eq_true, Bool.and_eq_true, decide_eq_true_iff, decide_eq_true_iff] at h2
  refine ⟨w, h1, fun h => ?_, Ex.dies_spec h2.2.2⟩
  have := h (by rw [h2.1]; decide)
  rw [h2.2.1] at this
  exact absurd this (by decide)

/-- A digital configuration with an integer mapping inherits `read_disturb` from the configuration
before it, and the crossbar then runs the read-disturb model. -/
theorem C44_false_disturb : ∃ (w : World ℚ), Reach Ex.env false w ∧ w.cfg.digitalOnly = true ∧
    w.cfg.mode.family = .int ∧ w.cfg.readDisturb = true ∧ ∃ x, w.xbar = some x ∧ x.rd.isSome = true := by
  obtain ⟨w, h1, h2⟩ := Ex.arrived (E := Ex.env) (b := false) (.good (Ex.disturb .bnn6))
    [.setConfig (.good (Ex.digital .iOffsWDiff))]
    (fun w => decide (w.cfg.digitalOnly = true ∧ w.cfg.mode.family = .int ∧
      w.cfg.readDisturb = true) && Ex.hasXbar w fun x => x.rd.isSome) (by decide +kernel)
  rw [Bool.and_eq_true, decide_eq_true_iff] at h2
  exact ⟨w, h1, h2.1.1, h2.1.2.1, h2.1.2.2, Ex.hasXbar_spec h2.2⟩

/-! ## C54: an update frequency of zero is accepted -/

/-- `read_disturb_update_freq: 0` passes all checks; the first multiplication computes a remainder
modulo zero. -/
theorem C54_false_frequency : ∃ (w : World ℚ), Reach Ex.env false w ∧
    exeMvm Ex.env Ex.res Ex.vec Ex.mat 2 3 "" w = .error (.dead .modZero) := by
  obtain ⟨w, h1, h2⟩ := Ex.arrived (E := Ex.env) (b := false)
    (.good (Ex.disturb .bnn6 [("read_disturb_update_freq", .int 0)])) [.write Ex.mat 2 3]
    (fun w => Ex.dies (exeMvm Ex.env Ex.res Ex.vec Ex.mat 2 3 "" w) .modZero) (by decide +kernel)
  exact ⟨w, h1, Ex.dies_spec h2⟩

/-! ## C46: the configuration depends on the file only -/

/-- Loading the same file in two states gives the same values for all parameters that have a meaning
in the configuration, and the same stored document.

Full statement: the crossbars behave the same.  Missing: `read_disturb` and `adc_profile` keep their
previous values when the file does not lead to the block that sets them (see
`C46_false_disturb` and `C46_false_profile`), and whether the file is accepted depends on the previous
`resolution` (see `C46_false_accepted`). -/
theorem C46_effective_partial {w₁ w₂ w₁' w₂' : World K} (h₁ : setConfig E (.good j) w₁ = .ok w₁')
    (h₂ : setConfig E (.good j) w₂ = .ok w₂') :
    SameEffective w₁'.cfg w₂'.cfg ∧ w₁'.data = w₂'.data ∧
    (w₁'.cfg.digitalOnly = false → w₂'.cfg.readDisturb = w₁'.cfg.readDisturb ∧
      (w₁'.cfg.adcType ≠ .inf → w₂'.cfg.adcProfile = w₁'.cfg.adcProfile)) := by
  obtain ⟨_, _, _, _, a⟩ := setConfig_inv h₁
  obtain ⟨_, _, _, _, b⟩ := setConfig_inv h₂
  rcases a with ⟨a, _⟩ | ⟨_, a1, a2, a3⟩
  · cases a
  rcases b with ⟨b, _⟩ | ⟨_, b1, b2, b3⟩
  · cases b
  cases a1
  cases b1
  obtain ⟨h1, h2, _⟩ := apply_twice a3 b3
  exact ⟨h1, a2.trans b2.symm, h2⟩

example : ∃ w₁', setConfig Ex.env (.good (Ex.disturb .tnn1)) world0 = .ok w₁' ∧
    Ex.goes (setConfig Ex.env (.good (Ex.disturb .tnn1)) w₁') (fun _ => true) = true :=
  Ex.goes_spec (by decide +kernel)

/-- The same digital file runs with the read-disturb model in one state and without it in another. -/
theorem C46_false_disturb : ∃ (j : Json ℚ) (w₁ w₂ w₁' w₂' : World ℚ), Reach Ex.env false w₁ ∧
    Reach Ex.env false w₂ ∧ setConfig Ex.env (.good j) w₁ = .ok w₁' ∧
    setConfig Ex.env (.good j) w₂ = .ok w₂' ∧
    w₁'.cfg.readDisturb = true ∧ (∃ x, w₁'.xbar = some x ∧ x.rd.isSome = true) ∧
    w₂'.cfg.readDisturb = false ∧ (∃ x, w₂'.xbar = some x ∧ x.rd.isSome = false) := by
  obtain ⟨w₁, h1, h2⟩ := Ex.arrived (E := Ex.env) (b := false) (.good (Ex.disturb .bnn6)) []
    (fun w => Ex.goes (setConfig Ex.env (.good (Ex.digital .bnn6)) w) fun w =>
      w.cfg.readDisturb && Ex.hasXbar w fun x => x.rd.isSome) (by decide +kernel)
  obtain ⟨w₂, h3, h4⟩ := Ex.arrived (E := Ex.env) (b := false) (.good (Ex.digital .bnn6)) []
    (fun w => Ex.goes (setConfig Ex.env (.good (Ex.digital .bnn6)) w) fun w =>
      !w.cfg.readDisturb && Ex.hasXbar w fun x => !x.rd.isSome) (by decide +kernel)
  obtain ⟨w₁', h5, h6⟩ := Ex.goes_spec h2
  obtain ⟨w₂', h7, h8⟩ := Ex.goes_spec h4
  rw [Bool.and_eq_true] at h6 h8
  obtain ⟨x, h9, h10⟩ := Ex.hasXbar_spec h8.2
  exact ⟨_, w₁, w₂, w₁', w₂', h1, h3, h5, h7, h6.1, Ex.hasXbar_spec h6.2, by simpa using h8.1, x, h9,
    by simpa using h10⟩

/-- The same file with an ideal converter leaves profiling on in one state and off in another. -/
theorem C46_false_profile : ∃ (j : Json ℚ) (w₁ w₂ w₁' w₂' : World ℚ), Reach Ex.env false w₁ ∧
    Reach Ex.env false w₂ ∧ setConfig Ex.env (.good j) w₁ = .ok w₁' ∧
    setConfig Ex.env (.good j) w₂ = .ok w₂' ∧ w₁'.cfg.adcProfile = true ∧
    w₂'.cfg.adcProfile = false := by
  obtain ⟨w₁, h1, h2⟩ := Ex.arrived (E := Ex.env) (b := false)
    (.good (Ex.analog .bnn6 [("adc_type", .str "SYM_RANGE_ADC"), ("adc_profile", .bool true)])) []
    (fun w => Ex.goes (setConfig Ex.env (.good (Ex.analog .bnn6)) w) fun w => w.cfg.adcProfile)
    (by decide +kernel)
  obtain ⟨w₂, h3, h4⟩ := Ex.arrived (E := Ex.env) (b := false) (.good (Ex.digital .bnn6)) []
    (fun w => Ex.goes (setConfig Ex.env (.good (Ex.analog .bnn6)) w) fun w => !w.cfg.adcProfile)
    (by decide +kernel)
  obtain ⟨w₁', h5, h6⟩ := Ex.goes_spec h2
  obtain ⟨w₂', h7, h8⟩ := Ex.goes_spec h4
  exact ⟨_, w₁, w₂, w₁', w₂', h1, h3, h5, h7, h6, by simpa using h8⟩

/-- A file with resolution -1 is accepted; every file with a real converter, this one included, then
ends the program, although it is accepted in a new process. -/
theorem C46_false_accepted : ∃ (j : Json ℚ) (w₁ w₂ w₂' : World ℚ), Reach Ex.env false w₁ ∧
    Reach Ex.env false w₂ ∧ setConfig Ex.env (.good j) w₁ = .error (.dead .exited) ∧
    setConfig Ex.env (.good j) w₂ = .ok w₂' ∧ w₂'.cfg.resolution = 8 := by
  obtain ⟨w₁, h1, h2⟩ := Ex.arrived (E := Ex.env) (b := false)
    (.good (Ex.analog .bnn6 [("adc_type", .str "SYM_RANGE_ADC"), ("resolution", .int (-1))])) []
    (fun w => Ex.dies (setConfig Ex.env
      (.good (Ex.analog .bnn6 [("adc_type", .str "SYM_RANGE_ADC")])) w) .exited)
    (by decide +kernel)
  obtain ⟨w₂, h3, h4⟩ := Ex.arrived (E := Ex.env) (b := false) (.good (Ex.digital .bnn6)) []
    (fun w => Ex.goes (setConfig Ex.env
      (.good (Ex.analog .bnn6 [("adc_type", .str "SYM_RANGE_ADC")])) w) fun w =>
      decide (w.cfg.resolution = 8)) (by decide +kernel)
  obtain ⟨w₂', h5, h6⟩ := Ex.goes_spec h4
  exact ⟨_, w₁, w₂, w₂', h1, h3, Ex.dies_spec h2, h5, decide_eq_true_iff.1 h6⟩

end Acs.Props
