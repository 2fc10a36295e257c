import Verif.Lemmas.Build
import Verif.Props.ExApi

/-! # C81: when `set_config` returns -/

namespace Acs.Props

open Spec Finset

variable {K : Type} [Field K] [LinearOrder K] [IsStrictOrderedRing K] [FloorRing K]
variable {E : Env K} {cfg : Cfg K} {w w' : World K} {j : Json K}

/-! ## Crossbars -/

/-- A crossbar can be built from a configuration if and only if it is buildable. -/
theorem C81_built {rng : Nat} {hs : List (String × Hist K)} :
    (∃ x, mkXbar E cfg rng hs = .ok x) ↔ Buildable E cfg cfg := mkXbar_iff

/-- The constructor throws an exception if and only if it reaches the solver of the resistances of the wires with the
mapping I_TC_W_DIFF. -/
theorem C81_throws {rng : Nat} {hs : List (String × Hist K)} : mkXbar E cfg rng hs = .error .thrown ↔
    cfg.resolution ≤ 30 ∧ cfg.digitalOnly = false ∧ cfg.parasitics = true ∧ cfg.mode = .iTcWDiff := mkXbar_thrown

/-- The analog configurations of the examples are buildable; with parasitics all but one, which throws. -/
example : Buildable Ex.env (Ex.acfg .iOffsWDiff) (Ex.acfg .iOffsWDiff) ∧
    Buildable Ex.env { Ex.acfg .iDiffWDiff1 with parasitics := true } { Ex.acfg .iDiffWDiff1 with parasitics := true } ∧
    mkXbar Ex.env { Ex.acfg .iTcWDiff with parasitics := true } 0 [] = .error .thrown := by
  refine ⟨?_, ?_, C81_throws.2 (by decide)⟩ <;>
  exact ⟨by decide, by decide, fun _ => by decide, (fun h => nomatch h), (fun h => nomatch h), (fun h => nomatch h)⟩

/-- Slices that match the word length never prevent it. -/
theorem C81_matching (h : CfgOk cfg) (hi : cfg.mode.family = .int) :
    (∀ s ∈ cfg.split, s ≤ 30) ∧ ∀ s, s < cfg.split.length → SliceFits cfg s := by
  have h' : cfg.wBit ≤ 31 ∧ cfg.split.sum = cfg.wBit ∧ ∀ s ∈ cfg.split, s ≤ 30 := by
    unfold CfgOk at h
    cases hm : cfg.mode <;> simp only [hm] at h <;> rw [hm] at hi <;>
      first
      | exact ⟨h.2.1, h.2.2.1, h.2.2.2.1⟩
      | cases hi
  exact ⟨h'.2.2, fun s hs => fits_of h'.1 h'.2.1.le hs⟩

/-- Slices of 30 and 1 bits match a word length of 31. -/
example : SliceFits { Ex.acfg .iUintWOffs with wBit := 31, split := [30, 1] } 0 :=
  (C81_matching (cfg := { Ex.acfg .iUintWOffs with wBit := 31, split := [30, 1] })
    ⟨by decide, by decide, by decide, by decide, by decide, by decide⟩ rfl).2 0 (by decide)

/-- For words of at most 31 bits and slices of at most 30 bits, the offset of I_UINT_W_OFFS can be computed if and only
if the slices have no more bits than the word. -/
theorem C81_offset (h : cfg.wBit ≤ 31) (hs : ∀ s ∈ cfg.split, s ≤ 30) :
    (∀ s, s < cfg.split.length → SliceFits cfg s) ↔ cfg.split.sum ≤ cfg.wBit := by
  refine ⟨fun f => ?_, fun l s hs => fits_of h l hs⟩
  have e : wrap32 (cfg.wBit : Int) = cfg.wBit := wrap32_id (by constructor <;> omega)
  have := shiftsFrom_sum cfg.split (w := cfg.wBit) (by omega) (by omega) fun s hl => ⟨by
    have m := mapper_shift cfg hl
    rw [e] at m
    rw [m]
    exact (f s hl).1, getD_mem_iff.2 hs s hl⟩
  omega

/-- Slices of 2 and 2 bits do not fit a word of 3 bits. -/
example : ¬∀ s, s < 2 → SliceFits { Ex.acfg .iUintWOffs with split := [2, 2] } s :=
  fun h => absurd ((C81_offset (cfg := { Ex.acfg .iUintWOffs with split := [2, 2] }) (by decide) (by decide)).1 h) (by decide)

/-- With exact arithmetic the parameters of the read-disturb model are defined unless the decay vanishes. -/
theorem C81_decay (hE : ExactArith E) (v : K) : DecayDefined E v ↔ decay E v ≠ 0 := by
  have t : thermal32 E = thermal := by
    unfold thermal32 thermal Env.fmul
    simp only [Env.lit, hE.f32, hE.f64]
  have d : decay32 E v = decay E v := by
    unfold decay32 decay Env.fmul
    simp only [Env.lit, hE.f32, hE.f64, t]
  unfold DecayDefined
  rw [t, d, hE.f64]
  constructor
  · exact fun h => h.2.2
  · intro h
    refine ⟨by norm_num, ?_, h⟩
    unfold thermal
    norm_num

/-- It is for a read voltage of half a volt. -/
example : DecayDefined Ex.env (-1 / 2) :=
  (C81_decay ⟨fun _ => rfl, fun _ => rfl⟩ _).2 (by unfold decay thermal; norm_num [Ex.env, abs_of_neg])

/-! ## Calls -/

/-- `set_config` with a document returns if and only if it can release the crossbar it finds, the document is accepted,
and a crossbar can be built from what it gives. -/
theorem C81_set_config : (∃ w', setConfig E (.good j) w = .ok w') ↔ Releasable w ∧ ∃ c : Cfg K, FromDoc E j c ∧
    Admissible c ∧ (c.digitalOnly = false → c.adcType ≠ .inf → w.cfg.resolution ≠ -1) ∧ Buildable E w.cfg c :=
  setConfig_iff

/-- Loading the library with a document succeeds if and only if the document is accepted and a crossbar can be built
from what it gives. -/
theorem C81_boot : (∃ w, boot E (.good j) = .ok w) ↔
    ∃ c : Cfg K, FromDoc E j c ∧ Admissible c ∧ Buildable E cfg0 c := by
  rw [boot_iff, setConfig_iff]
  have : (world0 : World K).cfg.resolution ≠ -1 := by
    show (0 : Int) ≠ -1
    decide
  exact ⟨fun ⟨_, c, F, A, _, B⟩ => ⟨c, F, A, B⟩, fun ⟨c, F, A, B⟩ => ⟨.inl rfl, c, F, A, fun _ _ => this, B⟩⟩

/-- A configuration with read disturb and one with parasitics are such documents. -/
example : (∃ c, FromDoc Ex.env (Ex.disturb .bnn6) c ∧ Admissible c ∧ Buildable Ex.env cfg0 c) ∧
    ∃ c, FromDoc Ex.env (Ex.wired .iDiffWDiff1 1) c ∧ Admissible c ∧ Buildable Ex.env cfg0 c := by
  refine ⟨C81_boot.1 ?_, C81_boot.1 ?_⟩
  · obtain ⟨w, h, _⟩ := Ex.okAnd_spec (x := boot Ex.env (.good (Ex.disturb .bnn6))) (p := fun _ => true) (by decide +kernel)
    exact ⟨w, h⟩
  · obtain ⟨w, h, _⟩ := Ex.okAnd_spec (x := boot Ex.env (.good (Ex.wired .iDiffWDiff1 1))) (p := fun _ => true)
      (by decide +kernel)
    exact ⟨w, h⟩

/-- An exception reaches the caller of `set_config` with a document only for the analog mapping I_TC_W_DIFF with
parasitics; it leaves the new configuration without a crossbar. -/
theorem C81_exception (h : setConfig E (.good j) w = .error (.threw w')) : w'.xbar = none ∧ w'.data = j ∧
    FromDoc E j w'.cfg ∧ w'.cfg.digitalOnly = false ∧ w'.cfg.parasitics = true ∧ w'.cfg.mode = .iTcWDiff :=
  setConfig_exception h

/-- It does. -/
example : ∃ w' : World ℚ, setConfig Ex.env (.good (Ex.wired .iTcWDiff 1)) world0 = .error (.threw w') ∧ w'.cfg.M = 2 := by
  obtain ⟨w, h, p⟩ := Ex.throws_spec (x := setConfig Ex.env (.good (Ex.wired .iTcWDiff 1)) world0)
    (p := fun w => w.cfg.M == 2) (by decide +kernel)
  exact ⟨w, h, by simpa using p⟩

/-- Not every accepted document gives a crossbar: a converter of 31 bits, slices of 31 bits, slices that do not fit the
word of I_UINT_W_OFFS. -/
theorem C81_not_all : (∃ w, loadCfg Ex.env (.good (Ex.analog .bnn6 [("adc_type", .str "SYM_RANGE_ADC"),
      ("resolution", .int 31)])) world0 = .ok (w, true)) ∧
    setConfig Ex.env (.good (Ex.analog .bnn6 [("adc_type", .str "SYM_RANGE_ADC"), ("resolution", .int 31)])) world0 =
      .error (.dead .badCast) ∧
    setConfig Ex.env (.good (Ex.digital .iOffsWDiff [("SPLIT", .arr [.int 31])])) world0 = .error (.dead .overflow) ∧
    setConfig Ex.env (.good (Ex.digital .iUintWOffs [("SPLIT", .arr [.int 2, .int 2])])) world0 =
      .error (.dead .badShift) := by
  refine ⟨?_, Ex.dies_spec (by decide +kernel), Ex.dies_spec (by decide +kernel), Ex.dies_spec (by decide +kernel)⟩
  obtain ⟨⟨w', b⟩, h, p⟩ := Ex.goes_spec (x := loadCfg Ex.env (.good (Ex.analog .bnn6
    [("adc_type", .str "SYM_RANGE_ADC"), ("resolution", .int 31)])) world0) (p := fun r => r.2) (by decide +kernel)
  cases p
  exact ⟨w', h⟩

end Acs.Props
