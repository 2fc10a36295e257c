import Verif.Lemmas.SameCfg
import Verif.Props.Config

/-!
# C46: the same file gives the same behaviour

The crossbars that two states get from the same file answer every list of calls alike, up to the exceptions shown in
`Props/Config.lean`.
-/

namespace Acs.Props

open Spec

variable {K : Type} [Field K] [LinearOrder K] [IsStrictOrderedRing K] [FloorRing K]
variable {E : Env K} {j : Json K} {w₁ w₂ w₁' w₂' : World K}

/-- Loading the same digital file in any two states gives crossbars that answer every list of calls with the same
result buffers and codes, or fail in the same way; and the cells are the same afterwards.

Full statement: the same for every file.  Missing: see `C46_behaves_partial` for analog files; whether the file is
accepted depends on the previous state (see `C46_false_accepted`). -/
theorem C46_digital_partial (h₁ : setConfig E (.good j) w₁ = .ok w₁') (h₂ : setConfig E (.good j) w₂ = .ok w₂')
    (hd : w₁'.cfg.digitalOnly = true) (ops : List Op) : heard (serve E w₂' ops) = heard (serve E w₁' ops) ∧
    ∀ u rs cs, serve E w₁' ops = .ok (u, rs, cs) → ∃ u' y y', serve E w₂' ops = .ok (u', rs, cs) ∧
      u.xbar = some y ∧ u'.xbar = some y' ∧ y'.mapper.core.gd = y.mapper.core.gd := by
  obtain ⟨_, x, a1, a2, _⟩ := setConfig_inv h₁
  obtain ⟨_, y, b1, b2, _⟩ := setConfig_inv h₂
  have A : DAlike w₁'.cfg w₂'.cfg := ⟨(C46_effective_partial h₁ h₂).1, hd⟩
  have S := DAlike.twins_serve (ops := ops) ⟨A, x, y, a1, b1, A.mkXbar a2 b2, mkXbar_shape a2, mkXbar_shape b2⟩
  refine ⟨S.heard_eq, fun u rs cs h => ?_⟩
  obtain ⟨v, h1, T⟩ := S.of_ok h
  obtain ⟨z, z', h2, h3, h4, _⟩ := T.xbars
  exact ⟨v, z, z', h1, h2, h3, h4.gd⟩

/-- A digital file, loaded in a new process and in one that ran the read-disturb model: the second crossbar keeps
that model. -/
example : ∃ w₂ w₁' w₂' : World ℚ, setConfig Ex.env (.good (Ex.disturb .bnn6)) world0 = .ok w₂ ∧
    setConfig Ex.env (.good (Ex.digital .bnn6)) world0 = .ok w₁' ∧
    setConfig Ex.env (.good (Ex.digital .bnn6)) w₂ = .ok w₂' ∧ w₁'.cfg.digitalOnly = true ∧
    w₁'.cfg.readDisturb = false ∧ w₂'.cfg.readDisturb = true := by
  obtain ⟨w₂, h1, h2⟩ := Ex.goes_spec (x := setConfig Ex.env (.good (Ex.disturb .bnn6)) world0)
    (p := fun w => Ex.goes (setConfig Ex.env (.good (Ex.digital .bnn6)) w) fun w => w.cfg.readDisturb)
    (by decide +kernel)
  obtain ⟨w₁', h3, h4⟩ := Ex.goes_spec (x := setConfig Ex.env (.good (Ex.digital .bnn6)) world0)
    (p := fun w => w.cfg.digitalOnly && !w.cfg.readDisturb) (by decide +kernel)
  obtain ⟨w₂', h5, h6⟩ := Ex.goes_spec h2
  rw [Bool.and_eq_true] at h4
  exact ⟨w₂, w₁', w₂', h1, h3, h5, h4.1, by simpa using h4.2, h6⟩

/-- Loading the same analog file in two states gives crossbars that answer every list of calls with the same result
buffers and codes, or fail in the same way; and all getters report the same afterwards.

Full statement: without the hypotheses on the random generator, the profile and `adc_profile`.  Missing: the generator
is not seeded again and the profile is not cleared by loading a file; with an ideal converter the switch `adc_profile`
keeps its previous value (see `C46_false_profile`). -/
theorem C46_behaves_partial (h₁ : setConfig E (.good j) w₁ = .ok w₁') (h₂ : setConfig E (.good j) w₂ = .ok w₂')
    (ha : w₁'.cfg.digitalOnly = false) (hg : drawn w₂ = drawn w₁) (hp : profileOf w₂ = profileOf w₁)
    (hi : w₁'.cfg.adcType = .inf → w₂'.cfg.adcProfile = w₁'.cfg.adcProfile) (ops : List Op) :
    heard (serve E w₂' ops) = heard (serve E w₁' ops) ∧
    ∀ u rs cs, serve E w₁' ops = .ok (u, rs, cs) → ∃ u' y y', serve E w₂' ops = .ok (u', rs, cs) ∧
      u.xbar = some y ∧ u'.xbar = some y' ∧ LooksAlike y y' := by
  obtain ⟨_, x, a1, a2, _⟩ := setConfig_inv h₁
  obtain ⟨_, y, b1, b2, _⟩ := setConfig_inv h₂
  obtain ⟨e1, _, e2⟩ := C46_effective_partial h₁ h₂
  obtain ⟨e3, e4⟩ := e2 ha
  have A : Alike w₁'.cfg w₂'.cfg := ⟨e1, ha, e3, by
    by_cases h : w₁'.cfg.adcType = .inf
    · exact hi h
    · exact e4 h⟩
  have hdr : ∀ w : World K, w.drop.rng = drawn w := fun w => by cases h : w.xbar <;> simp only [World.drop, drawn, h]
  have hdh : ∀ w : World K, w.drop.hists = profileOf w := fun w => by cases h : w.xbar <;> simp only [World.drop, profileOf, h]
  rw [hdr, hdh] at a2 b2
  rw [hg, hp] at b2
  obtain ⟨c1, c2⟩ := A.mkXbar a2 b2
  have S := Alike.twins_serve (ops := ops) (⟨A, a1, b1.trans (congrArg some c2), c1, mkXbar_shape a2⟩ :
    Alike.Twins E w₁' w₂' y.mapper.core.adc x)
  refine ⟨S.heard_eq, fun u rs cs h => ?_⟩
  obtain ⟨v, h1, z, T⟩ := S.of_ok h
  exact ⟨v, z, _, h1, T.left, T.right, rfl, rfl, rfl, ⟨rfl, rfl, rfl, rfl, rfl⟩, rfl, rfl⟩

/-- A file with read disturb, loaded in a new process and in one with a real converter of three bits: the ideal
converter inherits the three bits, which do not matter. -/
example : ∃ w₂ w₁' w₂' : World ℚ, setConfig Ex.env
      (.good (Ex.analog .bnn6 [("adc_type", .str "SYM_RANGE_ADC"), ("resolution", .int 3)])) world0 = .ok w₂ ∧
    setConfig Ex.env (.good (Ex.disturb .bnn6)) world0 = .ok w₁' ∧
    setConfig Ex.env (.good (Ex.disturb .bnn6)) w₂ = .ok w₂' ∧ w₁'.cfg.digitalOnly = false ∧
    drawn w₂ = drawn (world0 : World ℚ) ∧ profileOf w₂ = profileOf (world0 : World ℚ) ∧
    w₂'.cfg.adcProfile = w₁'.cfg.adcProfile ∧ w₂'.cfg.resolution = 3 ∧ w₁'.cfg.resolution ≠ 3 := by
  obtain ⟨w₂, h1, h2⟩ := Ex.goes_spec (x := setConfig Ex.env
      (.good (Ex.analog .bnn6 [("adc_type", .str "SYM_RANGE_ADC"), ("resolution", .int 3)])) world0)
    (p := fun w => decide (drawn w = 0 ∧ (profileOf w).length = 0) &&
      Ex.goes (setConfig Ex.env (.good (Ex.disturb .bnn6)) w) fun w =>
      !w.cfg.adcProfile && decide (w.cfg.resolution = 3)) (by decide +kernel)
  obtain ⟨w₁', h3, h4⟩ := Ex.goes_spec (x := setConfig Ex.env (.good (Ex.disturb .bnn6)) world0)
    (p := fun w => !w.cfg.digitalOnly && !w.cfg.adcProfile && decide (w.cfg.resolution ≠ 3)) (by decide +kernel)
  rw [Bool.and_eq_true, decide_eq_true_iff] at h2
  obtain ⟨w₂', h5, h6⟩ := Ex.goes_spec h2.2
  rw [Bool.and_eq_true, decide_eq_true_iff] at h6
  rw [Bool.and_eq_true, Bool.and_eq_true, decide_eq_true_iff] at h4
  exact ⟨w₂, w₁', w₂', h1, h3, h5, by simpa using h4.1.1, h2.1.1, List.length_eq_zero_iff.1 h2.1.2,
    by rw [show w₂'.cfg.adcProfile = false by simpa using h6.1, show w₁'.cfg.adcProfile = false by simpa using h4.1.2],
    h6.2, h4.2⟩

end Acs.Props
