import Verif.Lemmas.Load
import Verif.Props.ExApi

/-!
# C76, C77: configuration files

The configuration in use holds the values of the document it was made from; which documents are accepted.
-/

namespace Acs.Props

open Spec

variable {K : Type} [Field K] [LinearOrder K] [IsStrictOrderedRing K] [FloorRing K]
variable {E : Env K} {j : Json K} {w w' : World K}

/-! ## C76: the values of the document -/

/-- After `set_config`, all parameters that have a meaning are those of the file, with the documented defaults for
optional ones. -/
theorem C76_loaded (h : setConfig E (.good j) w = .ok w') : FromDoc E j w'.cfg := by
  obtain ⟨_, x, _, _, h4⟩ := setConfig_inv h
  rcases h4 with ⟨h4, _⟩ | ⟨j', e, _, h5⟩
  · cases h4
  · cases e
    exact loaded_of h5

/-- In every state a program reaches without surviving an exception, no configuration was ever accepted, or the
parameters are those of the current document, which contains all updates. -/
theorem C76_in_use (h : Reach E false w) : w.cfg = cfg0 ∨ FromDoc E w.data w.cfg := by
  generalize hb : false = b at h
  induction h with
  | boot h =>
    rcases boot_inv h with ⟨_, rfl⟩ | ⟨j, x, _, rfl, h2, _⟩
    · exact .inl rfl
    · exact .inr (loaded_of h2)
  | step _ h' ih =>
    rcases after_data h' with ⟨e1, e2⟩ | ⟨c, e⟩
    · rw [e1, e2]
      exact ih
    · exact .inr (loaded_of e)
  | caught _ he _ _ => rw [he] at hb; cases hb

/-- A file with read disturb: the strategy is the one of the file, the frequency the default. -/
example : ∃ w' : World ℚ, setConfig Ex.env (.good (Ex.disturb .bnn6)) world0 = .ok w' ∧
    FromDoc Ex.env (Ex.disturb .bnn6) w'.cfg ∧ w'.cfg.digitalOnly = false ∧ w'.cfg.readDisturb = true := by
  obtain ⟨w', h, p⟩ := Ex.goes_spec (x := setConfig Ex.env (.good (Ex.disturb .bnn6)) world0)
    (p := fun w => !w.cfg.digitalOnly && w.cfg.readDisturb) (by decide +kernel)
  rw [Bool.and_eq_true, Bool.not_eq_true'] at p
  exact ⟨w', h, C76_loaded h, p.1, p.2⟩

/-- An update of the document. -/
example : ∃ w, Reach Ex.env false w ∧ (w.cfg.mode == .bnn6 && w.cfg.lrs == 7) = true :=
  Ex.arrived (.good (Ex.analog .bnn6)) [.update (.good (.obj [("LRS", .int 7)]))] _ (by decide +kernel)

/-- After an exception that the caller survives, the document can be gone while the configuration stays. -/
theorem C76_needs_no_exception : ∃ w : World ℚ, Reach Ex.env true w ∧ w.cfg ≠ cfg0 ∧ ¬FromDoc Ex.env w.data w.cfg := by
  obtain ⟨w, h, p⟩ := Ex.arrived (E := Ex.env) (b := true) (.good (Ex.digital .bnn6)) [] 
    (fun w => w.cfg.M == 2 && Ex.goes (release w) fun _ => true) (by decide +kernel)
  rw [Bool.and_eq_true] at p
  have hM : w.cfg.M = 2 := by simpa using p.1
  obtain ⟨u, hr, _⟩ := Ex.goes_spec p.2
  have e : w.drop.cfg = w.cfg := by unfold World.drop; split <;> rfl
  refine ⟨{ w.drop with data := .null }, .caught (c := .setConfig (.bad .null)) h rfl ?_, ?_, ?_⟩
  · simp only [after, setConfig, hr, loadCfg]
    rfl
  · intro h0
    have h1 : w.drop.cfg.M = 0 := congrArg Cfg.M h0
    rw [e, hM] at h1
    cases h1
  · intro F
    obtain ⟨v, hv, _⟩ := F.M
    cases hv

/-! ## C77: accepted documents -/

/-- A document is accepted if and only if there are parameters it gives that satisfy the constraints, and, for a
real converter, the resolution in use before is not -1. -/
theorem C77_accepted : (∃ w', loadCfg E (.good j) w = .ok (w', true)) ↔
    ∃ c : Cfg K, FromDoc E j c ∧ Admissible c ∧
      (c.digitalOnly = false → c.adcType ≠ .inf → w.cfg.resolution ≠ -1) := by
  constructor
  · rintro ⟨w', h⟩
    simp only [loadCfg] at h
    rw [rbind_ok] at h
    obtain ⟨c, h, _⟩ := h
    rw [lift_ok] at h
    exact ⟨c, loaded_of h, applyConfig_ok h, resolution_of h⟩
  · rintro ⟨c, F, A, hr⟩
    obtain ⟨c', e⟩ := accepted_of (c := w.cfg) F A hr
    simp only [loadCfg, e]
    exact ⟨_, rfl⟩

/-- In a process that has not loaded anything the condition on the resolution is void. -/
theorem C77_accepted_first : (∃ w', loadCfg E (.good j) (world0 : World K) = .ok (w', true)) ↔
    ∃ c : Cfg K, FromDoc E j c ∧ Admissible c := by
  rw [C77_accepted]
  have : (world0 : World K).cfg.resolution ≠ -1 := by
    show (0 : Int) ≠ -1
    decide
  exact ⟨fun ⟨c, h, h', _⟩ => ⟨c, h, h'⟩, fun ⟨c, h, h'⟩ => ⟨c, h, h', fun _ _ => this⟩⟩

/-- Otherwise the program ends, or a number does not fit its type; no exception reaches the caller. -/
theorem C77_refused (h : ¬∃ w', loadCfg E (.good j) w = .ok (w', true)) :
    loadCfg E (.good j) w = .error (.dead .exited) ∨ loadCfg E (.good j) w = .error (.dead .badCast) := by
  have R := refuse_apply (E := E) (j := j) (c := w.cfg)
  cases e : applyConfig E j w.cfg with
  | ok c => exact absurd ⟨{ w with cfg := c, data := j }, by simp only [loadCfg, e]; rfl⟩ h
  | error f =>
    rw [e] at R
    rcases R with rfl | rfl <;> simp only [loadCfg, e]
    · exact .inl rfl
    · exact .inr rfl

/-- A document with a real converter is accepted by a new process; one that asks for unary weights of three bits in
TNN_IV, one without `verbose` and one with a number of rows out of range are not. -/
example : (∃ w', loadCfg Ex.env (.good (Ex.analog .bnn6 [("adc_type", .str "SYM_RANGE_ADC"), ("resolution", .int 8)]))
      world0 = .ok (w', true)) ∧
    loadCfg Ex.env (.good (Ex.digital .tnn4 [("W_BIT", .int 3)])) world0 = .error (.dead .exited) ∧
    loadCfg Ex.env (.good (Ex.digital .bnn6 [("verbose", .int 0)])) world0 = .error (.dead .exited) ∧
    loadCfg Ex.env (.good (Ex.digital .bnn6 [("M", .num (-5/2))])) world0 = .error (.dead .badCast) := by
  refine ⟨?_, Ex.dies_spec (by decide +kernel), Ex.dies_spec (by decide +kernel), Ex.dies_spec (by decide +kernel)⟩
  obtain ⟨⟨w', b⟩, h, p⟩ := Ex.goes_spec (x := loadCfg Ex.env (.good (Ex.analog .bnn6
    [("adc_type", .str "SYM_RANGE_ADC"), ("resolution", .int 8)])) world0) (p := fun r => r.2) (by decide +kernel)
  cases p
  exact ⟨w', h⟩

/-- The same document is refused when the previous resolution is -1. -/
example : ∃ w : World ℚ, Reach Ex.env false w ∧ w.cfg.resolution = -1 ∧
    loadCfg Ex.env (.good (Ex.analog .bnn6 [("adc_type", .str "SYM_RANGE_ADC"), ("resolution", .int 8)])) w =
      .error (.dead .exited) := by
  obtain ⟨w, h, p⟩ := Ex.arrived (E := Ex.env) (b := false)
    (.good (Ex.analog .bnn6 [("adc_type", .str "SYM_RANGE_ADC"), ("resolution", .int (-1))])) []
    (fun w => w.cfg.resolution == -1 && Ex.dies (loadCfg Ex.env (.good (Ex.analog .bnn6
      [("adc_type", .str "SYM_RANGE_ADC"), ("resolution", .int 8)])) w) .exited) (by decide +kernel)
  rw [Bool.and_eq_true] at p
  exact ⟨w, h, by simpa using p.1, Ex.dies_spec p.2⟩

end Acs.Props
