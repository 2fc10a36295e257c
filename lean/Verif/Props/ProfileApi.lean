import Verif.Lemmas.ProfileInv
import Verif.Props.Profile
import Verif.Props.ExApi

/-! # The converter profile of a session (C63, and more on C49 and C59) -/

set_option linter.unusedSectionVars false

namespace Acs.Ex

open Spec

/-- A configuration that profiles with bins of width 1. -/
def profJson (lrs : Int) : File ℚ :=
  .good (analog .bnn6 [("adc_type", .str "SYM_RANGE_ADC"), ("adc_profile", .bool true),
    ("adc_profile_bin_size", .int 1), ("LRS", .int lrs)])

/-- Write the first column of a matrix and multiply with it. -/
def profUse : List (Call ℚ) := [.write mat 2 1, .mvm res vec mat 2 1 "conv"]

/-- An update that throws, after changing the configuration: the mapping has no model of the wires. -/
def failing : Json ℚ :=
  .obj [("parasitics", .bool true), ("V_read", .num (-1 / 2)), ("w_res", .int 1), ("m_mode", .str "I_TC_W_DIFF")]

end Acs.Ex

namespace Acs.Props

open Spec

section
variable {K : Type} [Field K] [LinearOrder K] [IsStrictOrderedRing K] [FloorRing K]
variable {E : Env K} {w w' : World K} {c : Call K}

/-- C63.  Loading and updating configurations, also when it ends with an exception, keeps the converter profile and
does not reset the random generator. -/
theorem C63_configuration_keeps (hc : configures c) (h : after E w c = .ok w' ∨ after E w c = .error (.threw w')) :
    profileOf w' = profileOf w ∧ drawn w' = drawn w := by
  have key : RSat (Globals w) (Globals w) (after E w c) := by
    cases c with
    | setConfig f => exact globals_set
    | update d => exact globals_update.map fun _ h => h
    | updatePb d => exact globals_updatePb
    | write => cases hc
    | mvm => cases hc
    | mvmPb => cases hc
  rcases h with h | h <;> rw [h] at key <;> exact key

/-- C63.  Writing a matrix, also when it fails, keeps the converter profile. -/
theorem C63_write_keeps {mat : Vec Int} {m n : Int}
    (h : after E w (.write mat m n) = .ok w' ∨ after E w (.write mat m n) = .error (.threw w')) :
    profileOf w' = profileOf w := by
  have key : RSat (fun w' => profileOf w' = profileOf w) (fun w' => profileOf w' = profileOf w)
      (after E w (.write mat m n)) := profile_cpy.map fun _ h => h
  rcases h with h | h <;> rw [h] at key <;> exact key

theorem seen_mvm {x : Xbar K} {r : Xbar K × Vec Int} {res vec mat : Vec Int} {m n : Nat} {l : String}
    (hr : Reach E false w) (hx : w.xbar = some x) (h : xMvm E w.cfg x res vec mat m n l = .ok r) (l' : String) :
    seen r.1.mapper.aux.hists l' = seen (profileOf w) l' + shown w l' l m := by
  have e := (prof_xMvm ((inv_reach hr).xbar x hx).core.mode).of_ok h
  have ep : profileOf w = x.mapper.aux.hists := by unfold profileOf; rw [hx]
  rw [ep]
  unfold shown
  by_cases hl : l = l'
  · subst hl
    cases hp : w.cfg.adcProfile with
    | false => simp [e.off hp]
    | true =>
      rw [e.on hp]
      cases hd : w.cfg.digitalOnly <;> simp
  · rw [if_neg (fun h => hl h.2.2)]
    unfold seen
    rw [e.else_ l' (Ne.symm hl)]
    simp

/-- C63.  A multiplication adds to the profile of its layer exactly the values it converts, if the current
configuration is analog and profiles; the other layers keep theirs. -/
theorem C63_multiplication_counts {res vec mat r : Vec Int} {m : Nat} {n : Int} {l : String} (hr : Reach E false w)
    (hm : m < 2147483648) (h : exeMvm E res vec mat m n l w = .ok (w', r, 0)) (l' : String) :
    seen (profileOf w') l' = seen (profileOf w) l' + shown w l' l m := by
  rcases exeMvm_inv h with ⟨_, _, h, _⟩ | ⟨x, x', hx, _, _, h2, rfl⟩
  · cases h
  · rw [toSize_cast hm] at h2
    exact seen_mvm hr hx h2 l'

/-- C63.  After any session, with any number of configurations, the profile of a layer has counted exactly the
values its multiplications showed to the profiler. -/
theorem C63_session_counts {l : String} {k : Nat} (h : Shown E l k w) : seen (profileOf w) l = k := by
  suffices Reach E false w ∧ seen (profileOf w) l = k from this.2
  induction h with
  | boot h =>
    refine ⟨.boot h, ?_⟩
    rcases boot_inv h with ⟨_, rfl⟩ | ⟨j, x, _, h2, h3, h4, h5⟩
    · rfl
    · unfold profileOf
      rw [h4]
      dsimp only
      rw [(mkXbar_inv h5).2.1]
      rfl
  | configure _ hc h' ih => exact ⟨.step ih.1 h', by rw [(C63_configuration_keeps hc (.inl h')).1]; exact ih.2⟩
  | write _ h' ih => exact ⟨.step ih.1 h', by rw [C63_write_keeps (.inl h')]; exact ih.2⟩
  | @mvm k w w' res vec mat r m n l' _ hm h' ih =>
    refine ⟨.step (c := .mvm res vec mat m n l') ih.1 ?_, ?_⟩
    · show Prod.fst <$> exeMvm E res vec mat m n l' w = _
      rw [h']; rfl
    · rw [C63_multiplication_counts ih.1 hm h', ih.2]
      push_cast; rfl
  | @rejected k w w' res vec mat r m n l' _ h' ih =>
    rcases exeMvm_inv h' with ⟨rfl, _⟩ | ⟨_, _, _, _, h, _⟩
    · exact ih
    · cases h
  | @mvmPb k w w' res vec mat r m n z _ hm h' ih =>
    refine ⟨.step (c := .mvmPb res vec mat m n) ih.1 ?_, ?_⟩
    · show Prod.fst <$> exeMvmPb E res vec mat m n w = _
      rw [h']; rfl
    · obtain ⟨x, x', hx, _, h2, rfl⟩ := exeMvmPb_inv h'
      rw [toSize_cast hm] at h2
      rw [show profileOf { w with xbar := some x' } = x'.mapper.aux.hists from rfl, seen_mvm ih.1 hx h2, ih.2]
      push_cast; rfl

/-- C59.  The report of the library has one entry per profiled layer, in order: the report of its histogram. -/
theorem C59_all_layers {hs : List (String × Hist K)} {rs : List (String × Report K)} :
    profileReport E hs = .ok rs ↔ List.Forall₂ (fun p q => q.1 = p.1 ∧ p.2.report E = .ok q.2) hs rs := by
  induction hs generalizing rs with
  | nil =>
    constructor
    · intro h
      rw [profileReport, ok_inj] at h
      rw [← h]
      exact .nil
    · intro h
      cases h
      rfl
  | cons p t ih =>
    obtain ⟨l, g⟩ := p
    constructor
    · intro h
      rw [profileReport, bind_eq_ok] at h
      obtain ⟨r, h1, h⟩ := h
      rw [bind_eq_ok] at h
      obtain ⟨rs', h2, h⟩ := h
      rw [ok_inj] at h
      rw [← h]
      exact .cons ⟨rfl, h1⟩ (ih.1 h2)
    · intro h
      cases h with
      | @cons _ q _ rs' h1 h2 =>
        obtain ⟨l', r⟩ := q
        obtain ⟨rfl, h1⟩ := h1
        rw [profileReport, show g.report E = _ from h1, ok_bind, ih.2 h2, ok_bind]

end

/-- The calls after loading a configuration file do not fail because of what was done with the library before. -/
def ReconfigureClaim : Prop :=
  ∀ (before cs : List (Call ℚ)) (f : File ℚ) (w w₁ : World ℚ),
    Ex.calls Ex.env world0 before = .ok w → Ex.calls Ex.env world0 (.setConfig f :: cs) = .ok w₁ →
    ∃ w₂, Ex.calls Ex.env w (.setConfig f :: cs) = .ok w₂

/-- C49, sessions: false.  The histogram of a layer keeps the range of the configuration under which the
layer was profiled first; after loading a configuration with a larger LRS the same calls, which are fine in a fresh
process, write behind the histogram. -/
theorem C49_false_reconfigured : ¬ReconfigureClaim := fun hc => by
  obtain ⟨w, h1, h2⟩ := Ex.goes_spec (x := Ex.calls Ex.env world0 (.setConfig (Ex.profJson 10) :: Ex.profUse))
    (p := fun w => Ex.dies (Ex.calls Ex.env w (.setConfig (Ex.profJson 100) :: Ex.profUse)) .oob)
    (by decide +kernel)
  obtain ⟨w₁, h3, _⟩ := Ex.goes_spec (x := Ex.calls Ex.env world0 (.setConfig (Ex.profJson 100) :: Ex.profUse))
    (p := fun _ => true) (by decide +kernel)
  obtain ⟨w₂, h4⟩ := hc _ _ _ _ _ h1 h3
  rw [Ex.dies_spec h2] at h4
  cases h4

-- The session theorem on two configurations: loaded, multiplied, loaded again, multiplied again.
example : ∃ w, Shown Ex.env "conv" 4 w ∧ seen (profileOf w) "conv" = 4 := by
  obtain ⟨w0, b, h⟩ := Ex.okAnd_spec (x := boot Ex.env (Ex.profJson 10)) (p := fun w =>
    Ex.goes (after Ex.env w (.write Ex.mat 2 1)) fun w1 =>
    Ex.goes (exeMvm Ex.env Ex.res Ex.vec Ex.mat (2 : Nat) 1 "conv" w1) fun r1 =>
    Ex.goes (after Ex.env r1.1 (.setConfig (Ex.profJson 9))) fun w2 =>
    Ex.goes (after Ex.env w2 (.write Ex.mat 2 1)) fun w3 =>
    Ex.goes (exeMvm Ex.env Ex.res Ex.vec Ex.mat (2 : Nat) 1 "conv" w3) fun r2 =>
      decide (r1.2.2 = 0 ∧ r2.2.2 = 0 ∧ 0 + shown w1 "conv" "conv" 2 + shown w3 "conv" "conv" 2 = 4))
    (by decide +kernel)
  obtain ⟨w1, h1, h⟩ := Ex.goes_spec h
  obtain ⟨⟨w1', r1, z1⟩, h2, h⟩ := Ex.goes_spec h
  obtain ⟨w2, h3, h⟩ := Ex.goes_spec h
  obtain ⟨w3, h4, h⟩ := Ex.goes_spec h
  obtain ⟨⟨w4, r2, z2⟩, h5, h⟩ := Ex.goes_spec h
  obtain ⟨rfl, rfl, e⟩ : z1 = 0 ∧ z2 = 0 ∧ 0 + shown w1 "conv" "conv" 2 + shown w3 "conv" "conv" 2 = 4 := of_decide_eq_true h
  have hs := ((((Shown.boot (l := "conv") b).write h1).mvm (by decide) h2).configure (c := .setConfig (Ex.profJson 9)) trivial h3).write h4 |>.mvm (by decide) h5
  rw [e] at hs
  exact ⟨w4, hs, C63_session_counts hs⟩

-- A failing update keeps the profile too.
example : ∃ w w', after Ex.env w (.update (.good Ex.failing)) = .error (.threw w') ∧
    seen (profileOf w') "conv" = 2 := by
  obtain ⟨w, h1, h2⟩ := Ex.goes_spec (x := Ex.calls Ex.env world0 (.setConfig (Ex.profJson 10) :: Ex.profUse))
    (p := fun w => seen (profileOf w) "conv" == 2 &&
      Ex.throws (after Ex.env w (.update (.good Ex.failing))) fun _ => true) (by decide +kernel)
  simp only [Bool.and_eq_true, beq_iff_eq] at h2
  obtain ⟨w', h3, _⟩ := Ex.throws_spec h2.2
  exact ⟨w, w', h3, by rw [(C63_configuration_keeps (c := .update _) trivial (.inr h3)).1]; exact h2.1⟩

-- Two layers are reported separately.
example : ∃ w rs, Ex.calls Ex.env world0 (.setConfig (Ex.profJson 10) :: Ex.profUse ++
      [.mvm Ex.res Ex.vec Ex.mat 1 1 "fc"]) = .ok w ∧
    profileReport Ex.env (profileOf w) = .ok rs ∧ rs.length = 2 := by
  obtain ⟨w, h1, h2⟩ := Ex.goes_spec (x := Ex.calls Ex.env world0 (.setConfig (Ex.profJson 10) :: Ex.profUse ++
      [.mvm Ex.res Ex.vec Ex.mat 1 1 "fc"]))
    (p := fun w => Ex.okAnd (profileReport Ex.env (profileOf w)) fun rs => rs.length == 2) (by decide +kernel)
  obtain ⟨rs, h3, h4⟩ := Ex.okAnd_spec h2
  exact ⟨w, rs, h1, h3, by simpa using h4⟩

end Acs.Props
