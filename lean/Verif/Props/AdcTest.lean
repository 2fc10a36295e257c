import Verif.Lemmas.AdcTestFile
import Verif.Props.Reading
import Verif.Props.Shipped

/-!
# C92: the converter tests
-/

set_option linter.unusedSectionVars false

namespace Acs.Props

open Finset Spec

section
variable {K : Type} [Field K] [LinearOrder K] [IsStrictOrderedRing K] [FloorRing K]
variable {E : Env K} {cfg : Cfg K} {x : Xbar K} {w w' : World K} {ops : List Op} {k : Nat} {md : Mode} {b : Int}

/-- C92.  `pyRound y` is an integer nearest to `y`, and the even one if there are two. -/
theorem C92_rounding (y : K) (z : Int) :
    |y - pyRound y| ≤ 1 / 2 ∧ |y - pyRound y| ≤ |y - z| ∧ (|y - z| = |y - pyRound y| → z ≠ pyRound y → pyRound y % 2 = 0) := by
  obtain ⟨k, t, rfl, h0, h1⟩ : ∃ (k : Int) (t : K), y = k + t ∧ 0 ≤ t ∧ t < 1 :=
    ⟨⌊y⌋, y - ⌊y⌋, by ring, sub_nonneg.2 (Int.floor_le y), by linarith [Int.lt_floor_add_one y]⟩
  have hf : ⌊(k : K) + t⌋ = k := by
    rw [Int.floor_intCast_add, Int.floor_eq_zero_iff.2 ⟨h0, h1⟩, add_zero]
  have hz : (z : K) ≤ k ∨ (k : K) + 1 ≤ z := by
    rcases le_or_gt z k with h | h
    · exact .inl (Int.cast_le.2 h)
    · exact .inr (by exact_mod_cast h)
  unfold pyRound
  rw [hf, add_sub_cancel_left]
  split
  · next h =>
    have ht : t ≤ 1 / 2 := h.elim le_of_lt fun h => h.1.le
    rw [add_sub_cancel_left, abs_of_nonneg h0]
    refine ⟨ht, ?_, fun e hne => ?_⟩
    · rcases hz with hz | hz
      · rw [abs_of_nonneg] <;> linarith
      · rw [abs_of_nonpos] <;> linarith
    · rcases h with h | h
      · exfalso
        rcases hz with hz | hz
        · rw [abs_of_nonneg (by linarith)] at e
          exact hne (by exact_mod_cast (by linarith : (z : K) = k))
        · rw [abs_of_nonpos (by linarith)] at e
          linarith
      · exact h.2
  · next h =>
    rw [not_or, not_lt] at h
    have ht : (k : K) + t - ((k + 1 : Int) : K) = t - 1 := by push_cast; ring
    rw [ht, abs_of_nonpos (by linarith)]
    refine ⟨by linarith [h.1], ?_, fun e hne => ?_⟩
    · rcases hz with hz | hz
      · rw [abs_of_nonneg] <;> linarith [h.1]
      · rw [abs_of_nonpos] <;> linarith
    · rcases hz with hz | hz
      · rw [abs_of_nonneg (by linarith)] at e
        have e1 : t = 1 / 2 := le_antisymm (by linarith) h.1
        have h2 : ¬k % 2 = 0 := fun h' => h.2 ⟨e1, h'⟩
        omega
      · rw [abs_of_nonpos (by linarith)] at e
        exact absurd (by exact_mod_cast (by push_cast; linarith : (z : K) = ((k + 1 : Int) : K))) hne

/-! ## Sessions -/

/-- C92.  With one slice, one input bit and a converter for all currents, every legal sequence of calls on a new
crossbar passes the assertion of the tests, for every mapping except `I_UINT_W_OFFS`. -/
theorem C92_session (hE : ExactArith E) (hO : OneSlice cfg) (hm : cfg.mode ≠ .iUintWOffs) (hok : CfgOk cfg) (hid : Ideal cfg)
    (hgcc : cfg.mode = .iOffsWDiff → E.strict = false) {rng : Nat} {hists : List (String × Hist K)}
    (hx : mkXbar E cfg rng hists = .ok x) (hl : LegalOps cfg k [] ops)
    (hC : AllReadable cfg (fun _ => maxRange cfg) [] ops) :
    ∃ x' rs, exec E cfg x ops = .ok (x', rs) ∧ AnswersTested cfg 0 [] ops rs := by
  obtain ⟨x', rs, h1, h2⟩ := C91_session hE hok hid hgcc hx hl hC
  exact ⟨x', rs, h1, answers_tested hO (fun h => absurd h hm) (fun _ => rfl) .nil hl h2⟩

/-- C92.  `I_UINT_W_OFFS` passes it too if the conductance of the lowest state is a whole number of units, -/
theorem C92_offset_whole (hE : ExactArith E) (hO : OneSlice cfg) (hm : cfg.mode = .iUintWOffs) (hw : WholeLeakage cfg)
    (hok : CfgOk cfg) (hid : Ideal cfg) {rng : Nat} {hists : List (String × Hist K)}
    (hx : mkXbar E cfg rng hists = .ok x) (hl : LegalOps cfg k [] ops)
    (hC : AllReadable cfg (fun _ => maxRange cfg) [] ops) :
    ∃ x' rs, exec E cfg x ops = .ok (x', rs) ∧ AnswersTested cfg 0 [] ops rs := by
  obtain ⟨x', rs, h1, h2⟩ := C91_session hE hok hid (fun h => by rw [hm] at h; cases h) hx hl hC
  exact ⟨x', rs, h1, answers_tested hO (fun _ => .inr ⟨rfl, hw⟩) (fun h => absurd hm h) .nil hl h2⟩

/-- C92.  and misses it by at most one unit otherwise. -/
theorem C92_offset (hE : ExactArith E) (hO : OneSlice cfg) (hm : cfg.mode = .iUintWOffs)
    (hok : CfgOk cfg) (hid : Ideal cfg) {rng : Nat} {hists : List (String × Hist K)}
    (hx : mkXbar E cfg rng hists = .ok x) (hl : LegalOps cfg k [] ops)
    (hC : AllReadable cfg (fun _ => maxRange cfg) [] ops) :
    ∃ x' rs, exec E cfg x ops = .ok (x', rs) ∧ AnswersTested cfg 1 [] ops rs := by
  obtain ⟨x', rs, h1, h2⟩ := C91_session hE hok hid (fun h => by rw [hm] at h; cases h) hx hl hC
  exact ⟨x', rs, h1, answers_tested hO (fun _ => .inl rfl) (fun h => absurd hm h) .nil hl h2⟩

/-! ## The files of the tests -/

/-- C92.  The files of the tests are accepted with every resolution up to 30 bits. -/
theorem C92_accepted (h0 : E.f32 0 = 0) (h5 : E.f32 5 = 5) (h30 : E.f32 30 = 30) (hi : md.isInt = true) (hb : 1 ≤ b ∧ b ≤ 30)
    (hr : Releasable w) (hres : w.cfg.resolution ≠ -1) : ∃ w', setConfig E (.good (adcTestFile md b)) w = .ok w' :=
  C81_set_config.2 ⟨hr, _, adcTest_fromDoc h0 h5 h30 hb, adcTest_admissible hi hb.1, fun _ _ => hres, adcTest_buildable hb.2⟩

/-- C92.  After any successful call of `set_config` with a file of the tests, every legal sequence of calls passes
their assertion: for all six mappings, all resolutions, all matrices and all vectors. -/
theorem C92_tests (hE : ExactArith E) (h : setConfig E (.good (adcTestFile md b)) w = .ok w') (hi : md.isInt = true)
    (hb : (if shippedAdc md = .sym then 2 else 1) ≤ b ∧ b ≤ 30) (hgcc : md = .iOffsWDiff → E.strict = false)
    (hl : LegalOps w'.cfg k [] ops) (hB : SmallBuffers (2 ^ 20) [] ops) :
    ∃ w'' rs, serve E w' ops = .ok (w'', rs, ops.map fun _ => 0) ∧ AnswersTested w'.cfg 0 [] ops rs := by
  have D := adcTest_set (hE.f32 _) (hE.f32 _) hi ⟨by split at hb <;> omega, hb.2⟩ (C76_loaded h)
  obtain ⟨w'', rs, h1, h2⟩ := C91_interface (rg := fun _ => maxRange w'.cfg) hE (.load h) (D.ideal hi)
    (by rw [D.mode]; exact hgcc) (fun _ => D.ok hi) hl (legal_heights (by rw [D.M]; decide) hl) (D.readable hi hb .nil hl hB)
  exact ⟨w'', rs, h1, answers_tested (D.one hi hb) (fun _ => .inr ⟨rfl, D.whole hi hb⟩) (fun _ => rfl) .nil hl h2⟩

end

/-! ## The slack is needed -/

namespace Ex'

/-- Cells whose lowest state conducts one and a half units, read with one bit. -/
def halfUnit : Cfg ℚ :=
  { Ex.posCfg .iUintWOffs with
    M := 1
    N := 1
    hrs := 1
    lrs := 3
    wBit := 2
    iBit := 1
    split := [2]
    resolution := 1 }

theorem halfUnit_one : OneSlice halfUnit :=
  ⟨rfl, by decide, rfl, rfl, rfl, rfl, by show (0 : ℚ) ≤ 1; norm_num, by show (1 : ℚ) < 3; norm_num, by decide,
    by decide, by decide⟩

theorem halfUnit_ok : CfgOk halfUnit := by
  show 1 ≤ 2 ∧ 2 ≤ 31 ∧ [2].sum = 2 ∧ (∀ s ∈ [2], s ≤ 30) ∧ 1 ≤ 1 ∧ 1 ≤ 31
  decide

theorem halfUnit_ideal : Ideal halfUnit :=
  ⟨rfl, rfl, rfl, rfl, rfl, fun _ => ⟨le_refl 0, le_refl 0⟩, by show (1 : ℚ) ≠ 3; norm_num, by decide⟩

theorem halfUnit_legal : LegalOps halfUnit 1 [] (row 1 (-1) 1) :=
  ⟨⟨⟨le_refl 1, le_refl 1, by decide⟩, by decide,
      fun _ _ _ _ => show -2 ^ (2 - 1) ≤ (-1 : Int) ∧ (-1 : Int) < 2 ^ (2 - 1) by decide, fun _ _ => by decide, fun _ => rfl⟩,
    ⟨⟨le_refl 1, le_refl 1, by decide⟩, by decide, by decide,
      fun _ _ => show 0 ≤ (1 : Int) ∧ (1 : Int) < 2 ^ 1 by decide, fun _ _ => by show |(0 : Int)| + 1 * 2 ^ (2 + 1) ≤ _; decide,
      fun i j hi hj => by simp [lastWrite, hi, hj], fun _ => rfl⟩, trivial⟩

theorem halfUnit_readable : AllReadable halfUnit (fun _ => maxRange halfUnit) [] (row 1 (-1) 1) :=
  ⟨⟨oneSlice_ok halfUnit_one, fun i hi => by
      obtain rfl : i = 0 := by omega
      decide +kernel, fun _ i hi => by
      obtain rfl : i = 0 := by omega
      decide +kernel⟩, trivial⟩

end Ex'

/-- C92.  The additional unit of `C92_offset` is needed: the hypotheses hold for `Ex'.halfUnit` and the assertion of the
tests fails. -/
theorem C92_offset_unit : OneSlice Ex'.halfUnit ∧ ∃ x x' rs, mkXbar Ex.env Ex'.halfUnit 0 [] = .ok x ∧
    exec Ex.env Ex'.halfUnit x (Ex'.row 1 (-1) 1) = .ok (x', rs) ∧ AnswersTested Ex'.halfUnit 1 [] (Ex'.row 1 (-1) 1) rs ∧
    ¬AnswersTested Ex'.halfUnit 0 [] (Ex'.row 1 (-1) 1) rs := by
  obtain ⟨x, hx, hp⟩ := Ex.okAnd_spec (x := mkXbar Ex.env Ex'.halfUnit 0 []) (p := fun x =>
    Ex.okAnd (exec Ex.env Ex'.halfUnit x (Ex'.row 1 (-1) 1)) fun p => p.2.all fun r => r.get 0 = 2) (by decide +kernel)
  obtain ⟨x', rs, h1, h2⟩ := C92_offset Ex.env_exact Ex'.halfUnit_one rfl Ex'.halfUnit_ok Ex'.halfUnit_ideal hx
    Ex'.halfUnit_legal Ex'.halfUnit_readable
  refine ⟨Ex'.halfUnit_one, x, x', rs, hx, h1, h2, fun h => ?_⟩
  obtain ⟨p, h3, h4⟩ := Ex.okAnd_spec hp
  rw [h1] at h3
  obtain rfl := Except.ok.inj h3
  cases h with
  | write h =>
    cases h with
    | mvm h h' =>
      cases h'
      have e := (h.head 0 (by decide)).2
      simp only [List.all_cons, List.all_nil, Bool.and_true, decide_eq_true_eq] at h4
      rw [h4] at e
      revert e
      decide +kernel

/-! ## Instances -/

/-- Halves. -/
example : pyRound (5 / 2 : ℚ) = 2 ∧ pyRound (7 / 2 : ℚ) = 4 ∧ pyRound (-5 / 2 : ℚ) = -2 := by decide +kernel

namespace Ex'

/-- A matrix of the tests. -/
def testMat : Vec Int := Vec.ofList [-128, -128, -128, -128, -128, 127, 127, 127, 127, 127, -12, 88, 65, 0, -99]

/-- Storing it and multiplying it with five equal inputs. -/
def testOps (a : Int) : List Op :=
  [.write testMat 3 5, .mvm ⟨3, fun _ => 0⟩ ⟨5, fun _ => a⟩ testMat 3 5 ""]

theorem testOps_legal {md : Mode} {b a : Int} {c : Cfg ℚ} (D : AdcTestSet md b c) (hi : md.isInt = true)
    (ha : LegalX c a) : LegalOps c 5 [] (testOps a) := by
  have hd : Accepted c 3 5 := ⟨by rw [D.M], by rw [D.N], by decide⟩
  have hw : ∀ i, i < 3 → ∀ j, j < 5 → -128 ≤ entry testMat 5 i j ∧ entry testMat 5 i j < 128 := by decide
  refine ⟨⟨hd, by decide, fun i j hi' hj => ?_, fun _ _ => by rw [D.wBit]; decide, fun _ => rfl⟩,
    ⟨hd, le_refl 3, le_refl 5, fun _ _ => ha, fun i _ => ?_, fun i j hi hj => by simp [lastWrite, hi, hj], fun _ => rfl⟩, trivial⟩
  · have := hw i hi' j hj
    unfold LegalW
    rw [D.mode, D.wBit]
    cases md <;> first | exact absurd hi (by decide) | (simp only [abs_lt]; omega)
  · show |(0 : Int)| + peak c 5 ≤ 2147483647
    unfold peak
    rw [D.mode, D.wBit, D.iBit]
    cases md <;> first | exact absurd hi (by decide) | (simp only [abs_zero]; norm_num)

theorem testOps_small {a : Int} : SmallBuffers (2 ^ 20) [] (testOps a) :=
  ⟨fun _ _ => by show |(0 : Int)| ≤ _; norm_num, trivial⟩

end Ex'

/-- The hypotheses of `C92_accepted` and `C92_tests` for the first and the last test, with any resolution. -/
example {b : Int} (hb : 2 ≤ b ∧ b ≤ 30) : (∃ w w' rs, setConfig Ex.env (.good (adcTestFile .iDiffWDiff1 b)) world0 = .ok w ∧
      serve Ex.env w (Ex'.testOps (-1)) = .ok (w', rs, [0, 0]) ∧ AnswersTested w.cfg 0 [] (Ex'.testOps (-1)) rs) ∧
    ∃ w w' rs, setConfig Ex.env (.good (adcTestFile .iUintWOffs b)) world0 = .ok w ∧
      serve Ex.env w (Ex'.testOps 1) = .ok (w', rs, [0, 0]) ∧ AnswersTested w.cfg 0 [] (Ex'.testOps 1) rs := by
  constructor
  · obtain ⟨w, h⟩ := C92_accepted (E := Ex.env) (w := world0) (md := .iDiffWDiff1) rfl rfl rfl rfl ⟨by omega, hb.2⟩ (.inl rfl)
      (by decide)
    have D := adcTest_set rfl rfl rfl ⟨by omega, hb.2⟩ (C76_loaded h)
    obtain ⟨w', rs, h1, h2⟩ := C92_tests Ex.env_exact h rfl hb (fun h => by cases h)
      (Ex'.testOps_legal (a := -1) D rfl (by simp only [LegalX, D.mode, D.iBit]; decide)) Ex'.testOps_small
    exact ⟨w, w', rs, h, h1, h2⟩
  · obtain ⟨w, h⟩ := C92_accepted (E := Ex.env) (w := world0) (md := .iUintWOffs) rfl rfl rfl rfl ⟨by omega, hb.2⟩ (.inl rfl)
      (by decide)
    have D := adcTest_set rfl rfl rfl ⟨by omega, hb.2⟩ (C76_loaded h)
    obtain ⟨w', rs, h1, h2⟩ := C92_tests Ex.env_exact h rfl ⟨by show 1 ≤ b; omega, hb.2⟩ (fun h => by cases h)
      (Ex'.testOps_legal (a := 1) D rfl (by simp only [LegalX, D.mode, D.iBit]; decide)) Ex'.testOps_small
    exact ⟨w, w', rs, h, h1, h2⟩


/-- The hypotheses of `C92_session` and `C92_offset_whole`. -/
example {md : Mode} {b : Int} (hi : md.isInt = true) (hb : 2 ≤ b ∧ b ≤ 30) {a : Int} (ha : LegalX (adcTestCfg md b : Cfg ℚ) a) :
    ∃ x x' rs, mkXbar Ex.env (adcTestCfg md b) 0 [] = .ok x ∧ exec Ex.env (adcTestCfg md b) x (Ex'.testOps a) = .ok (x', rs) ∧
      AnswersTested (adcTestCfg md b : Cfg ℚ) 0 [] (Ex'.testOps a) rs := by
  have D := adcTest_set rfl rfl hi ⟨by omega, hb.2⟩ (adcTest_fromDoc (E := Ex.env) rfl rfl rfl ⟨by omega, hb.2⟩)
  have hb' : (if shippedAdc md = .sym then 2 else 1) ≤ b ∧ b ≤ 30 := ⟨by split <;> omega, hb.2⟩
  have hl := Ex'.testOps_legal D hi ha
  have hC := D.readable hi hb' .nil hl Ex'.testOps_small
  obtain ⟨x, hx⟩ : ∃ x, mkXbar Ex.env (adcTestCfg md b) 0 [] = .ok x := mkXbar_iff.2 (adcTest_buildable hb.2)
  by_cases hm : md = .iUintWOffs
  · obtain ⟨x', rs, h1, h2⟩ := C92_offset_whole Ex.env_exact (D.one hi hb') hm (D.whole hi hb') (D.ok hi) (D.ideal hi) hx hl hC
    exact ⟨x, x', rs, hx, h1, h2⟩
  · obtain ⟨x', rs, h1, h2⟩ := C92_session Ex.env_exact (D.one hi hb') hm (D.ok hi) (D.ideal hi) (fun _ => rfl) hx hl hC
    exact ⟨x, x', rs, hx, h1, h2⟩

end Acs.Props
