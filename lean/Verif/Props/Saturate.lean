import Verif.Lemmas.SaturateShipped
import Verif.Props.AdcNoise
import Verif.Props.RoundAdc
import Verif.Props.Shipped

/-!
# C88: converters whose range is too small
-/

set_option linter.unusedSectionVars false

namespace Acs.Props

open Finset Spec

section
variable {K : Type} [Field K] [LinearOrder K] [IsStrictOrderedRing K] [FloorRing K]
variable {E : Env K} {cfg : Cfg K} {mat vec res r : Vec Int} {m n w : Nat} {l : String}
variable {x x' : Xbar K} {h : List Op} {ε σ lo hi κ : K} {q : Prec K} {rg : String → K × K} {κs : String → Nat → K}

/-! ## Exact arithmetic -/

/-- C88.  In any state in which no cell of the block is further than `ε` from its nominal current, a multiplication whose
nominal currents exceed the range of the converter by at most `κ` is off by at most the deviations, or what is cut
off where that is more, half a step and one half for each conversion.  It is exact if the rounding removes that. -/
theorem C88_saturates (hE : ExactArith E) (hok : CfgOk cfg) (hI : Binary cfg) (hc2 : cfg.c2c = false)
    (hr : Runs E cfg h x) (hl : Legal cfg (lastWrite h) m n) (hwid : keepsRowSums cfg.mode → WidthIs n h)
    (hd : Accepted cfg m n) (h0 : 0 ≤ ε)
    (hw : NearNominal cfg ε (lastWrite h) x.mapper.core.ia m n) (hv : n ≤ vec.size) (hres : m ≤ res.size)
    (hx : LegalVec cfg vec n) (hA : AdcOk cfg l lo hi) (hC : Exceeds cfg lo hi κ (stored h) res vec m n)
    (hm : xMvm E cfg x res vec mat m n l = .ok (x', r)) :
    AddsUpTo (fun _ => satBound cfg lo hi κ ε vec n) r res (stored h) vec m n ∧
      (SatAbsorbed cfg lo hi κ ε vec n → Adds r res (stored h) vec m n) :=
  (mvm_saturated hE hok hI hc2 hr hl hd h0 hw hv hres hx
    (fun hk i _ => runs_sums hr (hasSums_of_keeps hk) (hwid hk) i) hA hC).1 x' r hm

/-- C88.  Without read disturb it does return. -/
theorem C88_total (hE : ExactArith E) (hok : CfgOk cfg) (hI : Binary cfg) (hc2 : cfg.c2c = false)
    (hrd : cfg.readDisturb = false)
    (hr : Runs E cfg h x) (hl : Legal cfg (lastWrite h) m n) (hwid : keepsRowSums cfg.mode → WidthIs n h)
    (hd : Accepted cfg m n) (h0 : 0 ≤ ε)
    (hw : NearNominal cfg ε (lastWrite h) x.mapper.core.ia m n) (hv : n ≤ vec.size) (hres : m ≤ res.size)
    (hx : LegalVec cfg vec n) (hA : AdcOk cfg l lo hi) (hC : Exceeds cfg lo hi κ (stored h) res vec m n) :
    ∃ x' r, xMvm E cfg x res vec mat m n l = .ok (x', r) :=
  (mvm_saturated hE hok hI hc2 hr hl hd h0 hw hv hres hx
    (fun hk i _ => runs_sums hr (hasSums_of_keeps hk) (hwid hk) i) hA hC).2 hrd

/-- C88.  With bounded variation every legal sequence of calls returns, and every answer is that of the matrix store up
to the bound. -/
theorem C88_variation (hE : ExactArith E) (hok : CfgOk cfg) (hI : Binary cfg)
    (hrd : cfg.readDisturb = false) (h1 : 0 ≤ cfg.hrs) (h2 : 0 ≤ cfg.lrs) (hg : ∀ k, |E.gauss k| ≤ ε)
    {rng : Nat} {hists : List (String × Hist K)} (hx : mkXbar E cfg rng hists = .ok x) {ops : List Op}
    (hl : LegalOps cfg w [] ops) (hC : AllExceed cfg rg κs [] ops) :
    ∃ x' rs, exec E cfg x ops = .ok (x', rs) ∧
      AnswersUpTo (fun l vec n => satBound cfg (rg l).1 (rg l).2 (κs l n) (spread cfg ε) vec n) [] ops rs ∧
      (AllSatAbsorbed cfg rg κs (spread cfg ε) [] ops → Answers [] ops rs) := by
  obtain ⟨x', rs, h3, h4⟩ := exec_saturated hE hok hI hrd h1 h2 hg (.init hx) .nil hl hC
  exact ⟨x', rs, h3, answersBy_mono (fun _ _ _ _ _ _ _ h => h.1) h4, answersBy_sat h4⟩

/-- C88, from the configuration to the results of the interface. -/
theorem C88_interface {wd : World K} {ops : List Op} {k : Nat} (hE : ExactArith E) (hw : Settled E [] wd)
    (hI : Binary wd.cfg) (hrd : wd.cfg.readDisturb = false) (hg : ∀ i, |E.gauss i| ≤ ε)
    (hl : LegalOps wd.cfg k [] ops) (hh : Heights ops) (hC : AllExceed wd.cfg rg κs [] ops) :
    ∃ w' rs, serve E wd ops = .ok (w', rs, ops.map fun _ => 0) ∧
      AnswersUpTo (fun l vec n => satBound wd.cfg (rg l).1 (rg l).2 (κs l n) (spread wd.cfg ε) vec n) [] ops rs ∧
      (AllSatAbsorbed wd.cfg rg κs (spread wd.cfg ε) [] ops → Answers [] ops rs) := by
  obtain ⟨x, hx, hr⟩ := settled_runs hw
  obtain ⟨hok, ha⟩ := fresh_ok hw fun hf => by
    have := hI.bin
    unfold Mode.isInt at this
    rw [hf] at this
    exact absurd this (by decide)
  obtain ⟨x', rs, h1, h2⟩ := exec_saturated hE hok hI hrd (ha hI.analog).states.1.le (ha hI.analog).states.2.le hg hr
    .nil hl hC
  exact ⟨_, rs, serve_ok hx (dimsFit hl hh) h1, answersBy_mono (fun _ _ _ _ _ _ _ h => h.1) h2, answersBy_sat h2⟩

/-- C88.  With `MAX` calibration only TNN_IV and TNN_V exceed the range, by half of `HRS` and twice `HRS` for each
column. -/
theorem C88_max_exceeds (h0 : 0 ≤ cfg.hrs) (hle : cfg.hrs ≤ cfg.lrs) (hc : cfg.calibMode = .max) (hfit : adcFits cfg)
    (hA : AdcOk cfg l lo hi) (hl : Legal cfg (lastWrite h) m n) (hd : Accepted cfg m n) (hx : LegalVec cfg vec n)
    (hroom : ∀ i, i < m → ((|res.get i| + 3 * n : Int) : K) + convPeak lo hi (conversions cfg (stored h) vec n i)
      ≤ 2147483647) : Exceeds cfg lo hi (overshoot cfg n) (stored h) res vec m n :=
  ⟨fun _ hi => conversions_overshoot h0 hle hc hfit hA.range hd.2.1 (fun _ _ hi hj => (hl.val hi hj).1) hx hi, hroom⟩

/-- C88.  If nothing exceeds the range, this is C67. -/
theorem C88_in_range {W : Nat → Nat → Int} (h0 : 0 ≤ ε) :
    (Exceeds cfg lo hi 0 W res vec m n ↔ Converts cfg lo hi W res vec m n) ∧
    satBound cfg lo hi 0 ε vec n = deviationBound cfg lo hi ε vec n ∧
    (SatAbsorbed cfg lo hi 0 ε vec n ↔ Absorbed cfg lo hi ε vec n) := by
  have e : ∀ c ∈ readout cfg.mode vec n, satDeviation cfg lo hi 0 ε c = deviation cfg lo hi ε c := fun c hc => by
    have hk : (0 : K) ≤ (c.2 : K) := by exact_mod_cast (readout_scale c hc).2
    unfold satDeviation deviation
    rw [max_eq_left (mul_nonneg hk h0)]
  refine ⟨⟨fun h => ⟨fun i hi c hc => ?_, h.room⟩, fun h => ⟨fun i hi c hc => ?_, h.room⟩⟩, ?_, ?_⟩
  · have := h.range i hi c hc
    rwa [sub_zero, add_zero] at this
  · rw [sub_zero, add_zero]
    exact h.range i hi c hc
  · unfold satBound deviationBound
    rw [List.map_congr_left fun c hc => by rw [e c hc]]
  · unfold SatAbsorbed Absorbed Absorbs
    refine or_congr (and_congr Iff.rfl ?_) (and_congr Iff.rfl ?_) <;>
    exact ⟨fun h c hc => e c hc ▸ h c hc, fun h c hc => (e c hc).symm ▸ h c hc⟩

/-! ## Rounded numbers -/

/-- C88 with rounded numbers, for any state. -/
theorem C88_rounded (hq : Rounds E q) (hsc : ScaleError E cfg q) (hok : CfgOk cfg) (hI : Binary cfg)
    (hc2 : cfg.c2c = false)
    (hr : Runs E cfg h x) (hl : Legal cfg (lastWrite h) m n) (hwid : keepsRowSums cfg.mode → WidthIs n h)
    (hd : Accepted cfg m n) (h0 : 0 ≤ ε)
    (hw : NearNominal cfg ε (lastWrite h) x.mapper.core.ia m n) (hv : n ≤ vec.size) (hres : m ≤ res.size)
    (hx : LegalVec cfg vec n) (hA : AdcOk cfg l lo hi) (hS : SmallConversion cfg lo hi q)
    (hC : RoundExceeds cfg lo hi κ ε q (stored h) res vec m n) :
    (∀ x' r, xMvm E cfg x res vec mat m n l = .ok (x', r) →
      AddsUpTo (fun _ => roundSatBound cfg lo hi κ ε q vec n) r res (stored h) vec m n) ∧
    (cfg.readDisturb = false → ∃ x' r, xMvm E cfg x res vec mat m n l = .ok (x', r)) :=
  mvm_roundSat hq hsc hok hI hc2 hr hl hd h0 hw hv hres hx
    (fun hk i _ => runs_sums hr (hasSums_of_keeps hk) (hwid hk) i) hA hS hC

/-- C88 with rounded numbers, for sequences of calls. -/
theorem C88_rounded_variation (hq : Rounds E q) (hsc : ScaleError E cfg q) (hok : CfgOk cfg) (hI : Binary cfg)
    (hrd : cfg.readDisturb = false) (h1 : 0 ≤ cfg.hrs) (h2 : 0 ≤ cfg.lrs) (hg : NoiseUpTo E cfg σ)
    (hε : spread cfg σ + 5 * cellRound cfg ε q ≤ ε) (h0 : 0 ≤ ε)
    {rng : Nat} {hists : List (String × Hist K)} (hx : mkXbar E cfg rng hists = .ok x) {ops : List Op}
    (hl : LegalOps cfg w [] ops) (hC : AllRoundExceed cfg rg κs ε q [] ops) :
    ∃ x' rs, exec E cfg x ops = .ok (x', rs) ∧
      AnswersUpTo (fun l vec n => roundSatBound cfg (rg l).1 (rg l).2 (κs l n) ε q vec n) [] ops rs :=
  exec_roundSat hq hsc hok hI hrd h1 h2 hg hε h0 (.init hx) .nil hl hC

/-- C88.  For exact arithmetic the bound is that of `C88_saturates`. -/
theorem C88_rounded_exact (vec : Vec Int) (n : Nat) :
    roundSatBound cfg lo hi κ ε ⟨0, 0, 0⟩ vec n = satBound cfg lo hi κ ε vec n := by
  have e : roundSatDeviation cfg lo hi κ ε ⟨0, 0, 0⟩ n = satDeviation cfg lo hi κ ε := funext fun c => by
    simp [roundSatDeviation, satDeviation, columnError, cellRound, colRound, adcRound]
  unfold roundSatBound satBound
  simp only [e]

end

/-! ## The files of the repository -/

section
variable {E : Env ℚ} {w w' : World ℚ} {ops : List Op} {k : Nat} {md : Mode}

/-- C88.  In single precision the analog files of TNN_IV and TNN_V answer every legal sequence of calls, up to an error
that grows with the number of columns. -/
theorem C88_shipped (hE : Ieee E) (h : setConfig E (.good (analogFile md)) w = .ok w') (h45 : md = .tnn4 ∨ md = .tnn5)
    (hl : LegalOps w'.cfg k [] ops) (hb : SmallBuffers (2 ^ 20) [] ops) :
    ∃ w'' rs, serve E w' ops = .ok (w'', rs, ops.map fun _ => 0) ∧
      AnswersUpTo (fun _ _ n => ternaryUnits md n) [] ops rs := by
  have A := ieee_shipped hE h
  obtain ⟨x, hx, hr⟩ := settled_runs (.load h)
  obtain ⟨x', rs, h1, h2⟩ := shipped_ternary (ieee_rounds hE)
    (ieee_scale hE (by rw [shipped_window A]; norm_num) (by rw [shipped_window A]; norm_num)) A h45
    (fresh_ok (.load h) A.ok).1 hr .nil hl hb
  exact ⟨_, rs, serve_ok hx (dimsFit hl (legal_heights (by rw [A.M]; decide) hl)) h1, h2⟩

/-- C88.  The same in exact arithmetic. -/
theorem C88_shipped_exact (hE : ExactArith E) (h : setConfig E (.good (analogFile md)) w = .ok w')
    (h45 : md = .tnn4 ∨ md = .tnn5) (hl : LegalOps w'.cfg k [] ops) (hb : SmallBuffers (2 ^ 20) [] ops) :
    ∃ w'' rs, serve E w' ops = .ok (w'', rs, ops.map fun _ => 0) ∧
      AnswersUpTo (fun _ _ n => ternaryUnits md n) [] ops rs := by
  have A := analog_shipped (hE.f32 _) (hE.f32 _) (hE.f32 _) (C76_loaded h)
  obtain ⟨x, hx, hr⟩ := settled_runs (.load h)
  obtain ⟨x', rs, h1, h2⟩ := shipped_ternary (exact_rounds hE) (exact_scale hE (by rw [A.hrs, A.lrs]; norm_num)) A h45
    (fresh_ok (.load h) A.ok).1 hr .nil hl hb
  exact ⟨_, rs, serve_ok hx (dimsFit hl (legal_heights (by rw [A.M]; decide) hl)) h1, h2⟩

end

/-! ## Instances -/

namespace Ex'

/-- A converter calibrated to a third of the currents. -/
def tight (b : Bool) : Cfg ℚ := { fine .tnn3 b with calibMode := .calib, calibDict := [("", (-4, 4))] }

theorem tight_ok (b : Bool) : AdcOk (tight b) "" (-4) 4 :=
  ⟨(Ex.sym_ok .tnn3 "").real, by show (2 : Int) ≤ 8; decide, by show (8 : Int) ≤ 30; decide, rfl, by norm_num⟩

theorem tight_bin (b : Bool) : Binary (tight b) := ⟨rfl, rfl, rfl, rfl, by show (5 : ℚ) ≠ 10; norm_num⟩

theorem tight_exceeds (b : Bool) :
    Exceeds (tight b) (-4) 4 6 (stored [.write Ex.mat 2 3]) Ex.res Ex.vec 2 3 := by
  cases b <;>
  exact ⟨Ex.two (by decide +kernel) (by decide +kernel), Ex.two (by decide +kernel) (by decide +kernel)⟩

/-- The range is indeed too small. -/
example : ¬Converts (tight false) (-4) 4 (stored [.write Ex.mat 2 3]) Ex.res Ex.vec 2 3 := fun h => by
  have := h.range 1 (by decide)
  revert this
  decide +kernel

/-- The same for rounded numbers. -/
def tightRound (b : Bool) : Cfg ℚ := { inexact b with calibMode := .calib, calibDict := [("", (-40, 40))] }

theorem tightRound_ok (b : Bool) : AdcOk (tightRound b) "" (-40) 40 :=
  ⟨(Ex.sym_ok .tnn3 "").real, by show (2 : Int) ≤ 12; decide, by show (12 : Int) ≤ 30; decide, rfl, by norm_num⟩

theorem tightRound_small (b : Bool) : SmallConversion (tightRound b) (-40) 40 prec32 := by
  cases b <;>
  exact ⟨by decide +kernel, by decide +kernel, by decide, by decide, by decide +kernel, by decide +kernel⟩

theorem tightRound_exceeds (b : Bool) :
    RoundExceeds (tightRound b) (-40) 40 42 (6 / 5) prec32 (stored [.write Ex.mat 2 3]) Ex.res Ex.vec 2 3 := by
  cases b <;>
  exact ⟨by decide, by decide +kernel, by norm_num, Ex.two (by decide +kernel) (by decide +kernel),
    Ex.two (by decide +kernel) (by decide +kernel)⟩

end Ex'

/-- The hypotheses of `C88_saturates` and `C88_total`. -/
example : ∃ x x' r, Runs Ex'.mild (Ex'.tight false) [.write Ex.mat 2 3] x ∧
    xMvm Ex'.mild (Ex'.tight false) x Ex.res Ex.vec Ex.mat 2 3 "" = .ok (x', r) ∧
    AddsUpTo (fun _ => satBound (Ex'.tight false) (-4) 4 6 (1 / 4) Ex.vec 3) r Ex.res
      (stored [.write Ex.mat 2 3]) Ex.vec 2 3 := by
  obtain ⟨x, h1, h2⟩ := Ex.wrote (E := Ex'.mild) (c := Ex'.tight false) (mat := Ex.mat) (m := 2) (n := 3)
    (fun x => (x.mapper.core.ia.p.get 0 0 == 41 / 4)) (by decide +kernel)
  have hl : Legal (Ex'.tight false) (lastWrite [.write Ex.mat 2 3]) 2 3 :=
    fun i j hi hj => ⟨_, by simp [lastWrite, hi, hj], Ex.legal_mat .tnn3 i j hi hj⟩
  have hn := (runs_near (cfg := Ex'.tight false) (Ex.hotEnv_exact _ _) (Ex.acfg_ok .tnn3) rfl rfl rfl
    (by show (0 : ℚ) ≤ 5; norm_num) (by show (0 : ℚ) ≤ 10; norm_num) Ex'.mild_le h1 hl).1
  have hwid : keepsRowSums (Ex'.tight false).mode → WidthIs 3 [.write Ex.mat 2 3] := fun _ op hop => by
    obtain rfl := List.mem_singleton.1 hop
    rfl
  obtain ⟨x', r, h3⟩ := C88_total (cfg := Ex'.tight false) (mat := Ex.mat) (l := "") (vec := Ex.vec)
    (res := Ex.res) (Ex.hotEnv_exact _ _) (Ex.acfg_ok .tnn3) (Ex'.tight_bin _) rfl rfl h1 hl hwid (Ex.accepted .tnn3)
    (by norm_num) hn (by decide) (by decide) (Ex.legal_vec .tnn3 (by decide)) (Ex'.tight_ok _) (Ex'.tight_exceeds _)
  exact ⟨x, x', r, h1, h3, (C88_saturates (cfg := Ex'.tight false) (Ex.hotEnv_exact _ _) (Ex.acfg_ok .tnn3)
      (Ex'.tight_bin _) rfl h1 hl hwid (Ex.accepted .tnn3) (by norm_num) hn (by decide) (by decide)
      (Ex.legal_vec .tnn3 (by decide)) (Ex'.tight_ok _) (Ex'.tight_exceeds _) h3).1⟩

/-- The hypotheses of `C88_variation`, with cycle-to-cycle variation. -/
example : ∃ x x' rs, mkXbar Ex'.mild (Ex'.tight true) 0 [] = .ok x ∧
    exec Ex'.mild (Ex'.tight true) x Ex'.pair = .ok (x', rs) ∧
    AnswersUpTo (fun _ vec n => satBound (Ex'.tight true) (-4) 4 6 (spread (Ex'.tight true) (1 / 4)) vec n) []
      Ex'.pair rs := by
  obtain ⟨x, hx, _⟩ := Ex.okAnd_spec (x := mkXbar Ex'.mild (Ex'.tight true) 0 []) (p := fun _ => true)
    (by decide +kernel)
  obtain ⟨x', rs, h, h', _⟩ := C88_variation (cfg := Ex'.tight true) (w := 3) (ε := 1 / 4) (ops := Ex'.pair)
    (rg := fun _ => (-4, 4)) (κs := fun _ _ => 6) (Ex.hotEnv_exact _ _) (Ex.acfg_ok .tnn3) (Ex'.tight_bin _) rfl
    (by show (0 : ℚ) ≤ 5; norm_num) (by show (0 : ℚ) ≤ 10; norm_num) Ex'.mild_le hx
    (Ex'.pair_legal (Ex.accepted .tnn3) (Ex.legal_mat .tnn3) (Ex.sum_room .tnn3) (Ex.legal_vec .tnn3 (by decide))
      (Ex.room .tnn3)) ⟨⟨Ex'.tight_ok _, Ex'.tight_exceeds _⟩, trivial⟩
  exact ⟨x, x', rs, hx, h, h'⟩

/-- A range that is too small by less than half a window can be harmless. -/
def Ex'.harmless : Cfg ℚ := { Ex'.fine .tnn3 false with calibMode := .calib, calibDict := [("", (-9, 9))] }

/-- The hypotheses of `C88_variation` where the rounding removes what is cut off. -/
example : ∃ x x' rs, mkXbar Ex'.mild Ex'.harmless 0 [] = .ok x ∧
    exec Ex'.mild Ex'.harmless x Ex'.pair = .ok (x', rs) ∧ Answers [] Ex'.pair rs ∧
    ¬Converts Ex'.harmless (-9) 9 (stored [.write Ex.mat 2 3]) Ex.res Ex.vec 2 3 := by
  obtain ⟨x, hx, _⟩ := Ex.okAnd_spec (x := mkXbar Ex'.mild Ex'.harmless 0 []) (p := fun _ => true)
    (by decide +kernel)
  obtain ⟨x', rs, h, _, h'⟩ := C88_variation (cfg := Ex'.harmless) (w := 3) (ε := 1 / 4) (ops := Ex'.pair)
    (rg := fun _ => (-9, 9)) (κs := fun _ _ => 1) (Ex.hotEnv_exact _ _) (Ex.acfg_ok .tnn3)
    ⟨rfl, rfl, rfl, rfl, by show (5 : ℚ) ≠ 10; norm_num⟩ rfl
    (by show (0 : ℚ) ≤ 5; norm_num) (by show (0 : ℚ) ≤ 10; norm_num) Ex'.mild_le hx
    (Ex'.pair_legal (Ex.accepted .tnn3) (Ex.legal_mat .tnn3) (Ex.sum_room .tnn3) (Ex.legal_vec .tnn3 (by decide))
      (Ex.room .tnn3))
    ⟨⟨⟨(Ex.sym_ok .tnn3 "").real, by show (2 : Int) ≤ 8; decide, by show (8 : Int) ≤ 30; decide, rfl, by norm_num⟩,
      Ex.two (by decide +kernel) (by decide +kernel), Ex.two (by decide +kernel) (by decide +kernel)⟩, trivial⟩
  refine ⟨x, x', rs, hx, h, h' ⟨.inl ⟨trivial, by decide +kernel⟩, trivial⟩, fun k => ?_⟩
  have := k.range 1 (by decide)
  revert this
  decide +kernel

/-- What `set_config` makes of a document with a calibrated converter. -/
def Ex'.loadedTight : Cfg ℚ := { Ex'.loadedSym with calibMode := .calib, calibDict := [("", (-4, 4))] }

theorem Ex'.loadedTight_legal : LegalOps Ex'.loadedTight 3 [] Ex'.pair :=
  Ex'.pair_legal ⟨le_refl 2, le_refl 3, by decide⟩ (Ex.legal_mat .tnn3) (fun h => by cases h)
    (Ex.legal_vec .tnn3 (by decide)) (Ex.two (by decide) (by decide))

/-- The hypotheses of `C88_interface`. -/
example : ∃ w w' rs, Settled Ex'.mild [] w ∧ serve Ex'.mild w Ex'.pair = .ok (w', rs, [0, 0]) ∧
    AnswersUpTo (fun _ vec n => satBound Ex'.loadedTight (-4) 4 6 (1 / 4) vec n) [] Ex'.pair rs := by
  obtain ⟨w, h1, h2⟩ := Ex'.load Ex'.mild
    (Ex.analog .tnn3 [("adc_type", .str "SYM_RANGE_ADC"), ("HRS_NOISE", .int 1), ("LRS_NOISE", .int 1),
      ("adc_calib_mode", .str "CALIB"), ("adc_calib_dict", .obj [("", .arr [.int (-4), .int 4])])])
    Ex'.loadedTight (by decide +kernel)
  obtain ⟨w', rs, h3, h4, _⟩ := C88_interface (ε := 1 / 4) (rg := fun _ => (-4, 4)) (κs := fun _ _ => 6) (ops := Ex'.pair) (k := 3)
    (Ex.hotEnv_exact _ _) h1 (by rw [h2]; exact ⟨rfl, rfl, rfl, rfl, by show (5 : ℚ) ≠ 10; norm_num⟩) (by rw [h2]; rfl)
    Ex'.mild_le (by rw [h2]; exact Ex'.loadedTight_legal) Ex'.pair_heights (by
      rw [h2]
      exact ⟨⟨⟨by decide, by decide, by decide, by decide +kernel, by norm_num⟩, Ex.two (by decide +kernel) (by decide +kernel),
        Ex.two (by decide +kernel) (by decide +kernel)⟩, trivial⟩)
  rw [h2] at h4
  exact ⟨w, w', rs, h1, h3, h4⟩

/-- The hypotheses of `C88_max_exceeds`. -/
example : Exceeds (Ex.posCfg .tnn5) 0 30 30 (stored [.write Ex.mat 2 3]) Ex.res Ex.vec 2 3 := by
  have := C88_max_exceeds (cfg := Ex.posCfg .tnn5) (l := "") (h := [.write Ex.mat 2 3]) (vec := Ex.vec) (res := Ex.res)
    (by show (0 : ℚ) ≤ 5; norm_num) (by show (5 : ℚ) ≤ 10; norm_num) rfl rfl (Ex.pos_ok .tnn5 "")
    (fun i j hi hj => ⟨_, by simp [lastWrite, hi, hj], Ex.legal_mat .tnn5 i j hi hj⟩) (Ex.accepted .tnn5)
    (Ex.legal_vec .tnn5 (by decide)) (Ex.two (by decide +kernel) (by decide +kernel))
  have e : overshoot (Ex.posCfg .tnn5) 3 = 30 := by decide +kernel
  rwa [e] at this

/-- The hypotheses of `C88_rounded`. -/
example : ∃ x x' r, Runs Ex'.blurred (Ex'.tightRound false) [.write Ex.mat 2 3] x ∧
    xMvm Ex'.blurred (Ex'.tightRound false) x Ex.res Ex.vec Ex.mat 2 3 "" = .ok (x', r) ∧
    AddsUpTo (fun _ => roundSatBound (Ex'.tightRound false) (-40) 40 42 (6 / 5) prec32 Ex.vec 3) r Ex.res
      (stored [.write Ex.mat 2 3]) Ex.vec 2 3 := by
  obtain ⟨x, hr, _⟩ := Ex.wrote (E := Ex'.blurred) (c := Ex'.tightRound false) (mat := Ex.mat) (m := 2) (n := 3)
    (fun _ => true) (by decide +kernel)
  have hl : Legal (Ex'.tightRound false) (lastWrite [.write Ex.mat 2 3]) 2 3 :=
    fun i j hi hj => ⟨_, by simp [lastWrite, hi, hj], Ex.legal_mat .tnn3 i j hi hj⟩
  have hwid : keepsRowSums (Ex'.tightRound false).mode → WidthIs 3 [.write Ex.mat 2 3] := fun _ op hop => by
    obtain rfl := List.mem_singleton.1 hop
    rfl
  obtain ⟨hq, hsc⟩ := Ex'.inexact_prec false
  have hI : Binary (Ex'.tightRound false) := ⟨rfl, rfl, rfl, rfl, by show (5 : ℚ) ≠ 46; norm_num⟩
  have hw : NearNominal (Ex'.tightRound false) (6 / 5) (lastWrite [.write Ex.mat 2 3]) x.mapper.core.ia 2 3 :=
    fun i j w hi hj hL => by
      have := runs_near_rounded (cfg := Ex'.tightRound false) (σ := 1 / 2) (ε := 6 / 5) hq (Ex.acfg_ok .tnn3)
        hI rfl (by decide +kernel) (by decide +kernel) (Ex'.blurred_noise _) (by decide +kernel)
        (by norm_num) hr hl i j w hi hj hL
      have k : (1 / 2 : ℚ) + 4 * cellRound (Ex'.tightRound false) (6 / 5) prec32 ≤ 6 / 5 := by decide +kernel
      exact ⟨this.1.trans k, this.2.trans k⟩
  obtain ⟨k1, k2⟩ := C88_rounded (cfg := Ex'.tightRound false) (mat := Ex.mat) (l := "") (vec := Ex.vec) (res := Ex.res)
    hq hsc (Ex.acfg_ok .tnn3) hI rfl hr hl hwid (Ex.accepted .tnn3) (by norm_num) hw (by decide) (by decide)
    (Ex.legal_vec .tnn3 (by decide)) (Ex'.tightRound_ok _) (Ex'.tightRound_small _) (Ex'.tightRound_exceeds _)
  obtain ⟨x', r, hm⟩ := k2 rfl
  exact ⟨x, x', r, hr, hm, k1 x' r hm⟩

/-- The hypotheses of `C88_rounded_variation`, with cycle-to-cycle variation. -/
example : ∃ x x' rs, mkXbar Ex'.blurred (Ex'.tightRound true) 0 [] = .ok x ∧
    exec Ex'.blurred (Ex'.tightRound true) x Ex'.pair = .ok (x', rs) ∧
    AnswersUpTo (fun _ vec n => roundSatBound (Ex'.tightRound true) (-40) 40 42 (6 / 5) prec32 vec n) [] Ex'.pair rs := by
  obtain ⟨x, hx, _⟩ := Ex.okAnd_spec (x := mkXbar Ex'.blurred (Ex'.tightRound true) 0 []) (p := fun _ => true)
    (by decide +kernel)
  obtain ⟨hq, hsc⟩ := Ex'.inexact_prec true
  obtain ⟨x', rs, h1, h2⟩ := C88_rounded_variation (cfg := Ex'.tightRound true) (w := 3) (σ := 1 / 2) (ε := 6 / 5)
    (ops := Ex'.pair) (rg := fun _ => (-40, 40)) (κs := fun _ _ => 42) hq hsc (Ex.acfg_ok .tnn3)
    ⟨rfl, rfl, rfl, rfl, by show (5 : ℚ) ≠ 46; norm_num⟩ rfl
    (by show (0 : ℚ) ≤ 5; norm_num) (by show (0 : ℚ) ≤ 46; norm_num) (Ex'.blurred_noise _) (by decide +kernel)
    (by norm_num) hx
    (Ex'.pair_legal (Ex.accepted .tnn3) (Ex.legal_mat .tnn3) (Ex.sum_room .tnn3) (Ex.legal_vec .tnn3 (by decide))
      (Ex.room .tnn3)) ⟨⟨Ex'.tightRound_ok _, Ex'.tightRound_small _, Ex'.tightRound_exceeds _⟩, trivial⟩
  exact ⟨x, x', rs, hx, h1, h2⟩

/-- The hypotheses of `C88_shipped`. -/
example : ∃ w w' rs, setConfig Ex.fenv (.good (analogFile .tnn5)) world0 = .ok w ∧
    serve Ex.fenv w (Ex'.row 32 1 (-1)) = .ok (w', rs, [0, 0]) ∧
    AnswersUpTo (fun _ _ n => ternaryUnits .tnn5 n) [] (Ex'.row 32 1 (-1)) rs := by
  obtain ⟨w, h⟩ := C85_analog_accepted (E := Ex.fenv) (w := world0) (md := .tnn5) (by decide +kernel) (by decide +kernel)
    (by decide +kernel) (.inl rfl) (by decide)
  have D := ieee_shipped Ex.fenv_ieee h
  obtain ⟨w', rs, h1, h2⟩ := C88_shipped Ex.fenv_ieee h (.inr rfl) (Ex'.row_legal (n := 32) (a := 1) (b := -1)
    D.M D.N (by decide) (by simp only [LegalW, D.mode]; decide) (by simp only [LegalX, D.mode]; decide)
    fun h => by rw [D.mode] at h; cases h) Ex'.row_small
  exact ⟨w, w', rs, h, h1, h2⟩

/-- The hypotheses of `C88_shipped_exact`. -/
example : ∃ w w' rs, setConfig Ex.env (.good (analogFile .tnn4)) world0 = .ok w ∧
    serve Ex.env w (Ex'.row 32 1 1) = .ok (w', rs, [0, 0]) ∧
    AnswersUpTo (fun _ _ n => ternaryUnits .tnn4 n) [] (Ex'.row 32 1 1) rs := by
  obtain ⟨w, h⟩ := C85_analog_accepted (E := Ex.env) (w := world0) (md := .tnn4) rfl rfl rfl (.inl rfl) (by decide)
  have D := analog_shipped rfl rfl rfl (C76_loaded h)
  obtain ⟨w', rs, h1, h2⟩ := C88_shipped_exact Ex.env_exact h (.inl rfl) (Ex'.row_legal (n := 32) (a := 1) (b := 1)
    D.M D.N (by decide) (by simp only [LegalW, D.mode]; decide) (by simp only [LegalX, D.mode]; decide)
    fun h => by rw [D.mode] at h; cases h) Ex'.row_small
  exact ⟨w, w', rs, h, h1, h2⟩

/-! ## Limits -/

/-- Inputs and weights for which TNN_IV and TNN_V leave the range. -/
def Ex'.same (v : Int) : Vec Int := ⟨3, fun _ => v⟩

/-- C88.  The currents of TNN_IV and TNN_V do exceed the range of a `MAX` calibration by `overshoot`. -/
theorem C88_overshoot_attained :
    (∃ c ∈ conversions (Ex.posCfg .tnn4) (fun _ _ => 1) (Ex'.same (-1)) 3 0, c.1 = 0 - overshoot (Ex.posCfg .tnn4) 3) ∧
    ∃ c ∈ conversions (Ex.posCfg .tnn5) (fun _ _ => -1) (Ex'.same (-1)) 3 0, c.1 = 0 - overshoot (Ex.posCfg .tnn5) 3 := by
  decide +kernel

/-- A `1 × 1` crossbar with a converter of 3 bits for less than half of the window. -/
def Ex'.narrow : Cfg ℚ := { Ex.one .tnn1 1000 1008 3 with
  adcType := .sym, calibMode := .calib, calibDict := [("", (-3, 3))] }

theorem Ex'.narrow_ok : CfgOk Ex'.narrow := by
  simp [CfgOk, Ex'.narrow, Ex.one, Ex.posCfg, Ex.acfg, Ex.cfg, Mode.isInt, Mode.family]

/-- C88.  The result can be wrong by the whole part of the bound, with exact cells: one is read as zero. -/
theorem C88_saturation_matters : ∃ (E : Env ℚ) (cfg : Cfg ℚ) (lo hi κ : ℚ) (x x' : Xbar ℚ) (r : Vec Int), ExactArith E ∧
    CfgOk cfg ∧ Binary cfg ∧ integral cfg.mode ∧ cfg.readDisturb = false ∧ cfg.c2c = false ∧
    AdcOk cfg "" lo hi ∧ LegalW cfg 1 ∧ LegalX cfg 1 ∧ Runs E cfg [.write (Ex.single 1) 1 1] x ∧
    NearNominal cfg 0 (lastWrite [.write (Ex.single 1) 1 1]) x.mapper.core.ia 1 1 ∧
    Exceeds cfg lo hi κ (stored [.write (Ex.single 1) 1 1]) (Ex.single 0) (Ex.single 1) 1 1 ∧
    xMvm E cfg x (Ex.single 0) (Ex.single 1) (Ex.single 1) 1 1 "" = .ok (x', r) ∧
    (∀ c ∈ readout cfg.mode (Ex.single 1) 1, deviation cfg lo hi 0 c < 1 / 2) ∧
    r.get 0 ≠ 1 ∧ |r.get 0 - 1| = ⌊satBound cfg lo hi κ 0 (Ex.single 1) 1⌋ := by
  obtain ⟨x, x', r, h1, h2, h3⟩ := Ex.multiplied (E := Ex.hotEnv 0 0)
    (c := Ex'.narrow)
    (mat := Ex.single 1)
    (res := Ex.single 0) (vec := Ex.single 1) (mat' := Ex.single 1) (m := 1) (n := 1) (m' := 1) (n' := 1) (l := "")
    (fun _ r => decide (r.get 0 = 0)) (by decide +kernel)
  have h3 := of_decide_eq_true h3
  refine ⟨_, Ex'.narrow, -3, 3, 5, x, x', r, (Ex.hotEnv_exact _ _), Ex'.narrow_ok,
    ⟨rfl, rfl, rfl, rfl, by show (1000 : ℚ) ≠ 1008; norm_num⟩, trivial, rfl, rfl,
    ⟨by decide, by decide, by decide, by decide +kernel, by norm_num⟩, Or.inl rfl, Or.inl rfl, h1, ?_,
    ⟨fun i hi => ?_, fun i hi => ?_⟩, h2, by decide +kernel, by rw [h3]; decide, by rw [h3]; decide +kernel⟩
  · refine (runs_near (ε := 0) (Ex.hotEnv_exact _ _) Ex'.narrow_ok rfl rfl rfl
      (by show (0 : ℚ) ≤ 1000; norm_num) (by show (0 : ℚ) ≤ 1008; norm_num) (Ex.hotEnv_gauss (by norm_num) (by norm_num)) h1
      (fun i j hi hj => ⟨entry (Ex.single 1) 1 i j, by simp [lastWrite, hi, hj], ?_⟩)).1
    obtain rfl : i = 0 := by omega
    obtain rfl : j = 0 := by omega
    exact Or.inl rfl
  · obtain rfl : i = 0 := by omega
    decide +kernel
  · obtain rfl : i = 0 := by omega
    decide +kernel

end Acs.Props
