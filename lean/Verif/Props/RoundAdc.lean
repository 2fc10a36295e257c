import Verif.Lemmas.FlAdc32
import Verif.Props.AdcNoise
import Verif.Props.Rounding

/-! # Rounded arithmetic, deviating cells and real converters (C69) -/

set_option linter.unusedSectionVars false

namespace Acs.Props

open Finset Spec

section
variable {K : Type} [Field K] [LinearOrder K] [IsStrictOrderedRing K] [FloorRing K]
variable {E : Env K} {cfg : Cfg K} {mat vec res r : Vec Int} {m n w : Nat} {l : String}
variable {x x' : Xbar K} {h : List Op} {ε σ lo hi : K} {q : Prec K} {rg : String → K × K}

/-- C69.  In any state in which no cell of the block is further than `ε` from its nominal current, a multiplication
with a real converter and rounded arithmetic that returns is off by at most `roundDeviation` and one half for each
conversion, and exact if `roundDeviation` is below one half, or, in BNN_III and BNN_IV, too small to round the common
fraction of both conversions differently. -/
theorem C69_deviating_cells (hq : Rounds E q) (hsc : ScaleError E cfg q) (hok : CfgOk cfg) (hI : Binary cfg)
    (hc2 : cfg.c2c = false)
    (hr : Runs E cfg h x) (hl : Legal cfg (lastWrite h) m n) (hwid : keepsRowSums cfg.mode → WidthIs n h)
    (hd : Accepted cfg m n) (h0 : 0 ≤ ε)
    (hw : NearNominal cfg ε (lastWrite h) x.mapper.core.ia m n) (hv : n ≤ vec.size) (hres : m ≤ res.size)
    (hx : LegalVec cfg vec n) (hA : AdcOk cfg l lo hi) (hS : SmallConversion cfg lo hi q)
    (hC : RoundConverts cfg lo hi ε q (stored h) res vec m n)
    (hm : xMvm E cfg x res vec mat m n l = .ok (x', r)) :
    AddsUpTo (fun _ => roundDeviationBound cfg lo hi ε q vec n) r res (stored h) vec m n ∧
      (RoundAbsorbed cfg lo hi ε q vec n → Adds r res (stored h) vec m n) :=
  (mvm_roundConverted hq hsc hok hI hc2 hr hl hd h0 hw hv hres hx
    (fun hk i _ => runs_sums hr (hasSums_of_keeps hk) (hwid hk) i) hA hS hC).1 x' r hm

/-- C69.  Without read disturb the multiplication does return. -/
theorem C69_deviating_cells_total (hq : Rounds E q) (hsc : ScaleError E cfg q) (hok : CfgOk cfg) (hI : Binary cfg)
    (hc2 : cfg.c2c = false) (hrd : cfg.readDisturb = false)
    (hr : Runs E cfg h x) (hl : Legal cfg (lastWrite h) m n) (hwid : keepsRowSums cfg.mode → WidthIs n h)
    (hd : Accepted cfg m n) (h0 : 0 ≤ ε)
    (hw : NearNominal cfg ε (lastWrite h) x.mapper.core.ia m n) (hv : n ≤ vec.size) (hres : m ≤ res.size)
    (hx : LegalVec cfg vec n) (hA : AdcOk cfg l lo hi) (hS : SmallConversion cfg lo hi q)
    (hC : RoundConverts cfg lo hi ε q (stored h) res vec m n) :
    ∃ x' r, xMvm E cfg x res vec mat m n l = .ok (x', r) :=
  (mvm_roundConverted hq hsc hok hI hc2 hr hl hd h0 hw hv hres hx
    (fun hk i _ => runs_sums hr (hasSums_of_keeps hk) (hwid hk) i) hA hS hC).2 hrd

/-- C69.  Every legal sequence of calls on a crossbar with bounded variation, a real converter and rounded arithmetic
returns, and every answer is that of the matrix store up to the bound; it is that of the matrix store if the
rounding to integers absorbs the deviations. -/
theorem C69_bounded_variation (hq : Rounds E q) (hsc : ScaleError E cfg q) (hok : CfgOk cfg) (hI : Binary cfg)
    (hrd : cfg.readDisturb = false) (h1 : 0 ≤ cfg.hrs) (h2 : 0 ≤ cfg.lrs) (hg : NoiseUpTo E cfg σ)
    (hε : spread cfg σ + 5 * cellRound cfg ε q ≤ ε) (h0 : 0 ≤ ε)
    {rng : Nat} {hists : List (String × Hist K)} (hx : mkXbar E cfg rng hists = .ok x) {ops : List Op}
    (hl : LegalOps cfg w [] ops) (hC : AllRoundConvert cfg rg ε q [] ops) :
    ∃ x' rs, exec E cfg x ops = .ok (x', rs) ∧
      AnswersUpTo (fun l => roundDeviationBound cfg (rg l).1 (rg l).2 ε q) [] ops rs ∧
      (AllRoundAbsorbed cfg rg ε q [] ops → Answers [] ops rs) := by
  obtain ⟨x', rs, h3, h4⟩ := exec_roundConverted hq hsc hok hI hrd h1 h2 hg hε h0 (.init hx) .nil hl hC
  exact ⟨x', rs, h3, answersBy_mono (fun _ _ _ _ _ _ _ h => h.1) h4, answersBy_roundAbsorbed h4⟩

/-- C69.  With `MAX` calibration the nominal currents are always in the range. -/
theorem C69_max_converts (h0 : 0 ≤ cfg.hrs) (hle : cfg.hrs ≤ cfg.lrs) (hc : cfg.calibMode = .max) (hfit : adcFits cfg)
    (h45 : cfg.mode = .tnn4 ∨ cfg.mode = .tnn5 → cfg.hrs = 0) (hA : AdcOk cfg l lo hi)
    (hl : Legal cfg (lastWrite h) m n) (hd : Accepted cfg m n) (hx : LegalVec cfg vec n) (hn : 3 * n < 2 ^ 24)
    (hcol : columnError cfg ε q n ≤ topCurrent cfg ε)
    (hroom : ∀ i, i < m → ((|res.get i| + 3 * n : Int) : K) +
      ((readout cfg.mode vec n).map fun c => 6 * (|(c.1 : K) / (cfg.lrs - cfg.hrs)| * max |lo| |hi|) + 1).sum ≤ 2 ^ 24) :
    RoundConverts cfg lo hi ε q (stored h) res vec m n :=
  ⟨hn, hcol, fun _ hi => conversions_in_range h0 hle hc hfit hA.range hd.2.1 h45 (fun _ _ hi hj => (hl.val hi hj).1) hx hi,
    hroom⟩

/-- C69.  For exact arithmetic the bound is that of C67. -/
theorem C69_exact (vec : Vec Int) (n : Nat) :
    roundDeviationBound cfg lo hi ε ⟨0, 0, 0⟩ vec n = deviationBound cfg lo hi ε vec n ∧
      (RoundAbsorbed cfg lo hi ε ⟨0, 0, 0⟩ vec n ↔ Absorbed cfg lo hi ε vec n) := by
  have e : roundDeviation cfg lo hi ε ⟨0, 0, 0⟩ n = deviation cfg lo hi ε := funext fun c => by
    simp [roundDeviation, deviation, columnError, cellRound, colRound, adcRound]
  constructor
  · unfold roundDeviationBound deviationBound
    simp only [e]
  · unfold RoundAbsorbed Absorbed
    rw [e]

/-- C69, from the configuration to the results of the interface. -/
theorem C69_interface {wd : World K} {ops : List Op} {k : Nat} (hq : Rounds E q) (hsc : ScaleError E wd.cfg q)
    (hw : Settled E [] wd) (hI : Binary wd.cfg) (hrd : wd.cfg.readDisturb = false) (hg : NoiseUpTo E wd.cfg σ)
    (hε : spread wd.cfg σ + 5 * cellRound wd.cfg ε q ≤ ε) (h0 : 0 ≤ ε)
    (hl : LegalOps wd.cfg k [] ops) (hh : Heights ops) (hC : AllRoundConvert wd.cfg rg ε q [] ops) :
    ∃ w' rs, serve E wd ops = .ok (w', rs, ops.map fun _ => 0) ∧
      AnswersUpTo (fun l => roundDeviationBound wd.cfg (rg l).1 (rg l).2 ε q) [] ops rs ∧
      (AllRoundAbsorbed wd.cfg rg ε q [] ops → Answers [] ops rs) := by
  obtain ⟨x, hx, hr⟩ := settled_runs hw
  obtain ⟨hok, ha⟩ := fresh_ok hw fun hf => by
    have := hI.bin
    unfold Mode.isInt at this
    rw [hf] at this
    exact absurd this (by decide)
  obtain ⟨x', rs, h1, h2⟩ := exec_roundConverted hq hsc hok hI hrd (ha hI.analog).states.1.le
    (ha hI.analog).states.2.le hg hε h0 hr .nil hl hC
  exact ⟨_, rs, serve_ok hx (dimsFit hl hh) h1, answersBy_mono (fun _ _ _ _ _ _ _ h => h.1) h2,
    answersBy_roundAbsorbed h2⟩

end

section
variable {E : Env ℚ} {cfg : Cfg ℚ} {x : Xbar ℚ} {w : Nat} {ρ μ : ℚ} {rg : String → ℚ × ℚ}

/-- C69.  In single precision and without variation, a crossbar with a converter whose step is at most a fifth of the
window is the exact matrix store, in the mappings that round their conversions, as long as
`(9 n² + 240 n + 30) ρ + 100 μ + 4 ≤ 2 ^ 22`, where `ρ` is the ratio of the largest current to the window and `μ` is
the ratio of the range to the window.  In BNN_III and BNN_IV the fraction of the two conversions must not be close to
one half. -/
theorem C69_single_precision (hE : Ieee E) (hok : CfgOk cfg) (hI : Binary cfg)
    (hrd : cfg.readDisturb = false) (hq1 : cfg.hrsNoise ≤ 0) (hq2 : cfg.lrsNoise ≤ 0)
    (h1 : 0 ≤ cfg.hrs) (h2 : 0 ≤ cfg.lrs) (hd : 2 ^ (-80 : ℤ) ≤ |cfg.lrs - cfg.hrs|)
    (hd' : |cfg.lrs - cfg.hrs| ≤ 2 ^ (80 : ℤ)) (hρ : max cfg.hrs cfg.lrs ≤ ρ * |cfg.lrs - cfg.hrs|)
    {rng : Nat} {hists : List (String × Hist ℚ)} (hx : mkXbar E cfg rng hists = .ok x) {ops : List Op}
    (hl : LegalOps cfg w [] ops) (hC : AllSingle cfg rg ρ μ [] ops) (hin : SingleAbsorbs cfg rg ρ μ [] ops) :
    ∃ x' rs, exec E cfg x ops = .ok (x', rs) ∧ Answers [] ops rs :=
  exec_single_adc hE hok hI hrd hq1 hq2 h1 h2 hd hd' hρ (.init hx) .nil hl hC hin

end

/-! ## Instances -/

namespace Ex'

/-- A window in which single precision is not exact, noise, and a signed converter of 12 bits. -/
def inexact (b : Bool) : Cfg ℚ := { fine .tnn3 b with lrs := 46, resolution := 12 }

theorem inexact_ok (b : Bool) : AdcOk (inexact b) "" (-123) 123 :=
  ⟨(Ex.sym_ok .tnn3 "").real, by show (2 : Int) ≤ 12; decide, by show (12 : Int) ≤ 30; decide,
    by cases b <;> decide +kernel, by norm_num⟩

theorem inexact_bin (b : Bool) : Binary (inexact b) := ⟨rfl, rfl, rfl, rfl, by show (5 : ℚ) ≠ 46; norm_num⟩

theorem inexact_small (b : Bool) : SmallConversion (inexact b) (-123) 123 prec32 := by
  cases b <;>
  exact ⟨by decide +kernel, by decide +kernel, by decide, by decide, by decide +kernel, by decide +kernel⟩

theorem inexact_converts (b : Bool) :
    RoundConverts (inexact b) (-123) 123 (6 / 5) prec32 (stored [.write Ex.mat 2 3]) Ex.res Ex.vec 2 3 := by
  cases b <;>
  exact ⟨by decide, by decide +kernel, Ex.two (by decide +kernel) (by decide +kernel),
    Ex.two (by decide +kernel) (by decide +kernel)⟩

theorem inexact_all (b : Bool) : AllRoundConvert (inexact b) (fun _ => (-123, 123)) (6 / 5) prec32 [] pair :=
  ⟨⟨inexact_ok b, inexact_small b, inexact_converts b⟩, trivial⟩

/-- Rounded arithmetic with noise of at most one half. -/
abbrev blurred : Env ℚ := Ex.roundEnv (1 / 2) (-1 / 2)

theorem blurred_noise (cfg : Cfg ℚ) : NoiseUpTo blurred cfg (1 / 2) :=
  ⟨by norm_num, fun _ => Ex.hotEnv_gauss (by norm_num) (by norm_num)⟩

theorem inexact_prec (b : Bool) : Rounds blurred prec32 ∧ ScaleError blurred (inexact b) prec32 :=
  C65_ieee (Ex.roundEnv_ieee _ _) (by show (2 : ℚ) ^ (-80 : ℤ) ≤ |46 - 5|; decide +kernel)
    (by show |(46 : ℚ) - 5| ≤ 2 ^ (80 : ℤ); decide +kernel)

end Ex'

/-- The hypotheses of `C69_deviating_cells` and `C69_deviating_cells_total`. -/
example : ∃ x x' r, Runs Ex'.blurred (Ex'.inexact false) [.write Ex.mat 2 3] x ∧
    xMvm Ex'.blurred (Ex'.inexact false) x Ex.res Ex.vec Ex.mat 2 3 "" = .ok (x', r) ∧
    AddsUpTo (fun _ => roundDeviationBound (Ex'.inexact false) (-123) 123 (6 / 5) prec32 Ex.vec 3) r Ex.res
      (stored [.write Ex.mat 2 3]) Ex.vec 2 3 ∧
    Adds r Ex.res (stored [.write Ex.mat 2 3]) Ex.vec 2 3 := by
  obtain ⟨x, hr, _⟩ := Ex.wrote (E := Ex'.blurred) (c := Ex'.inexact false) (mat := Ex.mat) (m := 2) (n := 3)
    (fun _ => true) (by decide +kernel)
  have hl : Legal (Ex'.inexact false) (lastWrite [.write Ex.mat 2 3]) 2 3 :=
    fun i j hi hj => ⟨_, by simp [lastWrite, hi, hj], Ex.legal_mat .tnn3 i j hi hj⟩
  have hwid : keepsRowSums (Ex'.inexact false).mode → WidthIs 3 [.write Ex.mat 2 3] := fun _ op hop => by
    obtain rfl := List.mem_singleton.1 hop
    rfl
  obtain ⟨hq, hsc⟩ := Ex'.inexact_prec false
  have hw : NearNominal (Ex'.inexact false) (6 / 5) (lastWrite [.write Ex.mat 2 3]) x.mapper.core.ia 2 3 :=
    fun i j w hi hj hL => by
      have := runs_near_rounded (cfg := Ex'.inexact false) (σ := 1 / 2) (ε := 6 / 5) hq (Ex.acfg_ok .tnn3)
        (Ex'.inexact_bin _) rfl (by decide +kernel) (by decide +kernel) (Ex'.blurred_noise _) (by decide +kernel)
        (by norm_num) hr hl i j w hi hj hL
      have k : (1 / 2 : ℚ) + 4 * cellRound (Ex'.inexact false) (6 / 5) prec32 ≤ 6 / 5 := by decide +kernel
      exact ⟨this.1.trans k, this.2.trans k⟩
  obtain ⟨x', r, hm⟩ := C69_deviating_cells_total (cfg := Ex'.inexact false) (mat := Ex.mat) (l := "") (vec := Ex.vec)
    (res := Ex.res) hq hsc (Ex.acfg_ok .tnn3) (Ex'.inexact_bin _) rfl rfl hr hl hwid (Ex.accepted .tnn3) (by norm_num) hw
    (by decide) (by decide) (Ex.legal_vec .tnn3 (by decide)) (Ex'.inexact_ok _) (Ex'.inexact_small _)
    (Ex'.inexact_converts _)
  obtain ⟨k1, k2⟩ := C69_deviating_cells (cfg := Ex'.inexact false) hq hsc (Ex.acfg_ok .tnn3) (Ex'.inexact_bin _) rfl hr
    hl hwid (Ex.accepted .tnn3) (by norm_num) hw (by decide) (by decide) (Ex.legal_vec .tnn3 (by decide))
    (Ex'.inexact_ok _) (Ex'.inexact_small _) (Ex'.inexact_converts _) hm
  exact ⟨x, x', r, hr, hm, k1, k2 (.inl ⟨trivial, by decide +kernel⟩)⟩

/-- The hypotheses of `C69_bounded_variation`, with cycle-to-cycle variation. -/
example : ∃ x x' rs, mkXbar Ex'.blurred (Ex'.inexact true) 0 [] = .ok x ∧
    exec Ex'.blurred (Ex'.inexact true) x Ex'.pair = .ok (x', rs) ∧ Answers [] Ex'.pair rs := by
  obtain ⟨x, hx, _⟩ := Ex.okAnd_spec (x := mkXbar Ex'.blurred (Ex'.inexact true) 0 []) (p := fun _ => true)
    (by decide +kernel)
  obtain ⟨hq, hsc⟩ := Ex'.inexact_prec true
  obtain ⟨x', rs, h1, _, h2⟩ := C69_bounded_variation (cfg := Ex'.inexact true) (w := 3) (σ := 1 / 2) (ε := 6 / 5)
    (ops := Ex'.pair) (rg := fun _ => (-123, 123)) hq hsc (Ex.acfg_ok .tnn3) (Ex'.inexact_bin _) rfl
    (by show (0 : ℚ) ≤ 5; norm_num) (by show (0 : ℚ) ≤ 46; norm_num) (Ex'.blurred_noise _) (by decide +kernel)
    (by norm_num) hx
    (Ex'.pair_legal (Ex.accepted .tnn3) (Ex.legal_mat .tnn3) (Ex.sum_room .tnn3) (Ex.legal_vec .tnn3 (by decide))
      (Ex.room .tnn3)) (Ex'.inexact_all true)
  exact ⟨x, x', rs, hx, h1, h2 ⟨.inl ⟨trivial, by decide +kernel⟩, trivial⟩⟩

/-- The hypotheses of `C69_max_converts`. -/
example : RoundConverts (Ex'.inexact false) (-123) 123 (6 / 5) prec32 (stored [.write Ex.mat 2 3]) Ex.res Ex.vec 2 3 :=
  C69_max_converts (cfg := Ex'.inexact false) (by show (0 : ℚ) ≤ 5; norm_num) (by show (5 : ℚ) ≤ 46; norm_num) rfl rfl
    (fun h => by rcases h with h | h <;> cases h) (Ex'.inexact_ok _)
    (fun i j hi hj => ⟨_, by simp [lastWrite, hi, hj], Ex.legal_mat .tnn3 i j hi hj⟩) (Ex.accepted .tnn3)
    (Ex.legal_vec .tnn3 (by decide)) (by decide) (Ex'.inexact_converts _).col (Ex'.inexact_converts _).room

/-- The hypotheses of `C69_interface`. -/
example : ∃ w w' rs, Settled (Ex.roundEnv (1 / 8) (-1 / 8)) [] w ∧
    serve (Ex.roundEnv (1 / 8) (-1 / 8)) w Ex'.pair = .ok (w', rs, [0, 0]) ∧ Answers [] Ex'.pair rs := by
  obtain ⟨w, h1, h2⟩ := Ex'.load (Ex.roundEnv (1 / 8) (-1 / 8))
    (Ex.analog .tnn3 [("adc_type", .str "SYM_RANGE_ADC"), ("HRS_NOISE", .int 1), ("LRS_NOISE", .int 1)])
    Ex'.loadedSym (by decide +kernel)
  obtain ⟨w', rs, h3, _, h4⟩ := C69_interface (σ := 1 / 8) (ε := 1 / 7) (q := prec32) (rg := fun _ => (-15, 15))
    (ops := Ex'.pair) (k := 3) (ieee_rounds (Ex.roundEnv_ieee _ _))
    (by
      rw [h2]
      exact ieee_scale (Ex.roundEnv_ieee _ _) (by show (2 : ℚ) ^ (-80 : ℤ) ≤ |10 - 5|; decide +kernel)
        (by show |(10 : ℚ) - 5| ≤ 2 ^ (80 : ℤ); decide +kernel)) h1
    (by rw [h2]; exact ⟨rfl, rfl, rfl, rfl, by show (5 : ℚ) ≠ 10; norm_num⟩) (by rw [h2]; rfl)
    ⟨by norm_num, fun _ => Ex.hotEnv_gauss (by norm_num) (by norm_num)⟩ (by rw [h2]; decide +kernel) (by norm_num)
    (by rw [h2]; exact Ex'.loadedSym_legal) Ex'.pair_heights (by
      rw [h2]
      exact ⟨⟨⟨by decide, by decide, by decide, by decide +kernel, by norm_num⟩,
        ⟨by decide +kernel, by decide +kernel, by decide, by decide, by decide +kernel, by decide +kernel⟩,
        by decide, by decide +kernel, Ex.two (by decide +kernel) (by decide +kernel),
        Ex.two (by decide +kernel) (by decide +kernel)⟩, trivial⟩)
  exact ⟨w, w', rs, h1, h3, h4 (by rw [h2]; exact ⟨.inl ⟨trivial, by decide +kernel⟩, trivial⟩)⟩

/-- No noise. -/
def Ex'.inexactQuiet : Cfg ℚ := { Ex'.inexact false with hrsNoise := 0, lrsNoise := 0 }

/-- The hypotheses of `C69_single_precision`. -/
example : ∃ x x' rs, mkXbar Ex.fenv Ex'.inexactQuiet 0 [] = .ok x ∧
    exec Ex.fenv Ex'.inexactQuiet x Ex'.pair = .ok (x', rs) ∧ Answers [] Ex'.pair rs := by
  obtain ⟨x, hx, _⟩ := Ex.okAnd_spec (x := mkXbar Ex.fenv Ex'.inexactQuiet 0 []) (p := fun _ => true) (by decide +kernel)
  obtain ⟨x', rs, h⟩ := C69_single_precision (cfg := Ex'.inexactQuiet) (w := 3) (ρ := 2) (μ := 3) (ops := Ex'.pair)
    (rg := fun _ => (-123, 123)) Ex.fenv_ieee (Ex.acfg_ok .tnn3) ⟨rfl, rfl, rfl, rfl, by show (5 : ℚ) ≠ 46; norm_num⟩ rfl
    (by decide +kernel) (by decide +kernel) (by decide +kernel) (by decide +kernel)
    (by decide +kernel) (by decide +kernel) (by decide +kernel) hx
    (Ex'.pair_legal (Ex.accepted .tnn3) (Ex.legal_mat .tnn3) (Ex.sum_room .tnn3) (Ex.legal_vec .tnn3 (by decide))
      (Ex.room .tnn3))
    ⟨⟨⟨by decide, by decide, by decide, by decide +kernel, by norm_num⟩, ⟨by decide, by decide, by decide +kernel, by decide +kernel, by decide +kernel,
      by decide +kernel⟩, Ex.two (by decide +kernel) (by decide +kernel), by decide +kernel,
      Ex.two (by decide) (by decide)⟩, trivial⟩ (.inl trivial)
  exact ⟨x, x', rs, hx, h⟩

end Acs.Props
