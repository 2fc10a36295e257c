import Verif.Lemmas.AdcDev
import Verif.Lemmas.InRange
import Verif.Props.EndToEnd
import Verif.Props.DisturbError

/-! # Deviating cells and real converters (C67, C68) -/

set_option linter.unusedSectionVars false

namespace Acs.Props

open Finset Spec

section
variable {K : Type} [Field K] [LinearOrder K] [IsStrictOrderedRing K] [FloorRing K]
variable {E : Env K} {cfg : Cfg K} {mat vec res r : Vec Int} {m n w : Nat} {l : String}
variable {x x' : Xbar K} {h : List Op} {ε lo hi : K} {rg : String → K × K}

/-! ## C67 -/

/-- C67.  In any state in which no cell of the block is further than `ε` from its nominal current, for
whatever reason, a multiplication with a real converter that returns is off by at most the deviations and half steps of
its conversions and one half each, if the nominal currents are in the range of the converter.  The actual
currents need not be. -/
theorem C67_deviating_cells (hE : ExactArith E) (hok : CfgOk cfg) (hI : Binary cfg) (hc2 : cfg.c2c = false)
    (hr : Runs E cfg h x) (hl : Legal cfg (lastWrite h) m n) (hwid : keepsRowSums cfg.mode → WidthIs n h)
    (hd : Accepted cfg m n) (h0 : 0 ≤ ε)
    (hw : NearNominal cfg ε (lastWrite h) x.mapper.core.ia m n) (hv : n ≤ vec.size) (hres : m ≤ res.size)
    (hx : LegalVec cfg vec n) (hA : AdcOk cfg l lo hi) (hC : Converts cfg lo hi (stored h) res vec m n)
    (hm : xMvm E cfg x res vec mat m n l = .ok (x', r)) :
    AddsUpTo (fun _ => deviationBound cfg lo hi ε vec n) r res (stored h) vec m n :=
  ((mvm_converted hE hok hI hc2 hr hl hd h0 hw hv hres hx
    (fun hk i _ => runs_sums hr (hasSums_of_keeps hk) (hwid hk) i) hA hC).1 x' r hm).1

/-- C67.  If the deviation of every conversion is below one half, the result is exact: the converter removes
the deviations of the cells.  In BNN_III and BNN_IV, whose two conversions have the same fraction, the deviations have
to be too small to round it differently. -/
theorem C67_absorbed (hE : ExactArith E) (hok : CfgOk cfg) (hI : Binary cfg) (hc2 : cfg.c2c = false)
    (hr : Runs E cfg h x) (hl : Legal cfg (lastWrite h) m n) (hwid : keepsRowSums cfg.mode → WidthIs n h)
    (hd : Accepted cfg m n) (h0 : 0 ≤ ε)
    (hw : NearNominal cfg ε (lastWrite h) x.mapper.core.ia m n) (hv : n ≤ vec.size) (hres : m ≤ res.size)
    (hx : LegalVec cfg vec n) (hA : AdcOk cfg l lo hi) (hC : Converts cfg lo hi (stored h) res vec m n)
    (hab : Absorbed cfg lo hi ε vec n)
    (hm : xMvm E cfg x res vec mat m n l = .ok (x', r)) : Adds r res (stored h) vec m n :=
  ((mvm_converted hE hok hI hc2 hr hl hd h0 hw hv hres hx
    (fun hk i _ => runs_sums hr (hasSums_of_keeps hk) (hwid hk) i) hA hC).1 x' r hm).2 hab

/-- C67.  Without read disturb the multiplication does return. -/
theorem C67_deviating_cells_total (hE : ExactArith E) (hok : CfgOk cfg) (hI : Binary cfg) (hc2 : cfg.c2c = false)
    (hrd : cfg.readDisturb = false)
    (hr : Runs E cfg h x) (hl : Legal cfg (lastWrite h) m n) (hwid : keepsRowSums cfg.mode → WidthIs n h)
    (hd : Accepted cfg m n) (h0 : 0 ≤ ε)
    (hw : NearNominal cfg ε (lastWrite h) x.mapper.core.ia m n) (hv : n ≤ vec.size) (hres : m ≤ res.size)
    (hx : LegalVec cfg vec n) (hA : AdcOk cfg l lo hi) (hC : Converts cfg lo hi (stored h) res vec m n) :
    ∃ x' r, xMvm E cfg x res vec mat m n l = .ok (x', r) :=
  (mvm_converted hE hok hI hc2 hr hl hd h0 hw hv hres hx
    (fun hk i _ => runs_sums hr (hasSums_of_keeps hk) (hwid hk) i) hA hC).2 hrd

/-- C67.  If no noise sample exceeds `ε`, every legal sequence of calls returns, and every answer is that of the
matrix store up to the bound; cycle-to-cycle variation doubles the deviation. -/
theorem C67_bounded_variation (hE : ExactArith E) (hok : CfgOk cfg) (hI : Binary cfg)
    (hrd : cfg.readDisturb = false) (h1 : 0 ≤ cfg.hrs) (h2 : 0 ≤ cfg.lrs) (hg : ∀ k, |E.gauss k| ≤ ε)
    {rng : Nat} {hists : List (String × Hist K)} (hx : mkXbar E cfg rng hists = .ok x) {ops : List Op}
    (hl : LegalOps cfg w [] ops) (hC : AllConvert cfg rg [] ops) :
    ∃ x' rs, exec E cfg x ops = .ok (x', rs) ∧
      AnswersUpTo (fun l => deviationBound cfg (rg l).1 (rg l).2 (spread cfg ε)) [] ops rs := by
  obtain ⟨x', rs, h3, h4⟩ := exec_converted hE hok hI hrd h1 h2 hg (.init hx) .nil hl hC
  exact ⟨x', rs, h3, answersBy_mono (fun _ _ _ _ _ _ _ h => h.1) h4⟩

/-- C67.  If the rounding absorbs the deviations of every multiplication, the crossbar is the exact matrix store. -/
theorem C67_variation_absorbed (hE : ExactArith E) (hok : CfgOk cfg) (hI : Binary cfg)
    (hrd : cfg.readDisturb = false) (h1 : 0 ≤ cfg.hrs) (h2 : 0 ≤ cfg.lrs) (hg : ∀ k, |E.gauss k| ≤ ε)
    {rng : Nat} {hists : List (String × Hist K)} (hx : mkXbar E cfg rng hists = .ok x) {ops : List Op}
    (hl : LegalOps cfg w [] ops) (hC : AllConvert cfg rg [] ops) (hab : AllAbsorbed cfg rg (spread cfg ε) [] ops) :
    ∃ x' rs, exec E cfg x ops = .ok (x', rs) ∧ Answers [] ops rs := by
  obtain ⟨x', rs, h3, h4⟩ := exec_converted hE hok hI hrd h1 h2 hg (.init hx) .nil hl hC
  exact ⟨x', rs, h3, answersBy_absorbed h4 hab⟩

/-- C67.  With `MAX` calibration the nominal currents are always in the range, so only the room for the result remains
of `Converts`. -/
theorem C67_max_converts (h0 : 0 ≤ cfg.hrs) (hle : cfg.hrs ≤ cfg.lrs) (hc : cfg.calibMode = .max) (hfit : adcFits cfg)
    (h45 : cfg.mode = .tnn4 ∨ cfg.mode = .tnn5 → cfg.hrs = 0) (hA : AdcOk cfg l lo hi)
    (hl : Legal cfg (lastWrite h) m n) (hd : Accepted cfg m n) (hx : LegalVec cfg vec n)
    (hroom : ∀ i, i < m → ((|res.get i| + 3 * n : Int) : K) + convPeak lo hi (conversions cfg (stored h) vec n i)
      ≤ 2147483647) : Converts cfg lo hi (stored h) res vec m n :=
  ⟨fun _ hi => conversions_in_range h0 hle hc hfit hA.range hd.2.1 h45 (fun _ _ hi hj => (hl.val hi hj).1) hx hi, hroom⟩

/-- C67.  The bound for nominal cells is the one of C26. -/
theorem C67_bound_nominal (hb : cfg.mode.isInt = false) (W : Nat → Nat → Int) (i : Nat) :
    deviationBound cfg lo hi 0 vec n = convBound cfg lo hi (conversions cfg W vec n i) := by
  have := congrArg (fun l => (l.map fun f => |f| * (adcStep cfg lo hi / 2) + 1 / 2).sum)
    (conv_factors (W := W) (vec := vec) (n := n) hb i)
  simp only [List.map_map] at this
  unfold deviationBound deviation convBound
  rw [if_neg (by intro hm; rw [hm] at hb; exact absurd hb (by decide)), add_zero]
  simp only [mul_zero, zero_add]
  exact this.symm

/-- C67, from the configuration to the results of the interface. -/
theorem C67_interface {wd : World K} {ops : List Op} {k : Nat} (hE : ExactArith E) (hw : Settled E [] wd)
    (hI : Binary wd.cfg) (hrd : wd.cfg.readDisturb = false) (hg : ∀ i, |E.gauss i| ≤ ε)
    (hl : LegalOps wd.cfg k [] ops) (hh : Heights ops) (hC : AllConvert wd.cfg rg [] ops) :
    ∃ w' rs, serve E wd ops = .ok (w', rs, ops.map fun _ => 0) ∧
      AnswersUpTo (fun l => deviationBound wd.cfg (rg l).1 (rg l).2 (spread wd.cfg ε)) [] ops rs ∧
      (AllAbsorbed wd.cfg rg (spread wd.cfg ε) [] ops → Answers [] ops rs) := by
  obtain ⟨x, hx, hr⟩ := settled_runs hw
  obtain ⟨hok, ha⟩ := fresh_ok hw fun hf => by
    have := hI.bin
    unfold Mode.isInt at this
    rw [hf] at this
    exact absurd this (by decide)
  obtain ⟨x', rs, h1, h2⟩ := exec_converted hE hok hI hrd (ha hI.analog).states.1.le (ha hI.analog).states.2.le hg hr
    .nil hl hC
  exact ⟨_, rs, serve_ok hx (dimsFit hl hh) h1, answersBy_mono (fun _ _ _ _ _ _ _ h => h.1) h2, answersBy_absorbed h2⟩

/-! ## C68 -/

/-- C68.  Cell-based mitigation and a real converter: the error is that of cells that deviate by the tolerance.  If the
rounding absorbs it, read disturb never changes a result, however often the crossbar is read. -/
theorem C68_cell_based (hE : ExactArith E) (hok : CfgOk cfg) (hI : Binary cfg) (hc2 : cfg.c2c = false)
    (hrd : cfg.readDisturb = true) (hst : cfg.strategy = .cellBased) (h1 : 0 ≤ cfg.hrs) (h2 : 0 ≤ cfg.lrs)
    (h0 : 0 ≤ ε) (hg : Quiet cfg ∨ ∀ k, |E.gauss k| ≤ ε) (ht : cfg.tol * cfg.lrs ≤ ε)
    {rng : Nat} {hists : List (String × Hist K)} (hx : mkXbar E cfg rng hists = .ok x) {ops : List Op}
    {rs : List (Vec Int)} (hl : LegalOps cfg w [] ops) (hC : AllConvert cfg rg [] ops)
    (he : exec E cfg x ops = .ok (x', rs)) :
    AnswersUpTo (fun l => deviationBound cfg (rg l).1 (rg l).2 ε) [] ops rs ∧
      (AllAbsorbed cfg rg ε [] ops → Answers [] ops rs) :=
  near_answers hE hok hI hc2 h0 (fun hr hd => near_cell_based hE hok hI.bin hI.analog hrd hst h1 h2 h0 hg ht hr hd)
    (.init hx) .nil hl hC he

/-- C68.  Refreshes by the software, likewise. -/
theorem C68_software (hA : RdArith E) (hE : ExactArith E) (hok : CfgOk cfg) (hI : Binary cfg)
    (hc2 : cfg.c2c = false) (hrd : cfg.readDisturb = true) (hst : cfg.strategy = .software) (hfp : 1 ≤ cfg.fp)
    (h1 : 0 ≤ cfg.hrs) (h2 : 0 ≤ cfg.lrs) (h0 : 0 ≤ ε) (hg : Quiet cfg ∨ ∀ k, |E.gauss k| ≤ ε)
    (ht : cfg.lrs * (1 - E.pow cfg.fp (-decay E cfg.vRead)) ≤ ε)
    {rng : Nat} {hists : List (String × Hist K)} (hx : mkXbar E cfg rng hists = .ok x) {ops : List Op}
    {rs : List (Vec Int)} (hl : LegalOps cfg w [] ops) (hC : AllConvert cfg rg [] ops)
    (he : exec E cfg x ops = .ok (x', rs)) :
    AnswersUpTo (fun l => deviationBound cfg (rg l).1 (rg l).2 ε) [] ops rs ∧
      (AllAbsorbed cfg rg ε [] ops → Answers [] ops rs) :=
  near_answers hE hok hI hc2 h0
    (fun hr hd => near_software hA hE hok hI.bin hI.analog hrd hst hfp h1 h2 h0 hg ht hr hd) (.init hx) .nil hl hC he

/-- C68.  No mitigation: the bound follows the reads and writes so far. -/
theorem C68_unmitigated (hA : RdArith E) (hE : ExactArith E) (hok : CfgOk cfg) (hI : Binary cfg)
    (hc2 : cfg.c2c = false) (hrd : cfg.readDisturb = true) (hst : cfg.strategy = .off) (htr : 0 ≤ cfg.tRead)
    (h1 : 0 ≤ cfg.hrs) (h2 : 0 ≤ cfg.lrs) (hg : Quiet cfg ∨ ∀ k, |E.gauss k| ≤ ε)
    (ht : cfg.lrs * (1 - attenuation E cfg (mvmsIn h) (writesIn h)) ≤ ε)
    (hr : Runs E cfg h x) (hl : Legal cfg (lastWrite h) m n) (hwid : keepsRowSums cfg.mode → WidthIs n h)
    (hd : Accepted cfg m n) (hv : n ≤ vec.size) (hres : m ≤ res.size)
    (hx : LegalVec cfg vec n) (hAd : AdcOk cfg l lo hi) (hC : Converts cfg lo hi (stored h) res vec m n)
    (hm : xMvm E cfg x res vec mat m n l = .ok (x', r)) :
    AddsUpTo (fun _ => deviationBound cfg lo hi ε vec n) r res (stored h) vec m n ∧
      (Absorbed cfg lo hi ε vec n → Adds r res (stored h) vec m n) := by
  obtain ⟨h0, hnear⟩ := near_unmitigated hA hE hok hI.bin hI.analog hrd hst htr h1 h2 hg ht hr hd
  exact (mvm_converted hE hok hI hc2 hr hl hd h0 hnear hv hres hx
    (fun hk i _ => runs_sums hr (hasSums_of_keeps hk) (hwid hk) i) hAd hC).1 x' r hm

end

/-! ## Instances -/

namespace Ex'

/-- Noisy cells and a signed converter of 8 bits. -/
def fine (md : Mode) (b : Bool) : Cfg ℚ :=
  { Ex.symCfg md with resolution := 8, hrsNoise := 1, lrsNoise := 1, c2c := b }

theorem fine_ok (md : Mode) (b : Bool) (l : String) : AdcOk (fine md b) l (-15) 15 :=
  ⟨(Ex.sym_ok md l).real, by show (2 : Int) ≤ 8; decide, by show (8 : Int) ≤ 30; decide, (Ex.sym_ok md l).range, by norm_num⟩

theorem bnn3_steady : ∀ c ∈ readout (fine .bnn3 false).mode Ex.vec 3,
    Steady (shared (fine .bnn3 false) Ex.vec 3) (deviation (fine .bnn3 false) (-15) 15 (1 / 4) c) := fun c hc =>
  steady_iff.2 ((by decide +kernel : ∀ c ∈ readout (fine .bnn3 false).mode Ex.vec 3,
    deviation (fine .bnn3 false) (-15) 15 (1 / 4) c < |shared (fine .bnn3 false) Ex.vec 3
      - (⌊shared (fine .bnn3 false) Ex.vec 3⌋ + 1 / 2)|) c hc)

theorem fine_bin {md : Mode} (h : md.isInt = false) (b : Bool) : Binary (fine md b) :=
  ⟨rfl, h, rfl, rfl, by show (5 : ℚ) ≠ 10; norm_num⟩

/-- Noise of at most a quarter. -/
abbrev mild : Env ℚ := Ex.hotEnv (1 / 4) (-1 / 4)

theorem mild_le (k : Nat) : |mild.gauss k| ≤ 1 / 4 := Ex.hotEnv_gauss (by norm_num) (by norm_num) k

/-- A state after noisy programming: the cells are at most a quarter away, and not where they should be. -/
theorem fine_state : ∃ x, Runs mild (fine .tnn3 false) [.write Ex.mat 2 3] x ∧
    NearNominal (fine .tnn3 false) (1 / 4) (lastWrite [.write Ex.mat 2 3]) x.mapper.core.ia 2 3 ∧
    (x.mapper.core.ia.p.get 0 0 == 41 / 4 && x.mapper.core.ia.m.get 0 0 == 19 / 4) = true := by
  obtain ⟨x, h1, h2⟩ := Ex.wrote (E := mild) (c := fine .tnn3 false) (mat := Ex.mat) (m := 2) (n := 3)
    (fun x => (x.mapper.core.ia.p.get 0 0 == 41 / 4 && x.mapper.core.ia.m.get 0 0 == 19 / 4)) (by decide +kernel)
  refine ⟨x, h1, ?_, h2⟩
  exact (runs_near (cfg := fine .tnn3 false) (Ex.hotEnv_exact _ _) (Ex.acfg_ok .tnn3) rfl rfl rfl
    (by show (0 : ℚ) ≤ 5; norm_num) (by show (0 : ℚ) ≤ 10; norm_num) mild_le h1
    (fun i j hi hj => ⟨_, by simp [lastWrite, hi, hj], Ex.legal_mat .tnn3 i j hi hj⟩)).1

theorem fine_converts (b : Bool) :
    Converts (fine .tnn3 b) (-15) 15 (stored [.write Ex.mat 2 3]) Ex.res Ex.vec 2 3 := by
  cases b <;>
  exact ⟨Ex.two (by decide +kernel) (by decide +kernel), Ex.two (by decide +kernel) (by decide +kernel)⟩

theorem pair_converts (b : Bool) : AllConvert (fine .tnn3 b) (fun _ => (-15, 15)) [] pair :=
  ⟨⟨fine_ok .tnn3 b "", fine_converts b⟩, trivial⟩

end Ex'

/-- The hypotheses of `C67_deviating_cells`, `C67_absorbed` and `C67_deviating_cells_total`. -/
example : ∃ x x' r, Runs Ex'.mild (Ex'.fine .tnn3 false) [.write Ex.mat 2 3] x ∧
    xMvm Ex'.mild (Ex'.fine .tnn3 false) x Ex.res Ex.vec Ex.mat 2 3 "" = .ok (x', r) ∧
    AddsUpTo (fun _ => deviationBound (Ex'.fine .tnn3 false) (-15) 15 (1 / 4) Ex.vec 3) r Ex.res
      (stored [.write Ex.mat 2 3]) Ex.vec 2 3 ∧
    Adds r Ex.res (stored [.write Ex.mat 2 3]) Ex.vec 2 3 := by
  obtain ⟨x, h1, h2, _⟩ := Ex'.fine_state
  have hl : Legal (Ex'.fine .tnn3 false) (lastWrite [.write Ex.mat 2 3]) 2 3 :=
    fun i j hi hj => ⟨_, by simp [lastWrite, hi, hj], Ex.legal_mat .tnn3 i j hi hj⟩
  have hwid : keepsRowSums (Ex'.fine .tnn3 false).mode → WidthIs 3 [.write Ex.mat 2 3] := fun _ op hop => by
    obtain rfl := List.mem_singleton.1 hop
    rfl
  obtain ⟨x', r, h3⟩ := C67_deviating_cells_total (cfg := Ex'.fine .tnn3 false) (mat := Ex.mat) (l := "") (vec := Ex.vec)
    (res := Ex.res) (Ex.hotEnv_exact _ _) (Ex.acfg_ok .tnn3) (Ex'.fine_bin rfl _) rfl rfl h1 hl hwid (Ex.accepted .tnn3)
    (by norm_num) h2 (by decide) (by decide) (Ex.legal_vec .tnn3 (by decide)) (Ex'.fine_ok .tnn3 _ "")
    (Ex'.fine_converts _)
  exact ⟨x, x', r, h1, h3, C67_deviating_cells (cfg := Ex'.fine .tnn3 false) (Ex.hotEnv_exact _ _) (Ex.acfg_ok .tnn3)
      (Ex'.fine_bin rfl _) rfl h1 hl hwid (Ex.accepted .tnn3) (by norm_num) h2 (by decide) (by decide)
      (Ex.legal_vec .tnn3 (by decide)) (Ex'.fine_ok .tnn3 _ "") (Ex'.fine_converts _) h3,
    C67_absorbed (cfg := Ex'.fine .tnn3 false) (ε := 1 / 4) (Ex.hotEnv_exact _ _) (Ex.acfg_ok .tnn3)
      (Ex'.fine_bin rfl _) rfl h1 hl hwid (Ex.accepted .tnn3) (by norm_num) h2 (by decide) (by decide)
      (Ex.legal_vec .tnn3 (by decide)) (Ex'.fine_ok .tnn3 _ "") (Ex'.fine_converts _)
      (.inl ⟨trivial, by decide +kernel⟩) h3⟩

/-- The hypotheses of `C67_bounded_variation`, with cycle-to-cycle variation. -/
example : ∃ x x' rs, mkXbar Ex'.mild (Ex'.fine .tnn3 true) 0 [] = .ok x ∧
    exec Ex'.mild (Ex'.fine .tnn3 true) x Ex'.pair = .ok (x', rs) ∧
    AnswersUpTo (fun _ => deviationBound (Ex'.fine .tnn3 true) (-15) 15 (spread (Ex'.fine .tnn3 true) (1 / 4))) []
      Ex'.pair rs := by
  obtain ⟨x, hx, _⟩ := Ex.okAnd_spec (x := mkXbar Ex'.mild (Ex'.fine .tnn3 true) 0 []) (p := fun _ => true)
    (by decide +kernel)
  obtain ⟨x', rs, h⟩ := C67_bounded_variation (cfg := Ex'.fine .tnn3 true) (w := 3) (ε := 1 / 4) (ops := Ex'.pair)
    (rg := fun _ => (-15, 15)) (Ex.hotEnv_exact _ _) (Ex.acfg_ok .tnn3) (Ex'.fine_bin rfl _) rfl
    (by show (0 : ℚ) ≤ 5; norm_num) (by show (0 : ℚ) ≤ 10; norm_num) Ex'.mild_le hx
    (Ex'.pair_legal (Ex.accepted .tnn3) (Ex.legal_mat .tnn3) (Ex.sum_room .tnn3) (Ex.legal_vec .tnn3 (by decide))
      (Ex.room .tnn3)) (Ex'.pair_converts true)
  exact ⟨x, x', rs, hx, h⟩

/-- The hypotheses of `C67_variation_absorbed`, with cycle-to-cycle variation half as large. -/
example : ∃ x x' rs, mkXbar (Ex.hotEnv (1 / 8) (-1 / 8)) (Ex'.fine .tnn3 true) 0 [] = .ok x ∧
    exec (Ex.hotEnv (1 / 8) (-1 / 8)) (Ex'.fine .tnn3 true) x Ex'.pair = .ok (x', rs) ∧ Answers [] Ex'.pair rs := by
  obtain ⟨x, hx, _⟩ := Ex.okAnd_spec (x := mkXbar (Ex.hotEnv (1 / 8) (-1 / 8)) (Ex'.fine .tnn3 true) 0 [])
    (p := fun _ => true) (by decide +kernel)
  obtain ⟨x', rs, h⟩ := C67_variation_absorbed (cfg := Ex'.fine .tnn3 true) (w := 3) (ε := 1 / 8) (ops := Ex'.pair)
    (rg := fun _ => (-15, 15)) (Ex.hotEnv_exact _ _) (Ex.acfg_ok .tnn3) (Ex'.fine_bin rfl _) rfl
    (by show (0 : ℚ) ≤ 5; norm_num) (by show (0 : ℚ) ≤ 10; norm_num)
    (Ex.hotEnv_gauss (by norm_num) (by norm_num)) hx
    (Ex'.pair_legal (Ex.accepted .tnn3) (Ex.legal_mat .tnn3) (Ex.sum_room .tnn3) (Ex.legal_vec .tnn3 (by decide))
      (Ex.room .tnn3)) (Ex'.pair_converts true) ⟨.inl ⟨trivial, by decide +kernel⟩, trivial⟩
  exact ⟨x, x', rs, hx, h⟩

/-- The same in BNN_III, whose conversions share a fraction. -/
example : ∃ x x' rs, mkXbar Ex'.mild (Ex'.fine .bnn3 false) 0 [] = .ok x ∧
    exec Ex'.mild (Ex'.fine .bnn3 false) x Ex'.pair = .ok (x', rs) ∧ Answers [] Ex'.pair rs := by
  obtain ⟨x, hx, _⟩ := Ex.okAnd_spec (x := mkXbar Ex'.mild (Ex'.fine .bnn3 false) 0 []) (p := fun _ => true)
    (by decide +kernel)
  obtain ⟨x', rs, h⟩ := C67_variation_absorbed (cfg := Ex'.fine .bnn3 false) (w := 3) (ε := 1 / 4)
    (ops := Ex'.pair) (rg := fun _ => (-15, 15)) (Ex.hotEnv_exact _ _) (Ex.acfg_ok .bnn3) (Ex'.fine_bin rfl _) rfl
    (by show (0 : ℚ) ≤ 5; norm_num) (by show (0 : ℚ) ≤ 10; norm_num)
    (Ex.hotEnv_gauss (by norm_num) (by norm_num)) hx
    (Ex'.pair_legal (Ex.accepted .bnn3) (Ex.legal_mat .bnn3) (Ex.sum_room .bnn3) (Ex.legal_vec .bnn3 (by decide))
      (Ex.room .bnn3))
    ⟨⟨Ex'.fine_ok .bnn3 _ "", Ex.two (by decide +kernel) (by decide +kernel), Ex.two (by decide +kernel) (by decide +kernel)⟩, trivial⟩
    ⟨.inr ⟨.inl rfl, Ex'.bnn3_steady⟩, trivial⟩
  exact ⟨x, x', rs, hx, h⟩

/-- The hypotheses of `C67_max_converts`. -/
example : Converts (Ex'.fine .tnn3 false) (-15) 15 (stored [.write Ex.mat 2 3]) Ex.res Ex.vec 2 3 :=
  C67_max_converts (cfg := Ex'.fine .tnn3 false) (by show (0 : ℚ) ≤ 5; norm_num) (by show (5 : ℚ) ≤ 10; norm_num) rfl rfl
    (fun h => by rcases h with h | h <;> cases h) (Ex'.fine_ok .tnn3 _ "")
    (fun i j hi hj => ⟨_, by simp [lastWrite, hi, hj], Ex.legal_mat .tnn3 i j hi hj⟩) (Ex.accepted .tnn3)
    (Ex.legal_vec .tnn3 (by decide)) (Ex'.fine_converts _).room

/-- What `set_config` makes of a document with noise and a signed converter. -/
def Ex'.loadedSym : Cfg ℚ := { Ex'.loaded .tnn3 10 1 with adcType := .sym, resolution := 8 }

theorem Ex'.loadedSym_legal : LegalOps Ex'.loadedSym 3 [] Ex'.pair :=
  Ex'.pair_legal ⟨le_refl 2, le_refl 3, by decide⟩ (Ex.legal_mat .tnn3) (fun h => by cases h)
    (Ex.legal_vec .tnn3 (by decide)) (Ex.two (by decide) (by decide))

/-- The hypotheses of `C67_interface`. -/
example : ∃ w w' rs, Settled Ex'.mild [] w ∧ serve Ex'.mild w Ex'.pair = .ok (w', rs, [0, 0]) ∧ Answers [] Ex'.pair rs := by
  obtain ⟨w, h1, h2⟩ := Ex'.load Ex'.mild
    (Ex.analog .tnn3 [("adc_type", .str "SYM_RANGE_ADC"), ("HRS_NOISE", .int 1), ("LRS_NOISE", .int 1)])
    Ex'.loadedSym (by decide +kernel)
  obtain ⟨w', rs, h3, _, h4⟩ := C67_interface (ε := 1 / 4) (rg := fun _ => (-15, 15)) (ops := Ex'.pair) (k := 3)
    (Ex.hotEnv_exact _ _) h1 (by rw [h2]; exact ⟨rfl, rfl, rfl, rfl, by show (5 : ℚ) ≠ 10; norm_num⟩) (by rw [h2]; rfl)
    Ex'.mild_le (by rw [h2]; exact Ex'.loadedSym_legal) Ex'.pair_heights (by
      rw [h2]
      exact ⟨⟨⟨by decide, by decide, by decide, by decide +kernel, by norm_num⟩, Ex.two (by decide +kernel) (by decide +kernel),
        Ex.two (by decide +kernel) (by decide +kernel)⟩, trivial⟩)
  exact ⟨w, w', rs, h1, h3, h4 (by rw [h2]; exact ⟨.inl ⟨trivial, by decide +kernel⟩, trivial⟩)⟩

/-- A `1 × 1` crossbar with noise and a calibrated converter of 3 bits. -/
def Ex'.coarse : Cfg ℚ := { Ex.one .tnn1 1000 1008 3 with
  adcType := .sym, calibMode := .calib, calibDict := [("", (-12, 12))], hrsNoise := 1, lrsNoise := 1 }

/-- C67.  The limits cannot be improved: with a deviation of exactly one half the result can be wrong, and off by the
whole bound. -/
theorem C67_half_sharp : ∃ (E : Env ℚ) (cfg : Cfg ℚ) (ε lo hi : ℚ) (x x' : Xbar ℚ) (r : Vec Int), ExactArith E ∧
    CfgOk cfg ∧ Binary cfg ∧ integral cfg.mode ∧ cfg.readDisturb = false ∧ 0 ≤ cfg.hrs ∧ 0 ≤ cfg.lrs ∧ (∀ k, |E.gauss k| ≤ ε) ∧ cfg.c2c = false ∧
    AdcOk cfg "" lo hi ∧ LegalW cfg 1 ∧ LegalX cfg 1 ∧ Runs E cfg [.write (Ex.single 1) 1 1] x ∧
    Converts cfg lo hi (stored [.write (Ex.single 1) 1 1]) (Ex.single 0) (Ex.single 1) 1 1 ∧
    xMvm E cfg x (Ex.single 0) (Ex.single 1) (Ex.single 1) 1 1 "" = .ok (x', r) ∧
    (∀ c ∈ readout cfg.mode (Ex.single 1) 1, deviation cfg lo hi ε c ≤ 1 / 2) ∧
    r.get 0 ≠ 1 ∧ |(r.get 0 : ℚ) - 1| = deviationBound cfg lo hi ε (Ex.single 1) 1 := by
  obtain ⟨x, x', r, h1, h2, h3⟩ := Ex.multiplied (E := Ex.hotEnv 1 (-1)) (c := Ex'.coarse) (mat := Ex.single 1)
    (res := Ex.single 0) (vec := Ex.single 1) (mat' := Ex.single 1) (m := 1) (n := 1) (m' := 1) (n' := 1) (l := "")
    (fun _ r => decide (r.get 0 = 2)) (by decide +kernel)
  have h3 := of_decide_eq_true h3
  refine ⟨_, Ex'.coarse, 1, -12, 12, x, x', r, Ex.hotEnv_exact 1 (-1), Ex.hotCfg_ok .tnn1 false,
    ⟨rfl, rfl, rfl, rfl, by show (1000 : ℚ) ≠ 1008; norm_num⟩, trivial, rfl, by show (0 : ℚ) ≤ 1000; norm_num,
    by show (0 : ℚ) ≤ 1008; norm_num, Ex.hotEnv_gauss (by norm_num) (by norm_num), rfl,
    ⟨by decide, by decide, by decide, by decide +kernel, by norm_num⟩, Or.inl rfl, Or.inl rfl, h1,
    ⟨fun i hi => ?_, fun i hi => ?_⟩, h2, by decide +kernel, by rw [h3]; decide, by rw [h3]; decide +kernel⟩
  · obtain rfl : i = 0 := by omega
    decide +kernel
  · obtain rfl : i = 0 := by omega
    decide +kernel

namespace Ex'

/-- Read disturb that attenuates cells by one percent, and a signed converter of 8 bits. -/
def worn (s : Strategy) (b : Bool) : Cfg ℚ := { Ex.rdCfg .bnn1 with
  strategy := s, tRead := 1122 / 10 ^ 11, tol := 1 / 50, fp := if b then 101 / 100 else 1, adcType := .sym, resolution := 8 }

theorem worn_ok (s : Strategy) (b : Bool) (l : String) : AdcOk (worn s b) l (-15) 15 :=
  ⟨(Ex.sym_ok .bnn1 l).real, by show (2 : Int) ≤ 8; decide, by show (8 : Int) ≤ 30; decide, (Ex.sym_ok .bnn1 l).range, by norm_num⟩

theorem worn_bin (s : Strategy) (b : Bool) : Binary (worn s b) := ⟨rfl, rfl, rfl, rfl, by show (5 : ℚ) ≠ 10; norm_num⟩

theorem disturbed_converts (s : Strategy) (b : Bool) : AllConvert (worn s b) (fun _ => (-15, 15)) [] disturbed := by
  refine ⟨⟨worn_ok s b "", ?_, ?_⟩, ⟨worn_ok s b "", ?_, ?_⟩, ⟨worn_ok s b "", ?_, ?_⟩, trivial⟩ <;>
  exact Ex.two (by cases s <;> cases b <;> decide +kernel) (by cases s <;> cases b <;> decide +kernel)

theorem disturbed_absorbed (s : Strategy) (b : Bool) :
    AllAbsorbed (worn s b) (fun _ => (-15, 15)) (1 / 5) [] disturbed := by
  refine ⟨.inl ⟨trivial, ?_⟩, .inl ⟨trivial, ?_⟩, .inl ⟨trivial, ?_⟩, trivial⟩ <;> cases s <;> cases b <;> decide +kernel

theorem worn_legal (s : Strategy) (b : Bool) : LegalOps (worn s b) 3 [] disturbed :=
  disturbed_legal _ (Ex.accepted .bnn1) (Ex.legal_mat .bnn1) (Ex.sum_room .bnn1) (Ex.legal_vec .bnn1 (by decide)) (Ex.room .bnn1)

end Ex'

/-- The third multiplication reads attenuated cells. -/
example : ∃ x, Runs Ex.rdEnv (Ex'.worn .cellBased false) [Ex.mv, Ex.mv, Ex.w] x ∧ (x.mapper.core.ia.p.get 0 0 == 4443509 / 448800) = true :=
  Ex.played [Ex.w, Ex.mv, Ex.mv] (fun x => x.mapper.core.ia.p.get 0 0 == 4443509 / 448800) (by decide +kernel)

/-- The hypotheses of `C68_cell_based`. -/
example : ∃ x x' rs, mkXbar Ex.rdEnv (Ex'.worn .cellBased false) 0 [] = .ok x ∧
    exec Ex.rdEnv (Ex'.worn .cellBased false) x Ex'.disturbed = .ok (x', rs) ∧ Answers [] Ex'.disturbed rs := by
  obtain ⟨x, hx, h⟩ := Ex.okAnd_spec (x := mkXbar Ex.rdEnv (Ex'.worn .cellBased false) 0 [])
    (p := fun x => Ex.okAnd (exec Ex.rdEnv (Ex'.worn .cellBased false) x Ex'.disturbed) fun _ => true) (by decide +kernel)
  obtain ⟨⟨x', rs⟩, he, ho⟩ := Ex.okAnd_spec h
  exact ⟨x, x', rs, hx, he, (C68_cell_based (cfg := Ex'.worn .cellBased false) (w := 3) Ex.rdEnv_exact (Ex.acfg_ok .bnn1)
    (Ex'.worn_bin _ _) rfl rfl rfl (by decide +kernel) (by decide +kernel) (by decide +kernel) (.inl fun _ => by decide +kernel)
    (by decide +kernel) hx (Ex'.worn_legal _ _) (Ex'.disturbed_converts _ _) he).2 (Ex'.disturbed_absorbed _ _)⟩

/-- The hypotheses of `C68_software`. -/
example : ∃ x x' rs, mkXbar Ex.rdEnv (Ex'.worn .software true) 0 [] = .ok x ∧
    exec Ex.rdEnv (Ex'.worn .software true) x Ex'.disturbed = .ok (x', rs) ∧ Answers [] Ex'.disturbed rs := by
  obtain ⟨x, hx, h⟩ := Ex.okAnd_spec (x := mkXbar Ex.rdEnv (Ex'.worn .software true) 0 [])
    (p := fun x => Ex.okAnd (exec Ex.rdEnv (Ex'.worn .software true) x Ex'.disturbed) fun _ => true) (by decide +kernel)
  obtain ⟨⟨x', rs⟩, he, ho⟩ := Ex.okAnd_spec h
  exact ⟨x, x', rs, hx, he, (C68_software (cfg := Ex'.worn .software true) (w := 3) Ex.rdEnv_arith Ex.rdEnv_exact (Ex.acfg_ok .bnn1)
    (Ex'.worn_bin _ _) rfl rfl rfl (by decide +kernel) (by decide +kernel) (by decide +kernel) (by decide +kernel)
    (.inl fun _ => by decide +kernel)
    (by decide +kernel) hx (Ex'.worn_legal _ _) (Ex'.disturbed_converts _ _) he).2 (Ex'.disturbed_absorbed _ _)⟩

/-- The hypotheses of `C68_unmitigated` in a state with attenuated cells. -/
example : ∃ x x' r, Runs Ex.rdEnv (Ex'.worn .off false) [Ex.mv, Ex.mv, Ex.w] x ∧
    xMvm Ex.rdEnv (Ex'.worn .off false) x Ex.res Ex.vec Ex.mat 2 3 "" = .ok (x', r) ∧
    Adds r Ex.res (stored [Ex.mv, Ex.mv, Ex.w]) Ex.vec 2 3 := by
  obtain ⟨x, x', r, hr, hm, ho⟩ := Ex.stepped (E := Ex.rdEnv) (c := Ex'.worn .off false) (res := Ex.res) (vec := Ex.vec)
    (mat := Ex.mat) (m := 2) (n := 3) (l := "") [Ex.w, Ex.mv, Ex.mv] (fun _ _ r => true) (by decide +kernel)
  exact ⟨x, x', r, hr, hm, (C68_unmitigated (cfg := Ex'.worn .off false) (ε := 1 / 5) Ex.rdEnv_arith Ex.rdEnv_exact (Ex.acfg_ok .bnn1)
    (Ex'.worn_bin _ _) rfl rfl rfl (by decide +kernel) (by decide +kernel) (by decide +kernel)
    (.inl fun _ => by decide +kernel) (by decide +kernel) hr
    (fun i j hi hj => ⟨_, by simp [lastWrite, Ex.w, Ex.mv, hi, hj], Ex.legal_mat .bnn1 i j hi hj⟩)
    (fun _ op hop => by
      simp only [List.reverse_cons, List.reverse_nil, List.nil_append, List.cons_append, List.mem_cons, List.not_mem_nil, or_false] at hop
      rcases hop with rfl | rfl | rfl <;> first | rfl | trivial)
    (Ex.accepted .bnn1) (by decide) (by decide) (Ex.legal_vec .bnn1 (by decide)) (Ex'.worn_ok _ _ "")
    (Ex'.disturbed_converts .off false).2.2.1.2 hm).2 (Ex'.disturbed_absorbed .off false).2.2.1⟩

end Acs.Props
