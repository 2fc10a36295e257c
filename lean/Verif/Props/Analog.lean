import Verif.Lemmas.InRange
import Verif.Props.Adc
import Verif.Props.Currents

/-!
# Ideal analog crossbar

Exactness with an ideal converter, error bounds with a real one, the range of the converters.  An
`Ideal` configuration has no variation, disturb, parasitics and profiling; arithmetic is exact.
-/

set_option linter.unusedSectionVars false

namespace Acs.Ex

open Spec

theorem ideal (md : Mode) : Ideal (acfg md) where
  analog := rfl
  par := rfl
  c2c := rfl
  rd := rfl
  prof := rfl
  quiet := quiet md
  ne := by simp [acfg, cfg]
  split := by cases md <;> decide

theorem ideal_sym (md : Mode) : Ideal (symCfg md) := ⟨rfl, rfl, rfl, rfl, rfl, quiet md, (ideal md).ne, (ideal md).split⟩

theorem ideal_pos (md : Mode) : Ideal (posCfg md) := ⟨rfl, rfl, rfl, rfl, rfl, quiet md, (ideal md).ne, (ideal md).split⟩

/-- An unsigned inputs example. -/
def vecU : Vec Int := Vec.ofList [7, 0, 5]

end Acs.Ex

namespace Acs.Props

open Finset Spec

section
variable {K : Type} [Field K] [LinearOrder K] [IsStrictOrderedRing K] [FloorRing K]
variable {E : Env K} {cfg : Cfg K} {mat mat' vec res : Vec Int} {m n w : Nat} {l : String}
variable {x : Xbar K} {h : List Op} {lo hi : K}

/-! ## C17 – C19: exactness with an ideal converter -/

/-- C17.  `I_OFFS_W_DIFF` left-shifts possibly negative sums, hence the gcc hypothesis. -/
theorem C17_analog_int_exact (hE : ExactArith E) (hfam : cfg.mode.family = .int) (hok : CfgOk cfg)
    (hid : Ideal cfg) (hinf : cfg.adcType = .inf) (hgcc : cfg.mode = .iOffsWDiff → E.strict = false)
    (hr : Runs E cfg h x) (hd : Accepted cfg m n) (hbuf : m * n ≤ mat.size)
    (hW : LegalMat cfg (entry mat n) m n) (hsum : SumRoom cfg m n) (hv : n ≤ vec.size)
    (hx : LegalVec cfg vec n) (hres : m ≤ res.size) (hroom : Room cfg res m n) :
    ∃ x1 x2 r, xWrite E cfg x mat m n = .ok x1 ∧ xMvm E cfg x1 res vec mat' m n l = .ok (x2, r) ∧
      Adds r res (entry mat n) vec m n :=
  write_mvm_inf hE hok hid hinf hgcc hr hd hbuf hW hsum le_rfl le_rfl (fun _ => rfl) hv hx hres hroom

example : ∃ x x1 x2 r, Runs Ex.env (Ex.acfg .iOffsWDiff) [] x ∧
    xWrite Ex.env (Ex.acfg .iOffsWDiff) x Ex.matI 2 3 = .ok x1 ∧
    xMvm Ex.env (Ex.acfg .iOffsWDiff) x1 Ex.res Ex.vecI Ex.matI 2 3 "" = .ok (x2, r) ∧
    Adds r Ex.res (entry Ex.matI 3) Ex.vecI 2 3 := by
  obtain ⟨x, hx⟩ := Ex.afresh .iOffsWDiff
  obtain ⟨x1, x2, r, h⟩ := C17_analog_int_exact (mat' := Ex.matI) (l := "") Ex.env_exact rfl (Ex.acfg_ok .iOffsWDiff)
    (Ex.ideal _) rfl (fun _ => rfl) (.init hx) (Ex.accepted .iOffsWDiff) (by decide) Ex.legal_matI
    (Ex.sum_room .iOffsWDiff) (by decide) Ex.legal_vecI (by decide) (Ex.room .iOffsWDiff)
  exact ⟨x, x1, x2, r, .init hx, h⟩

/-- C18. -/
theorem C18_analog_bnn_exact (hE : ExactArith E) (hfam : cfg.mode.family = .bnn) (hok : CfgOk cfg)
    (hid : Ideal cfg) (hinf : cfg.adcType = .inf) (hr : Runs E cfg h x) (hd : Accepted cfg m n)
    (hbuf : m * n ≤ mat.size)
    (hW : ∀ i j, i < m → j < n → entry mat n i j = 1 ∨ entry mat n i j = -1)
    (hv : n ≤ vec.size) (hx : ∀ j, j < n → vec.get j = 1 ∨ vec.get j = -1) (hres : m ≤ res.size)
    (hroom : ∀ i, i < m → |res.get i| + 3 * n ≤ 2147483647) :
    ∃ x1 x2 r, xWrite E cfg x mat m n = .ok x1 ∧ xMvm E cfg x1 res vec mat' m n l = .ok (x2, r) ∧
      Adds r res (entry mat n) vec m n := by
  refine write_mvm_inf hE hok hid hinf (fun h => ?_) hr hd hbuf (fun i j hi hj => ?_) (fun h => ?_) le_rfl le_rfl
    (fun _ => rfl) hv (fun j hj => ?_) hres (fun i hi => ?_)
  · rw [h] at hfam; exact absurd hfam (by decide)
  · have := hW i j hi hj
    unfold LegalW
    cases hm : cfg.mode <;> simp only [hm, Mode.family, reduceCtorEq] at hfam <;> exact this
  · simp [Mode.isInt, hfam] at h
  · have := hx j hj
    unfold LegalX
    cases hm : cfg.mode <;> simp only [hm, Mode.family, reduceCtorEq] at hfam <;> exact this
  · have := hroom i hi
    unfold peak
    cases hm : cfg.mode <;> simp only [hm, Mode.family, reduceCtorEq] at hfam <;> exact this

example (md : Mode) (hmd : md.family = .bnn) : ∃ x x1 x2 r, Runs Ex.env (Ex.acfg md) [] x ∧
    xWrite Ex.env (Ex.acfg md) x Ex.mat 2 3 = .ok x1 ∧
    xMvm Ex.env (Ex.acfg md) x1 Ex.res Ex.vec Ex.mat 2 3 "" = .ok (x2, r) ∧
    Adds r Ex.res (entry Ex.mat 3) Ex.vec 2 3 := by
  obtain ⟨x, hx⟩ := Ex.afresh md
  obtain ⟨x1, x2, r, h⟩ := C18_analog_bnn_exact (mat := Ex.mat) (mat' := Ex.mat) (vec := Ex.vec)
    (res := Ex.res) (l := "") Ex.env_exact hmd (Ex.acfg_ok md) (Ex.ideal md) rfl (.init hx) (Ex.accepted md)
    (by decide) Ex.mat_bin (by decide) Ex.vec_bin (by decide) (Ex.two (by decide) (by decide))
  exact ⟨x, x1, x2, r, .init hx, h⟩

/-- C19. -/
theorem C19_analog_tnn_exact (hE : ExactArith E) (hfam : cfg.mode.family = .tnn) (hok : CfgOk cfg)
    (hid : Ideal cfg) (hinf : cfg.adcType = .inf) (hr : Runs E cfg h x) (hd : Accepted cfg m n)
    (hbuf : m * n ≤ mat.size)
    (hW : ∀ i j, i < m → j < n →
      entry mat n i j = 1 ∨ entry mat n i j = -1 ∨ entry mat n i j = 0)
    (hv : n ≤ vec.size) (hx : ∀ j, j < n → vec.get j = 1 ∨ vec.get j = -1 ∨ vec.get j = 0)
    (hres : m ≤ res.size) (hroom : ∀ i, i < m → |res.get i| + 3 * n ≤ 2147483647) :
    ∃ x1 x2 r, xWrite E cfg x mat m n = .ok x1 ∧ xMvm E cfg x1 res vec mat' m n l = .ok (x2, r) ∧
      Adds r res (entry mat n) vec m n := by
  refine write_mvm_inf hE hok hid hinf (fun h => ?_) hr hd hbuf (fun i j hi hj => ?_) (fun h => ?_) le_rfl le_rfl
    (fun _ => rfl) hv (fun j hj => ?_) hres (fun i hi => ?_)
  · rw [h] at hfam; exact absurd hfam (by decide)
  · have := hW i j hi hj
    unfold LegalW
    cases hm : cfg.mode <;> simp only [hm, Mode.family, reduceCtorEq] at hfam <;> exact this
  · simp [Mode.isInt, hfam] at h
  · have := hx j hj
    unfold LegalX
    cases hm : cfg.mode <;> simp only [hm, Mode.family, reduceCtorEq] at hfam <;> exact this
  · have := hroom i hi
    unfold peak
    cases hm : cfg.mode <;> simp only [hm, Mode.family, reduceCtorEq] at hfam <;> exact this

example (md : Mode) (hmd : md.family = .tnn) : ∃ x x1 x2 r, Runs Ex.env (Ex.acfg md) [] x ∧
    xWrite Ex.env (Ex.acfg md) x Ex.matT 2 3 = .ok x1 ∧
    xMvm Ex.env (Ex.acfg md) x1 Ex.res Ex.vecT Ex.mat 2 3 "" = .ok (x2, r) ∧
    Adds r Ex.res (entry Ex.matT 3) Ex.vecT 2 3 := by
  obtain ⟨x, hx⟩ := Ex.afresh md
  obtain ⟨x1, x2, r, h⟩ := C19_analog_tnn_exact (mat := Ex.matT) (mat' := Ex.mat) (vec := Ex.vecT)
    (res := Ex.res) (l := "") Ex.env_exact hmd (Ex.acfg_ok md) (Ex.ideal md) rfl (.init hx) (Ex.accepted md)
    (by decide) (Ex.block (P := fun i j => entry Ex.matT 3 i j = 1 ∨ entry Ex.matT 3 i j = -1 ∨
      entry Ex.matT 3 i j = 0) (by decide))
    (by decide) (Ex.three (by decide) (by decide) (by decide)) (by decide)
    (Ex.two (by decide) (by decide))
  exact ⟨x, x1, x2, r, .init hx, h⟩

/-! ## C10, C06: legal call sequences on an ideal analog crossbar -/

/-- C10.  Every legal sequence of calls on an ideal analog crossbar returns, without undefined
behaviour or any other fault, and C06: with the answers of the matrix store. -/
theorem C10_ideal_calls_total (hE : ExactArith E) (hok : CfgOk cfg) (hid : Ideal cfg) (hinf : cfg.adcType = .inf)
    (hgcc : cfg.mode = .iOffsWDiff → E.strict = false) {rng : Nat} {hists : List (String × Hist K)}
    (hx : mkXbar E cfg rng hists = .ok x) {ops : List Op} (hl : LegalOps cfg w [] ops) :
    ∃ x' rs, exec E cfg x ops = .ok (x', rs) ∧ Answers [] ops rs :=
  exec_refines_inf hE hok hid hinf hgcc (.init hx) .nil hl

example : ∃ x, mkXbar Ex.env (Ex.acfg .tnn3) 0 [] = .ok x ∧ LegalOps (Ex.acfg .tnn3) 3 []
    [.write Ex.matT 2 3, .mvm Ex.res Ex.vecT Ex.mat 2 3 "a"] := by
  obtain ⟨x, hx⟩ := Ex.afresh .tnn3
  refine ⟨x, hx, ⟨Ex.accepted .tnn3, by decide, Ex.block (P := fun i j => entry Ex.matT 3 i j = 1 ∨
      entry Ex.matT 3 i j = -1 ∨ entry Ex.matT 3 i j = 0) (by decide), Ex.sum_room .tnn3, fun _ => rfl⟩,
    ⟨Ex.accepted .tnn3, by decide, by decide, Ex.three (P := fun j => Ex.vecT.get j = 1 ∨ Ex.vecT.get j = -1 ∨
      Ex.vecT.get j = 0) (by decide) (by decide) (by decide), Ex.room .tnn3,
      fun i j hi hj => ?_, fun _ => rfl⟩, trivial⟩
  simp [lastWrite, hi, hj]

/-! ## C27: the range of the converters -/

/-- C27, the part that holds: everything but `TNN_IV` and `TNN_V` with `HRS ≠ 0`, where the claim is
false (`C27_false_tnn4`, `C27_false_tnn5`). -/
theorem C27_currents_in_range_partial (h0 : 0 ≤ cfg.hrs) (hle : cfg.hrs ≤ cfg.lrs) (hc : cfg.calibMode = .max)
    (hfit : adcFits cfg) (hra : adcRange cfg l = some (lo, hi)) (hn : n ≤ cfg.N)
    (h45 : cfg.mode = .tnn4 ∨ cfg.mode = .tnn5 → cfg.hrs = 0)
    (hW : LegalMat cfg (entry mat n) m n) (hx : LegalVec cfg vec n) {i : Nat} (hi' : i < m) :
    ∀ c ∈ conversions cfg (entry mat n) vec n i, lo ≤ c.1 ∧ c.1 ≤ hi :=
  conversions_in_range h0 hle hc hfit hra hn h45 hW hx hi'

example : adcFits (Ex.symCfg .iOffsWDiff) ∧ adcRange (Ex.symCfg .iOffsWDiff) "" = some (-15, 15) ∧
    LegalMat (Ex.symCfg .iOffsWDiff) (entry Ex.matI 3) 2 3 ∧ LegalVec (Ex.symCfg .iOffsWDiff) Ex.vecI 3 :=
  ⟨rfl, (Ex.sym_ok .iOffsWDiff "").range, Ex.legal_matI, Ex.legal_vecI⟩

/-- The converter of the model has the range of the specification. -/
theorem C27_model_range (hE : ExactArith E) {adc : Adc} (ha : mkAdc cfg = .ok adc)
    (hra : adcRange cfg l = some (lo, hi)) : getCurrents E cfg adc.kind l = .ok (lo, hi) := by
  have hk : adc.kind = cfg.adcType := by
    unfold mkAdc at ha
    simp only [bind_eq_ok] at ha
    obtain ⟨st, _, ha⟩ := ha
    cases ht : cfg.adcType <;> simp only [ht, bind_eq_ok] at ha
    · rw [← ok_inj.1 ha]
    · obtain ⟨st', _, ha⟩ := ha; rw [← ok_inj.1 ha]
    · rw [← ok_inj.1 ha]
  unfold adcRange at hra
  unfold getCurrents
  rw [hk]
  cases hc : cfg.calibMode <;> simp only [hc] at hra ⊢
  · cases ht : cfg.adcType <;> simp only [ht, Option.some.injEq, Prod.mk.injEq, reduceCtorEq] at hra
    all_goals
      simp only [minCurrent, maxCurrent, Env.fmul, Env.fsub, Env.ofInt, hE.f32, ← hra.1, ← hra.2]
      push_cast
      congr 2
      try ring
  · rw [hra]

end

/-- The claim of C27 for one mode. -/
def RangeClaim (md : Mode) : Prop :=
  ∀ (cfg : Cfg ℚ) (mat vec : Vec Int) (m n i : Nat) (lo hi : ℚ), cfg.mode = md → CfgOk cfg → 0 ≤ cfg.hrs →
    cfg.hrs ≤ cfg.lrs → cfg.calibMode = .max → adcFits cfg → adcRange cfg "" = some (lo, hi) → n ≤ cfg.N →
    LegalMat cfg (entry mat n) m n → LegalVec cfg vec n → i < m →
    ∀ c ∈ conversions cfg (entry mat n) vec n i, lo ≤ c.1 ∧ c.1 ≤ hi

end Acs.Props

namespace Acs.Ex

open Spec

/-- A crossbar with one weight, unsigned converter. -/
def one (md : Mode) (h l : ℚ) (r : Int) : Cfg ℚ :=
  { posCfg md with M := 1, N := 1, hrs := h, lrs := l, resolution := r, iBit := 1
                   wBit := 2, split := if md.isInt then [1, 1] else (cfg md).split }

theorem one_ok (md : Mode) (h l : ℚ) (r : Int) : CfgOk (one md h l r) := by
  cases md <;> simp [CfgOk, one, posCfg, acfg, cfg, Mode.isInt, Mode.family]

theorem one_ideal (md : Mode) {h l : ℚ} (hl : h ≠ l) (r : Int) : Ideal (one md h l r) where
  analog := rfl
  par := rfl
  c2c := rfl
  rd := rfl
  prof := rfl
  quiet := quiet md
  ne := hl
  split := by
    intro hi s hs
    have hs : s ∈ (if md.isInt then [1, 1] else (cfg md).split) := hs
    have hi : md.isInt = true := hi
    rw [if_pos hi] at hs
    simp at hs
    omega

theorem one_adc (md : Mode) {h l : ℚ} {r : Int} (h1 : 1 ≤ r) (h2 : r ≤ 30) (h3 : 0 < l) :
    AdcOk (one md h l r) "" 0 l where
  real := by simp [one, posCfg]
  res := by simpa [one, posCfg] using h1
  res30 := h2
  range := by simp [one, posCfg, adcRange, acfg, cfg]
  lt := h3

/-- One weight. -/
def single (w : Int) : Vec Int := Vec.ofList [w]

theorem single_legal {md : Mode} {h l : ℚ} {r w : Int} (hw : LegalW (one md h l r) w) :
    LegalMat (one md h l r) (entry (single w) 1) 1 1 := fun i j hi hj => by
  obtain rfl : i = 0 := by omega
  obtain rfl : j = 0 := by omega
  exact hw

theorem single_vec {md : Mode} {h l : ℚ} {r v : Int} (hv : LegalX (one md h l r) v) :
    LegalVec (one md h l r) (single v) 1 := fun j hj => by
  obtain rfl : j = 0 := by omega
  exact hv

end Acs.Ex

namespace Acs.Props

open Finset Spec

/-- C27 fails for `TNN_IV`: the offset takes the current of input `1` above `N * LRS`. -/
theorem C27_false_tnn4 : ¬RangeClaim .tnn4 := fun hc => by
  have := hc (Ex.one .tnn4 9 10 30) (Ex.single 1) (Ex.single 1) 1 1 0 0 10 rfl (Ex.one_ok ..) (by decide)
    (by decide) rfl rfl (Ex.one_adc .tnn4 (by decide) (by decide) (by norm_num)).range (by decide)
    (Ex.single_legal (Or.inl rfl)) (Ex.single_vec (Or.inl rfl)) (by decide)
  exact absurd this (by decide +kernel)

/-- C27 fails for `TNN_V`. -/
theorem C27_false_tnn5 : ¬RangeClaim .tnn5 := fun hc => by
  have := hc (Ex.one .tnn5 9 10 30) (Ex.single 1) (Ex.single 1) 1 1 0 0 10 rfl (Ex.one_ok ..) (by decide)
    (by decide) rfl rfl (Ex.one_adc .tnn5 (by decide) (by decide) (by norm_num)).range (by decide)
    (Ex.single_legal (Or.inl rfl)) (Ex.single_vec (Or.inl rfl)) (by decide)
  exact absurd this (by decide +kernel)

/-! ## C26: real converters -/

section
variable {K : Type} [Field K] [LinearOrder K] [IsStrictOrderedRing K] [FloorRing K]
variable {E : Env K} {cfg : Cfg K} {mat mat' vec res : Vec Int} {m n w : Nat} {l : String}
variable {x : Xbar K} {h : List Op} {lo hi : K}

/-- C26, any calibration: if no column current leaves the range of the converter, the result is exact up
to a scaled half step and one half per conversion (and another half in `I_UINT_W_OFFS`). -/
theorem C26_in_range_error (hE : ExactArith E) (hok : CfgOk cfg) (hid : Ideal cfg)
    (hgcc : cfg.mode = .iOffsWDiff → E.strict = false) (hr : Runs E cfg h x)
    (hd : Accepted cfg m n) (hbuf : m * n ≤ mat.size) (hW : LegalMat cfg (entry mat n) m n)
    (hsum : SumRoom cfg m n) (hv : n ≤ vec.size) (hx : LegalVec cfg vec n) (hres : m ≤ res.size)
    (hA : AdcOk cfg l lo hi)
    (hin : ∀ i, i < m → ∀ c ∈ conversions cfg (entry mat n) vec n i, lo ≤ c.1 ∧ c.1 ≤ hi)
    (hroom : ∀ i, i < m → ((|res.get i| + peak cfg n : Int) : K)
      + convPeak lo hi (conversions cfg (entry mat n) vec n i) ≤ 2147483647) :
    ∃ x1 x2 r, xWrite E cfg x mat m n = .ok x1 ∧ xMvm E cfg x1 res vec mat' m n l = .ok (x2, r) ∧
      AddsUpTo (fun i => convBound cfg lo hi (conversions cfg (entry mat n) vec n i)) r res (entry mat n) vec m n := by
  obtain ⟨x1, x2, r, h1, h2, h3⟩ := write_mvm_adc (mat' := mat') hE hok hid hgcc hr hd hbuf hW hsum hv hx hres hA hin
    hroom
  exact ⟨x1, x2, r, h1, h2, h3.size, fun i hi => (h3.head i hi).trans (rowErr_le hA _), h3.tail⟩

/-- C26, any calibration: exactness once all scaled half steps are below one half. -/
theorem C26_in_range_exact (hE : ExactArith E) (hok : CfgOk cfg) (hid : Ideal cfg) (hint : integral cfg.mode)
    (hgcc : cfg.mode = .iOffsWDiff → E.strict = false) (hr : Runs E cfg h x)
    (hd : Accepted cfg m n) (hbuf : m * n ≤ mat.size) (hW : LegalMat cfg (entry mat n) m n)
    (hsum : SumRoom cfg m n) (hv : n ≤ vec.size) (hx : LegalVec cfg vec n) (hres : m ≤ res.size)
    (hA : AdcOk cfg l lo hi)
    (hin : ∀ i, i < m → ∀ c ∈ conversions cfg (entry mat n) vec n i, lo ≤ c.1 ∧ c.1 ≤ hi)
    (hfine : ∀ i, i < m → ∀ c ∈ conversions cfg (entry mat n) vec n i, |c.2| * (adcStep cfg lo hi / 2) < 1 / 2)
    (hroom : ∀ i, i < m → ((|res.get i| + peak cfg n : Int) : K)
      + convPeak lo hi (conversions cfg (entry mat n) vec n i) ≤ 2147483647) :
    ∃ x1 x2 r, xWrite E cfg x mat m n = .ok x1 ∧ xMvm E cfg x1 res vec mat' m n l = .ok (x2, r) ∧
      Adds r res (entry mat n) vec m n := by
  obtain ⟨x1, x2, r, h1, h2, h3⟩ := write_mvm_adc (mat' := mat') hE hok hid hgcc hr hd hbuf hW hsum hv hx hres hA hin
    hroom
  refine ⟨x1, x2, r, h1, h2, h3.size, fun i hi => ?_, h3.tail⟩
  have := h3.head i hi
  rw [rowErr_zero hint (hfine i hi), abs_nonpos_iff, sub_eq_zero] at this
  exact_mod_cast this

/-- C26, `MAX` calibration, error bound.  Missing: `TNN_IV` and `TNN_V` with `HRS ≠ 0`, where the
currents leave the range and the claim is false (`C26_bound_false`); `I_UINT_W_OFFS` needs another half
(part of `convBound`). -/
theorem C26_max_error_partial (hE : ExactArith E) (hok : CfgOk cfg) (hid : Ideal cfg) (h0 : 0 ≤ cfg.hrs)
    (hle : cfg.hrs ≤ cfg.lrs) (hc : cfg.calibMode = .max) (hfit : adcFits cfg)
    (h45 : cfg.mode = .tnn4 ∨ cfg.mode = .tnn5 → cfg.hrs = 0)
    (hgcc : cfg.mode = .iOffsWDiff → E.strict = false) (hr : Runs E cfg h x)
    (hd : Accepted cfg m n) (hbuf : m * n ≤ mat.size) (hW : LegalMat cfg (entry mat n) m n)
    (hsum : SumRoom cfg m n) (hv : n ≤ vec.size) (hx : LegalVec cfg vec n) (hres : m ≤ res.size)
    (hA : AdcOk cfg l lo hi)
    (hroom : ∀ i, i < m → ((|res.get i| + peak cfg n : Int) : K)
      + convPeak lo hi (conversions cfg (entry mat n) vec n i) ≤ 2147483647) :
    ∃ x1 x2 r, xWrite E cfg x mat m n = .ok x1 ∧ xMvm E cfg x1 res vec mat' m n l = .ok (x2, r) ∧
      AddsUpTo (fun i => convBound cfg lo hi (conversions cfg (entry mat n) vec n i)) r res (entry mat n) vec m n :=
  C26_in_range_error hE hok hid hgcc hr hd hbuf hW hsum hv hx hres hA
    (fun _ hi => conversions_in_range h0 hle hc hfit hA.range hd.2.1 h45 hW hx hi) hroom

/-- C26, `MAX` calibration, exactness.  Missing: the mappings whose scaled currents are not integers,
where the claim is false (`C26_exact_false`). -/
theorem C26_max_exact_partial (hE : ExactArith E) (hok : CfgOk cfg) (hid : Ideal cfg) (hint : integral cfg.mode)
    (h0 : 0 ≤ cfg.hrs) (hle : cfg.hrs ≤ cfg.lrs) (hc : cfg.calibMode = .max) (hfit : adcFits cfg)
    (hgcc : cfg.mode = .iOffsWDiff → E.strict = false) (hr : Runs E cfg h x)
    (hd : Accepted cfg m n) (hbuf : m * n ≤ mat.size) (hW : LegalMat cfg (entry mat n) m n)
    (hsum : SumRoom cfg m n) (hv : n ≤ vec.size) (hx : LegalVec cfg vec n) (hres : m ≤ res.size)
    (hA : AdcOk cfg l lo hi)
    (hfine : ∀ i, i < m → ∀ c ∈ conversions cfg (entry mat n) vec n i, |c.2| * (adcStep cfg lo hi / 2) < 1 / 2)
    (hroom : ∀ i, i < m → ((|res.get i| + peak cfg n : Int) : K)
      + convPeak lo hi (conversions cfg (entry mat n) vec n i) ≤ 2147483647) :
    ∃ x1 x2 r, xWrite E cfg x mat m n = .ok x1 ∧ xMvm E cfg x1 res vec mat' m n l = .ok (x2, r) ∧
      Adds r res (entry mat n) vec m n :=
  C26_in_range_exact hE hok hid hint hgcc hr hd hbuf hW hsum hv hx hres hA
    (fun _ hi => conversions_in_range h0 hle hc hfit hA.range hd.2.1
      (fun h => by rcases h with h | h <;> rw [h] at hint <;> exact hint.elim) hW hx hi) hfine hroom

end

/-- Ternary `2 × 3` product with a 4 bit converter: fine enough for exactness. -/
example : ∃ x x1 x2 r, Runs Ex.env (Ex.symCfg .tnn1) [] x ∧
    xWrite Ex.env (Ex.symCfg .tnn1) x Ex.matT 2 3 = .ok x1 ∧
    xMvm Ex.env (Ex.symCfg .tnn1) x1 Ex.res Ex.vecT Ex.matT 2 3 "" = .ok (x2, r) ∧
    Adds r Ex.res (entry Ex.matT 3) Ex.vecT 2 3 := by
  obtain ⟨x, hx, -⟩ := Ex.built (E := Ex.env) (c := Ex.symCfg .tnn1) (fun _ => true) (by decide +kernel)
  obtain ⟨x1, x2, r, h⟩ := C26_max_exact_partial (mat := Ex.matT) (mat' := Ex.matT) (vec := Ex.vecT)
    (res := Ex.res) (l := "") Ex.env_exact (cfg := Ex.symCfg .tnn1) (lo := -15) (hi := 15) (Ex.acfg_ok .tnn1) (Ex.ideal_sym .tnn1) (by trivial) (by decide) (by decide)
    rfl rfl (fun h => by cases h) hx (Ex.accepted .tnn1) (by decide)
    (Ex.block (P := fun i j => entry Ex.matT 3 i j = 1 ∨ entry Ex.matT 3 i j = -1 ∨
      entry Ex.matT 3 i j = 0) (by decide)) (Ex.sum_room .tnn1) (by decide)
    (Ex.three (P := fun j => Ex.vecT.get j = 1 ∨ Ex.vecT.get j = -1 ∨ Ex.vecT.get j = 0) (by decide) (by decide)
      (by decide)) (by decide) (Ex.sym_ok .tnn1 "") (Ex.two (by decide +kernel) (by decide +kernel))
    (Ex.two (by decide +kernel) (by decide +kernel))
  exact ⟨x, x1, x2, r, hx, h⟩

/-- The hypotheses of the error bound with a coarse converter: 3 bit integers, 4 bit conversions. -/
example : ∃ x x1 x2 r, Runs Ex.env (Ex.symCfg .iOffsWDiff) [] x ∧
    xWrite Ex.env (Ex.symCfg .iOffsWDiff) x Ex.matI 2 3 = .ok x1 ∧
    xMvm Ex.env (Ex.symCfg .iOffsWDiff) x1 Ex.res Ex.vecI Ex.matI 2 3 "" = .ok (x2, r) ∧
    AddsUpTo (fun i => convBound (Ex.symCfg .iOffsWDiff) (-15) 15
      (conversions (Ex.symCfg .iOffsWDiff) (entry Ex.matI 3) Ex.vecI 3 i)) r Ex.res (entry Ex.matI 3) Ex.vecI 2 3 := by
  obtain ⟨x, hx, -⟩ := Ex.built (E := Ex.env) (c := Ex.symCfg .iOffsWDiff) (fun _ => true) (by decide +kernel)
  obtain ⟨x1, x2, r, h⟩ := C26_max_error_partial (mat' := Ex.matI)
    (res := Ex.res) (l := "") Ex.env_exact (cfg := Ex.symCfg .iOffsWDiff) (lo := -15) (hi := 15) (Ex.acfg_ok .iOffsWDiff) (Ex.ideal_sym .iOffsWDiff) (by decide) (by decide)
    rfl rfl (fun h => by rcases h with h | h <;> cases h) (fun _ => rfl) hx (Ex.accepted .iOffsWDiff) (by decide)
    Ex.legal_matI (Ex.sum_room .iOffsWDiff) (by decide) Ex.legal_vecI (by decide) (Ex.sym_ok .iOffsWDiff "")
    (Ex.two (by decide +kernel) (by decide +kernel))
  exact ⟨x, x1, x2, r, hx, h⟩

/-- The error bound of C26 for one mode, without excluding anything. -/
def BoundClaim (md : Mode) : Prop :=
  ∀ (cfg : Cfg ℚ) (x : Xbar ℚ) (mat vec res : Vec Int) (m n : Nat) (lo hi : ℚ), cfg.mode = md → CfgOk cfg →
    Ideal cfg → 0 ≤ cfg.hrs → cfg.hrs ≤ cfg.lrs → cfg.calibMode = .max → adcFits cfg → Runs Ex.env cfg [] x →
    Accepted cfg m n → m * n ≤ mat.size → LegalMat cfg (entry mat n) m n → SumRoom cfg m n → n ≤ vec.size →
    LegalVec cfg vec n → m ≤ res.size → AdcOk cfg "" lo hi →
    (∀ i, i < m → ((|res.get i| + peak cfg n : Int) : ℚ) + convPeak lo hi (conversions cfg (entry mat n) vec n i)
      ≤ 2147483647) →
    ∃ x1 x2 r, xWrite Ex.env cfg x mat m n = .ok x1 ∧ xMvm Ex.env cfg x1 res vec mat m n "" = .ok (x2, r) ∧
      AddsUpTo (fun i => convBound cfg lo hi (conversions cfg (entry mat n) vec n i)) r res (entry mat n) vec m n

/-- The exactness claim of C26 for one mode. -/
def FineClaim (md : Mode) : Prop :=
  ∀ (cfg : Cfg ℚ) (x : Xbar ℚ) (mat vec res : Vec Int) (m n : Nat) (lo hi : ℚ), cfg.mode = md → CfgOk cfg →
    Ideal cfg → 0 ≤ cfg.hrs → cfg.hrs ≤ cfg.lrs → cfg.calibMode = .max → adcFits cfg → Runs Ex.env cfg [] x →
    Accepted cfg m n → m * n ≤ mat.size → LegalMat cfg (entry mat n) m n → SumRoom cfg m n → n ≤ vec.size →
    LegalVec cfg vec n → m ≤ res.size → AdcOk cfg "" lo hi →
    (∀ i, i < m → ∀ c ∈ conversions cfg (entry mat n) vec n i, |c.2| * (adcStep cfg lo hi / 2) < 1 / 2) →
    (∀ i, i < m → ((|res.get i| + peak cfg n : Int) : ℚ) + convPeak lo hi (conversions cfg (entry mat n) vec n i)
      ≤ 2147483647) →
    ∃ x1 x2 r, xWrite Ex.env cfg x mat m n = .ok x1 ∧ xMvm Ex.env cfg x1 res vec mat m n "" = .ok (x2, r) ∧
      Adds r res (entry mat n) vec m n

end Acs.Props

namespace Acs.Ex

open Spec

/-- Result of the `1 × 1` product of `w` and `v`, starting from a zero buffer. -/
def run1 (c : Cfg ℚ) (w v : Int) : C Int := do
  let x ← mkXbar env c 0 []
  let x1 ← xWrite env c x (single w) 1 1
  let p ← xMvm env c x1 (single 0) (single v) (single w) 1 1 ""
  .ok (p.2.get 0)

theorem run1_spec {c : Cfg ℚ} {w v k : Int} (h : okAnd (run1 c w v) (· == k) = true) : ∃ x, Runs env c [] x ∧
    ∀ x1 x2 r, xWrite env c x (single w) 1 1 = .ok x1 →
      xMvm env c x1 (single 0) (single v) (single w) 1 1 "" = .ok (x2, r) → r.get 0 = k := by
  obtain ⟨k', h1, h2⟩ := okAnd_spec h
  unfold run1 at h1
  simp only [bind_eq_ok] at h1
  obtain ⟨x, hx, x1, hx1, p, hp, e⟩ := h1
  refine ⟨x, .init hx, fun y1 y2 r e1 e2 => ?_⟩
  rw [hx1] at e1
  rw [← ok_inj.1 e1, hp] at e2
  have e3 := ok_inj.1 e2
  have e4 := ok_inj.1 e
  rw [e3] at e4
  rw [e4]
  simpa using h2

theorem one_accepted (md : Mode) (h l : ℚ) (r : Int) : Accepted (one md h l r) 1 1 := by
  cases md <;> exact ⟨le_refl 1, le_refl 1, by show 1 ≤ 2147483647; decide⟩

theorem one_sumRoom (md : Mode) (h l : ℚ) (r : Int) : SumRoom (one md h l r) 1 1 := by
  cases md <;> (intro _; simp [one, posCfg, acfg, cfg, Mode.isInt, Mode.family])

end Acs.Ex

namespace Acs.Props

open Finset Spec

/-- The error bound fails for `TNN_IV` and `TNN_V`. -/
theorem C26_bound_false (md : Mode) (hmd : md = .tnn4 ∨ md = .tnn5) : ¬BoundClaim md := fun hc => by
  rcases hmd with rfl | rfl
  · obtain ⟨x, hx, hk⟩ := Ex.run1_spec (c := Ex.one .tnn4 9 10 30) (w := 1) (v := 1) (k := -8) (by decide +kernel)
    obtain ⟨x1, x2, r, h1, h2, h3⟩ := hc (Ex.one .tnn4 9 10 30) x (Ex.single 1) (Ex.single 1) (Ex.single 0) 1 1 0 10 rfl (Ex.one_ok ..)
      (Ex.one_ideal _ (by norm_num) _) (by decide) (by decide) rfl rfl hx (Ex.one_accepted ..) (by decide)
      (Ex.single_legal (Or.inl rfl)) (Ex.one_sumRoom _ _ _ _) (by decide) (Ex.single_vec (Or.inl rfl)) (by decide)
      (Ex.one_adc .tnn4 (by decide) (by decide) (by norm_num)) (by decide +kernel)
    have := h3.head 0 (by decide)
    rw [hk x1 x2 r h1 h2] at this
    exact absurd this (by decide +kernel)
  · obtain ⟨x, hx, hk⟩ := Ex.run1_spec (c := Ex.one .tnn5 9 10 30) (w := 1) (v := 1) (k := 18) (by decide +kernel)
    obtain ⟨x1, x2, r, h1, h2, h3⟩ := hc (Ex.one .tnn5 9 10 30) x (Ex.single 1) (Ex.single 1) (Ex.single 0) 1 1 0 10 rfl (Ex.one_ok ..)
      (Ex.one_ideal _ (by norm_num) _) (by decide) (by decide) rfl rfl hx (Ex.one_accepted ..) (by decide)
      (Ex.single_legal (Or.inl rfl)) (Ex.one_sumRoom _ _ _ _) (by decide) (Ex.single_vec (Or.inl rfl)) (by decide)
      (Ex.one_adc .tnn5 (by decide) (by decide) (by norm_num)) (by decide +kernel)
    have := h3.head 0 (by decide)
    rw [hk x1 x2 r h1 h2] at this
    exact absurd this (by decide +kernel)

/-- Refutation of the exactness claim by one `1 × 1` product with `HRS = 1`, `LRS = 6` and two bits. -/
theorem fine_false {md : Mode} {w v k : Int} (hf : adcFits (Ex.one md 1 6 2)) (hw : LegalW (Ex.one md 1 6 2) w)
    (hv : LegalX (Ex.one md 1 6 2) v)
    (hfine : ∀ i, i < 1 → ∀ c ∈ conversions (Ex.one md 1 6 2) (entry (Ex.single w) 1) (Ex.single v) 1 i,
      |c.2| * (adcStep (Ex.one md 1 6 2) 0 6 / 2) < 1 / 2)
    (hroom : ∀ i, i < 1 → ((|(Ex.single 0).get i| + peak (Ex.one md 1 6 2) 1 : Int) : ℚ)
      + convPeak 0 6 (conversions (Ex.one md 1 6 2) (entry (Ex.single w) 1) (Ex.single v) 1 i) ≤ 2147483647)
    (hrun : Ex.okAnd (Ex.run1 (Ex.one md 1 6 2) w v) (· == k) = true)
    (hne : k ≠ (Ex.single 0).get 0 + prod (entry (Ex.single w) 1) (Ex.single v) 1 0) : ¬FineClaim md := fun hc => by
  obtain ⟨x, hx, hk⟩ := Ex.run1_spec hrun
  obtain ⟨x1, x2, r, h1, h2, h3⟩ := hc _ x (Ex.single w) (Ex.single v) (Ex.single 0) 1 1 0 6 rfl (Ex.one_ok ..)
    (Ex.one_ideal _ (by norm_num) _) (by show (0 : ℚ) ≤ 1; norm_num) (by show (1 : ℚ) ≤ 6; norm_num) rfl hf hx
    (Ex.one_accepted ..) (le_refl 1)
    (Ex.single_legal hw) (Ex.one_sumRoom _ _ _ _) (le_refl 1) (Ex.single_vec hv) (by decide)
    (Ex.one_adc md (by decide) (by decide) (by norm_num)) hfine hroom
  exact hne ((hk x1 x2 r h1 h2).symm.trans (h3.head 0 (by decide)))

/-- Exactness fails in every mapping whose scaled currents are not integers. -/
theorem C26_exact_false (md : Mode) (hmd : ¬integral md) : ¬FineClaim md := by
  cases md <;> first | exact absurd trivial hmd | skip
  · exact fine_false (w := 0) (v := 1) (k := -1) rfl ⟨by decide, by decide⟩ ⟨by decide, by decide⟩ (by decide +kernel)
      (by decide +kernel) (by decide +kernel) (by decide)
  · exact fine_false (w := 1) (v := -1) (k := 0) rfl (Or.inl rfl) (Or.inr rfl) (by decide +kernel)
      (by decide +kernel) (by decide +kernel) (by decide)
  · exact fine_false (w := -1) (v := -1) (k := 0) rfl (Or.inr rfl) (Or.inr rfl) (by decide +kernel)
      (by decide +kernel) (by decide +kernel) (by decide)
  · exact fine_false (w := 1) (v := 1) (k := 0) rfl (Or.inl rfl) (Or.inl rfl) (by decide +kernel)
      (by decide +kernel) (by decide +kernel) (by decide)
  · exact fine_false (w := 1) (v := 1) (k := 0) rfl (Or.inl rfl) (Or.inl rfl) (by decide +kernel)
      (by decide +kernel) (by decide +kernel) (by decide)

end Acs.Props
