import Verif.Lemmas.WireIntRun
import Verif.Props.Wires
import Verif.Props.RoundInt

/-! # Resistive wires in the integer mappings (C86) -/

set_option linter.unusedSectionVars false

namespace Acs.Props

open Finset Spec

section
variable {K : Type} [Field K] [LinearOrder K] [IsStrictOrderedRing K] [FloorRing K]
variable {E : Env K} {cfg : Cfg K} {mat vec res r : Vec Int} {m n w : Nat} {l : String}
variable {x x' : Xbar K} {h : List Op} {lo hi : K} {rg : String → K × K}

/-- C86.  A multiplication of a block inside the latest write returns.  Every conversion is off by the factor of its slice
and bit times the loss on the wires and half a step, and the result by the sum of what the rounding leaves of these errors.
If it leaves nothing, the result is exact. -/
theorem C86_bounded (hE : ExactArith E) (hok : CfgOk cfg) (hI : ResistiveInt cfg) (hM : 0 < cfg.M) (hN : 0 < cfg.N)
    (hgcc : cfg.mode = .iOffsWDiff → E.strict = false) (hr : Runs E cfg h x) (hP : PlacedInt cfg h m n)
    (hl : Legal cfg (lastWrite h) m n) (hwid : keepsRowSums cfg.mode → WidthIs n h)
    (hd : Accepted cfg m n) (hv : n ≤ vec.size) (hres : m ≤ res.size) (hx : LegalVec cfg vec n)
    (hC : WireRoom cfg l lo hi (stored h) res vec m n) :
    ∃ x' r, xMvm E cfg x res vec mat m n l = .ok (x', r) ∧
      AddsUpTo (wireRow cfg lo hi (stored h) vec n) r res (stored h) vec m n ∧
      (WireIntAbsorbed cfg lo hi (stored h) vec m n → Adds r res (stored h) vec m n) := by
  obtain ⟨x', r, h1, h2⟩ := mvm_wired_int (mat := mat) hE hok hI hM hN hgcc hr hP hl hd
    (fun hk i _ => runs_sums hr (hasSums_of_keeps hk) (hwid hk) i) hv hres hx hC
  exact ⟨x', r, h1, h2, fun hb => addsUpTo_zero h2 fun i hi => wireRow_absorbed hb hi⟩

/-- C86.  A legal write whose slices fit into the first `M` rows returns. -/
theorem C86_write (hE : ExactArith E) (hok : CfgOk cfg) (hI : ResistiveInt cfg) (hM : 0 < cfg.M) (hN : 0 < cfg.N)
    (hr : Runs E cfg h x) (hd : Accepted cfg m n) (hmat : m * n ≤ mat.size) (hl : LegalMat cfg (entry mat n) m n)
    (hs : SumRoom cfg m n) (hm : m * cfg.split.length ≤ cfg.M) : ∃ x', xWrite E cfg x mat m n = .ok x' :=
  xWrite_total_wi hE hok hI hM hN hr hd hmat hl hs hm

/-- C86.  Sequences of calls. -/
theorem C86_session (hE : ExactArith E) (hok : CfgOk cfg) (hI : ResistiveInt cfg) (hM : 0 < cfg.M) (hN : 0 < cfg.N)
    (hgcc : cfg.mode = .iOffsWDiff → E.strict = false) {rng : Nat} {hists : List (String × Hist K)}
    (hx : mkXbar E cfg rng hists = .ok x) {ops : List Op} (hl : LegalOps cfg w [] ops) (hP : AllPlacedInt cfg [] ops)
    (hC : AllWireRoom cfg rg [] ops) :
    ∃ x' rs, exec E cfg x ops = .ok (x', rs) ∧ AnswersBy (WireIntWithin cfg rg) [] ops rs ∧
      (AllWireIntAbsorbed cfg rg [] ops → Answers [] ops rs) := by
  obtain ⟨x', rs, h1, h2⟩ := exec_wired_int hE hok hI hM hN hgcc (.init hx) .nil hl hP hC
  exact ⟨x', rs, h1, h2, answersBy_wireIntAbsorbed h2⟩

/-- C86, from the configuration to the results of the interface. -/
theorem C86_interface {wd : World K} {ops : List Op} {k : Nat} (hE : ExactArith E) (hw : Settled E [] wd)
    (hok : CfgOk wd.cfg) (hI : ResistiveInt wd.cfg) (hM : 0 < wd.cfg.M) (hN : 0 < wd.cfg.N)
    (hgcc : wd.cfg.mode = .iOffsWDiff → E.strict = false) (hl : LegalOps wd.cfg k [] ops) (hh : Heights ops)
    (hP : AllPlacedInt wd.cfg [] ops) (hC : AllWireRoom wd.cfg rg [] ops) :
    ∃ w' rs, serve E wd ops = .ok (w', rs, ops.map fun _ => 0) ∧ AnswersBy (WireIntWithin wd.cfg rg) [] ops rs ∧
      (AllWireIntAbsorbed wd.cfg rg [] ops → Answers [] ops rs) := by
  obtain ⟨x, hx, hr⟩ := settled_runs hw
  obtain ⟨x', rs, h1, h2⟩ := exec_wired_int hE hok hI hM hN hgcc hr .nil hl hP hC
  exact ⟨_, rs, serve_ok hx (dimsFit hl hh) h1, h2, answersBy_wireIntAbsorbed h2⟩

end

/-! ## Instances -/

namespace Ex'

/-- Wires of `R` Ohm, and a converter of 12 bits unless it is ideal. -/
def lineCfg (md : Mode) (t : AdcType) (R : ℚ) : Cfg ℚ := { Ex.pcfgL md with adcType := t, resolution := 12, wRes := R }

theorem line_ok (md : Mode) (t : AdcType) (R : ℚ) : CfgOk (lineCfg md t R) := Ex.acfg_ok md

theorem line_res {md : Mode} {t : AdcType} {R : ℚ} (h : md.isInt = true) (hR : 0 < R) : ResistiveInt (lineCfg md t R) :=
  ⟨rfl, h, rfl, rfl, rfl, rfl, by show (0 : ℚ) ≤ 5; norm_num, by show (5 : ℚ) < 10; norm_num,
    by show (-1 : ℚ) < 0; norm_num, hR, (Ex.ideal md).split h, by
      show (if md.isInt then 3 else 2) ≤ 24
      split <;> decide⟩

theorem line_acc (md : Mode) (t : AdcType) (R : ℚ) : Accepted (lineCfg md t R) 2 3 :=
  ⟨by show 2 ≤ 4; decide, by show 3 ≤ 6; decide, by decide⟩

theorem line_adc (md : Mode) (R : ℚ) (l : String) : AdcOk (lineCfg md .sym R) l (-30) 30 where
  real := by simp [lineCfg]
  res := by simp [lineCfg]
  res30 := by simp [lineCfg]
  range := by simp [lineCfg, Ex.pcfgL, Ex.pcfg, Spec.adcRange, Ex.acfg, Ex.cfg]; norm_num
  lt := by norm_num

/-- The mappings with signed inputs that work with wires. -/
def signed (md : Mode) : Prop := md = .iDiffWDiff1 ∨ md = .iDiffWDiff2 ∨ md = .iOffsWDiff

/-- The mappings with unsigned inputs. -/
def unsigned (md : Mode) : Prop := md = .iUintWDiff ∨ md = .iUintWOffs

theorem line_legal {md : Mode} {t : AdcType} {R : ℚ} (h : signed md) : LegalOps (lineCfg md t R) 3 [] pair :=
  pair_legal (line_acc _ _ _) (Ex.legal_mat md) (Ex.sum_room md)
    (Ex.legal_vec md (by rcases h with rfl | rfl | rfl <;> decide)) (Ex.room md)

theorem line_legalU {md : Mode} {t : AdcType} {R : ℚ} (h : unsigned md) : LegalOps (lineCfg md t R) 3 [] unsignedPair :=
  ⟨⟨line_acc _ _ _, by decide, Ex.legal_mat md, Ex.sum_room md, fun _ => rfl⟩,
    ⟨line_acc _ _ _, by decide, by decide,
      Ex.three (P := fun j => LegalX (lineCfg md t R) (Ex.vecU.get j))
        (by rcases h with rfl | rfl <;> exact (show 0 ≤ Ex.vecU.get 0 ∧ Ex.vecU.get 0 < 2 ^ 3 by decide))
        (by rcases h with rfl | rfl <;> exact (show 0 ≤ Ex.vecU.get 1 ∧ Ex.vecU.get 1 < 2 ^ 3 by decide))
        (by rcases h with rfl | rfl <;> exact (show 0 ≤ Ex.vecU.get 2 ∧ Ex.vecU.get 2 < 2 ^ 3 by decide)), Ex.room md,
      fun i j hi hj => by simp [lastWrite, hi, hj], fun _ => rfl⟩, trivial⟩

theorem line_slices {md : Mode} {t : AdcType} {R : ℚ} (h : md.isInt = true) :
    2 * (lineCfg md t R).split.length ≤ (lineCfg md t R).M := by
  cases md <;> first | exact le_refl 4 | exact absurd h (by decide)

theorem line_placed {md : Mode} {t : AdcType} {R : ℚ} (h : md.isInt = true) {vec : Vec Int} :
    AllPlacedInt (lineCfg md t R) [] [.write Ex.mat 2 3, .mvm Ex.res vec Ex.mat 2 3 ""] := by
  refine ⟨⟨⟨(2, 3), rfl, le_refl 2, le_refl 3, line_slices h, by show 3 ≤ 6; decide⟩, trivial⟩, fun mat m n ho => ?_⟩
  simp only [List.mem_cons, Op.write.injEq, reduceCtorEq, List.not_mem_nil, or_false] at ho
  rw [ho.2.1]
  exact line_slices h

theorem line_room {md : Mode} (h : signed md) : AllWireRoom (lineCfg md .sym 1) (fun _ => (-30, 30)) [] pair := by
  rcases h with rfl | rfl | rfl <;>
  exact ⟨⟨fun h => (by cases h), fun _ => ⟨line_adc _ _ _, by decide, by decide, Ex.two (by decide +kernel) (by decide +kernel)⟩,
    Ex.two (by decide +kernel) (by decide +kernel), Ex.two (by decide +kernel) (by decide +kernel)⟩, trivial⟩

theorem line_roomU {md : Mode} (h : unsigned md) : AllWireRoom (lineCfg md .sym 1) (fun _ => (-30, 30)) [] unsignedPair := by
  rcases h with rfl | rfl <;>
  exact ⟨⟨fun _ => (by decide), fun _ => ⟨line_adc _ _ _, by decide, by decide, Ex.two (by decide +kernel) (by decide +kernel)⟩,
    Ex.two (by decide +kernel) (by decide +kernel), Ex.two (by decide +kernel) (by decide +kernel)⟩, trivial⟩

end Ex'

/-- The hypotheses of `C86_session`: wires of 1 Ohm and a converter of 12 bits in all mappings with signed inputs. -/
example {md : Mode} (h : Ex'.signed md) : ∃ x x' rs, mkXbar Ex.env (Ex'.lineCfg md .sym 1) 0 [] = .ok x ∧
    exec Ex.env (Ex'.lineCfg md .sym 1) x Ex'.pair = .ok (x', rs) ∧ Answers [] Ex'.pair rs := by
  have hi : md.isInt = true := by rcases h with rfl | rfl | rfl <;> rfl
  obtain ⟨x, hx, -⟩ := Ex.okAnd_spec (x := mkXbar Ex.env (Ex'.lineCfg md .sym 1) 0 []) (p := fun _ => true)
    (by rcases h with rfl | rfl | rfl <;> decide +kernel)
  obtain ⟨x', rs, h1, -, h2⟩ := C86_session (w := 3) (ops := Ex'.pair) (rg := fun _ => (-30, 30)) Ex.env_exact
    (Ex'.line_ok _ _ _) (Ex'.line_res hi (by norm_num)) (by show 0 < 4; decide) (by show 0 < 6; decide) (fun _ => rfl) hx
    (Ex'.line_legal h) (Ex'.line_placed hi) (Ex'.line_room h)
  refine ⟨x, x', rs, hx, h1, h2 ?_⟩
  rcases h with rfl | rfl | rfl <;> exact ⟨⟨by decide, Ex.two (by decide +kernel) (by decide +kernel)⟩, trivial⟩

/-- The same with unsigned inputs. -/
example {md : Mode} (h : Ex'.unsigned md) : ∃ x x' rs, mkXbar Ex.env (Ex'.lineCfg md .sym 1) 0 [] = .ok x ∧
    exec Ex.env (Ex'.lineCfg md .sym 1) x Ex'.unsignedPair = .ok (x', rs) ∧
    (md = .iUintWDiff → Answers [] Ex'.unsignedPair rs) := by
  have hi : md.isInt = true := by rcases h with rfl | rfl <;> rfl
  obtain ⟨x, hx, -⟩ := Ex.okAnd_spec (x := mkXbar Ex.env (Ex'.lineCfg md .sym 1) 0 []) (p := fun _ => true)
    (by rcases h with rfl | rfl <;> decide +kernel)
  obtain ⟨x', rs, h1, -, h2⟩ := C86_session (w := 3) (ops := Ex'.unsignedPair) (rg := fun _ => (-30, 30)) Ex.env_exact
    (Ex'.line_ok _ _ _) (Ex'.line_res hi (by norm_num)) (by show 0 < 4; decide) (by show 0 < 6; decide) (fun _ => rfl) hx
    (Ex'.line_legalU h) (Ex'.line_placed hi) (Ex'.line_roomU h)
  refine ⟨x, x', rs, hx, h1, fun e => h2 ?_⟩
  subst e
  exact ⟨⟨by decide, Ex.two (by decide +kernel) (by decide +kernel)⟩, trivial⟩

/-- The hypotheses of `C86_bounded` and `C86_write`: wires of 1 Ohm, the mapping with offset weights and an ideal converter. -/
example : ∃ x y x' r, Runs Ex.env (Ex'.lineCfg .iUintWOffs .inf 1) [] x ∧
    xWrite Ex.env (Ex'.lineCfg .iUintWOffs .inf 1) x Ex.mat 2 3 = .ok y ∧
    xMvm Ex.env (Ex'.lineCfg .iUintWOffs .inf 1) y Ex.res Ex.vecU Ex.mat 2 3 "" = .ok (x', r) ∧
    Adds r Ex.res (stored [.write Ex.mat 2 3]) Ex.vecU 2 3 := by
  obtain ⟨x, hx, -⟩ := Ex.okAnd_spec (x := mkXbar Ex.env (Ex'.lineCfg .iUintWOffs .inf 1) 0 []) (p := fun _ => true)
    (by decide +kernel)
  have hI := Ex'.line_res (md := .iUintWOffs) (t := .inf) (R := 1) rfl (by norm_num)
  have hok := Ex'.line_ok .iUintWOffs .inf 1
  have hM : 0 < (Ex'.lineCfg .iUintWOffs .inf 1).M := by decide
  have hN : 0 < (Ex'.lineCfg .iUintWOffs .inf 1).N := by decide
  obtain ⟨y, hy⟩ := C86_write (mat := Ex.mat) (m := 2) (n := 3) Ex.env_exact hok hI hM hN (.init hx) (Ex'.line_acc _ _ _)
    (by decide) (Ex.legal_mat .iUintWOffs) (Ex.sum_room .iUintWOffs) (by decide)
  have hr : Runs Ex.env (Ex'.lineCfg .iUintWOffs .inf 1) [.write Ex.mat 2 3] y := .write (.init hx) hy
  have hL := Ex'.line_legalU (md := .iUintWOffs) (t := .inf) (R := 1) (.inr rfl)
  obtain ⟨x', r, h1, -, h2⟩ := C86_bounded (mat := Ex.mat) (l := "") (vec := Ex.vecU) (res := Ex.res) (lo := 0) (hi := 0)
    Ex.env_exact hok hI hM hN (fun h => by cases h) hr
    (Ex'.line_placed (t := .inf) (R := 1) (md := .iUintWOffs) rfl (vec := Ex.vecU)).1.1
    (fun i j hi hj => ⟨_, by simp [lastWrite, hi, hj], Ex.legal_mat .iUintWOffs i j hi hj⟩)
    (fun _ op hop => by
      obtain rfl := List.mem_singleton.1 hop
      rfl) (Ex'.line_acc _ _ _) (by decide) (by decide) hL.2.1.vals
    ⟨fun _ => (by decide), fun h => absurd rfl h, Ex.two (by decide +kernel) (by decide +kernel),
      Ex.two (by decide +kernel) (by decide +kernel)⟩
  exact ⟨x, y, x', r, .init hx, hy, h1, h2 (Ex.two (P := fun i => ((conversions (Ex'.lineCfg .iUintWOffs .inf 1)
    (stored [.write Ex.mat 2 3]) Ex.vecU 3 i).map fun c => wireStep (Ex'.lineCfg .iUintWOffs .inf 1) 0 0 3 c.2).sum < 1 / 2)
    (by decide +kernel) (by decide +kernel))⟩

/-- C86.  The condition is needed: with wires of 100 kOhm, everything else as in `C86_session`, the result is wrong. -/
theorem C86_wires_matter : ∃ (x x' : Xbar ℚ) (r : Vec Int), ResistiveInt (Ex'.lineCfg .iDiffWDiff1 .sym 100000) ∧
    Runs Ex.env (Ex'.lineCfg .iDiffWDiff1 .sym 100000) [.write Ex.mat 2 3] x ∧
    AllPlacedInt (Ex'.lineCfg .iDiffWDiff1 .sym 100000) [] Ex'.pair ∧
    LegalOps (Ex'.lineCfg .iDiffWDiff1 .sym 100000) 3 [] Ex'.pair ∧
    AllWireRoom (Ex'.lineCfg .iDiffWDiff1 .sym 100000) (fun _ => (-30, 30)) [] Ex'.pair ∧
    xMvm Ex.env (Ex'.lineCfg .iDiffWDiff1 .sym 100000) x Ex.res Ex.vec Ex.mat 2 3 "" = .ok (x', r) ∧
    ¬Adds r Ex.res (stored [.write Ex.mat 2 3]) Ex.vec 2 3 := by
  obtain ⟨x, x', r, h1, h2, h3⟩ := Ex.multiplied (E := Ex.env) (c := Ex'.lineCfg .iDiffWDiff1 .sym 100000) (mat := Ex.mat)
    (res := Ex.res) (vec := Ex.vec) (mat' := Ex.mat) (m := 2) (n := 3) (m' := 2) (n' := 3) (l := "")
    (fun _ r => !decide (r.get 0 = Ex.res.get 0 + ∑ j ∈ range 3, stored [.write Ex.mat 2 3] 0 j * Ex.vec.get j))
    (by decide +kernel)
  refine ⟨x, x', r, Ex'.line_res rfl (by norm_num), h1, Ex'.line_placed rfl, Ex'.line_legal (.inl rfl), ?_, h2, fun h => ?_⟩
  · exact ⟨⟨fun h => (by cases h), fun _ => ⟨Ex'.line_adc _ _ _, by decide, by decide, Ex.two (by decide +kernel) (by decide +kernel)⟩,
      Ex.two (by decide +kernel) (by decide +kernel), Ex.two (by decide +kernel) (by decide +kernel)⟩, trivial⟩
  · simp only [Bool.not_eq_true', decide_eq_false_iff_not] at h3
    exact h3 (h.head 0 (by decide))

/-- What `set_config` makes of a document with wires and offset weights. -/
def Ex'.lineLoaded : Cfg ℚ := { Ex'.slicedLoaded with
  M := 4
  lrs := 10
  parasitics := true
  vRead := -1 / 2
  wRes := 1 }

/-- The hypotheses of `C86_interface`. -/
example : ∃ w w' rs, Settled Ex.env [] w ∧ serve Ex.env w Ex'.unsignedPair = .ok (w', rs, [0, 0]) ∧
    Answers [] Ex'.unsignedPair rs := by
  obtain ⟨w, h1, h2⟩ := Ex'.load Ex.env (Ex.withKeys (Ex.parKeys .iUintWOffs 1) [("M", .int 4)])
    Ex'.lineLoaded (by decide +kernel)
  obtain ⟨w', rs, h3, _, h4⟩ := C86_interface (rg := fun _ => (0, 0)) (ops := Ex'.unsignedPair) (k := 3) Ex.env_exact h1
    (by rw [h2]; exact Ex.acfg_ok .iUintWOffs)
    (by rw [h2]; exact ⟨rfl, rfl, rfl, rfl, rfl, rfl, by decide +kernel, by decide +kernel, by decide +kernel,
          by decide +kernel, (Ex.ideal .iUintWOffs).split rfl, by decide⟩)
    (by rw [h2]; decide) (by rw [h2]; decide) (by rw [h2]; exact fun h => by cases h)
    (by
      rw [h2]
      have hL := Ex'.slicedLoaded_legal
      have ha : Accepted Ex'.lineLoaded 2 3 := ⟨by decide, by decide, by decide⟩
      exact ⟨⟨ha, hL.1.2, hL.1.3, hL.1.4, hL.1.5⟩, ⟨ha, hL.2.1.2, hL.2.1.3, hL.2.1.4, hL.2.1.5, hL.2.1.6, hL.2.1.7⟩, trivial⟩)
    (fun op hop => by
      simp only [Ex'.unsignedPair, List.mem_cons, List.not_mem_nil, or_false] at hop
      rcases hop with rfl | rfl
      · show 2 < 2147483648; decide
      · show 2 < 2147483648; decide)
    (by
      rw [h2]
      refine ⟨⟨⟨(2, 3), rfl, le_refl 2, le_refl 3, by decide, by decide⟩, trivial⟩, fun mat m n ho => ?_⟩
      simp only [Ex'.unsignedPair, List.mem_cons, Op.write.injEq, reduceCtorEq, List.not_mem_nil, or_false] at ho
      rw [ho.2.1]
      decide)
    (by
      rw [h2]
      exact ⟨⟨fun _ => (by decide), fun h => absurd rfl h, Ex.two (by decide +kernel) (by decide +kernel),
        Ex.two (by decide +kernel) (by decide +kernel)⟩, trivial⟩)
  exact ⟨w, w', rs, h1, h3, h4 (by rw [h2]; exact ⟨Ex.two (by decide +kernel) (by decide +kernel), trivial⟩)⟩

end Acs.Props
