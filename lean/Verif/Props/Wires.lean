import Verif.Lemmas.WireRun
import Verif.Props.Parasitics
import Verif.Props.AdcNoise

/-! # Resistive wires and real converters (C75) -/

set_option linter.unusedSectionVars false

namespace Acs.Props

open Finset Spec

section
variable {K : Type} [Field K] [LinearOrder K] [IsStrictOrderedRing K] [FloorRing K]
variable {E : Env K} {cfg : Cfg K} {mat vec res r : Vec Int} {m n w : Nat} {l : String}
variable {x x' : Xbar K} {h : List Op} {ε lo hi : K} {rg : String → K × K}

/-- C75.  A multiplication of a block inside the latest write returns.  Its results are off by at most the half
steps of the converter, the deviations of the cells and the loss on the wires, which is quadratic in the current of a
bit line and linear in the wire resistance.  Cycle-to-cycle variation adds nothing to this bound. -/
theorem C75_bounded (hE : ExactArith E) (hok : CfgOk cfg) (hI : Resistive cfg) (hM : 0 < cfg.M) (hN : 0 < cfg.N)
    (hrd : cfg.readDisturb = false) (hg : NoiseUpTo E cfg ε) (hr : Runs E cfg h x) (hP : Placed cfg h m n)
    (hl : Legal cfg (lastWrite h) m n) (hwid : keepsRowSums cfg.mode → WidthIs n h)
    (hd : Accepted cfg m n) (hv : n ≤ vec.size) (hres : m ≤ res.size)
    (hx : LegalVec cfg vec n) (hA : AdcOk cfg l lo hi) (hC : Converts cfg lo hi (stored h) res vec m n) :
    ∃ x' r, xMvm E cfg x res vec mat m n l = .ok (x', r) ∧
      AddsUpTo (fun _ => wireBound cfg lo hi ε vec n) r res (stored h) vec m n := by
  obtain ⟨h1, h2⟩ := mvm_wired (mat := mat) hE hok hI hM hN hr hP hl hd hg hv hres hx
    (fun hk i _ => runs_sums hr (hasSums_of_keeps hk) (hwid hk) i) hA hC
  obtain ⟨x', r, h3⟩ := h2 hrd
  exact ⟨x', r, h3, (h1 _ _ h3).1⟩

/-- C75.  If the error of every conversion stays below one half, the result is exact: the converter removes the effect
of the wires. -/
theorem C75_absorbed (hE : ExactArith E) (hok : CfgOk cfg) (hI : Resistive cfg) (hM : 0 < cfg.M) (hN : 0 < cfg.N)
    (hrd : cfg.readDisturb = false) (hg : NoiseUpTo E cfg ε) (hr : Runs E cfg h x) (hP : Placed cfg h m n)
    (hl : Legal cfg (lastWrite h) m n) (hwid : keepsRowSums cfg.mode → WidthIs n h)
    (hd : Accepted cfg m n) (hv : n ≤ vec.size) (hres : m ≤ res.size)
    (hx : LegalVec cfg vec n) (hA : AdcOk cfg l lo hi) (hC : Converts cfg lo hi (stored h) res vec m n)
    (hab : WireAbsorbed cfg lo hi ε vec n) :
    ∃ x' r, xMvm E cfg x res vec mat m n l = .ok (x', r) ∧ Adds r res (stored h) vec m n := by
  obtain ⟨h1, h2⟩ := mvm_wired (mat := mat) hE hok hI hM hN hr hP hl hd hg hv hres hx
    (fun hk i _ => runs_sums hr (hasSums_of_keeps hk) (hwid hk) i) hA hC
  obtain ⟨x', r, h3⟩ := h2 hrd
  exact ⟨x', r, h3, (h1 _ _ h3).2 hab⟩

/-- C75.  Read disturb, with any mitigation and after any number of reads, adds nothing to the bound either: the solver
keeps the conductances of the latest write or software refresh. -/
theorem C75_disturbed (hE : ExactArith E) (hok : CfgOk cfg) (hI : Resistive cfg) (hM : 0 < cfg.M) (hN : 0 < cfg.N)
    (hg : NoiseUpTo E cfg ε) (hr : Runs E cfg h x) (hP : Placed cfg h m n)
    (hl : Legal cfg (lastWrite h) m n) (hwid : keepsRowSums cfg.mode → WidthIs n h)
    (hd : Accepted cfg m n) (hv : n ≤ vec.size) (hres : m ≤ res.size)
    (hx : LegalVec cfg vec n) (hA : AdcOk cfg l lo hi) (hC : Converts cfg lo hi (stored h) res vec m n)
    (h' : xMvm E cfg x res vec mat m n l = .ok (x', r)) :
    AddsUpTo (fun _ => wireBound cfg lo hi ε vec n) r res (stored h) vec m n ∧
      (WireAbsorbed cfg lo hi ε vec n → Adds r res (stored h) vec m n) :=
  (mvm_wired hE hok hI hM hN hr hP hl hd hg hv hres hx
    (fun hk i _ => runs_sums hr (hasSums_of_keeps hk) (hwid hk) i) hA hC).1 _ _ h'

/-- C75.  A legal write whose word lines fit into the crossbar returns. -/
theorem C75_write (hok : CfgOk cfg) (hI : Resistive cfg) (hM : 0 < cfg.M) (hN : 0 < cfg.N) (hr : Runs E cfg h x)
    (hd : Accepted cfg m n) (hmat : m * n ≤ mat.size) (hl : LegalMat cfg (entry mat n) m n) (hs : SumRoom cfg m n)
    (hn : n * lines cfg.mode ≤ cfg.N) : ∃ x', xWrite E cfg x mat m n = .ok x' :=
  xWrite_total_w hok hI hM hN hr hd hmat hl hs hn

/-- C75.  Sequences of calls. -/
theorem C75_session (hE : ExactArith E) (hok : CfgOk cfg) (hI : Resistive cfg) (hM : 0 < cfg.M) (hN : 0 < cfg.N)
    (hrd : cfg.readDisturb = false)
    (hg : NoiseUpTo E cfg ε) {rng : Nat} {hists : List (String × Hist K)} (hx : mkXbar E cfg rng hists = .ok x)
    {ops : List Op} (hl : LegalOps cfg w [] ops) (hP : AllPlaced cfg [] ops) (hC : AllConvert cfg rg [] ops) :
    ∃ x' rs, exec E cfg x ops = .ok (x', rs) ∧
      AnswersUpTo (fun l => wireBound cfg (rg l).1 (rg l).2 ε) [] ops rs ∧
      (AllWireAbsorbed cfg rg ε [] ops → Answers [] ops rs) := by
  obtain ⟨h3, h4⟩ := exec_wired hE hok hI hM hN hg (.init hx) .nil hl hP hC
  obtain ⟨x', rs, e⟩ := h4 hrd
  exact ⟨x', rs, e, answersBy_mono (fun _ _ _ _ _ _ _ h => h.1) (h3 _ _ e), answersBy_wireAbsorbed (h3 _ _ e)⟩

/-- C75.  Sequences of calls with read disturb, as far as they return. -/
theorem C75_session_disturbed (hE : ExactArith E) (hok : CfgOk cfg) (hI : Resistive cfg) (hM : 0 < cfg.M) (hN : 0 < cfg.N)
    (hg : NoiseUpTo E cfg ε) {rng : Nat} {hists : List (String × Hist K)} (hx : mkXbar E cfg rng hists = .ok x)
    {ops : List Op} (hl : LegalOps cfg w [] ops) (hP : AllPlaced cfg [] ops) (hC : AllConvert cfg rg [] ops)
    {rs : List (Vec Int)} (h' : exec E cfg x ops = .ok (x', rs)) :
    AnswersUpTo (fun l => wireBound cfg (rg l).1 (rg l).2 ε) [] ops rs ∧
      (AllWireAbsorbed cfg rg ε [] ops → Answers [] ops rs) := by
  have h3 := (exec_wired hE hok hI hM hN hg (.init hx) .nil hl hP hC).1 _ _ h'
  exact ⟨answersBy_mono (fun _ _ _ _ _ _ _ h => h.1) h3, answersBy_wireAbsorbed h3⟩

/-- C75, from the configuration to the results of the interface. -/
theorem C75_interface {wd : World K} {ops : List Op} {k : Nat} (hE : ExactArith E) (hw : Settled E [] wd)
    (hI : Resistive wd.cfg) (hM : 0 < wd.cfg.M) (hN : 0 < wd.cfg.N) (hrd : wd.cfg.readDisturb = false)
    (hg : NoiseUpTo E wd.cfg ε)
    (hl : LegalOps wd.cfg k [] ops) (hh : Heights ops) (hP : AllPlaced wd.cfg [] ops)
    (hC : AllConvert wd.cfg rg [] ops) :
    ∃ w' rs, serve E wd ops = .ok (w', rs, ops.map fun _ => 0) ∧
      AnswersUpTo (fun l => wireBound wd.cfg (rg l).1 (rg l).2 ε) [] ops rs ∧
      (AllWireAbsorbed wd.cfg rg ε [] ops → Answers [] ops rs) := by
  obtain ⟨x, hx, hr⟩ := settled_runs hw
  obtain ⟨hok, -⟩ := fresh_ok hw fun hf => by
    have := hI.bin
    unfold Mode.isInt at this
    rw [hf] at this
    exact absurd this (by decide)
  obtain ⟨h2, h4⟩ := exec_wired hE hok hI hM hN hg hr .nil hl hP hC
  obtain ⟨x', rs, e⟩ := h4 hrd
  exact ⟨_, rs, serve_ok hx (dimsFit hl hh) e, answersBy_mono (fun _ _ _ _ _ _ _ h => h.1) (h2 _ _ e),
    answersBy_wireAbsorbed (h2 _ _ e)⟩

end

/-! ## Instances -/

namespace Ex'

/-- Noisy cells, wires of `R` Ohm and a signed converter of 8 bits. -/
def wireCfg (md : Mode) (R : ℚ) : Cfg ℚ :=
  { Ex.pcfgL md with adcType := .sym, resolution := 8, hrsNoise := 1, lrsNoise := 1, wRes := R }

theorem wire_ok (md : Mode) (R : ℚ) (l : String) : AdcOk (wireCfg md R) l (-30) 30 where
  real := by simp [wireCfg]
  res := by simp [wireCfg]
  res30 := by simp [wireCfg]
  range := by simp [wireCfg, Ex.pcfgL, Ex.pcfg, Spec.adcRange, Ex.acfg, Ex.cfg]; norm_num
  lt := by norm_num

theorem wire_cfg (md : Mode) (R : ℚ) : CfgOk (wireCfg md R) := Ex.acfg_ok md

theorem wire_res {md : Mode} {R : ℚ} (h : md.isInt = false) (hR : 0 < R) : Resistive (wireCfg md R) :=
  ⟨rfl, h, rfl, rfl, by show (0 : ℚ) ≤ 5; norm_num, by show (5 : ℚ) < 10; norm_num,
    by show (-1 : ℚ) < 0; norm_num, hR⟩

theorem wire_acc (md : Mode) (R : ℚ) : Accepted (wireCfg md R) 2 3 :=
  ⟨by show 2 ≤ 4; decide, by show 3 ≤ 6; decide, by decide⟩

theorem wire_legal (R : ℚ) : LegalOps (wireCfg .bnn6 R) 3 [] pair :=
  pair_legal (wire_acc _ R) (Ex.legal_mat .bnn6) (Ex.sum_room .bnn6) (Ex.legal_vec .bnn6 (by decide)) (Ex.room .bnn6)

theorem wire_placed (R : ℚ) : AllPlaced (wireCfg .bnn6 R) [] pair := by
  refine ⟨⟨⟨⟨(2, 3), rfl, le_refl 2, le_refl 3, by show 2 ≤ 4; decide, by show 6 ≤ 6; decide⟩, by show 2 ≤ 4; decide⟩, trivial⟩,
    fun mat m n ho => ?_⟩
  simp only [pair, List.mem_cons, Op.write.injEq, reduceCtorEq, List.not_mem_nil, or_false] at ho
  rw [ho.2.2]
  show 6 ≤ 6
  decide

theorem wire_converts {R : ℚ} (hR : R = 10 ∨ R = 100000) : AllConvert (wireCfg .bnn6 R) (fun _ => (-30, 30)) [] pair := by
  rcases hR with rfl | rfl <;>
  exact ⟨⟨wire_ok .bnn6 _ "", Ex.two (by decide +kernel) (by decide +kernel),
    Ex.two (by decide +kernel) (by decide +kernel)⟩, trivial⟩

end Ex'

/-- The hypotheses of `C75_bounded`, `C75_absorbed` and `C75_write`: wires of 10 Ohm. -/
example : ∃ x y x' r, Runs Ex'.mild (Ex'.wireCfg .bnn6 10) [] x ∧
    xWrite Ex'.mild (Ex'.wireCfg .bnn6 10) x Ex.mat 2 3 = .ok y ∧
    xMvm Ex'.mild (Ex'.wireCfg .bnn6 10) y Ex.res Ex.vec Ex.mat 2 3 "" = .ok (x', r) ∧
    AddsUpTo (fun _ => wireBound (Ex'.wireCfg .bnn6 10) (-30) 30 (1 / 4) Ex.vec 3) r Ex.res
      (stored [.write Ex.mat 2 3]) Ex.vec 2 3 ∧
    Adds r Ex.res (stored [.write Ex.mat 2 3]) Ex.vec 2 3 := by
  obtain ⟨x, hx, -⟩ := Ex.okAnd_spec (x := mkXbar Ex'.mild (Ex'.wireCfg .bnn6 10) 0 []) (p := fun _ => true)
    (by decide +kernel)
  have hI := Ex'.wire_res (md := .bnn6) (R := 10) rfl (by norm_num)
  have hok := Ex'.wire_cfg .bnn6 10
  have hM : 0 < (Ex'.wireCfg .bnn6 10).M := by decide
  have hN : 0 < (Ex'.wireCfg .bnn6 10).N := by decide
  obtain ⟨y, hy⟩ := C75_write (E := Ex'.mild) (mat := Ex.mat) (m := 2) (n := 3) hok hI hM hN (.init hx) (Ex'.wire_acc _ _) (by decide)
    (Ex.legal_mat .bnn6) (Ex.sum_room .bnn6) (by decide)
  have hr : Runs Ex'.mild (Ex'.wireCfg .bnn6 10) [.write Ex.mat 2 3] y := .write (.init hx) hy
  have hl : Legal (Ex'.wireCfg .bnn6 10) (lastWrite [.write Ex.mat 2 3]) 2 3 :=
    fun i j hi hj => ⟨_, by simp [lastWrite, hi, hj], Ex.legal_mat .bnn6 i j hi hj⟩
  have hwid : keepsRowSums (Ex'.wireCfg .bnn6 10).mode → WidthIs 3 [.write Ex.mat 2 3] := fun _ op hop => by
    obtain rfl := List.mem_singleton.1 hop
    rfl
  have hE : ExactArith Ex'.mild := Ex.hotEnv_exact _ _
  obtain ⟨x1, r1, e1, h1⟩ := C75_bounded (mat := Ex.mat) (l := "") (vec := Ex.vec) (res := Ex.res) hE hok hI hM hN rfl (noise_of Ex'.mild_le) hr
    (Ex'.wire_placed 10).1.1 hl hwid (Ex'.wire_acc _ _) (by decide) (by decide) (Ex.legal_vec .bnn6 (by decide))
    (Ex'.wire_ok _ _ _) (Ex'.wire_converts (.inl rfl)).1.2
  obtain ⟨x2, r2, e2, h2⟩ := C75_absorbed (mat := Ex.mat) (l := "") (vec := Ex.vec) (res := Ex.res) hE hok hI hM hN rfl (noise_of Ex'.mild_le) hr
    (Ex'.wire_placed 10).1.1 hl hwid (Ex'.wire_acc _ _) (by decide) (by decide) (Ex.legal_vec .bnn6 (by decide))
    (Ex'.wire_ok _ _ _) (Ex'.wire_converts (.inl rfl)).1.2 (.inl ⟨trivial, by decide +kernel⟩)
  rw [e1, ok_inj, Prod.mk.injEq] at e2
  exact ⟨x, y, x1, r1, .init hx, hy, e1, h1, e2.2 ▸ h2⟩

/-- The hypotheses of `C75_session`. -/
example : ∃ x x' rs, mkXbar Ex'.mild (Ex'.wireCfg .bnn6 10) 0 [] = .ok x ∧
    exec Ex'.mild (Ex'.wireCfg .bnn6 10) x Ex'.pair = .ok (x', rs) ∧ Answers [] Ex'.pair rs := by
  obtain ⟨x, hx, -⟩ := Ex.okAnd_spec (x := mkXbar Ex'.mild (Ex'.wireCfg .bnn6 10) 0 []) (p := fun _ => true)
    (by decide +kernel)
  obtain ⟨x', rs, h1, -, h2⟩ := C75_session (w := 3) (ε := 1 / 4) (ops := Ex'.pair) (rg := fun _ => (-30, 30))
    (Ex.hotEnv_exact _ _) (Ex'.wire_cfg .bnn6 10) (Ex'.wire_res rfl (by norm_num)) (by decide) (by decide) rfl (noise_of Ex'.mild_le) hx
    (Ex'.wire_legal _) (Ex'.wire_placed _) (Ex'.wire_converts (.inl rfl))
  exact ⟨x, x', rs, hx, h1, h2 ⟨.inl ⟨trivial, by decide +kernel⟩, trivial⟩⟩

/-- Bounded noise and the power function of `Ex.rdEnv`. -/
def Ex'.wornEnv : Env ℚ := { Ex.rdEnv with gauss := (Ex.hotEnv (1 / 4) (-1 / 4)).gauss }

/-- Noise, variation, read disturb with software refreshes, wires of 10 Ohm and a signed converter of 8 bits. -/
def Ex'.wornCfg : Cfg ℚ :=
  { Ex.swCfg .tnn3 with parasitics := true, wRes := 10, adcType := .sym, resolution := 8, hrsNoise := 1, lrsNoise := 1, c2c := true }

def Ex'.mul : Op := .mvm Ex.res Ex.vec Ex.mat 2 3 ""

theorem Ex'.worn_res : Resistive Ex'.wornCfg :=
  ⟨rfl, rfl, rfl, rfl, by decide +kernel, by decide +kernel, by decide +kernel, by decide +kernel⟩

theorem Ex'.worn_acc : Accepted Ex'.wornCfg 2 3 := ⟨le_refl 2, le_refl 3, by decide⟩

theorem Ex'.worn_adc (l : String) : AdcOk Ex'.wornCfg l (-15) 15 :=
  ⟨by decide, by decide, by decide, show _ from (by decide +kernel : adcRange Ex'.wornCfg "" = some (-15, 15)), by norm_num⟩

theorem Ex'.worn_cfgOk : CfgOk Ex'.wornCfg := Ex.acfg_ok .tnn3

theorem Ex'.worn_gauss (k : Nat) : |Ex'.wornEnv.gauss k| ≤ 1 / 4 :=
  Ex.hotEnv_gauss (s := 1 / 4) (t := -1 / 4) (by norm_num) (by norm_num [abs_le]) k

theorem Ex'.worn_exact : ExactArith Ex'.wornEnv := ⟨fun _ => rfl, fun _ => rfl⟩

theorem Ex'.worn_placed {h : List Op} (hb : newestBlock h = some (2, 3)) : Placed Ex'.wornCfg h 2 3 :=
  ⟨⟨(2, 3), hb, le_refl 2, le_refl 3, by decide, by decide⟩, by decide⟩

theorem Ex'.worn_converts : Converts Ex'.wornCfg (-15) 15 (stored [.write Ex.mat 2 3]) Ex.res Ex.vec 2 3 :=
  ⟨Ex.two (by decide +kernel) (by decide +kernel), Ex.two (by decide +kernel) (by decide +kernel)⟩

/-- The hypotheses of `C75_disturbed`: the cells have been worn by reads and refreshed before the multiplication. -/
example : ∃ x x' r, Runs Ex'.wornEnv Ex'.wornCfg [Ex'.mul, Ex'.mul, Ex'.mul, .write Ex.mat 2 3] x ∧ 0 < x.refX ∧
    xMvm Ex'.wornEnv Ex'.wornCfg x Ex.res Ex.vec Ex.mat 2 3 "" = .ok (x', r) ∧
    Adds r Ex.res (stored [.write Ex.mat 2 3]) Ex.vec 2 3 := by
  obtain ⟨x, x', r, h1, h2, h3⟩ := Ex.stepped (E := Ex'.wornEnv) (c := Ex'.wornCfg) (res := Ex.res) (vec := Ex.vec)
    (mat := Ex.mat) (m := 2) (n := 3) (l := "") [.write Ex.mat 2 3, Ex'.mul, Ex'.mul, Ex'.mul]
    (fun x _ _ => decide (0 < x.refX)) (by decide +kernel)
  refine ⟨x, x', r, h1, of_decide_eq_true h3, h2, ?_⟩
  exact (C75_disturbed (ε := 1 / 4) (lo := -15) (hi := 15) Ex'.worn_exact Ex'.worn_cfgOk Ex'.worn_res (by decide)
    (by decide) (noise_of Ex'.worn_gauss) h1 (Ex'.worn_placed rfl)
    (fun i j hi hj => ⟨_, by simp [lastWrite, Ex'.mul, hi, hj], Ex.legal_mat .tnn3 i j hi hj⟩)
    (fun _ op hop => by
      simp only [Ex'.mul, List.reverse_cons, List.reverse_nil, List.nil_append, List.cons_append, List.mem_cons, List.not_mem_nil, or_false] at hop
      rcases hop with rfl | rfl | rfl | rfl <;> first | rfl | trivial)
    Ex'.worn_acc (by decide) (by decide) (Ex.legal_vec .tnn3 (by decide)) (Ex'.worn_adc _) Ex'.worn_converts h2).2
    (.inl ⟨trivial, by decide +kernel⟩)

/-- The hypotheses of `C75_session_disturbed`. -/
example : ∃ x x' rs, mkXbar Ex'.wornEnv Ex'.wornCfg 0 [] = .ok x ∧
    exec Ex'.wornEnv Ex'.wornCfg x (Ex'.pair ++ [Ex'.mul, Ex'.mul, Ex'.mul]) = .ok (x', rs) ∧
    Answers [] (Ex'.pair ++ [Ex'.mul, Ex'.mul, Ex'.mul]) rs := by
  obtain ⟨x, hx, h⟩ := Ex.okAnd_spec (x := mkXbar Ex'.wornEnv Ex'.wornCfg 0 [])
    (p := fun x => Ex.okAnd (exec Ex'.wornEnv Ex'.wornCfg x (Ex'.pair ++ [Ex'.mul, Ex'.mul, Ex'.mul])) fun _ => true)
    (by decide +kernel)
  obtain ⟨⟨x', rs⟩, h', -⟩ := Ex.okAnd_spec h
  have hl : ∀ h : List Op, (∀ i j, i < 2 → j < 3 → (lastWrite h i j).isSome) →
      LegalMvm Ex'.wornCfg 3 h Ex.res Ex.vec 2 3 := fun h hh =>
    ⟨Ex'.worn_acc, by decide, by decide, Ex.legal_vec .tnn3 (by decide), Ex.two (by decide) (by decide), hh, fun _ => rfl⟩
  have hw : ∀ i j, i < 2 → j < 3 → (lastWrite [.write Ex.mat 2 3] i j).isSome := fun i j hi hj => by
    simp [lastWrite, hi, hj]
  refine ⟨x, x', rs, hx, h', (C75_session_disturbed (ops := Ex'.pair ++ [Ex'.mul, Ex'.mul, Ex'.mul]) (w := 3) (ε := 1 / 4) (rg := fun _ => (-15, 15)) Ex'.worn_exact
    Ex'.worn_cfgOk Ex'.worn_res (by decide) (by decide) (noise_of Ex'.worn_gauss) hx
    ⟨⟨Ex'.worn_acc, by decide, Ex.legal_mat .tnn3, (fun h => by cases h), fun _ => rfl⟩, hl _ hw, hl _ hw, hl _ hw, hl _ hw, trivial⟩
    ⟨⟨Ex'.worn_placed rfl, Ex'.worn_placed rfl, Ex'.worn_placed rfl, Ex'.worn_placed rfl, trivial⟩, fun mat m n ho => ?_⟩
    ⟨⟨Ex'.worn_adc _, Ex'.worn_converts⟩, ⟨Ex'.worn_adc _, Ex'.worn_converts⟩, ⟨Ex'.worn_adc _, Ex'.worn_converts⟩,
      ⟨Ex'.worn_adc _, Ex'.worn_converts⟩, trivial⟩ h').2 ?_⟩
  · simp only [Ex'.pair, Ex'.mul, List.cons_append, List.nil_append, List.mem_cons, Op.write.injEq, reduceCtorEq, List.not_mem_nil,
      or_false] at ho
    rw [ho.2.2]
    decide
  · have : WireAbsorbed Ex'.wornCfg (-15) 15 (1 / 4) Ex.vec 3 := .inl ⟨trivial, by decide +kernel⟩
    exact ⟨this, this, this, this, trivial⟩

/-- C75.  The condition is needed: with wires of 100 kOhm and nominal cells, everything else as in `C75_absorbed`, the result is wrong. -/
theorem C75_wires_matter : ∃ (x x' : Xbar ℚ) (r : Vec Int), Resistive (Ex'.wireCfg .bnn6 100000) ∧
    Runs (Ex.hotEnv 0 0) (Ex'.wireCfg .bnn6 100000) [.write Ex.mat 2 3] x ∧
    AllPlaced (Ex'.wireCfg .bnn6 100000) [] Ex'.pair ∧ LegalOps (Ex'.wireCfg .bnn6 100000) 3 [] Ex'.pair ∧
    AllConvert (Ex'.wireCfg .bnn6 100000) (fun _ => (-30, 30)) [] Ex'.pair ∧
    xMvm (Ex.hotEnv 0 0) (Ex'.wireCfg .bnn6 100000) x Ex.res Ex.vec Ex.mat 2 3 "" = .ok (x', r) ∧
    ¬Adds r Ex.res (stored [.write Ex.mat 2 3]) Ex.vec 2 3 := by
  obtain ⟨x, x', r, h1, h2, h3⟩ := Ex.multiplied (E := Ex.hotEnv 0 0) (c := Ex'.wireCfg .bnn6 100000) (mat := Ex.mat)
    (res := Ex.res) (vec := Ex.vec) (mat' := Ex.mat) (m := 2) (n := 3) (m' := 2) (n' := 3) (l := "")
    (fun _ r => !decide (r.get 0 = Ex.res.get 0 + ∑ j ∈ range 3, stored [.write Ex.mat 2 3] 0 j * Ex.vec.get j))
    (by decide +kernel)
  refine ⟨x, x', r, Ex'.wire_res rfl (by norm_num), h1, Ex'.wire_placed _, Ex'.wire_legal _, Ex'.wire_converts (.inr rfl), h2, fun h => ?_⟩
  simp only [Bool.not_eq_true', decide_eq_false_iff_not] at h3
  exact h3 (h.head 0 (by decide))

/-- What `set_config` makes of a document with noise, wires and a signed converter. -/
def Ex'.loadedWire : Cfg ℚ := { Ex'.loaded .tnn3 10 1 with
  adcType := .sym, resolution := 8, parasitics := true, vRead := -1 / 2, wRes := 10 }

/-- The hypotheses of `C75_interface`. -/
example : ∃ w w' rs, Settled Ex'.mild [] w ∧ serve Ex'.mild w Ex'.pair = .ok (w', rs, [0, 0]) ∧ Answers [] Ex'.pair rs := by
  obtain ⟨w, h1, h2⟩ := Ex'.load Ex'.mild
    (Ex.withKeys (Ex.parKeys .tnn3 10) [("adc_type", .str "SYM_RANGE_ADC"), ("HRS_NOISE", .int 1), ("LRS_NOISE", .int 1)])
    Ex'.loadedWire (by decide +kernel)
  obtain ⟨w', rs, h3, _, h4⟩ := C75_interface (ε := 1 / 4) (rg := fun _ => (-15, 15)) (ops := Ex'.pair) (k := 3)
    (Ex.hotEnv_exact _ _) h1 (by
      rw [h2]
      exact ⟨rfl, rfl, rfl, rfl, by decide +kernel, by decide +kernel, by decide +kernel, by decide +kernel⟩)
    (by rw [h2]; decide) (by rw [h2]; decide) (by rw [h2]; rfl) (noise_of Ex'.mild_le) (by 
      rw [h2]
      exact Ex'.pair_legal ⟨le_refl 2, le_refl 3, by decide⟩ (Ex.legal_mat .tnn3) (fun h => by cases h)
        (Ex.legal_vec .tnn3 (by decide)) (Ex.two (by decide) (by decide))) Ex'.pair_heights (by
      rw [h2]
      refine ⟨⟨⟨⟨(2, 3), rfl, le_refl 2, le_refl 3, by decide, by decide⟩, by decide⟩, trivial⟩, fun mat m n ho => ?_⟩
      simp only [Ex'.pair, List.mem_cons, Op.write.injEq, reduceCtorEq, List.not_mem_nil, or_false] at ho
      rw [ho.2.2]
      decide) (by
      rw [h2]
      exact ⟨⟨⟨by decide, by decide, by decide, by decide +kernel, by norm_num⟩, Ex.two (by decide +kernel) (by decide +kernel),
        Ex.two (by decide +kernel) (by decide +kernel)⟩, trivial⟩)
  exact ⟨w, w', rs, h1, h3, h4 (by rw [h2]; exact ⟨.inl ⟨trivial, by decide +kernel⟩, trivial⟩)⟩

end Acs.Props
