import Verif.Lemmas.EndToEnd
import Verif.Props.Rounding
import Verif.Props.Digital
import Verif.Props.Api
import Verif.Props.Safety

/-!
# C66: from the configuration file to the results

`Settled E [] w`: `w` is the state after a successful `set_config`, or after an `update_config` that built a new
crossbar, whatever happened before.
-/

set_option linter.unusedSectionVars false

namespace Acs.Props

open Finset Spec

section
variable {K : Type} [Field K] [LinearOrder K] [IsStrictOrderedRing K] [FloorRing K]
variable {E : Env K} {w w' : World K} {x x' : Xbar K} {ops : List Op} {k : Nat} {ε σ A : K} {q : Prec K}

/-- C66.  `cpy_mtrx` and `exe_mvm` add nothing to the crossbar: calls whose dimensions fit return code 0 and the
buffers of the crossbar, change nothing else, and return at all exactly if the crossbar does. -/
theorem C66_interface_transparent (hx : w.xbar = some x) (hd : DimsFit w.cfg ops)
    (r : World K × List (Vec Int) × List Int) :
    serve E w ops = .ok r ↔ ∃ p, exec E w.cfg x ops = .ok p ∧ r = served w ops p := by
  constructor
  · intro h
    cases he : exec E w.cfg x ops with
    | ok p =>
      rw [serve_ok hx hd he] at h
      exact ⟨p, rfl, (Except.ok.inj h).symm⟩
    | error f =>
      obtain ⟨v, y, _, h2⟩ := serve_error hx hd he
      rw [h2, lift_ok] at h
      cases h
  · rintro ⟨⟨x', rs⟩, h1, rfl⟩
    exact serve_ok hx hd h1

/-- C66.  A fault of the crossbar ends the call; an exception (`thrown`) leaves the configuration as it was. -/
theorem C66_interface_faults (hx : w.xbar = some x) (hd : DimsFit w.cfg ops) {f : Fault}
    (he : exec E w.cfg x ops = .error f) :
    ∃ v y, v = { w with xbar := some y } ∧ serve E w ops = lift v (.error f) := serve_error hx hd he

/-- C66.  A digital crossbar, from the configuration to the results: every legal sequence of calls is answered
with code 0 and the exact products. -/
theorem C66_digital (hw : Settled E [] w) (hi : w.cfg.mode.family = .int → CfgOk w.cfg)
    (hdo : w.cfg.digitalOnly = true) (hgcc : shiftsSigned w.cfg.mode → E.strict = false)
    (hl : LegalOps w.cfg k [] ops) (hh : Heights ops) :
    ∃ w' rs, serve E w ops = .ok (w', rs, ops.map fun _ => 0) ∧ Answers [] ops rs := by
  obtain ⟨x, hx, hr⟩ := settled_runs hw
  obtain ⟨x', rs, h1, h2⟩ := exec_refines (fresh_ok hw hi).1 hgcc hdo hr .nil hl
  exact ⟨_, rs, serve_ok hx (dimsFit hl hh) h1, h2⟩

/-- C66.  An ideal analog crossbar with an ideal converter. -/
theorem C66_ideal (hE : ExactArith E) (hw : Settled E [] w) (hi : w.cfg.mode.family = .int → CfgOk w.cfg)
    (hid : Ideal w.cfg) (hinf : w.cfg.adcType = .inf) (hgcc : w.cfg.mode = .iOffsWDiff → E.strict = false)
    (hl : LegalOps w.cfg k [] ops) (hh : Heights ops) :
    ∃ w' rs, serve E w ops = .ok (w', rs, ops.map fun _ => 0) ∧ Answers [] ops rs := by
  obtain ⟨x, hx, hr⟩ := settled_runs hw
  obtain ⟨x', rs, h1, h2⟩ := exec_refines_inf hE (fresh_ok hw hi).1 hid hinf hgcc hr .nil hl
  exact ⟨_, rs, serve_ok hx (dimsFit hl hh) h1, h2⟩

/-- C66.  A binary or ternary analog crossbar with bounded variation, in exact arithmetic.  The accepted
configuration already guarantees what the bound needs to know about the mapping and the states. -/
theorem C66_variation (hE : ExactArith E) (hw : Settled E [] w) (hI : Imperfect w.cfg)
    (hrd : w.cfg.readDisturb = false) (hg : ∀ i, |E.gauss i| ≤ ε)
    (hl : LegalOps w.cfg k [] ops) (hh : Heights ops) (hR : NoiseRooms w.cfg (spread w.cfg ε) ops) :
    ∃ w' rs, serve E w ops = .ok (w', rs, ops.map fun _ => 0) ∧
      AnswersWithin (noiseBound w.cfg (spread w.cfg ε)) [] ops rs := by
  obtain ⟨x, hx, hr⟩ := settled_runs hw
  obtain ⟨hok, ha⟩ := fresh_ok hw fun hf => by
    have := hI.bin
    unfold Mode.isInt at this
    rw [hf] at this
    exact absurd this (by decide)
  obtain ⟨x', rs, h1, h2⟩ := exec_within hE hok hI hrd (ha hI.analog).states.1.le (ha hI.analog).states.2.le hg hr .nil hl hR
  exact ⟨_, rs, serve_ok hx (dimsFit hl hh) h1, h2⟩

/-- C66.  The same in rounded arithmetic. -/
theorem C66_rounding (hq : Rounds E q) (hw : Settled E [] w) (hsc : ScaleError E w.cfg q) (hI : Imperfect w.cfg)
    (hrd : w.cfg.readDisturb = false) (hg : NoiseUpTo E w.cfg σ)
    (hε : spread w.cfg σ + 5 * cellRound w.cfg ε q ≤ ε) (h0 : 0 ≤ ε) (hA : 0 ≤ A)
    (hl : LegalOps w.cfg k [] ops) (hh : Heights ops) (hR : RoundRooms w.cfg ε q A ops) :
    ∃ w' rs, serve E w ops = .ok (w', rs, ops.map fun _ => 0) ∧
      AnswersWithin (fun n => noiseBound w.cfg ε n + roundError w.cfg ε q A n) [] ops rs := by
  obtain ⟨x, hx, hr⟩ := settled_runs hw
  obtain ⟨hok, ha⟩ := fresh_ok hw fun hf => by
    have := hI.bin
    unfold Mode.isInt at this
    rw [hf] at this
    exact absurd this (by decide)
  obtain ⟨x', rs, h1, h2⟩ := exec_rounded hq hsc hok hI hrd (ha hI.analog).states.1.le (ha hI.analog).states.2.le hg hε h0 hA
    hr .nil hl hR
  exact ⟨_, rs, serve_ok hx (dimsFit hl hh) h1, h2⟩

end

/-- C66.  The same in binary32 without variation. -/
theorem C66_single_precision {E : Env ℚ} {w : World ℚ} {ops : List Op} {k : Nat} {ρ A : ℚ} (hE : Ieee E)
    (hw : Settled E [] w) (hI : Imperfect w.cfg) (hrd : w.cfg.readDisturb = false)
    (hq1 : w.cfg.hrsNoise ≤ 0) (hq2 : w.cfg.lrsNoise ≤ 0)
    (hd : 2 ^ (-80 : ℤ) ≤ |w.cfg.lrs - w.cfg.hrs|) (hd' : |w.cfg.lrs - w.cfg.hrs| ≤ 2 ^ (80 : ℤ))
    (hρ : max w.cfg.hrs w.cfg.lrs ≤ ρ * |w.cfg.lrs - w.cfg.hrs|) (hA : 0 ≤ A)
    (hl : LegalOps w.cfg k [] ops) (hh : Heights ops) (hR : SingleRooms ρ A ops) :
    ∃ w' rs, serve E w ops = .ok (w', rs, ops.map fun _ => 0) ∧
      AnswersWithin (fun _ => (truncations w.cfg.mode : ℚ) + 1) [] ops rs := by
  obtain ⟨x, hx, hr⟩ := settled_runs hw
  obtain ⟨hok, ha⟩ := fresh_ok hw fun hf => by
    have := hI.bin
    unfold Mode.isInt at this
    rw [hf] at this
    exact absurd this (by decide)
  obtain ⟨x', rs, h1, h2⟩ := exec_single hE hok hI hrd hq1 hq2 (ha hI.analog).states.1.le (ha hI.analog).states.2.le hd hd' hρ hA
    hr .nil hl hR
  exact ⟨_, rs, serve_ok hx (dimsFit hl hh) h1, h2⟩

/-! ## Instances -/

namespace Ex'

/-- Two calls. -/
def pair : List Op := [.write Ex.mat 2 3, .mvm Ex.res Ex.vec Ex.mat 2 3 ""]

theorem pair_heights : Heights pair := fun op hop => by
  simp only [pair, List.mem_cons, List.not_mem_nil, or_false] at hop
  rcases hop with rfl | rfl
  · show 2 < 2147483648; decide
  · show 2 < 2147483648; decide

theorem pair_fits {c : Cfg ℚ} (h : Accepted c 2 3) : DimsFit c pair := fun op hop => by
  simp only [pair, List.mem_cons, List.not_mem_nil, or_false] at hop
  rcases hop with rfl | rfl
  · exact ⟨h, by decide⟩
  · exact ⟨h, by decide⟩

theorem pair_legal {c : Cfg ℚ} (h1 : Accepted c 2 3) (h2 : LegalMat c (entry Ex.mat 3) 2 3) (h3 : SumRoom c 2 3)
    (h4 : LegalVec c Ex.vec 3) (h5 : Room c Ex.res 2 3) : LegalOps c 3 [] pair :=
  ⟨⟨h1, by decide, h2, h3, fun _ => rfl⟩, ⟨h1, by decide, by decide, h4, h5,
    fun i j hi hj => by simp [lastWrite, hi, hj], fun _ => rfl⟩, trivial⟩

/-- The analog configuration that `set_config` makes of a document. -/
def loaded (md : Mode) (lrs noise : ℚ) : Cfg ℚ := { (cfg0 : Cfg ℚ) with
  M := 2
  N := 3
  split := (Ex.cfg md).split
  hrs := 5
  lrs := lrs
  mode := md
  hrsNoise := noise
  lrsNoise := noise
  d2d := true }

theorem loaded_legal {md : Mode} (h : md.isInt = false) (lrs noise : ℚ) : LegalOps (loaded md lrs noise) 3 [] pair := by
  have hs : SumRoom (loaded md lrs noise) 2 3 := fun h' => absurd (h.symm.trans h') (by decide)
  have hr : Room (loaded md lrs noise) Ex.res 2 3 := by
    refine Ex.two ?_ ?_ <;> cases md <;> simp [peak, loaded, Mode.isInt, Mode.family, Ex.res, Vec.ofList] at h ⊢
  have hm := Ex.legal_mat md
  have hv := Ex.legal_vec md (by constructor <;> rintro rfl <;> exact absurd h (by decide))
  have ha : Accepted (loaded md lrs noise) 2 3 := ⟨le_refl 2, le_refl 3, by decide⟩
  cases md <;> first | exact pair_legal ha hm hs hv hr | cases h

/-- The digital configuration that `set_config` makes of a document. -/
def digitalCfg (md : Mode) : Cfg ℚ := { (cfg0 : Cfg ℚ) with
  M := 2
  N := 3
  split := (Ex.cfg md).split
  wBit := if md.isInt then 3 else if md = .tnn4 ∨ md = .tnn5 then 2 else 0
  iBit := if md.isInt then 3 else 0
  digitalOnly := true
  mode := md }

theorem digital_legal {md : Mode} (h : md ≠ .iUintWDiff ∧ md ≠ .iUintWOffs) : LegalOps (digitalCfg md) 3 [] pair := by
  have hs : SumRoom (digitalCfg md) 2 3 := by
    intro _ _
    cases md <;> simp [digitalCfg, Mode.isInt, Mode.family]
  have hr : Room (digitalCfg md) Ex.res 2 3 := by
    refine Ex.two ?_ ?_ <;> cases md <;> simp [peak, digitalCfg, Mode.isInt, Mode.family, Ex.res, Vec.ofList]
  have hm := Ex.legal_mat md
  have hv := Ex.legal_vec md h
  cases md <;> exact pair_legal ⟨by decide, by decide, by decide⟩ hm hs hv hr

theorem digital_ok (md : Mode) : CfgOk (digitalCfg md) := by
  have hc := Ex.cfg_ok md
  cases md <;> exact hc

/-- Members of a document that change the window and switch noise on. -/
def noisyKeys : List (String × Json ℚ) := [("LRS", .int 46), ("HRS_NOISE", .int 1), ("LRS_NOISE", .int 1)]

theorem load (E : Env ℚ) (j : Json ℚ) (c : Cfg ℚ)
    (h : Ex.goes (setConfig E (.good j) world0) (fun w => decide (w.cfg = c)) = true) :
    ∃ w, Settled E [] w ∧ w.cfg = c := by
  obtain ⟨w, h1, h2⟩ := Ex.goes_spec h
  exact ⟨w, .load h1, of_decide_eq_true h2⟩

end Ex'

/-- The hypotheses of `C66_digital`, in every mapping with signed inputs. -/
example (md : Mode) (h : md ≠ .iUintWDiff ∧ md ≠ .iUintWOffs) : ∃ w w' rs, Settled Ex.env [] w ∧
    serve Ex.env w Ex'.pair = .ok (w', rs, [0, 0]) ∧ Answers [] Ex'.pair rs := by
  obtain ⟨w, h1, h2⟩ := Ex'.load Ex.env (Ex.digital md) (Ex'.digitalCfg md) (by cases md <;> decide +kernel)
  obtain ⟨w', rs, h3⟩ := C66_digital h1 (fun _ => by rw [h2]; exact Ex'.digital_ok md) (by rw [h2]; rfl) (fun _ => rfl)
    (by rw [h2]; exact Ex'.digital_legal h) Ex'.pair_heights
  exact ⟨w, w', rs, h1, h3⟩

/-- The hypotheses of `C66_ideal`. -/
example : ∃ w w' rs, Settled Ex.env [] w ∧ serve Ex.env w Ex'.pair = .ok (w', rs, [0, 0]) ∧ Answers [] Ex'.pair rs := by
  obtain ⟨w, h1, h2⟩ := Ex'.load Ex.env (Ex.analog .tnn3) (Ex'.loaded .tnn3 10 0) (by decide +kernel)
  obtain ⟨w', rs, h3⟩ := C66_ideal (ops := Ex'.pair) (k := 3) Ex.env_exact h1 (fun h => by rw [h2] at h; cases h)
    (by rw [h2]; exact ⟨rfl, rfl, rfl, rfl, rfl, Ex.quiet .tnn3, by show (5 : ℚ) ≠ 10; norm_num, fun h => by cases h⟩)
    (by rw [h2]; rfl) (fun _ => rfl)
    (by rw [h2]; exact Ex'.loaded_legal rfl _ _)
    Ex'.pair_heights
  exact ⟨w, w', rs, h1, h3⟩

/-- The hypotheses of `C66_variation`. -/
example : ∃ w w' rs, Settled (Ex.hotEnv 1 (-1)) [] w ∧ serve (Ex.hotEnv 1 (-1)) w Ex'.pair = .ok (w', rs, [0, 0]) ∧
    AnswersWithin (noiseBound (Ex'.loaded .tnn3 46 1) 1) [] Ex'.pair rs := by
  obtain ⟨w, h1, h2⟩ := Ex'.load (Ex.hotEnv 1 (-1)) (Ex.analog .tnn3 Ex'.noisyKeys) (Ex'.loaded .tnn3 46 1) (by decide +kernel)
  obtain ⟨w', rs, h3, h4⟩ := C66_variation (ε := 1) (ops := Ex'.pair) (k := 3) (Ex.hotEnv_exact _ _) h1
    (by rw [h2]; exact ⟨rfl, rfl, rfl, rfl, rfl, by show (5 : ℚ) ≠ 46; norm_num⟩)
    (by rw [h2]; rfl) (Ex.hotEnv_gauss (by norm_num) (by norm_num))
    (by rw [h2]; exact Ex'.loaded_legal rfl _ _)
    Ex'.pair_heights (by
      rw [h2]
      intro op hop
      simp only [Ex'.pair, List.mem_cons, List.not_mem_nil, or_false] at hop
      rcases hop with rfl | rfl
      · trivial
      · exact Ex.two (by decide +kernel) (by decide +kernel))
  rw [h2] at h4
  exact ⟨w, w', rs, h1, h3, h4⟩

/-- The hypotheses of `C66_rounding`. -/
example : ∃ w w' rs, Settled (Ex.roundEnv 1 (-1)) [] w ∧ serve (Ex.roundEnv 1 (-1)) w Ex'.pair = .ok (w', rs, [0, 0]) ∧
    AnswersWithin (fun n => noiseBound (Ex'.loaded .tnn3 46 1) (21 / 10) n + roundError (Ex'.loaded .tnn3 46 1) (21 / 10) prec32 1000 n)
      [] Ex'.pair rs := by
  obtain ⟨w, h1, h2⟩ := Ex'.load (Ex.roundEnv 1 (-1)) (Ex.analog .tnn3 Ex'.noisyKeys) (Ex'.loaded .tnn3 46 1) (by decide +kernel)
  obtain ⟨w', rs, h3, h4⟩ := C66_rounding (σ := 1) (ε := 21 / 10) (A := 1000) (ops := Ex'.pair) (k := 3)
    (ieee_rounds (Ex.roundEnv_ieee 1 (-1))) h1 (by rw [h2]; exact ieee_scale (Ex.roundEnv_ieee 1 (-1)) (by decide +kernel) (by decide +kernel))
    (by rw [h2]; exact ⟨rfl, rfl, rfl, rfl, rfl, by show (5 : ℚ) ≠ 46; norm_num⟩)
    (by rw [h2]; rfl) ⟨by norm_num, fun _ => Ex.hotEnv_gauss (by norm_num) (by norm_num)⟩ (by rw [h2]; decide +kernel)
    (by norm_num) (by norm_num)
    (by rw [h2]; exact Ex'.loaded_legal rfl _ _)
    Ex'.pair_heights (by
      rw [h2]
      intro op hop
      simp only [Ex'.pair, List.mem_cons, List.not_mem_nil, or_false] at hop
      rcases hop with rfl | rfl
      · trivial
      · exact ⟨⟨by decide, by decide +kernel, by decide +kernel⟩,
          Ex.two ⟨by decide +kernel, by decide +kernel⟩ ⟨by decide +kernel, by decide +kernel⟩⟩)
  rw [h2] at h4
  exact ⟨w, w', rs, h1, h3, h4⟩

/-- The hypotheses of `C66_single_precision`. -/
example : ∃ w w' rs, Settled Ex.fenv [] w ∧ serve Ex.fenv w Ex'.pair = .ok (w', rs, [0, 0]) ∧
    AnswersWithin (fun _ => ((truncations .bnn3 : ℕ) : ℚ) + 1) [] Ex'.pair rs := by
  obtain ⟨w, h1, h2⟩ := Ex'.load Ex.fenv (Ex.analog .bnn3 [("LRS", .int 46)]) (Ex'.loaded .bnn3 46 0) (by decide +kernel)
  obtain ⟨w', rs, h3, h4⟩ := C66_single_precision (ρ := 2) (A := 100000) (ops := Ex'.pair) (k := 3) Ex.fenv_ieee h1
    (by rw [h2]; exact ⟨rfl, rfl, rfl, rfl, rfl, by show (5 : ℚ) ≠ 46; norm_num⟩)
    (by rw [h2]; rfl) (by rw [h2]; decide +kernel) (by rw [h2]; decide +kernel) (by rw [h2]; decide +kernel) (by rw [h2]; decide +kernel)
    (by rw [h2]; decide +kernel) (by norm_num)
    (by rw [h2]; exact Ex'.loaded_legal rfl _ _)
    Ex'.pair_heights (fun op hop => by
      simp only [Ex'.pair, List.mem_cons, List.not_mem_nil, or_false] at hop
      rcases hop with rfl | rfl
      · trivial
      · exact ⟨Ex.two (by decide +kernel) (by decide +kernel), by norm_num⟩)
  rw [h2] at h4
  exact ⟨w, w', rs, h1, h3, h4⟩

/-- The hypotheses of `C66_interface_transparent`: a state with a crossbar and calls that fit. -/
example : ∃ w x, (w : World ℚ).xbar = some x ∧ DimsFit w.cfg Ex'.pair ∧ ∃ p, exec Ex.env w.cfg x Ex'.pair = .ok p := by
  obtain ⟨w, h1, h2⟩ := Ex'.load Ex.env (Ex.analog .tnn3) (Ex'.loaded .tnn3 10 0) (by decide +kernel)
  obtain ⟨x, hx, hr⟩ := settled_runs h1
  have hd : DimsFit w.cfg Ex'.pair := by rw [h2]; exact Ex'.pair_fits (Ex.accepted .tnn3)
  obtain ⟨w', rs, h3, _⟩ := C66_ideal (ops := Ex'.pair) (k := 3) Ex.env_exact h1 (fun h => by rw [h2] at h; cases h)
    (by rw [h2]; exact ⟨rfl, rfl, rfl, rfl, rfl, Ex.quiet .tnn3, by show (5 : ℚ) ≠ 10; norm_num, fun h => by cases h⟩)
    (by rw [h2]; rfl) (fun _ => rfl)
    (by rw [h2]; exact Ex'.loaded_legal rfl _ _)
    Ex'.pair_heights
  obtain ⟨p, hp, _⟩ := (C66_interface_transparent hx hd _).1 h3
  exact ⟨w, x, hx, hd, p, hp⟩

/-- The hypotheses of `C66_interface_faults`: a weight outside the alphabet aborts. -/
example : ∃ w x, (w : World ℚ).xbar = some x ∧ DimsFit w.cfg [.write (Ex.fill 7) 1 3] ∧
    exec Ex.env w.cfg x [.write (Ex.fill 7) 1 3] = .error .aborted := by
  obtain ⟨w, h1, h2⟩ := Ex'.load Ex.env (Ex.digital .tnn2) (Ex'.digitalCfg .tnn2) (by decide +kernel)
  obtain ⟨x, hx, hr⟩ := settled_runs h1
  refine ⟨w, x, hx, fun op hop => ?_, ?_⟩
  · rw [List.mem_singleton.1 hop, h2]
    exact ⟨⟨by decide, by decide, by decide⟩, by decide⟩
  · rw [h2] at hr ⊢
    have : xWrite Ex.env (Ex'.digitalCfg .tnn2) x (Ex.fill 7) 1 3 = .error .aborted :=
      C11_bad_weight_aborts_partial trivial (Ex'.digital_ok .tnn2) hr ⟨by decide, by decide, by decide⟩ (by decide)
        (fun i j _ _ => by show |(7 : Int)| + (3 : Nat) ≤ 2147483647; decide)
        ⟨0, 0, by decide, by decide, by show ¬((7 : Int) = 1 ∨ (7 : Int) = -1 ∨ (7 : Int) = 0); decide⟩
    simp only [exec, this]
    rfl

end Acs.Props
