import Verif.Lemmas.Reading
import Verif.Props.RoundInt
import Verif.Props.Saturate

/-!
# C91: what a multiplication through a real converter computes
-/

set_option linter.unusedSectionVars false

namespace Acs.Props

open Finset Spec

section
variable {K : Type} [Field K] [LinearOrder K] [IsStrictOrderedRing K] [FloorRing K]
variable {E : Env K} {cfg : Cfg K} {mat vec res r : Vec Int} {m n w : Nat} {l : String}
variable {x x' : Xbar K} {h : List Op} {lo hi : K} {rg : String → K × K}

/-! ## Readings -/

/-- C91.  `nearest y` is the integer nearest to `y`, and of two that are equally near the one further from zero. -/
theorem C91_nearest (y : K) (z : Int) :
    |y - nearest y| ≤ 1 / 2 ∧ |y - nearest y| ≤ |y - z| ∧ (|y - z| = |y - nearest y| → |z| ≤ |nearest y|) := by
  have h1 : |y - nearest y| ≤ 1 / 2 := by
    rw [nearest_eq, abs_sub_comm]
    exact roundAway_near y
  refine ⟨h1, ?_, fun h => ?_⟩
  · by_contra h
    rw [not_le] at h
    have e : nearest y = z := by
      rw [nearest_eq]
      exact roundAway_of_near (h.trans_le h1)
    rw [e] at h
    exact lt_irrefl _ h
  · rcases h1.lt_or_eq with h2 | h2
    · have e : nearest y = z := by
        rw [nearest_eq]
        exact roundAway_of_near (h ▸ h2)
      rw [e]
    · rw [h2] at h
      unfold nearest
      rcases abs_eq (by norm_num : (0 : K) ≤ 1 / 2) |>.1 h with h | h
      · obtain rfl : y = z + 1 / 2 := by linarith
        split
        · rw [show (-((z : K) + 1 / 2) + 1 / 2) = ((-z : Int) : K) by push_cast; ring, Int.floor_intCast, neg_neg]
        · next h0 =>
          rw [show ((z : K) + 1 / 2 + 1 / 2) = ((z + 1 : Int) : K) by push_cast; ring, Int.floor_intCast]
          have h3 : (-1 : K) < z := by linarith
          have h4 : (-1 : Int) < z := by exact_mod_cast h3
          rw [abs_of_nonneg (by omega), abs_of_nonneg (by omega)]
          omega
      · obtain rfl : y = z - 1 / 2 := by linarith
        split
        · next h0 =>
          rw [show (-((z : K) - 1 / 2) + 1 / 2) = ((-z + 1 : Int) : K) by push_cast; ring, Int.floor_intCast]
          have h3 : (z : K) < 1 := by linarith
          have h4 : z < 1 := by exact_mod_cast h3
          rw [abs_of_nonpos (by omega), abs_of_nonpos (by omega)]
          omega
        · rw [show ((z : K) - 1 / 2 + 1 / 2) = (z : K) by ring, Int.floor_intCast]

/-- C91.  A reading grows with the current. -/
theorem C91_monotone (hA : AdcOk cfg l lo hi) {a b k : K} (h0 : 0 ≤ k) (hab : a ≤ b) :
    reading cfg lo hi (a, k) ≤ reading cfg lo hi (b, k) := by
  have hq := adcOk_step_pos hA
  rw [reading_eq hA.lt.le, reading_eq hA.lt.le]
  refine roundAway_mono (mul_le_mul_of_nonneg_right (add_le_add_left (mul_le_mul_of_nonneg_right ?_ hq.le) _) h0)
  exact Int.cast_le.2 (roundAway_mono (div_le_div_of_nonneg_right (sub_le_sub_right (clip_mono lo hi hab) _) hq.le))

/-- C91.  Inside the range a reading is off by at most half a step, scaled, and one half; outside it is that of the end of the range. -/
theorem C91_accuracy (hA : AdcOk cfg l lo hi) (a k : K) :
    (lo ≤ a → a ≤ hi → |(reading cfg lo hi (a, k) : K) - a * k| ≤ adcStep cfg lo hi / 2 * |k| + 1 / 2) ∧
    (a ≤ lo → reading cfg lo hi (a, k) = nearest (lo * k)) ∧
    (hi ≤ a → reading cfg lo hi (a, k) = nearest (hi * k)) := by
  have hq := adcOk_step_pos hA
  refine ⟨fun h1 h2 => ?_, fun h1 => ?_, fun h1 => ?_⟩ <;> rw [reading_eq hA.lt.le]
  · have e1 := roundAway_near ((levelOf cfg lo hi a * adcStep cfg lo hi + lo) * k)
    have e2 := level_near hA h1 h2
    have e3 := mul_le_mul_of_nonneg_right e2 (abs_nonneg k)
    rw [← abs_mul] at e3
    refine (abs_sub_le _ ((levelOf cfg lo hi a * adcStep cfg lo hi + lo) * k) _).trans ?_
    rw [← sub_mul, add_comm]
    exact add_le_add e3 e1
  · show roundAway ((levelOf cfg lo hi a * adcStep cfg lo hi + lo) * k) = _
    unfold levelOf
    rw [clip_low hA.lt.le h1, sub_self, zero_div, nearest_eq]
    have : roundAway (0 : K) = 0 := by simpa using roundAway_int (K := K) 0
    rw [this, Int.cast_zero, zero_mul, zero_add]
  · show roundAway ((levelOf cfg lo hi a * adcStep cfg lo hi + lo) * k) = _
    unfold levelOf
    rw [clip_high h1, nearest_eq, ← levels_mul_step hA, mul_div_cancel_right₀ _ hq.ne', roundAway_int, levels_mul_step hA, sub_add_cancel]

/-! ## Multiplications -/

/-- C91.  In any state of a crossbar with ideal cells, a multiplication of a stored block adds exactly the readings of
the conversions and the corrections of the mapping.  No current has to be within the range of the converter. -/
theorem C91_reads (hE : ExactArith E) (hok : CfgOk cfg) (hid : Ideal cfg)
    (hgcc : cfg.mode = .iOffsWDiff → E.strict = false) (hr : Runs E cfg h x)
    (hl : Legal cfg (lastWrite h) m n) (hwid : keepsRowSums cfg.mode → WidthIs n h) (hd : Accepted cfg m n)
    (hv : n ≤ vec.size) (hres : m ≤ res.size) (hx : LegalVec cfg vec n) (hA : AdcOk cfg l lo hi)
    (hroom : ReadRoom cfg lo hi (stored h) res vec m n) :
    ∃ x' r, xMvm E cfg x res vec mat m n l = .ok (x', r) ∧ AddsRead cfg lo hi r res (stored h) vec m n :=
  mvm_reads (aHyp hE hok hid hr hl hd (fun hk i _ => runs_sums hr (hasSums_of_keeps hk) (hwid hk) i) hv hres hx)
    hE hgcc hA hroom

/-- C91.  Every legal sequence of calls on a new crossbar returns these answers. -/
theorem C91_session (hE : ExactArith E) (hok : CfgOk cfg) (hid : Ideal cfg)
    (hgcc : cfg.mode = .iOffsWDiff → E.strict = false) {rng : Nat} {hists : List (String × Hist K)}
    (hx : mkXbar E cfg rng hists = .ok x) {ops : List Op} (hl : LegalOps cfg w [] ops)
    (hC : AllReadable cfg rg [] ops) :
    ∃ x' rs, exec E cfg x ops = .ok (x', rs) ∧ AnswersRead cfg rg [] ops rs :=
  exec_reads hE hok hid hgcc (.init hx) .nil hl hC

/-- C91, from the configuration to the results of the interface. -/
theorem C91_interface {wd : World K} {ops : List Op} {k : Nat} (hE : ExactArith E) (hw : Settled E [] wd)
    (hid : Ideal wd.cfg) (hgcc : wd.cfg.mode = .iOffsWDiff → E.strict = false) (hi : wd.cfg.mode.family = .int → CfgOk wd.cfg)
    (hl : LegalOps wd.cfg k [] ops) (hh : Heights ops) (hC : AllReadable wd.cfg rg [] ops) :
    ∃ w' rs, serve E wd ops = .ok (w', rs, ops.map fun _ => 0) ∧ AnswersRead wd.cfg rg [] ops rs := by
  obtain ⟨x, hx, hr⟩ := settled_runs hw
  obtain ⟨x', rs, h1, h2⟩ := exec_reads hE (fresh_ok hw hi).1 hid hgcc hr .nil hl hC
  exact ⟨_, rs, serve_ok hx (dimsFit hl hh) h1, h2⟩

end

/-! ## Instances -/

/-- A current above the range of `Ex'.tight`, and what it is read as. -/
example : AdcOk (Ex'.tight false) "" (-4) 4 ∧ reading (Ex'.tight false) (-4) 4 (10, 1 / 5) = 1 ∧
    reading (Ex'.tight false) (-4) 4 (10, 1 / 5) = nearest (4 * (1 / 5) : ℚ) :=
  ⟨Ex'.tight_ok _, by decide +kernel, (C91_accuracy (Ex'.tight_ok false) _ _).2.2 (by norm_num)⟩

/-- The hypotheses of `C91_monotone`. -/
example : reading (Ex'.tight false) (-4) 4 (1, 1 / 5) ≤ reading (Ex'.tight false) (-4) 4 (3, 1 / 5) :=
  C91_monotone (Ex'.tight_ok false) (by norm_num) (by norm_num)

/-- The halves. -/
example : nearest (5 / 2 : ℚ) = 3 ∧ nearest (-5 / 2 : ℚ) = -3 := by decide +kernel

namespace Ex'

/-- A converter for a third of the currents, with cells that do not vary. -/
def clipped : Cfg ℚ := { Ex.symCfg .tnn3 with calibMode := .calib, calibDict := [("", (-4, 4))] }

theorem clipped_ideal : Ideal clipped := ⟨rfl, rfl, rfl, rfl, rfl, fun _ => ⟨le_refl 0, le_refl 0⟩, by show (5 : ℚ) ≠ 10; norm_num, by decide⟩

theorem clipped_ok : AdcOk clipped "" (-4) 4 :=
  ⟨(Ex.sym_ok .tnn3 "").real, by show (2 : Int) ≤ 4; decide, by show (4 : Int) ≤ 30; decide, rfl, by norm_num⟩

theorem clipped_room : ReadRoom clipped (-4) 4 (stored [.write Ex.mat 2 3]) Ex.res Ex.vec 2 3 :=
  ⟨Ex.two (by decide +kernel) (by decide +kernel), fun h => by cases h⟩

end Ex'

/-- The hypotheses of `C91_reads`, where the currents leave the range. -/
example : (∃ x x' r, Runs Ex.env Ex'.clipped [.write Ex.mat 2 3] x ∧
      xMvm Ex.env Ex'.clipped x Ex.res Ex.vec Ex.mat 2 3 "" = .ok (x', r) ∧
      AddsRead Ex'.clipped (-4) 4 r Ex.res (stored [.write Ex.mat 2 3]) Ex.vec 2 3) ∧
    ¬Converts Ex'.clipped (-4) 4 (stored [.write Ex.mat 2 3]) Ex.res Ex.vec 2 3 := by
  obtain ⟨x, h1, _⟩ := Ex.wrote (E := Ex.env) (c := Ex'.clipped) (mat := Ex.mat) (m := 2) (n := 3)
    (fun _ => true) (by decide +kernel)
  obtain ⟨x', r, h2, h3⟩ := C91_reads (cfg := Ex'.clipped) (mat := Ex.mat) (l := "") (vec := Ex.vec) (res := Ex.res)
    Ex.env_exact (Ex.acfg_ok .tnn3) Ex'.clipped_ideal (fun h => by cases h) h1
    (fun i j hi hj => ⟨_, by simp [lastWrite, hi, hj], Ex.legal_mat .tnn3 i j hi hj⟩)
    (fun _ op hop => by obtain rfl := List.mem_singleton.1 hop; rfl) (Ex.accepted .tnn3) (by decide) (by decide)
    (Ex.legal_vec .tnn3 (by decide)) Ex'.clipped_ok Ex'.clipped_room
  refine ⟨⟨x, x', r, h1, h2, h3⟩, fun k => ?_⟩
  have := k.range 1 (by decide)
  revert this
  decide +kernel

/-- The hypotheses of `C91_session` for a mapping whose currents leave the range of any `MAX` calibration, and the numbers it
predicts. -/
example : (∃ x x' rs, mkXbar Ex.env (Ex.posCfg .tnn4) 0 [] = .ok x ∧
      exec Ex.env (Ex.posCfg .tnn4) x Ex'.pair = .ok (x', rs) ∧ AnswersRead (Ex.posCfg .tnn4) (fun _ => (0, 30)) [] Ex'.pair rs) ∧
    rowResult (Ex.posCfg .tnn4) 0 30 (stored [.write Ex.mat 2 3]) Ex.vec 3 1 = -4 := by
  obtain ⟨x, hx, _⟩ := Ex.okAnd_spec (x := mkXbar Ex.env (Ex.posCfg .tnn4) 0 []) (p := fun _ => true) (by decide +kernel)
  obtain ⟨x', rs, h1, h2⟩ := C91_session (cfg := Ex.posCfg .tnn4) (w := 3) (ops := Ex'.pair) (rg := fun _ => (0, 30))
    Ex.env_exact (Ex.acfg_ok .tnn4) ⟨rfl, rfl, rfl, rfl, rfl, fun _ => ⟨le_refl 0, le_refl 0⟩, by show (5 : ℚ) ≠ 10; norm_num, by decide⟩
    (fun h => by cases h) hx
    (Ex'.pair_legal (Ex.accepted .tnn4) (Ex.legal_mat .tnn4) (Ex.sum_room .tnn4) (Ex.legal_vec .tnn4 (by decide))
      (Ex.room .tnn4))
    ⟨⟨Ex.pos_ok .tnn4 "", Ex.two (by decide +kernel) (by decide +kernel), fun h => by cases h⟩, trivial⟩
  exact ⟨⟨x, x', rs, hx, h1, h2⟩, by decide +kernel⟩

/-- The same for a mapping that adds an offset to the inputs. -/
example : ∃ x x' rs, mkXbar Ex.env (Ex.symCfg .iOffsWDiff) 0 [] = .ok x ∧
    exec Ex.env (Ex.symCfg .iOffsWDiff) x Ex'.pair = .ok (x', rs) ∧
    AnswersRead (Ex.symCfg .iOffsWDiff) (fun _ => (-15, 15)) [] Ex'.pair rs := by
  obtain ⟨x, hx, _⟩ := Ex.okAnd_spec (x := mkXbar Ex.env (Ex.symCfg .iOffsWDiff) 0 []) (p := fun _ => true)
    (by decide +kernel)
  obtain ⟨x', rs, h1, h2⟩ := C91_session (cfg := Ex.symCfg .iOffsWDiff) (w := 3) (ops := Ex'.pair) (rg := fun _ => (-15, 15))
    Ex.env_exact (Ex.acfg_ok .iOffsWDiff) ⟨rfl, rfl, rfl, rfl, rfl, fun _ => ⟨le_refl 0, le_refl 0⟩, by show (5 : ℚ) ≠ 10; norm_num, by decide⟩
    (fun _ => rfl) hx
    (Ex'.pair_legal (Ex.accepted .iOffsWDiff) (Ex.legal_mat .iOffsWDiff) (Ex.sum_room .iOffsWDiff)
      (Ex.legal_vec .iOffsWDiff (by decide)) (Ex.room .iOffsWDiff))
    ⟨⟨Ex.sym_ok .iOffsWDiff "", Ex.two (by decide +kernel) (by decide +kernel), fun h => by cases h⟩, trivial⟩
  exact ⟨x, x', rs, hx, h1, h2⟩

/-- What `set_config` makes of a document with a converter for the offset mapping. -/
def Ex'.loadedOffs : Cfg ℚ := { Ex'.slicedLoaded with adcType := .pos, resolution := 8 }

theorem Ex'.loadedOffs_legal : LegalOps Ex'.loadedOffs 3 [] Ex'.unsignedPair :=
  ⟨⟨⟨le_refl 2, le_refl 3, by decide⟩, by decide, Ex.legal_mat .iUintWOffs, fun _ => by decide, fun _ => rfl⟩,
    ⟨⟨le_refl 2, le_refl 3, by decide⟩, by decide, by decide,
      Ex.three (P := fun j => LegalX Ex'.loadedOffs (Ex.vecU.get j))
        (show 0 ≤ Ex.vecU.get 0 ∧ Ex.vecU.get 0 < 2 ^ 3 by decide) (show 0 ≤ Ex.vecU.get 1 ∧ Ex.vecU.get 1 < 2 ^ 3 by decide)
        (show 0 ≤ Ex.vecU.get 2 ∧ Ex.vecU.get 2 < 2 ^ 3 by decide), Ex.two (by decide) (by decide),
      fun i j hi hj => by simp [lastWrite, hi, hj], fun _ => rfl⟩, trivial⟩

/-- The hypotheses of `C91_interface`; the product is `12, -2`. -/
example : (∃ w w' rs, Settled Ex.env [] w ∧ serve Ex.env w Ex'.unsignedPair = .ok (w', rs, [0, 0]) ∧
      AnswersRead Ex'.loadedOffs (fun _ => (0, 138)) [] Ex'.unsignedPair rs) ∧
    (List.range 2).map (rowResult Ex'.loadedOffs 0 138 (stored [.write Ex.mat 2 3]) Ex.vecU 3) = [12, -3] := by
  obtain ⟨w, h1, h2⟩ := Ex'.load Ex.env (Ex.analog .iUintWOffs [("LRS", .int 46), ("adc_type", .str "POS_RANGE_ONLY_ADC")])
    Ex'.loadedOffs (by decide +kernel)
  obtain ⟨w', rs, h3, h4⟩ := C91_interface (rg := fun _ => (0, 138)) (ops := Ex'.unsignedPair) (k := 3) Ex.env_exact h1
    (by
      rw [h2]
      exact ⟨rfl, rfl, rfl, rfl, rfl, (Ex.ideal .iUintWOffs).quiet, by show (5 : ℚ) ≠ 46; norm_num,
        (Ex.ideal .iUintWOffs).split⟩)
    (by rw [h2]; intro h; cases h) (fun _ => by rw [h2]; exact Ex.acfg_ok .iUintWOffs)
    (by rw [h2]; exact Ex'.loadedOffs_legal)
    (fun op hop => by
      simp only [Ex'.unsignedPair, List.mem_cons, List.not_mem_nil, or_false] at hop
      rcases hop with rfl | rfl
      · show 2 < 2147483648; decide
      · show 2 < 2147483648; decide)
    (by
      rw [h2]
      exact ⟨⟨⟨by decide, by decide, by decide, by decide +kernel, by norm_num⟩,
        Ex.two (by decide +kernel) (by decide +kernel), fun _ => Ex.two (by decide +kernel) (by decide +kernel)⟩, trivial⟩)
  rw [h2] at h4
  exact ⟨⟨w, w', rs, h1, h3, h4⟩, by decide +kernel⟩

end Acs.Props
