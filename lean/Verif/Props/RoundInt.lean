import Verif.Lemmas.FlIntAbs
import Verif.Props.RoundAdc

/-! # Rounded arithmetic in the integer mappings (C70) -/

set_option linter.unusedSectionVars false

namespace Acs.Props

open Finset Spec

section
variable {K : Type} [Field K] [LinearOrder K] [IsStrictOrderedRing K] [FloorRing K]
variable {E : Env K} {cfg : Cfg K} {w : Nat} {x : Xbar K} {ε A lo hi : K} {q : Prec K} {rg : String → K × K}

/-- C70.  Every legal sequence of calls on a crossbar with an integer mapping, any converter and rounded arithmetic
returns.  Every answer is that of the matrix store up to the error of its rows, and it is that of the matrix store if
the rounding to integers absorbs the errors. -/
theorem C70_session (hq : Rounds E q) (hsc : IntScale E cfg q) (h0 : 0 ≤ ε) (hc : CellsRound cfg ε q)
    (hok : CfgOk cfg) (hid : Ideal cfg) (hi : cfg.mode.isInt = true) (hgcc : cfg.mode = .iOffsWDiff → E.strict = false)
    {rng : Nat} {hists : List (String × Hist K)} (hx : mkXbar E cfg rng hists = .ok x) {ops : List Op}
    (hl : LegalOps cfg w [] ops) (hP : AllIntRounds cfg rg ε q A [] ops) :
    ∃ x' rs, exec E cfg x ops = .ok (x', rs) ∧ AnswersBy (IntWithin cfg rg ε q A) [] ops rs ∧
      (AllIntAbsorbed cfg rg ε q A [] ops → Answers [] ops rs) := by
  obtain ⟨x', rs, h1, h2⟩ := exec_int hq hsc h0 hc hok hid hi hgcc (.init hx) .nil hl hP
  exact ⟨x', rs, h1, h2, answersBy_intAbsorbed h2⟩

/-- C70.  Exact arithmetic has the parameters zero.  Then the offset mapping is exact with an ideal converter, and the
error of a conversion of a real converter is half a step. -/
theorem C70_exact (hE : ExactArith E) (hw : cfg.wBit ≤ 24)
    (hne : cfg.hrs ≠ cfg.lrs) (hs : ∀ s ∈ cfg.split, 1 ≤ s) :
    Rounds E ⟨0, 0, 0⟩ ∧ IntScale E cfg ⟨0, 0, 0⟩ ∧ CellsRound cfg 0 ⟨0, 0, 0⟩ ∧
    (∀ n s, levelError cfg lo hi 0 ⟨0, 0, 0⟩ n s = |s| * (adcStep cfg lo hi / 2)) ∧
    (cfg.mode = .iUintWOffs → cfg.adcType = .inf → ∀ W vec n i, intError cfg lo hi 0 ⟨0, 0, 0⟩ A W vec n i = 0) := by
  obtain ⟨h1, h2⟩ := intScale_exact hE hw hne hs
  refine ⟨h1, h2, ?_, fun n s => ?_, fun hm ha W vec n i => ?_⟩
  · simp [CellsRound, cellRound]
  · simp [levelError, sliceDev, columnError, cellRound, colRound, adcRound]
  · unfold intError
    simp only [if_pos hm]
    unfold stepError
    simp only [hm, ha]
    simp [scaledError, sliceDev, columnError, cellRound, colRound, offsetRound, offsetError, absorb]

/-- C70, from the configuration to the results of the interface. -/
theorem C70_interface {wd : World K} {ops : List Op} {k : Nat} (hq : Rounds E q) (hsc : IntScale E wd.cfg q)
    (h0 : 0 ≤ ε) (hc : CellsRound wd.cfg ε q) (hw : Settled E [] wd) (hok : CfgOk wd.cfg) (hid : Ideal wd.cfg)
    (hi : wd.cfg.mode.isInt = true) (hgcc : wd.cfg.mode = .iOffsWDiff → E.strict = false)
    (hl : LegalOps wd.cfg k [] ops) (hh : Heights ops) (hP : AllIntRounds wd.cfg rg ε q A [] ops) :
    ∃ w' rs, serve E wd ops = .ok (w', rs, ops.map fun _ => 0) ∧ AnswersBy (IntWithin wd.cfg rg ε q A) [] ops rs ∧
      (AllIntAbsorbed wd.cfg rg ε q A [] ops → Answers [] ops rs) := by
  obtain ⟨x, hx, hr⟩ := settled_runs hw
  obtain ⟨x', rs, h1, h2⟩ := exec_int hq hsc h0 hc hok hid hi hgcc hr .nil hl hP
  exact ⟨_, rs, serve_ok hx (dimsFit hl hh) h1, h2, answersBy_intAbsorbed h2⟩

end

section
variable {E : Env ℚ} {cfg : Cfg ℚ} {w : Nat} {x : Xbar ℚ} {A : ℚ} {rg : String → ℚ × ℚ}

/-- C70.  IEEE arithmetic satisfies the hypotheses with the parameters `2 ^ -24`, `2 ^ -150` and `2 ^ -21`, and cells
deviate by at most `2 ^ -19` of the largest current. -/
theorem C70_ieee (hE : Ieee E) (h1 : 2 ^ (-64 : ℤ) ≤ |cfg.lrs - cfg.hrs|) (h2 : |cfg.lrs - cfg.hrs| ≤ 2 ^ (64 : ℤ))
    (hok : CfgOk cfg) (hi : cfg.mode.isInt = true) (hs : ∀ s ∈ cfg.split, 1 ≤ s) (hw : cfg.wBit ≤ 24) :
    Rounds E prec32 ∧ IntScale E cfg prec32 ∧ 0 ≤ max |cfg.hrs| |cfg.lrs| * 2 ^ (-19 : ℤ) ∧
      CellsRound cfg (max |cfg.hrs| |cfg.lrs| * 2 ^ (-19 : ℤ)) prec32 :=
  ⟨ieee_rounds hE, intScale32 hE h1 h2 hok hi hs hw, by positivity, cellsRound32 h1⟩

/-- C70.  In single precision every legal sequence of calls on an ideal crossbar with an integer mapping returns, and
every answer is that of the matrix store up to the error of its rows. -/
theorem C70_single_precision (hE : Ieee E) (h1 : 2 ^ (-64 : ℤ) ≤ |cfg.lrs - cfg.hrs|)
    (h2 : |cfg.lrs - cfg.hrs| ≤ 2 ^ (64 : ℤ)) (hok : CfgOk cfg) (hid : Ideal cfg) (hi : cfg.mode.isInt = true)
    (hs : ∀ s ∈ cfg.split, 1 ≤ s) (hw : cfg.wBit ≤ 24) (hgcc : cfg.mode = .iOffsWDiff → E.strict = false)
    {rng : Nat} {hists : List (String × Hist ℚ)} (hx : mkXbar E cfg rng hists = .ok x) {ops : List Op}
    (hl : LegalOps cfg w [] ops)
    (hP : AllIntRounds cfg rg (max |cfg.hrs| |cfg.lrs| * 2 ^ (-19 : ℤ)) prec32 A [] ops) :
    ∃ x' rs, exec E cfg x ops = .ok (x', rs) ∧
      AnswersBy (IntWithin cfg rg (max |cfg.hrs| |cfg.lrs| * 2 ^ (-19 : ℤ)) prec32 A) [] ops rs ∧
      (AllIntAbsorbed cfg rg (max |cfg.hrs| |cfg.lrs| * 2 ^ (-19 : ℤ)) prec32 A [] ops → Answers [] ops rs) := by
  obtain ⟨k1, k2, k3, k4⟩ := C70_ieee hE h1 h2 hok hi hs hw
  exact C70_session k1 k2 k3 k4 hok hid hi hgcc hx hl hP

end

/-! ## Instances -/

namespace Ex'

/-- A window that is not a multiple of a power of two, and a converter of 12 bits unless it is ideal. -/
def sliced (md : Mode) (t : AdcType) : Cfg ℚ := { Ex.acfg md with lrs := 46, adcType := t, resolution := 12 }

theorem sliced_ideal (md : Mode) (t : AdcType) : Ideal (sliced md t) :=
  ⟨rfl, rfl, rfl, rfl, rfl, (Ex.ideal md).quiet, by show (5 : ℚ) ≠ 46; norm_num, (Ex.ideal md).split⟩

theorem sliced_ok (md : Mode) (t : AdcType) : CfgOk (sliced md t) := Ex.acfg_ok md

/-- Two calls with unsigned inputs. -/
def unsignedPair : List Op := [.write Ex.mat 2 3, .mvm Ex.res Ex.vecU Ex.mat 2 3 ""]

theorem unsigned_legal (t : AdcType) : LegalOps (sliced .iUintWOffs t) 3 [] unsignedPair :=
  ⟨⟨Ex.accepted .iUintWOffs, by decide, Ex.legal_mat .iUintWOffs, Ex.sum_room .iUintWOffs, fun _ => rfl⟩,
    ⟨Ex.accepted .iUintWOffs, by decide, by decide,
      Ex.three (P := fun j => LegalX (sliced .iUintWOffs t) (Ex.vecU.get j))
        (show 0 ≤ Ex.vecU.get 0 ∧ Ex.vecU.get 0 < 2 ^ 3 by decide) (show 0 ≤ Ex.vecU.get 1 ∧ Ex.vecU.get 1 < 2 ^ 3 by decide)
        (show 0 ≤ Ex.vecU.get 2 ∧ Ex.vecU.get 2 < 2 ^ 3 by decide), Ex.room .iUintWOffs,
      fun i j hi hj => by simp [lastWrite, hi, hj], fun _ => rfl⟩, trivial⟩

theorem signed_legal (t : AdcType) : LegalOps (sliced .iOffsWDiff t) 3 [] pair :=
  pair_legal (Ex.accepted .iOffsWDiff) (Ex.legal_mat .iOffsWDiff) (Ex.sum_room .iOffsWDiff)
    (Ex.legal_vec .iOffsWDiff (by decide)) (Ex.room .iOffsWDiff)

theorem sliced_low (md : Mode) (t : AdcType) : (2 : ℚ) ^ (-64 : ℤ) ≤ |(sliced md t).lrs - (sliced md t).hrs| := by
  show (2 : ℚ) ^ (-64 : ℤ) ≤ |46 - 5|
  decide +kernel

theorem sliced_high (md : Mode) (t : AdcType) : |(sliced md t).lrs - (sliced md t).hrs| ≤ (2 : ℚ) ^ (64 : ℤ) := by
  show |(46 : ℚ) - 5| ≤ 2 ^ (64 : ℤ)
  decide +kernel

theorem unsigned_rounds : AllIntRounds (sliced .iUintWOffs .inf) (fun _ => (0, 0)) (46 * 2 ^ (-19 : ℤ)) prec32 10000 []
    unsignedPair :=
  ⟨⟨by decide +kernel, by decide +kernel, by decide +kernel, by decide +kernel, fun _ => by decide, fun h => absurd rfl h,
    Ex.two (by decide +kernel) (by decide +kernel), Ex.two (by decide +kernel) (by decide +kernel)⟩, trivial⟩

theorem signed_rounds : AllIntRounds (sliced .iOffsWDiff .sym) (fun _ => (-123, 123)) (46 * 2 ^ (-19 : ℤ)) prec32 10000 []
    pair :=
  ⟨⟨by decide +kernel, by decide +kernel, by decide +kernel, by decide +kernel, fun h => (by cases h),
    fun _ => ⟨⟨by decide, by decide, by decide, by decide +kernel, by decide +kernel⟩,
      ⟨by decide +kernel, by decide +kernel, by decide, by decide, by decide +kernel, by decide +kernel⟩,
      Ex.two (by decide +kernel) (by decide +kernel)⟩,
    Ex.two (by decide +kernel) (by decide +kernel), Ex.two (by decide +kernel) (by decide +kernel)⟩, trivial⟩

/-- The configuration that `set_config` makes of a document. -/
def slicedLoaded : Cfg ℚ := { (cfg0 : Cfg ℚ) with
  M := 2
  N := 3
  split := [2, 1]
  wBit := 3
  iBit := 3
  hrs := 5
  lrs := 46
  mode := .iUintWOffs
  d2d := true }

theorem slicedLoaded_legal : LegalOps slicedLoaded 3 [] unsignedPair :=
  ⟨⟨⟨le_refl 2, le_refl 3, by decide⟩, by decide, Ex.legal_mat .iUintWOffs, fun _ => by decide, fun _ => rfl⟩,
    ⟨⟨le_refl 2, le_refl 3, by decide⟩, by decide, by decide,
      Ex.three (P := fun j => LegalX slicedLoaded (Ex.vecU.get j))
        (show 0 ≤ Ex.vecU.get 0 ∧ Ex.vecU.get 0 < 2 ^ 3 by decide) (show 0 ≤ Ex.vecU.get 1 ∧ Ex.vecU.get 1 < 2 ^ 3 by decide)
        (show 0 ≤ Ex.vecU.get 2 ∧ Ex.vecU.get 2 < 2 ^ 3 by decide), Ex.two (by decide) (by decide),
      fun i j hi hj => by simp [lastWrite, hi, hj], fun _ => rfl⟩, trivial⟩

theorem sliced_top (md : Mode) (t : AdcType) :
    max |(sliced md t).hrs| |(sliced md t).lrs| * 2 ^ (-19 : ℤ) = 46 * 2 ^ (-19 : ℤ) := by
  show max |(5 : ℚ)| |46| * 2 ^ (-19 : ℤ) = _
  decide +kernel

end Ex'

/-- The hypotheses of `C70_ieee` and `C70_session`, with a converter of 12 bits. -/
example : ∃ x x' rs, mkXbar Ex.fenv (Ex'.sliced .iOffsWDiff .sym) 0 [] = .ok x ∧
    exec Ex.fenv (Ex'.sliced .iOffsWDiff .sym) x Ex'.pair = .ok (x', rs) ∧ Answers [] Ex'.pair rs := by
  obtain ⟨x, hx, _⟩ := Ex.okAnd_spec (x := mkXbar Ex.fenv (Ex'.sliced .iOffsWDiff .sym) 0 []) (p := fun _ => true)
    (by decide +kernel)
  obtain ⟨k1, k2, k3, k4⟩ := C70_ieee (cfg := Ex'.sliced .iOffsWDiff .sym) Ex.fenv_ieee (Ex'.sliced_low _ _)
    (Ex'.sliced_high _ _) (Ex'.sliced_ok _ _) rfl (by decide) (by decide)
  rw [Ex'.sliced_top] at k3 k4
  obtain ⟨x', rs, h1, _, h2⟩ := C70_session (w := 3) (A := 10000) (ops := Ex'.pair) k1 k2 k3 k4 (Ex'.sliced_ok _ _)
    (Ex'.sliced_ideal _ _) rfl (fun _ => rfl) hx (Ex'.signed_legal _) Ex'.signed_rounds
  exact ⟨x, x', rs, hx, h1, h2 ⟨⟨by decide, Ex.two (by decide +kernel) (by decide +kernel)⟩, trivial⟩⟩

/-- The hypotheses of `C70_single_precision`, with an ideal converter. -/
example : ∃ x x' rs, mkXbar Ex.fenv (Ex'.sliced .iUintWOffs .inf) 0 [] = .ok x ∧
    exec Ex.fenv (Ex'.sliced .iUintWOffs .inf) x Ex'.unsignedPair = .ok (x', rs) ∧ Answers [] Ex'.unsignedPair rs := by
  obtain ⟨x, hx, _⟩ := Ex.okAnd_spec (x := mkXbar Ex.fenv (Ex'.sliced .iUintWOffs .inf) 0 []) (p := fun _ => true)
    (by decide +kernel)
  obtain ⟨x', rs, h1, _, h2⟩ := C70_single_precision (cfg := Ex'.sliced .iUintWOffs .inf) (w := 3) (A := 10000)
    (rg := fun _ => (0, 0)) (ops := Ex'.unsignedPair)
    Ex.fenv_ieee (Ex'.sliced_low _ _) (Ex'.sliced_high _ _) (Ex'.sliced_ok _ _) (Ex'.sliced_ideal _ _) rfl (by decide)
    (by decide) (fun h => by cases h) hx (Ex'.unsigned_legal _) (by rw [Ex'.sliced_top]; exact Ex'.unsigned_rounds)
  refine ⟨x, x', rs, hx, h1, h2 ?_⟩
  rw [Ex'.sliced_top]
  exact ⟨Ex.two (by decide +kernel) (by decide +kernel), trivial⟩

/-- The hypotheses of `C70_exact`. -/
example : IntScale Ex.env (Ex'.sliced .iUintWOffs .inf) ⟨0, 0, 0⟩ :=
  (C70_exact (A := 0) (lo := 0) (hi := 0) (cfg := Ex'.sliced .iUintWOffs .inf) Ex.env_exact (by decide)
    (by show (5 : ℚ) ≠ 46; norm_num) (by decide)).2.1

/-- The hypotheses of `C70_interface`. -/
example : ∃ w w' rs, Settled Ex.fenv [] w ∧ serve Ex.fenv w Ex'.unsignedPair = .ok (w', rs, [0, 0]) ∧
    Answers [] Ex'.unsignedPair rs := by
  obtain ⟨w, h1, h2⟩ := Ex'.load Ex.fenv (Ex.analog .iUintWOffs [("LRS", .int 46)])
    Ex'.slicedLoaded (by decide +kernel)
  have hok : CfgOk Ex'.slicedLoaded := Ex.acfg_ok .iUintWOffs
  have hq := C70_ieee (cfg := Ex'.slicedLoaded) Ex.fenv_ieee (Ex'.sliced_low .iUintWOffs .inf)
    (Ex'.sliced_high .iUintWOffs .inf) hok rfl (by decide) (by decide)
  have hid : Ideal Ex'.slicedLoaded :=
    ⟨rfl, rfl, rfl, rfl, rfl, (Ex.ideal .iUintWOffs).quiet, by show (5 : ℚ) ≠ 46; norm_num, (Ex.ideal .iUintWOffs).split⟩
  obtain ⟨w', rs, h3, _, h4⟩ := C70_interface (A := 10000) (rg := fun _ => (0, 0)) (ops := Ex'.unsignedPair) (k := 3)
    (ε := 46 * 2 ^ (-19 : ℤ)) hq.1 (by rw [h2]; exact hq.2.1) (by positivity)
    (by rw [h2]; exact (Ex'.sliced_top .iUintWOffs .inf) ▸ hq.2.2.2) h1 (by rw [h2]; exact hok) (by rw [h2]; exact hid)
    (by rw [h2]; rfl) (by rw [h2]; exact fun h => by cases h) (by rw [h2]; exact Ex'.slicedLoaded_legal)
    (fun op hop => by
      simp only [Ex'.unsignedPair, List.mem_cons, List.not_mem_nil, or_false] at hop
      rcases hop with rfl | rfl
      · show 2 < 2147483648; decide
      · show 2 < 2147483648; decide)
    (by
      rw [h2]
      exact ⟨⟨by decide +kernel, by decide +kernel, by decide +kernel, by decide +kernel, fun _ => by decide,
        fun h => absurd rfl h, Ex.two (by decide +kernel) (by decide +kernel),
        Ex.two (by decide +kernel) (by decide +kernel)⟩, trivial⟩)
  exact ⟨w, w', rs, h1, h3, h4 (by rw [h2]; exact ⟨Ex.two (by decide +kernel) (by decide +kernel), trivial⟩)⟩

end Acs.Props
