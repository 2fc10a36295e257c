import Verif.Lemmas.FlIeee
import Verif.Props.Noise
import Verif.Props.Float

/-!
# C65: rounding changes results by a bounded amount

`Rounds E q` is an arithmetic with the error bounds `q`; `Ieee E` is IEEE arithmetic.
-/

set_option linter.unusedSectionVars false

namespace Acs.Ex

open Spec

/-- Noise and IEEE rounding. -/
def roundEnv (s t : ℚ) : Env ℚ := { hotEnv s t with f32 := rnd32, f64 := rnd64 }

theorem roundEnv_ieee (s t : ℚ) : Ieee (roundEnv s t) := ⟨fun _ => rfl, fun _ => rfl⟩

/-- A window in which single precision is not exact. -/
def windowCfg (md : Mode) : Cfg ℚ := { acfg md with lrs := 46 }

theorem window_imp {md : Mode} (h : md.isInt = false) : Imperfect (windowCfg md) :=
  ⟨rfl, h, rfl, rfl, rfl, by show (5 : ℚ) ≠ 46; norm_num⟩

/-- The same with noise. -/
def windowNoisy (md : Mode) : Cfg ℚ := { c2cCfg md with lrs := 46 }

theorem windowNoisy_imp {md : Mode} (h : md.isInt = false) : Imperfect (windowNoisy md) :=
  ⟨rfl, h, rfl, rfl, rfl, by show (5 : ℚ) ≠ 46; norm_num⟩

/-- Large currents and a small window. -/
def wideCfg (md : Mode) : Cfg ℚ := { one md 16777216 16777218 8 with adcType := .inf, N := 8 }

theorem wideCfg_ok (md : Mode) : CfgOk (wideCfg md) := by
  cases md <;> simp [CfgOk, wideCfg, one, posCfg, acfg, cfg, Mode.isInt, Mode.family]

theorem wide_ne : (16777216 : ℚ) ≠ 16777218 := by norm_num

theorem wideCfg_ideal (md : Mode) : Ideal (wideCfg md) :=
  ⟨rfl, rfl, rfl, rfl, rfl, quiet md, wide_ne, (one_ideal md wide_ne 8).split⟩

theorem wideCfg_acc (md : Mode) {n : Nat} (hn : n ≤ 3) : Accepted (wideCfg md) 1 n := by
  have : (2 * n : Nat) ≤ 8 := by omega
  cases md <;> refine ⟨le_refl 1, ?_, ?_⟩ <;>
    (first | (show n ≤ 8; omega) | (show 2 * n ≤ 8; omega) | (show n ≤ 2147483647; omega) | (show 2 * n ≤ 2147483647; omega))

/-- A buffer of three equal entries. -/
def fill (a : Int) : Vec Int := ⟨3, fun _ => a⟩

end Acs.Ex

namespace Acs.Props

open Finset Spec

section
variable {K : Type} [Field K] [LinearOrder K] [IsStrictOrderedRing K] [FloorRing K]
variable {E : Env K} {cfg : Cfg K} {mat vec res r : Vec Int} {m n w : Nat} {l : String}
variable {x x' : Xbar K} {h : List Op} {ε σ A : K} {q : Prec K}

/-- C65.  In any state in which no cell of the block is further than `ε` from its nominal current, a
multiplication that returns has an error below the bound of C62 plus `roundError`. -/
theorem C65_deviating_cells (hq : Rounds E q) (hsc : ScaleError E cfg q) (hsm : SmallRounding cfg ε q A n)
    (hok : CfgOk cfg) (hI : Imperfect cfg) (hc2 : cfg.c2c = false)
    (hr : Runs E cfg h x) (hl : Legal cfg (lastWrite h) m n) (hwid : keepsRowSums cfg.mode → WidthIs n h)
    (hd : Accepted cfg m n) (h0 : 0 ≤ ε)
    (hw : NearNominal cfg ε (lastWrite h) x.mapper.core.ia m n) (hv : n ≤ vec.size) (hres : m ≤ res.size)
    (hx : LegalVec cfg vec n) (hA : 0 ≤ A) (hR : RoundRoom cfg ε q A res m n)
    (hm : xMvm E cfg x res vec mat m n l = .ok (x', r)) :
    AddsWithin (noiseBound cfg ε n + roundError cfg ε q A n) r res (stored h) vec m n :=
  (mvm_dev_rounded hq hsc hsm hok hI hc2 hr hl hd h0 hw hv hres hx
    (fun hk i _ => runs_sums hr (hasSums_of_keeps hk) (hwid hk) i) hA hR).1 x' r hm

/-- C65.  Without read disturb the multiplication does return. -/
theorem C65_deviating_cells_total (hq : Rounds E q) (hsc : ScaleError E cfg q) (hsm : SmallRounding cfg ε q A n)
    (hok : CfgOk cfg) (hI : Imperfect cfg) (hc2 : cfg.c2c = false) (hrd : cfg.readDisturb = false)
    (hr : Runs E cfg h x) (hl : Legal cfg (lastWrite h) m n) (hwid : keepsRowSums cfg.mode → WidthIs n h)
    (hd : Accepted cfg m n) (h0 : 0 ≤ ε)
    (hw : NearNominal cfg ε (lastWrite h) x.mapper.core.ia m n) (hv : n ≤ vec.size) (hres : m ≤ res.size)
    (hx : LegalVec cfg vec n) (hA : 0 ≤ A) (hR : RoundRoom cfg ε q A res m n) :
    ∃ x' r, xMvm E cfg x res vec mat m n l = .ok (x', r) :=
  (mvm_dev_rounded hq hsc hsm hok hI hc2 hr hl hd h0 hw hv hres hx
    (fun hk i _ => runs_sums hr (hasSums_of_keeps hk) (hwid hk) i) hA hR).2 hrd

/-- C65.  Every legal sequence of calls on a crossbar with bounded variation and rounded arithmetic returns,
and every answer is that of the matrix store up to the two bounds. -/
theorem C65_bounded_variation (hq : Rounds E q) (hsc : ScaleError E cfg q) (hok : CfgOk cfg) (hI : Imperfect cfg)
    (hrd : cfg.readDisturb = false) (h1 : 0 ≤ cfg.hrs) (h2 : 0 ≤ cfg.lrs) (hg : NoiseUpTo E cfg σ)
    (hε : spread cfg σ + 5 * cellRound cfg ε q ≤ ε) (h0 : 0 ≤ ε) (hA : 0 ≤ A)
    {rng : Nat} {hists : List (String × Hist K)} (hx : mkXbar E cfg rng hists = .ok x) {ops : List Op}
    (hl : LegalOps cfg w [] ops) (hR : RoundRooms cfg ε q A ops) :
    ∃ x' rs, exec E cfg x ops = .ok (x', rs) ∧
      AnswersWithin (fun n => noiseBound cfg ε n + roundError cfg ε q A n) [] ops rs :=
  exec_rounded hq hsc hok hI hrd h1 h2 hg hε h0 hA (.init hx) .nil hl hR

/-- C65.  Exact arithmetic has the parameters zero, and then nothing is added to the bound of C62. -/
theorem C65_exact (hE : ExactArith E) (hne : cfg.hrs ≠ cfg.lrs) : Rounds E ⟨0, 0, 0⟩ ∧ ScaleError E cfg ⟨0, 0, 0⟩ ∧
    ∀ n, roundError cfg ε ⟨0, 0, 0⟩ A n = 0 := by
  refine ⟨⟨le_rfl, fun x => by rw [hE.f32]; simp, fun k _ => hE.f32 _⟩, ⟨zero_le_one, fun s _ => ?_⟩, fun n => ?_⟩
  · unfold Env.fsub
    rw [hE.f32, hE.f32, div_mul_cancel₀ _ (sub_ne_zero.2 hne.symm), sub_self, abs_zero]
  · simp [roundError, columnError, cellRound, colRound, numRound]

end

variable {E : Env ℚ} {cfg : Cfg ℚ} {x : Xbar ℚ} {w : Nat} {ρ A : ℚ}

/-- C65.  IEEE arithmetic has the parameters `2 ^ -24`, `2 ^ -150` and `2 ^ -21`. -/
theorem C65_ieee (hE : Ieee E) (hd : 2 ^ (-80 : ℤ) ≤ |cfg.lrs - cfg.hrs|) (hd' : |cfg.lrs - cfg.hrs| ≤ 2 ^ (80 : ℤ)) :
    Rounds E prec32 ∧ ScaleError E cfg prec32 := ⟨ieee_rounds hE, ieee_scale hE hd hd'⟩

/-- C65.  In single precision and without variation every legal sequence of calls returns, and an answer is
off by at most one for each truncation, as long as
`26 n² ρ + 1300 n ρ + 700 ρ + 10 A + 200 ≤ 2 ^ 24`, where `ρ` is the ratio of the largest current to the window and
`A` bounds the buffers. -/
theorem C65_single_precision (hE : Ieee E) (hok : CfgOk cfg) (hI : Imperfect cfg) (hrd : cfg.readDisturb = false)
    (hq1 : cfg.hrsNoise ≤ 0) (hq2 : cfg.lrsNoise ≤ 0) (h1 : 0 ≤ cfg.hrs) (h2 : 0 ≤ cfg.lrs)
    (hd : 2 ^ (-80 : ℤ) ≤ |cfg.lrs - cfg.hrs|) (hd' : |cfg.lrs - cfg.hrs| ≤ 2 ^ (80 : ℤ))
    (hρ : max cfg.hrs cfg.lrs ≤ ρ * |cfg.lrs - cfg.hrs|) (hA : 0 ≤ A)
    {rng : Nat} {hists : List (String × Hist ℚ)} (hx : mkXbar E cfg rng hists = .ok x) {ops : List Op}
    (hl : LegalOps cfg w [] ops) (hR : SingleRooms ρ A ops) :
    ∃ x' rs, exec E cfg x ops = .ok (x', rs) ∧ AnswersWithin (fun _ => (truncations cfg.mode : ℚ) + 1) [] ops rs :=
  exec_single hE hok hI hrd hq1 hq2 h1 h2 hd hd' hρ hA (.init hx) .nil hl hR

namespace Ex'

theorem window_prec (md : Mode) {s t : ℚ} :
    Rounds (Ex.roundEnv s t) prec32 ∧ ScaleError (Ex.roundEnv s t) (Ex.windowNoisy md) prec32 :=
  C65_ieee (Ex.roundEnv_ieee s t) (by show (2 : ℚ) ^ (-80 : ℤ) ≤ |46 - 5|; decide +kernel)
    (by show |(46 : ℚ) - 5| ≤ 2 ^ (80 : ℤ); decide +kernel)

theorem window_ops (md : Mode) (h : md ≠ .iUintWDiff ∧ md ≠ .iUintWOffs) :
    LegalOps (Ex.windowCfg md) 3 [] [.write Ex.mat 2 3, .mvm Ex.res Ex.vec Ex.mat 2 3 ""] :=
  ⟨⟨Ex.accepted md, by decide, Ex.legal_mat md, Ex.sum_room md, fun _ => rfl⟩,
    ⟨Ex.accepted md, by decide, by decide, Ex.legal_vec md h, Ex.room md,
      fun i j hi hj => by simp [lastWrite, hi, hj], fun _ => rfl⟩, trivial⟩

end Ex'

/-- The hypotheses of `C65_single_precision` (and of `C65_ieee`) in a window in which the result is not exact. -/
example : ∃ x x' rs, mkXbar Ex.fenv (Ex.windowCfg .bnn3) 0 [] = .ok x ∧
    exec Ex.fenv (Ex.windowCfg .bnn3) x [.write Ex.mat 2 3, .mvm Ex.res Ex.vec Ex.mat 2 3 ""] = .ok (x', rs) ∧
    AnswersWithin (fun _ => (1 : ℚ) + 1) [] [.write Ex.mat 2 3, .mvm Ex.res Ex.vec Ex.mat 2 3 ""] rs := by
  obtain ⟨x, hx, _⟩ := Ex.okAnd_spec (x := mkXbar Ex.fenv (Ex.windowCfg .bnn3) 0 []) (p := fun _ => true)
    (by decide +kernel)
  obtain ⟨x', rs, h1, h2⟩ := C65_single_precision (cfg := Ex.windowCfg .bnn3) (ρ := 2) (A := 100000) Ex.fenv_ieee (Ex.acfg_ok .bnn3)
    (Ex.window_imp rfl) rfl (by decide +kernel) (by decide +kernel) (by decide +kernel) (by decide +kernel)
    (by decide +kernel) (by decide +kernel) (by decide +kernel) (by norm_num) hx
    (Ex'.window_ops .bnn3 (by decide))
    (fun op hop => by
      simp only [List.mem_cons, List.not_mem_nil, or_false] at hop
      rcases hop with rfl | rfl
      · trivial
      · exact ⟨Ex.two (by decide +kernel) (by decide +kernel), by norm_num⟩)
  refine ⟨x, x', rs, hx, h1, ?_⟩
  have e : ((truncations (Ex.windowCfg .bnn3).mode : ℕ) : ℚ) = 1 := by simp [truncations, Ex.windowCfg, Ex.acfg, Ex.cfg]
  rwa [e] at h2

/-- The hypotheses of `C65_bounded_variation`, with cycle-to-cycle variation. -/
example : ∃ x x' rs, mkXbar (Ex.roundEnv 1 (-1)) (Ex.windowNoisy .tnn3) 0 [] = .ok x ∧
    exec (Ex.roundEnv 1 (-1)) (Ex.windowNoisy .tnn3) x [.write Ex.mat 2 3, .mvm Ex.res Ex.vec Ex.mat 2 3 ""] = .ok (x', rs) ∧
    AnswersWithin (fun n => noiseBound (Ex.windowNoisy .tnn3) (21 / 10) n + roundError (Ex.windowNoisy .tnn3) (21 / 10) prec32 1000 n) []
      [.write Ex.mat 2 3, .mvm Ex.res Ex.vec Ex.mat 2 3 ""] rs := by
  obtain ⟨x, hx, _⟩ := Ex.okAnd_spec (x := mkXbar (Ex.roundEnv 1 (-1)) (Ex.windowNoisy .tnn3) 0 []) (p := fun _ => true)
    (by decide +kernel)
  obtain ⟨hq, hsc⟩ := Ex'.window_prec .tnn3 (s := 1) (t := -1)
  obtain ⟨x', rs, h⟩ := C65_bounded_variation (cfg := Ex.windowNoisy .tnn3) (σ := 1) (ε := 21 / 10) (A := 1000) hq hsc (Ex.acfg_ok .tnn3)
    (Ex.windowNoisy_imp rfl) rfl (by decide +kernel) (by decide +kernel)
    ⟨by norm_num, fun _ => Ex.hotEnv_gauss (by norm_num) (by norm_num)⟩ (by decide +kernel) (by norm_num) (by norm_num) hx
    (w := 3) (ops := [.write Ex.mat 2 3, .mvm Ex.res Ex.vec Ex.mat 2 3 ""])
    ⟨⟨Ex.accepted .tnn3, by decide, Ex.legal_mat .tnn3, Ex.sum_room .tnn3, fun _ => rfl⟩,
      ⟨Ex.accepted .tnn3, by decide, by decide, Ex.legal_vec .tnn3 (by decide), Ex.room .tnn3,
        fun i j hi hj => by simp [lastWrite, hi, hj], fun _ => rfl⟩, trivial⟩
    (fun op hop => by
      simp only [List.mem_cons, List.not_mem_nil, or_false] at hop
      rcases hop with rfl | rfl
      · trivial
      · exact ⟨⟨by decide, by decide +kernel, by decide +kernel⟩,
          Ex.two ⟨by decide +kernel, by decide +kernel⟩ ⟨by decide +kernel, by decide +kernel⟩⟩)
  exact ⟨x, x', rs, hx, h⟩

/-- The hypotheses of `C65_deviating_cells` and `C65_deviating_cells_total` in a written crossbar. -/
example : ∃ x x' r, Runs Ex.fenv (Ex.windowCfg .tnn3) [.write Ex.mat 2 3] x ∧
    xMvm Ex.fenv (Ex.windowCfg .tnn3) x Ex.res Ex.vec Ex.mat 2 3 "" = .ok (x', r) ∧
    AddsWithin (noiseBound (Ex.windowCfg .tnn3) 1 3 + roundError (Ex.windowCfg .tnn3) 1 prec32 1000 3) r Ex.res
      (stored [.write Ex.mat 2 3]) Ex.vec 2 3 := by
  obtain ⟨x, hr, _⟩ := Ex.wrote (E := Ex.fenv) (c := Ex.windowCfg .tnn3) (mat := Ex.mat) (m := 2) (n := 3) (fun _ => true)
    (by decide +kernel)
  have hl : Legal (Ex.windowCfg .tnn3) (lastWrite [.write Ex.mat 2 3]) 2 3 :=
    fun i j hi hj => ⟨_, by simp [lastWrite, hi, hj], Ex.legal_mat .tnn3 i j hi hj⟩
  have hwid : keepsRowSums (Ex.windowCfg .tnn3).mode → WidthIs 3 [.write Ex.mat 2 3] := fun _ op hop => by
    obtain rfl := List.mem_singleton.1 hop
    rfl
  have hq : Rounds Ex.fenv prec32 := ieee_rounds Ex.fenv_ieee
  have hsc : ScaleError Ex.fenv (Ex.windowCfg .tnn3) prec32 := (C65_ieee Ex.fenv_ieee (by decide +kernel) (by decide +kernel)).2
  have hw : NearNominal (Ex.windowCfg .tnn3) 1 (lastWrite [.write Ex.mat 2 3]) x.mapper.core.ia 2 3 := fun i j w hi hj hL => by
    have := runs_near_rounded (cfg := Ex.windowCfg .tnn3) (σ := 0) (ε := 1) hq (Ex.acfg_ok .tnn3) (binary_of (Ex.window_imp rfl)) rfl (by decide +kernel) (by decide +kernel)
      ⟨le_rfl, fun h => absurd h (by decide +kernel)⟩ (by decide +kernel) (by norm_num) hr hl i j w hi hj hL
    have k : (0 : ℚ) + 4 * cellRound (Ex.windowCfg .tnn3) 1 prec32 ≤ 1 := by decide +kernel
    exact ⟨this.1.trans k, this.2.trans k⟩
  have hsm : SmallRounding (Ex.windowCfg .tnn3) 1 prec32 1000 3 := ⟨by decide, by decide +kernel, by decide +kernel⟩
  have hR : RoundRoom (Ex.windowCfg .tnn3) 1 prec32 1000 Ex.res 2 3 :=
    Ex.two ⟨by decide +kernel, by decide +kernel⟩ ⟨by decide +kernel, by decide +kernel⟩
  obtain ⟨x', r, hm⟩ := C65_deviating_cells_total (cfg := Ex.windowCfg .tnn3) (mat := Ex.mat) (l := "") (vec := Ex.vec) (res := Ex.res) hq hsc hsm
    (Ex.acfg_ok .tnn3) (Ex.window_imp rfl) rfl rfl hr hl hwid (Ex.accepted .tnn3) (by norm_num) hw
    (by decide) (by decide) (Ex.legal_vec .tnn3 (by decide)) (by norm_num) hR
  exact ⟨x, x', r, hr, hm, C65_deviating_cells (cfg := Ex.windowCfg .tnn3) hq hsc hsm (Ex.acfg_ok .tnn3) (Ex.window_imp rfl) rfl hr hl hwid
    (Ex.accepted .tnn3) (by norm_num) hw (by decide) (by decide) (Ex.legal_vec .tnn3 (by decide)) (by norm_num) hR hm⟩

example : ExactArith Ex.env ∧ (Ex.acfg .bnn1).hrs ≠ (Ex.acfg .bnn1).lrs := ⟨Ex.env_exact, by decide +kernel⟩

/-- The claim of `C65_single_precision` for one multiplication, without a condition on the window. -/
def OffByOneClaim (md : Mode) : Prop :=
  ∀ (E : Env ℚ) (cfg : Cfg ℚ) (mat vec : Vec Int) (n : Nat) (x x' : Xbar ℚ) (r : Vec Int), Ieee E → cfg.mode = md →
    CfgOk cfg → Ideal cfg → cfg.adcType = .inf → 0 ≤ cfg.hrs → 0 ≤ cfg.lrs → rnd32 cfg.hrs = cfg.hrs →
    rnd32 cfg.lrs = cfg.lrs → Accepted cfg 1 n → LegalMat cfg (entry mat n) 1 n → LegalVec cfg vec n →
    Runs E cfg [.write mat 1 n] x → xMvm E cfg x (Ex.single 0) vec mat 1 n "" = .ok (x', r) →
    |(r.get 0 - prod (entry mat n) vec n 0)| ≤ truncations md

/-- Mappings that add currents before they remove the offset. -/
def AddsOffsets (md : Mode) : Prop := md = .bnn3 ∨ md = .bnn4 ∨ md = .bnn5 ∨ md = .tnn4 ∨ md = .tnn5

/-- C65.  The condition on the window matters: if the currents are large and the window is small, three cells suffice
for a result that is off by two in the mappings that add currents before they remove the offset. -/
theorem C65_window_matters (md : Mode) (h : AddsOffsets md) : ¬OffByOneClaim md := fun hc => by
  have key : ∀ (w : Int) (n : Nat), n ≤ 3 → LegalW (Ex.wideCfg md) w → LegalX (Ex.wideCfg md) 1 →
      Ex.okAnd (mkXbar Ex.fenv (Ex.wideCfg md) 0 []) (fun x =>
        Ex.okAnd (xWrite Ex.fenv (Ex.wideCfg md) x (Ex.fill w) 1 n) fun y =>
        Ex.okAnd (xMvm Ex.fenv (Ex.wideCfg md) y (Ex.single 0) (Ex.fill 1) (Ex.fill w) 1 n "") fun q =>
          decide (¬|(q.2.get 0 - prod (entry (Ex.fill w) n) (Ex.fill 1) n 0)| ≤ truncations md)) = true → False :=
    fun w n hn hw hv hrun => by
      obtain ⟨x, x', r, h1, h2, h3⟩ := Ex.multiplied (fun _ r =>
        decide (¬|(r.get 0 - prod (entry (Ex.fill w) n) (Ex.fill 1) n 0)| ≤ truncations md)) hrun
      exact of_decide_eq_true h3 (hc Ex.fenv (Ex.wideCfg md) (Ex.fill w) (Ex.fill 1) n x x' r Ex.fenv_ieee rfl
        (Ex.wideCfg_ok md) (Ex.wideCfg_ideal md) rfl (by show (0 : ℚ) ≤ 16777216; norm_num)
        (by show (0 : ℚ) ≤ 16777218; norm_num) (by show rnd32 16777216 = 16777216; decide +kernel)
        (by show rnd32 16777218 = 16777218; decide +kernel) (Ex.wideCfg_acc md hn) (fun _ _ _ _ => hw)
        (fun _ _ => hv) h1 h2)
  rcases h with rfl | rfl | rfl | rfl | rfl
  · exact key 1 3 (by decide) (Or.inl rfl) (Or.inl rfl) (by decide +kernel)
  · exact key (-1) 3 (by decide) (Or.inr rfl) (Or.inl rfl) (by decide +kernel)
  · exact key 1 3 (by decide) (Or.inl rfl) (Or.inl rfl) (by decide +kernel)
  · exact key 1 2 (by decide) (Or.inl rfl) (Or.inl rfl) (by decide +kernel)
  · exact key 1 3 (by decide) (Or.inl rfl) (Or.inl rfl) (by decide +kernel)

end Acs.Props
