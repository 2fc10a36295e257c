import Verif.Lemmas.NearXbar
import Verif.Props.Analog

/-! # Properties of crossbars whose cells deviate -/

set_option linter.unusedSectionVars false

namespace Acs.Ex

open Spec

/-- Noise with samples `s` and `t` in turn. -/
def hotEnv (s t : ℚ) : Env ℚ := { env with gauss := fun k => if k % 2 = 0 then s else t }

theorem hotEnv_exact (s t : ℚ) : ExactArith (hotEnv s t) := ⟨fun _ => rfl, fun _ => rfl⟩

theorem hotEnv_gauss {s t ε : ℚ} (hs : |s| ≤ ε) (ht : |t| ≤ ε) (k : Nat) : |(hotEnv s t).gauss k| ≤ ε := by
  show |if k % 2 = 0 then s else t| ≤ ε
  split <;> assumption

/-- A `1 × 1` crossbar with noise and an ideal converter. -/
def hotCfg (md : Mode) (b : Bool) : Cfg ℚ :=
  { one md 1000 1005 8 with adcType := .inf, hrsNoise := 1, lrsNoise := 1, c2c := b }

theorem hotCfg_ok (md : Mode) (b : Bool) : CfgOk (hotCfg md b) := by
  cases md <;> simp [CfgOk, hotCfg, one, posCfg, acfg, cfg, Mode.isInt, Mode.family]

theorem hotCfg_imp {md : Mode} (h : md.isInt = false) (b : Bool) : Imperfect (hotCfg md b) :=
  ⟨rfl, h, rfl, rfl, rfl, by show (1000 : ℚ) ≠ 1005; norm_num⟩

theorem noisy_imp {md : Mode} (h : md.isInt = false) : Imperfect (noisyCfg md) :=
  ⟨rfl, h, rfl, rfl, rfl, by show (5 : ℚ) ≠ 10; norm_num⟩

theorem c2c_imp {md : Mode} (h : md.isInt = false) : Imperfect (c2cCfg md) :=
  ⟨rfl, h, rfl, rfl, rfl, by show (5 : ℚ) ≠ 10; norm_num⟩

end Acs.Ex

namespace Acs.Props

open Finset Spec

section
variable {K : Type} [Field K] [LinearOrder K] [IsStrictOrderedRing K] [FloorRing K]
variable {E : Env K} {cfg : Cfg K} {mat vec res r : Vec Int} {m n w : Nat} {l : String}
variable {x x' : Xbar K} {h : List Op} {ε : K}

/-- C62.  In any state in which no cell of the block is further than `ε` from its nominal current, for
whatever reason, a multiplication that returns has an error below `gain · n · ε / |LRS − HRS|` plus one
per truncation.  Read disturb may be on. -/
theorem C62_deviating_cells (hE : ExactArith E) (hok : CfgOk cfg) (hI : Imperfect cfg) (hc2 : cfg.c2c = false)
    (hr : Runs E cfg h x) (hl : Legal cfg (lastWrite h) m n) (hwid : keepsRowSums cfg.mode → WidthIs n h)
    (hd : Accepted cfg m n) (h0 : 0 ≤ ε)
    (hw : NearNominal cfg ε (lastWrite h) x.mapper.core.ia m n) (hv : n ≤ vec.size) (hres : m ≤ res.size)
    (hx : LegalVec cfg vec n) (hR : NoiseRoom cfg ε res m n)
    (hm : xMvm E cfg x res vec mat m n l = .ok (x', r)) :
    AddsWithin (noiseBound cfg ε n) r res (stored h) vec m n :=
  (mvm_dev hE hok hI hc2 hr hl hd h0 hw hv hres hx
    (fun hk i _ => runs_sums hr (hasSums_of_keeps hk) (hwid hk) i) hR).1 x' r hm

/-- C62.  Without read disturb the multiplication does return. -/
theorem C62_deviating_cells_total (hE : ExactArith E) (hok : CfgOk cfg) (hI : Imperfect cfg) (hc2 : cfg.c2c = false)
    (hrd : cfg.readDisturb = false)
    (hr : Runs E cfg h x) (hl : Legal cfg (lastWrite h) m n) (hwid : keepsRowSums cfg.mode → WidthIs n h)
    (hd : Accepted cfg m n) (h0 : 0 ≤ ε)
    (hw : NearNominal cfg ε (lastWrite h) x.mapper.core.ia m n) (hv : n ≤ vec.size) (hres : m ≤ res.size)
    (hx : LegalVec cfg vec n) (hR : NoiseRoom cfg ε res m n) :
    ∃ x' r, xMvm E cfg x res vec mat m n l = .ok (x', r) :=
  (mvm_dev hE hok hI hc2 hr hl hd h0 hw hv hres hx
    (fun hk i _ => runs_sums hr (hasSums_of_keeps hk) (hwid hk) i) hR).2 hrd

/-- C62.  If no noise sample exceeds `ε`, every legal sequence of calls returns, and every answer is
that of the matrix store up to the bound; cycle-to-cycle variation doubles the deviation. -/
theorem C62_bounded_variation (hE : ExactArith E) (hok : CfgOk cfg) (hI : Imperfect cfg)
    (hrd : cfg.readDisturb = false) (h1 : 0 ≤ cfg.hrs) (h2 : 0 ≤ cfg.lrs) (hg : ∀ k, |E.gauss k| ≤ ε)
    {rng : Nat} {hists : List (String × Hist K)} (hx : mkXbar E cfg rng hists = .ok x) {ops : List Op}
    (hl : LegalOps cfg w [] ops) (hR : NoiseRooms cfg (spread cfg ε) ops) :
    ∃ x' rs, exec E cfg x ops = .ok (x', rs) ∧ AnswersWithin (noiseBound cfg (spread cfg ε)) [] ops rs :=
  exec_within hE hok hI hrd h1 h2 hg (.init hx) .nil hl hR

end

namespace Ex'

/-- A state after noisy programming: the cells are at most 1 away, and not where they should be. -/
theorem dev_state : ∃ x, Runs (Ex.hotEnv 1 (-1)) (Ex.noisyCfg .tnn3) [.write Ex.mat 2 3] x ∧
    NearNominal (Ex.noisyCfg .tnn3) 1 (lastWrite [.write Ex.mat 2 3]) x.mapper.core.ia 2 3 ∧
    (x.mapper.core.ia.p.get 0 0 == 11 && x.mapper.core.ia.m.get 0 0 == 4) = true := by
  obtain ⟨x, h1, h2⟩ := Ex.wrote (E := Ex.hotEnv 1 (-1)) (c := Ex.noisyCfg .tnn3) (mat := Ex.mat) (m := 2) (n := 3)
    (fun x => (x.mapper.core.ia.p.get 0 0 == 11 && x.mapper.core.ia.m.get 0 0 == 4)) (by decide +kernel)
  refine ⟨x, h1, ?_, h2⟩
  exact (runs_near (cfg := Ex.noisyCfg .tnn3) (Ex.hotEnv_exact 1 (-1)) (Ex.acfg_ok .tnn3) rfl rfl rfl
    (by show (0 : ℚ) ≤ 5; norm_num) (by show (0 : ℚ) ≤ 10; norm_num)
    (Ex.hotEnv_gauss (by norm_num) (by norm_num)) h1
    (fun i j hi hj => ⟨_, by simp [lastWrite, hi, hj], Ex.legal_mat .tnn3 i j hi hj⟩)).1

end Ex'

/-- The hypotheses of `C62_deviating_cells` and `C62_deviating_cells_total` in that state. -/
example : ∃ x x' r, Runs (Ex.hotEnv 1 (-1)) (Ex.noisyCfg .tnn3) [.write Ex.mat 2 3] x ∧
    xMvm (Ex.hotEnv 1 (-1)) (Ex.noisyCfg .tnn3) x Ex.res Ex.vec Ex.mat 2 3 "" = .ok (x', r) ∧
    AddsWithin (noiseBound (Ex.noisyCfg .tnn3) 1 3) r Ex.res (stored [.write Ex.mat 2 3]) Ex.vec 2 3 := by
  obtain ⟨x, h1, h2, _⟩ := Ex'.dev_state
  have hl : Legal (Ex.noisyCfg .tnn3) (lastWrite [.write Ex.mat 2 3]) 2 3 :=
    fun i j hi hj => ⟨_, by simp [lastWrite, hi, hj], Ex.legal_mat .tnn3 i j hi hj⟩
  have hwid : keepsRowSums (Ex.noisyCfg .tnn3).mode → WidthIs 3 [.write Ex.mat 2 3] := fun _ op hop => by
    obtain rfl := List.mem_singleton.1 hop
    rfl
  have hR : NoiseRoom (Ex.noisyCfg .tnn3) 1 Ex.res 2 3 := Ex.two (by decide +kernel) (by decide +kernel)
  obtain ⟨x', r, h3⟩ := C62_deviating_cells_total (cfg := Ex.noisyCfg .tnn3) (mat := Ex.mat) (l := "") (vec := Ex.vec) (res := Ex.res)
    (Ex.hotEnv_exact _ _) (Ex.acfg_ok .tnn3) (Ex.noisy_imp rfl) rfl rfl h1 hl hwid (Ex.accepted .tnn3) (by norm_num) h2
    (by decide) (by decide) (Ex.legal_vec .tnn3 (by decide)) hR
  exact ⟨x, x', r, h1, h3, C62_deviating_cells (cfg := Ex.noisyCfg .tnn3) (Ex.hotEnv_exact _ _) (Ex.acfg_ok .tnn3) (Ex.noisy_imp rfl) rfl h1 hl hwid
    (Ex.accepted .tnn3) (by norm_num) h2 (by decide) (by decide) (Ex.legal_vec .tnn3 (by decide)) hR h3⟩

/-- The hypotheses of `C62_bounded_variation`, with cycle-to-cycle variation. -/
example : ∃ x x' rs, mkXbar (Ex.hotEnv 1 (-1)) (Ex.c2cCfg .tnn3) 0 [] = .ok x ∧
    exec (Ex.hotEnv 1 (-1)) (Ex.c2cCfg .tnn3) x [.write Ex.mat 2 3, .mvm Ex.res Ex.vec Ex.mat 2 3 ""] = .ok (x', rs) ∧
    AnswersWithin (noiseBound (Ex.c2cCfg .tnn3) (spread (Ex.c2cCfg .tnn3) 1)) []
      [.write Ex.mat 2 3, .mvm Ex.res Ex.vec Ex.mat 2 3 ""] rs := by
  obtain ⟨x, hx, _⟩ := Ex.okAnd_spec (x := mkXbar (Ex.hotEnv 1 (-1)) (Ex.c2cCfg .tnn3) 0 []) (p := fun _ => true)
    (by decide +kernel)
  obtain ⟨x', rs, h⟩ := C62_bounded_variation (cfg := Ex.c2cCfg .tnn3) (w := 3) (ε := 1) (ops := [.write Ex.mat 2 3, .mvm Ex.res Ex.vec Ex.mat 2 3 ""])
    (Ex.hotEnv_exact 1 (-1)) (Ex.acfg_ok .tnn3) (Ex.c2c_imp rfl) rfl
    (by show (0 : ℚ) ≤ 5; norm_num) (by show (0 : ℚ) ≤ 10; norm_num) (Ex.hotEnv_gauss (by norm_num) (by norm_num)) hx
    ⟨⟨Ex.accepted .tnn3, by decide, Ex.legal_mat .tnn3, Ex.sum_room .tnn3, fun _ => rfl⟩,
      ⟨Ex.accepted .tnn3, by decide, by decide, Ex.legal_vec .tnn3 (by decide), Ex.room .tnn3,
        fun i j hi hj => by simp [lastWrite, hi, hj], fun _ => rfl⟩, trivial⟩
    (fun op hop => by
      simp only [List.mem_cons, List.not_mem_nil, or_false] at hop
      rcases hop with rfl | rfl
      · trivial
      · exact Ex.two (by decide +kernel) (by decide +kernel))
  exact ⟨x, x', rs, hx, h⟩

/-- Some legal `1 × 1` product in mapping `md`, with or without cycle-to-cycle variation, is off by exactly
`gain · n · ε / |LRS − HRS|`. -/
def Attained (md : Mode) (b : Bool) : Prop := ∃ (E : Env ℚ) (cfg : Cfg ℚ) (ε : ℚ) (w v : Int)
    (x x' : Xbar ℚ) (r : Vec Int), cfg.mode = md ∧ cfg.c2c = b ∧ ExactArith E ∧ CfgOk cfg ∧ Imperfect cfg ∧
      cfg.readDisturb = false ∧ 0 ≤ cfg.hrs ∧ 0 ≤ cfg.lrs ∧ 0 < ε ∧ (∀ k, |E.gauss k| ≤ ε) ∧
      LegalW cfg w ∧ LegalX cfg v ∧ Runs E cfg [.write (Ex.single w) 1 1] x ∧
      xMvm E cfg x (Ex.single 0) (Ex.single v) (Ex.single w) 1 1 "" = .ok (x', r) ∧
      |(r.get 0 : ℚ) - (w * v : Int)| = noiseGain md * 1 * spread cfg ε / |cfg.lrs - cfg.hrs|

/-- C62.  The bound cannot be improved by more than the truncations. -/
theorem C62_gain_attained (md : Mode) (h : md.isInt = false) (b : Bool) : Attained md b := by
  have key : ∀ (t : ℚ) (v : Int), |t| ≤ 10 → LegalW (Ex.hotCfg md b) 1 → LegalX (Ex.hotCfg md b) v →
      Ex.okAnd (mkXbar (Ex.hotEnv 10 t) (Ex.hotCfg md b) 0 []) (fun x =>
        Ex.okAnd (xWrite (Ex.hotEnv 10 t) (Ex.hotCfg md b) x (Ex.single 1) 1 1) fun y =>
        Ex.okAnd (xMvm (Ex.hotEnv 10 t) (Ex.hotCfg md b) y (Ex.single 0) (Ex.single v) (Ex.single 1) 1 1 "") fun q =>
          decide (|(q.2.get 0 : ℚ) - (1 * v : Int)| = noiseGain md * 1 * spread (Ex.hotCfg md b) 10
            / |(Ex.hotCfg md b).lrs - (Ex.hotCfg md b).hrs|)) = true → Attained md b := fun t v ht hw hv hrun => by
    obtain ⟨x, x', r, h1, h2, h3⟩ := Ex.multiplied (fun _ r => decide (|(r.get 0 : ℚ) - (1 * v : Int)|
      = noiseGain md * 1 * spread (Ex.hotCfg md b) 10 / |(Ex.hotCfg md b).lrs - (Ex.hotCfg md b).hrs|)) hrun
    exact ⟨Ex.hotEnv 10 t, Ex.hotCfg md b, 10, 1, v, x, x', r, rfl, rfl, Ex.hotEnv_exact _ _, Ex.hotCfg_ok md b,
      Ex.hotCfg_imp h b, rfl, by show (0 : ℚ) ≤ 1000; norm_num, by show (0 : ℚ) ≤ 1005; norm_num, by norm_num,
      Ex.hotEnv_gauss (by norm_num) ht, hw, hv, h1, h2, of_decide_eq_true h3⟩
  cases md <;> try exact absurd h (by decide)
  case bnn1 | bnn6 => exact key (-10) 1 (by norm_num) (Or.inl rfl) (Or.inl rfl) (by clear key; revert b; decide +kernel)
  case tnn1 | tnn2 | tnn3 | tnn4 => exact key (-10) 1 (by norm_num) (Or.inl rfl) (Or.inl rfl) (by clear key; revert b; decide +kernel)
  case bnn2 => exact key (-10) (-1) (by norm_num) (Or.inl rfl) (Or.inr rfl) (by clear key; revert b; decide +kernel)
  case bnn3 | bnn4 | bnn5 | tnn5 =>
    exact key 10 1 (by norm_num) (Or.inl rfl) (Or.inl rfl) (by clear key; revert b; decide +kernel)

/-- The claim that deviations that disappear when rounding to the nearest integer leave no trace. -/
def RoundingClaim (md : Mode) : Prop :=
  ∀ (E : Env ℚ) (cfg : Cfg ℚ) (ε : ℚ) (w v : Int) (x x' : Xbar ℚ) (r : Vec Int), cfg.mode = md → ExactArith E →
    CfgOk cfg → Imperfect cfg → cfg.readDisturb = false → 0 ≤ cfg.hrs → 0 ≤ cfg.lrs → (∀ k, |E.gauss k| ≤ ε) →
    noiseGain md * 1 * spread cfg ε / |cfg.lrs - cfg.hrs| < 1 / 2 → LegalW cfg w → LegalX cfg v →
    Runs E cfg [.write (Ex.single w) 1 1] x →
    xMvm E cfg x (Ex.single 0) (Ex.single v) (Ex.single w) 1 1 "" = .ok (x', r) → r.get 0 = w * v

/-- C62.  The truncation is real: with an ideal converter the result is truncated instead of rounded, so a
deviation of one thousandth of the unit already changes it, in every binary and ternary mapping. -/
theorem C62_not_rounded (md : Mode) (h : md.isInt = false) : ¬RoundingClaim md := fun hc => by
  have key : ∀ (s t : ℚ) (w v : Int), |s| ≤ 1 / 1000 → |t| ≤ 1 / 1000 → LegalW (Ex.hotCfg md false) w →
      LegalX (Ex.hotCfg md false) v →
      Ex.okAnd (mkXbar (Ex.hotEnv s t) (Ex.hotCfg md false) 0 []) (fun x =>
        Ex.okAnd (xWrite (Ex.hotEnv s t) (Ex.hotCfg md false) x (Ex.single w) 1 1) fun y =>
        Ex.okAnd (xMvm (Ex.hotEnv s t) (Ex.hotCfg md false) y (Ex.single 0) (Ex.single v) (Ex.single w) 1 1 "") fun q =>
          decide (q.2.get 0 ≠ w * v)) = true →
      noiseGain md * 1 * spread (Ex.hotCfg md false) (1 / 1000)
        / |(Ex.hotCfg md false).lrs - (Ex.hotCfg md false).hrs| < 1 / 2 → False := fun s t w v hs ht hw hv hrun hlt => by
    obtain ⟨x, x', r, h1, h2, h3⟩ := Ex.multiplied (fun _ r => decide (r.get 0 ≠ w * v)) hrun
    exact of_decide_eq_true h3 (hc _ _ (1 / 1000) w v x x' r rfl (Ex.hotEnv_exact _ _) (Ex.hotCfg_ok md false)
      (Ex.hotCfg_imp h false) rfl (by show (0 : ℚ) ≤ 1000; norm_num) (by show (0 : ℚ) ≤ 1005; norm_num)
      (Ex.hotEnv_gauss hs ht) hlt hw hv h1 h2)
  cases md <;> try exact absurd h (by decide)
  all_goals first
    | exact key (-1/1000) (1/1000) 1 1 (by norm_num) (by norm_num) (Or.inl rfl) (Or.inl rfl) (by decide +kernel) (by decide +kernel)
    | exact key (1/1000) (1/1000) 1 1 (by norm_num) (by norm_num) (Or.inl rfl) (Or.inl rfl) (by decide +kernel) (by decide +kernel)
    | exact key (-1/1000) (-1/1000) 1 1 (by norm_num) (by norm_num) (Or.inl rfl) (Or.inl rfl) (by decide +kernel) (by decide +kernel)
    | exact key (1/1000) (1/1000) 1 (-1) (by norm_num) (by norm_num) (Or.inl rfl) (Or.inr (by first | rfl | exact Or.inl rfl)) (by decide +kernel) (by decide +kernel)
    | exact key (-1/1000) (1/1000) (-1) (-1) (by norm_num) (by norm_num) (Or.inr (by first | rfl | exact Or.inl rfl)) (Or.inr (by first | rfl | exact Or.inl rfl)) (by decide +kernel) (by decide +kernel)
    | exact key (1/1000) (-1/1000) (-1) (-1) (by norm_num) (by norm_num) (Or.inr (by first | rfl | exact Or.inl rfl)) (Or.inr (by first | rfl | exact Or.inl rfl)) (by decide +kernel) (by decide +kernel)

end Acs.Props
