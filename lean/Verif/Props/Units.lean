import Verif.Lemmas.UnitsRun
import Verif.Lemmas.UnitsRnd
import Verif.Props.Seen

/-! # C106: the unit of the currents -/

namespace Acs.Props

open Spec

section
variable {K : Type} [Field K] [LinearOrder K] [IsStrictOrderedRing K] [FloorRing K]
variable {E : Env K} {cfg : Cfg K} {c : K} {ops : List Op}

/-- The results of all multiplications, and the way a sequence of calls fails, do not depend on the unit of the
currents. -/
theorem C106_replies (hu : Unitlike E c) (hp : cfg.adcProfile = false) :
    replies (drawnIn c E) (inUnit c cfg) ops = replies E cfg ops := by
  refine (Rel.eq ?_).symm
  unfold replies
  refine Rel.bind (Rel.with (rel_mkXbar_times hu) (fun x h => mkXbar_shape h) fun x h => mkXbar_shape h) fun x x' hx => ?_
  exact Rel.bind (rel_exec_times hu hp hx.1 hx.2.1 hx.2.2) fun r r' hr => hr.2

/-- The cells carry the same currents, in the other unit. -/
theorem C106_cells (hu : Unitlike E c) (hp : cfg.adcProfile = false) {x y : Xbar K} {rs : List (Vec Int)}
    (hx : mkXbar E cfg 0 [] = .ok x) (hy : exec E cfg x ops = .ok (y, rs)) :
    ∃ x' y', mkXbar (drawnIn c E) (inUnit c cfg) 0 [] = .ok x' ∧ exec (drawnIn c E) (inUnit c cfg) x' ops = .ok (y', rs) ∧
      CurrentsTimes c y y' := by
  have h1 := rel_mkXbar_times (w := false) (cfg := cfg) (rng := 0) (hs := []) hu
  rw [hx] at h1
  cases hx' : mkXbar (drawnIn c E) (inUnit c cfg) 0 [] with
  | error e => rw [hx'] at h1; exact absurd (show false = true from h1) (by decide)
  | ok x' =>
    rw [hx'] at h1
    have h2 := rel_exec_times (w := false) (ops := ops) hu hp h1 (mkXbar_shape hx) (mkXbar_shape hx')
    rw [hy] at h2
    cases hy' : exec (drawnIn c E) (inUnit c cfg) x' ops with
    | error e => rw [hy'] at h2; exact absurd (show false = true from h2) (by decide)
    | ok r =>
      rw [hy'] at h2
      obtain ⟨y', rs'⟩ := r
      obtain ⟨h3, rfl⟩ := h2
      refine ⟨x', y', rfl, hy', fun i j => ?_⟩
      rw [h3.mapper.core]
      exact ⟨rfl, rfl⟩

/-- Exact arithmetic: any unit. -/
theorem C106_exact (hE : ExactArith E) (hc : 0 < c) : Unitlike E c :=
  ⟨hc, fun x => by rw [hE.f32, hE.f32], fun x => by rw [hE.f64, hE.f64]⟩

end

/-- Rounding to nearest without underflow: the powers of two. -/
theorem C106_wide {E : Env ℚ} (hE : Wide E) (k : ℤ) : Unitlike E (2 ^ k) :=
  ⟨zpow_pos (by norm_num) _, fun x => by rw [hE.f32, hE.f32, rndWide_two_pow], fun x => by rw [hE.f64, hE.f64, rndWide_two_pow]⟩

/-- In its normal range `float` rounds like a format without underflow. -/
theorem C106_normal {x : ℚ} (h : 2 ^ (-126 : ℤ) ≤ |x|) : rnd32 x = rndWide 24 x :=
  rnd_eq_rndWide (by norm_num at h ⊢; exact h)

namespace Ex'

/-- Two noisy writes and multiplications with a real converter and cycle-to-cycle variation. -/
def unitCfg : Cfg ℚ := { Ex.acfg .bnn6 with
  adcType := .sym, hrsNoise := 1, lrsNoise := 1, c2c := true }

/-- The same with wires and read disturb. -/
def unitWired : Cfg ℚ := { unitCfg with mode := .bnn1, parasitics := true, wRes := 1, readDisturb := true, strategy := .cellBased }

def unitOps : List Op := [.write Ex.mat 2 3, .mvm Ex.res Ex.vec Ex.mat 2 3 "", .mvm Ex.res Ex.vec Ex.mat 2 3 ""]

def wideEnv : Env ℚ := { Ex.env with f32 := rndWide 24, f64 := rndWide 53 }

theorem wide : Wide wideEnv := ⟨fun _ => rfl, fun _ => rfl⟩

end Ex'

example : Unitlike Ex.env (1000 : ℚ) ∧ Ex'.unitCfg.adcProfile = false ∧
    ∃ r, replies Ex.env Ex'.unitCfg Ex'.unitOps = .ok r :=
  ⟨C106_exact Ex.env_exact (by norm_num), rfl, Ex'.returns_spec (by decide +kernel)⟩

example : Unitlike Ex'.wideEnv (2 ^ (-10 : ℤ)) ∧ Ex'.unitCfg.adcProfile = false ∧
    ∃ r, replies Ex'.wideEnv Ex'.unitCfg Ex'.unitOps = .ok r :=
  ⟨C106_wide Ex'.wide (-10), rfl, Ex'.returns_spec (by decide +kernel)⟩

/-- `C106_cells` with wires and read disturb. -/
example : ∃ (x y : Xbar ℚ) (rs : List (Vec Int)), Ex'.unitWired.adcProfile = false ∧
    mkXbar Ex.env Ex'.unitWired 0 [] = .ok x ∧ exec Ex.env Ex'.unitWired x Ex'.unitOps = .ok (y, rs) := by
  obtain ⟨⟨y, rs⟩, h⟩ := Ex'.returns_spec (x := mkXbar Ex.env Ex'.unitWired 0 [] >>= fun x =>
    exec Ex.env Ex'.unitWired x Ex'.unitOps) (by decide +kernel)
  rw [bind_eq_ok] at h
  obtain ⟨x, h1, h2⟩ := h
  exact ⟨x, y, rs, rfl, h1, h2⟩

example : (2 : ℚ) ^ (-126 : ℤ) ≤ |1 / 3| := by norm_num

end Acs.Props
