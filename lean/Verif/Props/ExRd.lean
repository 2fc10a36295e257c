import Verif.Props.Ex
import Verif.SpecRd

/-! # Concrete instances with read disturb -/

namespace Acs.Ex

open Spec

/-- Exact rational arithmetic with a power function that is easy to compute: the sign of the exponent
decides between `x`, `1` and `1 / x`. -/
def rdEnv : Env ℚ := { env with
  pow := fun a e => if e < 0 then 1 / a else if e = 0 then 1 else a
  exp := fun _ => 1 }

theorem rdEnv_exact : ExactArith rdEnv := ⟨fun _ => rfl, fun _ => rfl⟩

theorem rdEnv_arith : RdArith rdEnv where
  f32 := fun _ _ h => h
  f64 := fun _ _ h => h
  f32_zero := rfl
  f64_zero := rfl
  f32_one := rfl
  f64_one := rfl
  exp := fun _ => zero_le_one
  pow_nonneg := fun a e h => by
    show 0 ≤ (if e < 0 then 1 / a else if e = 0 then 1 else a)
    split
    · positivity
    · split
      · exact zero_le_one
      · exact h
  pow_mono := fun a b e h0 h he => by
    show (if e < 0 then 1 / a else if e = 0 then 1 else a) ≤ (if e < 0 then 1 / b else if e = 0 then 1 else b)
    rw [if_neg (not_lt.2 he), if_neg (not_lt.2 he)]
    split
    · exact le_refl 1
    · exact h
  pow_anti := fun a b e h0 h he => by
    show (if -e < 0 then 1 / b else if -e = 0 then 1 else b) ≤ (if -e < 0 then 1 / a else if -e = 0 then 1 else a)
    rcases he.eq_or_lt with rfl | he
    · simp
    · rw [if_pos (by linarith), if_pos (by linarith)]
      exact one_div_le_one_div_of_le h0 h
  pow_one := fun e => by
    show (if e < 0 then 1 / 1 else if e = 0 then 1 else 1) = (1 : ℚ)
    split <;> simp

/-- Read disturb without mitigation. -/
def rdCfg (md : Mode) : Cfg ℚ := { acfg md with readDisturb := true, tRead := 2 / 10 ^ 8 }
/-- Read disturb with updates after every second multiplication. -/
def rdCfg2 (md : Mode) : Cfg ℚ := { rdCfg md with updFreq := 2 }
/-- Read disturb with refreshes by the software. -/
def swCfg (md : Mode) : Cfg ℚ := { rdCfg md with strategy := .software, fp := 2 }
/-- Read disturb with refreshes of single cells. -/
def cbCfg (md : Mode) : Cfg ℚ := { rdCfg md with strategy := .cellBased }

theorem rdCfg_ok (md : Mode) : CfgOk (rdCfg md) := acfg_ok md
theorem rdCfg2_ok (md : Mode) : CfgOk (rdCfg2 md) := acfg_ok md
theorem swCfg_ok (md : Mode) : CfgOk (swCfg md) := acfg_ok md
theorem cbCfg_ok (md : Mode) : CfgOk (cbCfg md) := acfg_ok md

/-- Run a list of calls, the oldest first, and test the crossbar. -/
def runs {E : Env ℚ} {c : Cfg ℚ} : Xbar ℚ → List Op → C (Xbar ℚ)
  | x, [] => .ok x
  | x, .write mat m n :: ops => do
    let y ← xWrite E c x mat m n
    runs (E := E) (c := c) y ops
  | x, .mvm res vec mat m n l :: ops => do
    let y ← xMvm E c x res vec mat m n l
    runs (E := E) (c := c) y.1 ops

theorem runs_spec {E : Env ℚ} {c : Cfg ℚ} {ops h : List Op} {x y : Xbar ℚ} (hx : Runs E c h x)
    (hr : runs (E := E) (c := c) x ops = .ok y) : Runs E c (ops.reverse ++ h) y := by
  induction ops generalizing x h with
  | nil =>
    simp only [runs, Except.ok.injEq] at hr
    subst hr
    exact hx
  | cons op ops ih =>
    rw [List.reverse_cons, List.append_assoc]
    cases op with
    | write mat m n =>
      unfold runs at hr
      cases hw : xWrite E c x mat m n with
      | ok z => rw [hw] at hr; exact ih (.write hx hw) hr
      | error e => rw [hw] at hr; cases hr
    | mvm res vec mat m n l =>
      unfold runs at hr
      cases hw : xMvm E c x res vec mat m n l with
      | ok z => rw [hw] at hr; exact ih (.mvm hx hw) hr
      | error e => rw [hw] at hr; cases hr

/-- Build a crossbar, run a list of calls and test the result. -/
theorem played {E : Env ℚ} {c : Cfg ℚ} (ops : List Op) (p : Xbar ℚ → Bool)
    (h : okAnd (mkXbar E c 0 []) (fun x => okAnd (runs (E := E) (c := c) x ops) p) = true) :
    ∃ x, Runs E c ops.reverse x ∧ p x = true := by
  obtain ⟨x, h1, h2⟩ := okAnd_spec h
  obtain ⟨y, h3, h4⟩ := okAnd_spec h2
  have := runs_spec (.init h1) h3
  rw [List.append_nil] at this
  exact ⟨y, this, h4⟩

/-- Build a crossbar, run a list of calls, multiply and test the crossbars before and after. -/
theorem stepped {E : Env ℚ} {c : Cfg ℚ} (ops : List Op) (p : Xbar ℚ → Xbar ℚ → Vec Int → Bool)
    {res vec mat : Vec Int} {m n : Nat} {l : String}
    (h : okAnd (mkXbar E c 0 []) (fun x => okAnd (runs (E := E) (c := c) x ops)
      fun x => okAnd (xMvm E c x res vec mat m n l) fun q => p x q.1 q.2) = true) :
    ∃ x x' r, Runs E c ops.reverse x ∧ xMvm E c x res vec mat m n l = .ok (x', r) ∧ p x x' r = true := by
  obtain ⟨x, h1, h2⟩ := okAnd_spec h
  obtain ⟨y, h3, h4⟩ := okAnd_spec h2
  obtain ⟨q, h5, h6⟩ := okAnd_spec h4
  have := runs_spec (.init h1) h3
  rw [List.append_nil] at this
  exact ⟨y, q.1, q.2, this, h5, h6⟩

/-- The calls of the examples. -/
def w : Op := .write mat 2 3
/-- All weights are one. -/
def ones : Vec Int := Vec.ofList [1, 1, 1, 1, 1, 1]
/-- All weights are minus one. -/
def negs : Vec Int := Vec.ofList [-1, -1, -1, -1, -1, -1]
def wOnes : Op := .write ones 2 3
def wNegs : Op := .write negs 2 3
def mv : Op := .mvm res vec mat 2 3 ""

end Acs.Ex
