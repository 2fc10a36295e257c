import Verif.Spec
import Mathlib.Algebra.Order.Ring.Rat
import Mathlib.Data.Rat.Floor

/-!
# Concrete instances

Small configurations, matrices and crossbars used to show that the hypotheses of the theorems can be
met.
-/

namespace Acs.Ex

open Spec

/-- Exact arithmetic over the rationals, gcc semantics of shifts. -/
def env : Env ℚ where
  strict := false
  f32 := id
  f64 := id
  pow := fun a _ => a
  exp := id
  gauss := fun k => k
  junk := 7

/-- ISO C++17 semantics. -/
def envStrict : Env ℚ := { env with strict := true }

/-- A digital `2 × 3` crossbar; weights of the integer modes have 3 bits in slices of 2 and 1. -/
def cfg (md : Mode) : Cfg ℚ where
  M := 2
  N := 3
  split := match md with
    | .iDiffWDiff1 | .iDiffWDiff2 | .iOffsWDiff | .iTcWDiff | .iUintWDiff | .iUintWOffs => [2, 1]
    | .tnn4 | .tnn5 => [1, 1]
    | _ => [0]
  wBit := if md.isInt then 3 else 2
  iBit := 3
  digitalOnly := true
  hrs := 5
  lrs := 10
  adcType := .inf
  resolution := 8
  adcProfile := false
  binSize := 10
  calibMode := .max
  calibDict := []
  mode := md
  verbose := false
  hrsNoise := 0
  lrsNoise := 0
  d2d := false
  c2c := false
  readDisturb := false
  tRead := 1
  updFreq := 1
  strategy := .off
  fp := 1
  tol := 1 / 2
  parasitics := false
  wRes := 0
  vRead := -1

/-- The same crossbar, analog, with an ideal converter. -/
def acfg (md : Mode) : Cfg ℚ := { cfg md with digitalOnly := false }

theorem acfg_ok (md : Mode) : CfgOk (acfg md) := by
  cases md <;> simp [CfgOk, acfg, cfg, Mode.isInt, Mode.family]

theorem cfg_ok (md : Mode) : CfgOk (cfg md) := by
  cases md <;> simp [CfgOk, cfg, Mode.isInt, Mode.family]

/-- A `2 × 3` matrix that is legal in every mode with binary weights. -/
def mat : Vec Int := Vec.ofList [1, -1, 1, -1, -1, 1]
/-- An input vector. -/
def vec : Vec Int := Vec.ofList [1, 1, -1]
/-- A result buffer with a longer tail. -/
def res : Vec Int := Vec.ofList [10, 20, 30]

/-- A matrix of 3 bit weights. -/
def matI : Vec Int := Vec.ofList [3, -7, 5, 0, 6, -2]
/-- 3 bit signed inputs. -/
def vecI : Vec Int := Vec.ofList [3, -4, -1]

/-- A ternary matrix. -/
def matT : Vec Int := Vec.ofList [1, 0, -1, -1, 1, 0]
/-- A ternary vector. -/
def vecT : Vec Int := Vec.ofList [-1, 0, 1]

/-- A fresh crossbar exists in every mode. -/
theorem fresh (md : Mode) : ∃ x, mkXbar env (cfg md) 0 [] = .ok x := by
  cases md <;> exact ⟨_, rfl⟩

theorem afresh (md : Mode) : ∃ x, mkXbar env (acfg md) 0 [] = .ok x := by
  cases md <;> exact ⟨_, rfl⟩

theorem accepted (md : Mode) : Accepted (cfg md) 2 3 := by
  cases md <;> exact ⟨by decide, by decide, by decide⟩

theorem two {P : Nat → Prop} (h0 : P 0) (h1 : P 1) (i : Nat) (hi : i < 2) : P i := by
  obtain rfl | rfl : i = 0 ∨ i = 1 := by omega
  exacts [h0, h1]

theorem three {P : Nat → Prop} (h0 : P 0) (h1 : P 1) (h2 : P 2) (i : Nat) (hi : i < 3) : P i := by
  obtain rfl | rfl | rfl : i = 0 ∨ i = 1 ∨ i = 2 := by omega
  exacts [h0, h1, h2]

theorem block {P : Nat → Nat → Prop} (h : ∀ i : Fin 2, ∀ j : Fin 3, P i j) (i j : Nat) (hi : i < 2)
    (hj : j < 3) : P i j := h ⟨i, hi⟩ ⟨j, hj⟩

theorem mat_bin (i j : Nat) (hi : i < 2) (hj : j < 3) :
    entry mat 3 i j = 1 ∨ entry mat 3 i j = -1 :=
  block (P := fun i j => entry mat 3 i j = 1 ∨ entry mat 3 i j = -1) (by decide) i j hi hj

theorem vec_bin (j : Nat) (hj : j < 3) : vec.get j = 1 ∨ vec.get j = -1 :=
  three (P := fun j => vec.get j = 1 ∨ vec.get j = -1) (by decide) (by decide) (by decide) j hj

theorem legalW_one (md : Mode) : LegalW (cfg md) 1 := by
  cases md <;> simp [LegalW, cfg, Mode.isInt, Mode.family]

theorem legalW_neg_one (md : Mode) : LegalW (cfg md) (-1) := by
  cases md <;> simp [LegalW, cfg, Mode.isInt, Mode.family]

theorem legal_mat (md : Mode) : LegalMat (cfg md) (entry mat 3) 2 3 := fun i j hi hj => by
  rcases mat_bin i j hi hj with h | h <;> rw [h]
  exacts [legalW_one md, legalW_neg_one md]

/-- The vector is legal in the modes with signed inputs. -/
theorem legal_vec (md : Mode) (h : md ≠ .iUintWDiff ∧ md ≠ .iUintWOffs) : LegalVec (cfg md) vec 3 :=
  fun j hj => by
    rcases vec_bin j hj with h' | h' <;> rw [h'] <;> cases md <;> simp [LegalX, cfg] at h ⊢

theorem sum_room (md : Mode) : SumRoom (cfg md) 2 3 := by
  intro _ _
  cases md <;> simp [cfg, Mode.isInt, Mode.family]

theorem room (md : Mode) : Room (cfg md) res 2 3 := by
  refine two ?_ ?_ <;> cases md <;> simp [peak, cfg, Mode.isInt, Mode.family, res, Vec.ofList]

theorem room12 (md : Mode) : Room (cfg md) res 1 2 := by
  intro i hi
  obtain rfl : i = 0 := by omega
  cases md <;> simp [peak, cfg, Mode.isInt, Mode.family, res, Vec.ofList]

theorem legal_matI : LegalMat (cfg .iOffsWDiff) (entry matI 3) 2 3 :=
  block (P := fun i j => LegalW (cfg .iOffsWDiff) (entry matI 3 i j)) (by
    show ∀ i : Fin 2, ∀ j : Fin 3, |entry matI 3 i j| < 2 ^ 3
    decide)

theorem legal_vecI : LegalVec (cfg .iOffsWDiff) vecI 3 :=
  three (P := fun j => LegalX (cfg .iOffsWDiff) (vecI.get j))
    (show -2 ^ 2 ≤ vecI.get 0 ∧ vecI.get 0 < 2 ^ 2 by decide)
    (show -2 ^ 2 ≤ vecI.get 1 ∧ vecI.get 1 < 2 ^ 2 by decide)
    (show -2 ^ 2 ≤ vecI.get 2 ∧ vecI.get 2 < 2 ^ 2 by decide)

/-- A history of calls: a write, a multiplication, and a partial write. -/
theorem ran : ∃ x, Runs env (cfg .iOffsWDiff)
    [.write mat 1 2, .mvm res vecI matI 2 3 "", .write matI 2 3] x :=
  ⟨_, .write (.mvm (.write (.init (rng := 0) (hists := []) rfl) rfl) rfl) rfl⟩

/-! ## Running concrete programs in the kernel -/

/-- The run returns a value that passes the test. -/
def okAnd {α : Type} (x : C α) (p : α → Bool) : Bool :=
  match x with
  | .ok a => p a
  | .error _ => false

theorem okAnd_spec {α : Type} {x : C α} {p : α → Bool} (h : okAnd x p = true) :
    ∃ a, x = .ok a ∧ p a = true := by
  cases x with
  | ok a => exact ⟨a, rfl, h⟩
  | error e => simp [okAnd] at h

/-- The run ends in the given fault. -/
def failsWith {α : Type} (x : C α) (e : Fault) : Bool :=
  match x with
  | .ok _ => false
  | .error e' => decide (e = e')

theorem failsWith_spec {α : Type} {x : C α} {e : Fault} (h : failsWith x e = true) :
    x = .error e := by
  cases x with
  | ok a => simp [failsWith] at h
  | error e' => rw [of_decide_eq_true h]

/-- Build a crossbar and test it. -/
theorem built {E : Env ℚ} {c : Cfg ℚ} (p : Xbar ℚ → Bool) (h : okAnd (mkXbar E c 0 []) p = true) :
    ∃ x, Runs E c [] x ∧ p x = true := by
  obtain ⟨x, h1, h2⟩ := okAnd_spec h
  exact ⟨x, .init h1, h2⟩

/-- Build a crossbar, write a matrix and test the result. -/
theorem wrote {E : Env ℚ} {c : Cfg ℚ} {mat : Vec Int} {m n : Nat} (p : Xbar ℚ → Bool)
    (h : okAnd (mkXbar E c 0 []) (fun x => okAnd (xWrite E c x mat m n) p) = true) :
    ∃ x, Runs E c [.write mat m n] x ∧ p x = true := by
  obtain ⟨x, h1, h2⟩ := okAnd_spec h
  obtain ⟨y, h3, h4⟩ := okAnd_spec h2
  exact ⟨y, .write (.init h1) h3, h4⟩

/-- Build, write, multiply and test the result buffer. -/
theorem multiplied {E : Env ℚ} {c : Cfg ℚ} {mat res vec mat' : Vec Int} {m n m' n' : Nat} {l : String}
    (p : Xbar ℚ → Vec Int → Bool)
    (h : okAnd (mkXbar E c 0 []) (fun x => okAnd (xWrite E c x mat m n) fun y =>
      okAnd (xMvm E c y res vec mat' m' n' l) fun q => p q.1 q.2) = true) :
    ∃ x x' r, Runs E c [.write mat m n] x ∧ xMvm E c x res vec mat' m' n' l = .ok (x', r) ∧
      p x' r = true := by
  obtain ⟨y, h1, h2⟩ := wrote (fun y => okAnd (xMvm E c y res vec mat' m' n' l) fun q => p q.1 q.2) h
  obtain ⟨q, h3, h4⟩ := okAnd_spec h2
  exact ⟨y, q.1, q.2, h1, h3, h4⟩

end Acs.Ex
