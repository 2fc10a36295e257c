import Verif.Lemmas.ZeroVar
import Verif.Props.Currents
import Verif.Props.Disturb

/-! # Switching variation on and off (C83, C84) -/

namespace Acs.Ex

/-- Integer weights with one bit per cell, cycle-to-cycle variation of size zero. -/
def bitCfg (md : Mode) : Cfg ℚ := { acfg md with split := [1, 1, 1], c2c := true }
/-- Wide cells, cycle-to-cycle variation of size zero. -/
def zeroCfg (md : Mode) : Cfg ℚ := { acfg md with c2c := true }
/-- Small non-negative weights. -/
def matS : Vec Int := Vec.ofList [3, 2, 1, 0, 3, 2]
/-- Small non-negative inputs. -/
def vecS : Vec Int := Vec.ofList [3, 1, 2]

theorem bitCfg_ok (md : Mode) (hi : md.isInt = true) : Spec.CfgOk (bitCfg md) := by
  cases md <;> simp [Spec.CfgOk, bitCfg, acfg, cfg, Mode.isInt, Mode.family] at hi ⊢

end Acs.Ex

namespace Acs.Props

open Spec

section
variable {K : Type} [Field K] [LinearOrder K] [IsStrictOrderedRing K] [FloorRing K]
variable {E : Env K} {cfg : Cfg K} {h : List Op} {x x' : Xbar K}
variable {mat res vec out : Vec Int} {m n : Nat} {l : String}

/-! ## C83: cycle-to-cycle variation of size zero -/

/-- C83 for the mappings for which it holds (`hi`, `hrd`): with deviations of size zero a binary or ternary crossbar
goes through exactly the same states and gives the same results with and without cycle-to-cycle variation, for every
converter, rounding, profile, with and without resistive wires.  The full claim has no `hi` and no `hrd`; it is false
for every integer mapping (`C83_false_int`) and with read disturb (`C83_false_disturb`). -/
theorem C83_zero_partial (hok : CfgOk cfg) (hi : cfg.mode.isInt = false) (hrd : cfg.readDisturb = false)
    (hz : ZeroNoise cfg) : NoC2c E cfg := by
  intro rng hs ops hd
  unfold life
  rw [still_mkXbar]
  cases hx : mkXbar E cfg rng hs with
  | error e => rfl
  | ok x => exact (exec_zero hok hi hrd hz.1.le hz.2.le (.init hx) hd).symm

/-- C83 for a single multiplication in any reachable state. -/
theorem C83_mvm_partial (hok : CfgOk cfg) (hi : cfg.mode.isInt = false) (hrd : cfg.readDisturb = false)
    (hz : ZeroNoise cfg) (hr : Runs E cfg h x) (hM : m ≤ cfg.M) (hN : n ≤ cfg.N) :
    xMvm E cfg x res vec mat m n l = xMvm E (still cfg) x res vec mat m n l :=
  (xMvm_zero hok hi hrd hz.1.le hz.2.le hr (hM.trans (Nat.le_mul_of_pos_right _ (cfgOk_S_pos hok))) hN).symm

/-- The switch is on, and the multiplication goes through. -/
example : ∃ x x' r, Runs Ex.env (Ex.zeroCfg .tnn4) [.write Ex.matT 2 3] x ∧
    xMvm Ex.env (Ex.zeroCfg .tnn4) x Ex.res Ex.vecT Ex.matT 2 3 "" = .ok (x', r) ∧
    (r.get 0 == 8 && r.get 1 == 21) = true :=
  Ex.multiplied (fun _ r => r.get 0 == 8 && r.get 1 == 21) (by decide +kernel)

example : CfgOk (Ex.zeroCfg .tnn4) ∧ (Ex.zeroCfg .tnn4).mode.isInt = false ∧ (Ex.zeroCfg .tnn4).c2c = true ∧
    (Ex.zeroCfg .tnn4).readDisturb = false ∧ (Ex.zeroCfg .tnn4).digitalOnly = false ∧ ZeroNoise (Ex.zeroCfg .tnn4) ∧
    Inside (Ex.zeroCfg .tnn4) [.write Ex.matT 2 3, .mvm Ex.res Ex.vecT Ex.matT 2 3 ""] :=
  ⟨Ex.acfg_ok .tnn4, rfl, rfl, rfl, rfl, ⟨rfl, rfl⟩, ⟨by decide, by decide⟩, ⟨by decide, by decide⟩, trivial⟩

/-- With cycle-to-cycle variation every multiplication of an integer mapping sets the currents of the cells in its
first `m` rows to `HRS`, whatever was written, for every noise stream and every rounding. -/
theorem C83_int_erases (hi : cfg.mode.isInt = true) (hdo : cfg.digitalOnly = false) (hc : cfg.c2c = true)
    (hrd : cfg.readDisturb = false) (hr : Runs E cfg h x) (hm : xMvm E cfg x res vec mat m n l = .ok (x', out))
    {r k : Nat} (h1 : r < m) (h2 : k < n) :
    x'.mapper.core.ia.p.get r k = cfg.hrs ∧ x'.mapper.core.ia.m.get r k = cfg.hrs := by
  have := (xMvm_ia (runs_shape hr) hrd hm).2.2 r k
  rw [if_pos ⟨hdo, hc, h1, h2⟩, Prod.mk.injEq] at this
  rw [this.1, this.2]
  exact runs_orig hi hdo hrd hr r k

/-- The multiplication itself does not see them either: it behaves the same whatever currents these cells carry. -/
theorem C83_int_blind {ia : Ia K} (hdo : cfg.digitalOnly = false) (hc : cfg.c2c = true)
    (hO : ia.pO = x.mapper.core.ia.pO ∧ ia.mO = x.mapper.core.ia.mO)
    (hsz : ia.p.rows = x.mapper.core.ia.p.rows ∧ ia.p.cols = x.mapper.core.ia.p.cols ∧
      ia.m.rows = x.mapper.core.ia.m.rows ∧ ia.m.cols = x.mapper.core.ia.m.cols)
    (ho : ∀ r k, ¬(r < m ∧ k < n) → ia.p.get r k = x.mapper.core.ia.p.get r k ∧
      ia.m.get r k = x.mapper.core.ia.m.get r k) :
    xMvm E cfg { x with mapper := { x.mapper with core := { x.mapper.core with ia := ia } } } res vec mat m n l
      = xMvm E cfg x res vec mat m n l :=
  C39_mvm_ignores_disturb hdo hc hO hsz ho

/-- The cell of the weight 3 is in state 1 of slice 0 and loses its current of 10 by the multiplication. -/
example : ∃ x x' r, Runs Ex.env (Ex.bitCfg .iDiffWDiff1) [.write Ex.matS 2 3] x ∧
    xMvm Ex.env (Ex.bitCfg .iDiffWDiff1) x Ex.res Ex.vecS Ex.matS 2 3 "" = .ok (x', r) ∧
    (x'.mapper.core.gd.p.get 1 0 == 1 && x'.mapper.core.ia.p.get 1 0 == 5 && x'.mapper.core.ia.p.get 2 0 == 10) = true :=
  Ex.multiplied (fun x' _ => x'.mapper.core.gd.p.get 1 0 == 1 && x'.mapper.core.ia.p.get 1 0 == 5
    && x'.mapper.core.ia.p.get 2 0 == 10) (by decide +kernel)

/-- A cell with more than two states cannot be varied: if one of the cells in the first `m` rows is in a state other
than 0 and 1, the multiplication ends the program. -/
theorem C83_int_exits (hdo : cfg.digitalOnly = false) (hc : cfg.c2c = true) (hok : CfgOk cfg) (hr : Runs E cfg h x)
    (hM : m ≤ cfg.M) (hN : n ≤ cfg.N) {r k : Nat} (h1 : r < m) (h2 : k < n)
    (hg : ¬(x.mapper.core.gd.p.get r k = 0 ∨ x.mapper.core.gd.p.get r k = 1) ∨
      ¬(x.mapper.core.gd.m.get r k = 0 ∨ x.mapper.core.gd.m.get r k = 1)) :
    xMvm E cfg x res vec mat m n l = .error .exited := by
  refine xMvm_exits hdo hc hr (hM.trans (Nat.le_mul_of_pos_right _ (cfgOk_S_pos hok))) hN h1 h2 fun h => ?_
  exact hg.elim (fun g => g h.1) (fun g => g h.2)

/-- Such a cell: the weight 7 puts a cell with two bits into state 3. -/
example : ∃ x, Runs Ex.env (Ex.zeroCfg .iDiffWDiff1) [.write (Vec.ofList [7, 0, 0, 0, 0, 0]) 2 3] x ∧
    (x.mapper.core.gd.p.get 0 0 == 3) = true := Ex.wrote _ (by decide +kernel)

end

/-- C83 is false for every integer mapping: there is a configuration the program accepts, with deviations of size zero
and one bit per cell, in which cycle-to-cycle variation changes the results. -/
theorem C83_false_int (md : Mode) (hi : md.isInt = true) : ∃ cfg : Cfg ℚ, cfg.mode = md ∧ CfgOk cfg ∧
    cfg.digitalOnly = false ∧ cfg.readDisturb = false ∧ cfg.d2d = false ∧ ZeroNoise cfg ∧ ¬NoC2c Ex.env cfg := by
  refine ⟨Ex.bitCfg md, rfl, Ex.bitCfg_ok md hi, rfl, rfl, rfl, ⟨rfl, rfl⟩, fun hn => ?_⟩
  have h := hn 0 [] [.write Ex.matS 2 3, .mvm Ex.res Ex.vecS Ex.matS 2 3 ""]
    ⟨⟨by show 2 ≤ 2; decide, by show 3 ≤ 3; decide⟩, ⟨by show 2 ≤ 2; decide, by show 3 ≤ 3; decide⟩, trivial⟩
  have g : Ex.okAnd (life Ex.env (still (Ex.bitCfg md)) 0 [] [.write Ex.matS 2 3, .mvm Ex.res Ex.vecS Ex.matS 2 3 ""])
      (fun q => match q.2 with | [r] => r.get 0 == 23 && r.get 1 == 27 | _ => false) = true := by
    cases md <;> first | cases hi; done | decide +kernel
  rw [← h] at g
  have f : Ex.okAnd (life Ex.env (Ex.bitCfg md) 0 [] [.write Ex.matS 2 3, .mvm Ex.res Ex.vecS Ex.matS 2 3 ""])
      (fun q => match q.2 with | [r] => r.get 0 == 23 && r.get 1 == 27 | _ => false) = false := by
    cases md <;> first | cases hi; done | decide +kernel
  rw [f] at g
  cases g

/-- C83 is false with read disturb: cycle-to-cycle variation of size zero undoes the attenuation (see C39). -/
theorem C83_false_disturb : CfgOk (Ex.bothCfg .bnn1) ∧ (Ex.bothCfg .bnn1).mode.isInt = false ∧
    ZeroNoise (Ex.bothCfg .bnn1) ∧ ¬NoC2c Ex.rdEnv (Ex.bothCfg .bnn1) := by
  refine ⟨Ex.acfg_ok .bnn1, rfl, ⟨rfl, rfl⟩, fun hn => ?_⟩
  have h := hn 0 [] [Ex.wOnes, Ex.mv, Ex.mv, Ex.mv] (by simp [Inside, Ex.wOnes, Ex.mv, Ex.bothCfg, Ex.rdCfg]; decide)
  have g : Ex.okAnd (life Ex.rdEnv (Ex.bothCfg .bnn1) 0 [] [Ex.wOnes, Ex.mv, Ex.mv, Ex.mv])
      (fun q => match q.2 with | [_, _, r] => r.get 0 == 11 | _ => false) = true := by decide +kernel
  rw [h] at g
  have f : Ex.okAnd (life Ex.rdEnv (still (Ex.bothCfg .bnn1)) 0 [] [Ex.wOnes, Ex.mv, Ex.mv, Ex.mv])
      (fun q => match q.2 with | [_, _, r] => r.get 0 == 11 | _ => false) = false := by decide +kernel
  rw [f] at g
  cases g

section
variable {K : Type} [Field K] [LinearOrder K] [IsStrictOrderedRing K] [FloorRing K]
variable {E : Env K} {cfg : Cfg K} {h : List Op} {x x' : Xbar K}
variable {mat res vec out : Vec Int} {m n : Nat} {l : String}

/-! ## C84: the switch for device-to-device variation -/

/-- What holds of C84: without variation of size other than zero for its state (`hz`), a programmed cell of a binary or
ternary mapping carries its nominal current, whatever the other state's deviation is.  The full claim has
`cfg.d2d = false` instead of `hz`; it is false (`C84_false`), because the switch is not read (`C84_ignored`). -/
theorem C84_nominal_partial (hE : ExactArith E) (hok : CfgOk cfg) (hi : cfg.mode.isInt = false)
    (hdo : cfg.digitalOnly = false) (hrd : cfg.readDisturb = false) (hr : Runs E cfg h x) {r k : Nat} {w : Int}
    (hw : lastWrite h r k = some w) (hz : noiseOf cfg (encP cfg w 0) ≤ 0) :
    x.mapper.core.ia.p.get r k = nominal cfg r (encP cfg w 0) := by
  have := C16_programmed_current hE hok hi hdo hrd hr r k
  rw [hw] at this
  have := this.1
  unfold Varied at this
  rw [if_pos hz] at this
  exact this

/-- Neither the constructor nor writes nor multiplications depend on the switch: with the same noise stream, a crossbar
has the same life with and without device-to-device variation, in all mappings. -/
theorem C84_ignored (b : Bool) (rng : Nat) (hists : List (String × Hist K)) (ops : List Op) :
    life E { cfg with d2d := b } rng hists ops = life E cfg rng hists ops := by
  have key : ∀ x, exec E { cfg with d2d := b } x ops = exec E cfg x ops := by
    induction ops with
    | nil => intro x; rfl
    | cons op ops ih =>
      intro x
      cases op with
      | write mat m n =>
        unfold exec
        rw [d2d_xWrite]
        exact congrArg (fun f => _ >>= f) (funext fun y => ih y)
      | mvm res vec mat m n l =>
        unfold exec
        rw [d2d_xMvm]
        refine congrArg (fun f => _ >>= f) (funext fun y => ?_)
        dsimp only
        rw [ih]
  unfold life
  rw [d2d_mkXbar]
  exact congrArg (fun f => _ >>= f) (funext fun y => key y)

/-- A cell without variation beside cells with variation. -/
example : ∃ x, Runs Ex.env { Ex.noisyCfg .bnn1 with hrsNoise := 0 } [.write Ex.mat 2 3] x ∧
    (x.mapper.core.gd.p.get 0 1 == 0 && x.mapper.core.ia.p.get 0 1 == 5 && x.mapper.core.gd.p.get 0 2 == 1
      && x.mapper.core.ia.p.get 0 2 == 12) = true :=
  Ex.wrote _ (by decide +kernel)

end

/-- C84 is false: the switch is off, and the cells do not carry their nominal currents. -/
theorem C84_false : ∃ x, Runs Ex.env { Ex.noisyCfg .bnn1 with d2d := false } [.write Ex.mat 2 3] x ∧
    lastWrite [.write Ex.mat 2 3] 0 1 = some (-1) ∧
    nominal (Ex.noisyCfg .bnn1) 0 (encP (Ex.noisyCfg .bnn1) (-1) 0) = 5 ∧ (x.mapper.core.ia.p.get 0 1 == 7) = true := by
  obtain ⟨x, h1, h2⟩ := Ex.wrote (E := Ex.env) (c := { Ex.noisyCfg .bnn1 with d2d := false }) (mat := Ex.mat) (m := 2)
    (n := 3) (fun x => x.mapper.core.ia.p.get 0 1 == 7) (by decide +kernel)
  exact ⟨x, h1, by decide, by decide +kernel, h2⟩

end Acs.Props
