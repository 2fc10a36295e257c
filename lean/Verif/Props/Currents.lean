import Verif.Lemmas.AWrite
import Verif.Props.Adc

/-! # Properties of the cell currents -/

set_option linter.unusedSectionVars false

namespace Acs.Ex

open Spec

theorem quiet (md : Mode) : Quiet (acfg md) := fun _ => ⟨le_refl 0, le_refl 0⟩

/-- Noise of standard deviation 1 on both states. -/
def noisyCfg (md : Mode) : Cfg ℚ := { acfg md with hrsNoise := 1, lrsNoise := 1 }
/-- Cycle-to-cycle variation. -/
def c2cCfg (md : Mode) : Cfg ℚ := { noisyCfg md with c2c := true }
/-- Noise whose samples are large and negative. -/
def envNeg : Env ℚ := { env with gauss := fun k => if k = 2 then -100 else k }

end Acs.Ex

namespace Acs.Props

open Spec

section
variable {K : Type} [Field K] [LinearOrder K] [IsStrictOrderedRing K] [FloorRing K]
variable {E : Env K} {cfg : Cfg K} {h : List Op} {x x' : Xbar K}
variable {mat res vec out : Vec Int} {m n : Nat} {l : String}

/-- C15.  After any history, without variation and disturb, the current of every cell is affine in its
state, and the state is one of the states of the cell. -/
theorem C15_current_is_nominal (hE : ExactArith E) (hok : CfgOk cfg) (hdo : cfg.digitalOnly = false)
    (hc2 : cfg.c2c = false) (hrd : cfg.readDisturb = false) (hq : Quiet cfg) (hr : Runs E cfg h x)
    (r k : Nat) :
    (x.mapper.core.ia.p.get r k = nominal cfg r (x.mapper.core.gd.p.get r k) ∧
      0 ≤ x.mapper.core.gd.p.get r k ∧ x.mapper.core.gd.p.get r k ≤ topState cfg r) ∧
    x.mapper.core.ia.m.get r k = nominal cfg r (x.mapper.core.gd.m.get r k) ∧
      0 ≤ x.mapper.core.gd.m.get r k ∧ x.mapper.core.gd.m.get r k ≤ topState cfg r := by
  obtain ⟨h1, h2⟩ := runs_nominal (curExact hE) hok hdo hc2 hrd hq hr r k
  exact ⟨⟨h1.cur, h1.lo, h1.hi⟩, h2.cur, h2.lo, h2.hi⟩

/-- C15.  The lowest state carries `HRS`, the highest `LRS`. -/
theorem C15_end_points (r : Nat) :
    nominal cfg r 0 = cfg.hrs ∧ (topState cfg r ≠ 0 → nominal cfg r (topState cfg r) = cfg.lrs) := by
  refine ⟨nominal_zero r, fun h => ?_⟩
  cases hi : cfg.mode.isInt
  · rw [nominal_bin hi, topState_bin hi]; push_cast; ring
  · rw [topState_int hi] at h
    rw [nominal_int hi, topState_int hi]
    have h' : ((2 : K) ^ cfg.split.getD (r % cfg.S) 0 - 1) ≠ 0 := by
      have : (((2 : Int) ^ cfg.split.getD (r % cfg.S) 0 - 1 : Int) : K) ≠ 0 := by exact_mod_cast h
      push_cast at this
      exact this
    push_cast
    field_simp
    ring

/-- C15.  Every current lies between `HRS` and `LRS`. -/
theorem C15_current_in_range (hE : ExactArith E) (hok : CfgOk cfg) (hdo : cfg.digitalOnly = false)
    (hc2 : cfg.c2c = false) (hrd : cfg.readDisturb = false) (hq : Quiet cfg) (hle : cfg.hrs ≤ cfg.lrs)
    (hr : Runs E cfg h x) (r k : Nat) :
    (cfg.hrs ≤ x.mapper.core.ia.p.get r k ∧ x.mapper.core.ia.p.get r k ≤ cfg.lrs) ∧
      cfg.hrs ≤ x.mapper.core.ia.m.get r k ∧ x.mapper.core.ia.m.get r k ≤ cfg.lrs := by
  have key : ∀ g, 0 ≤ g → g ≤ topState cfg r → cfg.hrs ≤ nominal cfg r g ∧ nominal cfg r g ≤ cfg.lrs := by
    intro g h0 h1
    rcases eq_or_ne (topState cfg r) 0 with ht | ht
    · have : g = 0 := by omega
      rw [this, nominal_zero]
      exact ⟨le_refl _, hle⟩
    · have hd : 0 ≤ cfg.lrs - cfg.hrs := by linarith
      have g0 : (0 : K) ≤ g := by exact_mod_cast h0
      cases hi : cfg.mode.isInt
      · rw [nominal_bin hi]
        rw [topState_bin hi] at h1
        have g1 : (g : K) ≤ 1 := by exact_mod_cast h1
        constructor <;> nlinarith
      · have e := (C15_end_points (cfg := cfg) r).2 ht
        rw [nominal_int hi] at e ⊢
        have g1 : (g : K) ≤ topState cfg r := by exact_mod_cast h1
        have ht' : (0 : K) < 2 ^ cfg.split.getD (r % cfg.S) 0 - 1 := by
          rw [topState_int hi] at ht
          have h2 : (0 : Int) < 2 ^ cfg.split.getD (r % cfg.S) 0 := by positivity
          have h3 : (0 : Int) < 2 ^ cfg.split.getD (r % cfg.S) 0 - 1 := by omega
          exact_mod_cast h3
        have hst := div_nonneg hd ht'.le
        constructor
        · have := mul_nonneg g0 hst; linarith
        · refine le_trans ?_ e.le
          have := mul_le_mul_of_nonneg_right g1 hst; linarith
  obtain ⟨⟨a1, a2, a3⟩, b1, b2, b3⟩ := C15_current_is_nominal hE hok hdo hc2 hrd hq hr r k
  rw [a1, b1]
  exact ⟨key _ a2 a3, key _ b2 b3⟩

example : ∃ x, Runs Ex.env (Ex.acfg .iOffsWDiff) [.write Ex.matI 2 3] x ∧
    (x.mapper.core.gd.p.get 0 0 == 1 && x.mapper.core.ia.p.get 0 0 == 5 + 5 / 3
      && x.mapper.core.gd.m.get 0 1 == 3 && x.mapper.core.ia.m.get 0 1 == 10) = true :=
  Ex.wrote _ (by decide +kernel)

example : ExactArith Ex.env ∧ CfgOk (Ex.acfg .iOffsWDiff) ∧ (Ex.acfg .iOffsWDiff).digitalOnly = false ∧
    (Ex.acfg .iOffsWDiff).c2c = false ∧ (Ex.acfg .iOffsWDiff).readDisturb = false ∧
    Quiet (Ex.acfg .iOffsWDiff) ∧ (Ex.acfg .iOffsWDiff).hrs ≤ (Ex.acfg .iOffsWDiff).lrs :=
  ⟨Ex.env_exact, Ex.acfg_ok _, rfl, rfl, rfl, Ex.quiet _, by simp [Ex.acfg, Ex.cfg]; norm_num⟩

/-- C16.  For every stream of noise samples and every history without read disturb, the current of a
written cell of a binary or ternary mapping is its nominal current changed by one sample and cut off at
zero, and exactly the nominal current if the standard deviation is zero; unwritten cells carry `HRS`. -/
theorem C16_programmed_current (hE : ExactArith E) (hok : CfgOk cfg) (hi : cfg.mode.isInt = false)
    (hdo : cfg.digitalOnly = false) (hrd : cfg.readDisturb = false) (hr : Runs E cfg h x) (r k : Nat) :
    (match lastWrite h r k with
      | none => x.mapper.core.ia.p.get r k = cfg.hrs ∧ x.mapper.core.ia.m.get r k = cfg.hrs
      | some w => Varied E (noiseOf cfg (encP cfg w 0)) (nominal cfg r (encP cfg w 0))
            (x.mapper.core.ia.p.get r k) ∧
          (Varied E (noiseOf cfg (encM cfg w 0)) (nominal cfg r (encM cfg w 0))
            (x.mapper.core.ia.m.get r k) ∨
          (cfg.mode = .bnn3 ∨ cfg.mode = .bnn4) ∧ x.mapper.core.ia.m.get r k = cfg.hrs)) := by
  have h1 := runs_binCur hok hi hdo hrd hr
  have key : ∀ g y, BinCell E cfg r g y → Varied E (noiseOf cfg g) (nominal cfg r g) y := by
    intro g y hb
    have hce := curExact (cfg := cfg) hE
    unfold CurExact at hce
    rw [if_neg (by simp [hi])] at hce
    unfold BinCell Noisy at hb
    rw [nominal_bin hi]
    unfold noiseOf
    rcases hb with ⟨e, hb⟩ | ⟨e, hb⟩
    · rw [if_pos e]; rw [hce g (Or.inl e)] at hb; exact hb
    · rw [if_neg (by omega)]; rw [hce g (Or.inr e)] at hb; exact hb
  have e1 := h1.p r k
  rw [rowOf_bin hi] at e1
  split
  · next e =>
    rw [e] at e1
    refine ⟨by rw [h1.eqP]; exact e1, ?_⟩
    rw [h1.eqM]
    by_cases hm : cfg.mode = .bnn3 ∨ cfg.mode = .bnn4
    · exact h1.m' hm r k
    · have e2 := h1.m (by rw [not_or] at hm; exact hm) r k
      rw [rowOf_bin hi, e] at e2
      exact e2
  · next w e =>
    rw [e] at e1
    refine ⟨by rw [h1.eqP]; exact key _ _ e1, ?_⟩
    rw [h1.eqM]
    by_cases hm : cfg.mode = .bnn3 ∨ cfg.mode = .bnn4
    · exact Or.inr ⟨hm, h1.m' hm r k⟩
    · have e2 := h1.m (by rw [not_or] at hm; exact hm) r k
      rw [rowOf_bin hi, e] at e2
      exact Or.inl (key _ _ e2)

/-- C16.  No noise stream makes a current negative. -/
theorem C16_current_nonneg (hE : ExactArith E) (hok : CfgOk cfg) (hi : cfg.mode.isInt = false)
    (hdo : cfg.digitalOnly = false) (hrd : cfg.readDisturb = false) (h0 : 0 ≤ cfg.hrs)
    (h1 : 0 ≤ cfg.lrs) (hr : Runs E cfg h x) (r k : Nat) :
    0 ≤ x.mapper.core.ia.p.get r k ∧ 0 ≤ x.mapper.core.ia.m.get r k := by
  have hb := runs_binCur hok hi hdo hrd hr
  have key : ∀ g y, BinCell E cfg r g y → 0 ≤ y := by
    intro g y hb
    have hce := curExact (cfg := cfg) hE
    unfold CurExact at hce
    rw [if_neg (by simp [hi])] at hce
    unfold BinCell Noisy Varied at hb
    rcases hb with ⟨e, hb⟩ | ⟨e, hb⟩
    · split at hb
      · rw [hb, hce g (Or.inl e), e]; simpa using h0
      · obtain ⟨k, hb⟩ := hb; rw [hb]; exact le_max_left _ _
    · split at hb
      · rw [hb, hce g (Or.inr e), e]; push_cast; linarith
      · obtain ⟨k, hb⟩ := hb; rw [hb]; exact le_max_left _ _
  constructor
  · rw [hb.eqP]
    have := hb.p r k
    split at this
    · rw [this]; exact h0
    · exact key _ _ this
  · rw [hb.eqM]
    by_cases hm : cfg.mode = .bnn3 ∨ cfg.mode = .bnn4
    · rw [hb.m' hm]; exact h0
    · have := hb.m (by rw [not_or] at hm; exact hm) r k
      split at this
      · rw [this]; exact h0
      · exact key _ _ this

/-- C16.  A write leaves the currents of all cells outside its block alone, for every noise stream,
every rounding, with or without read disturb. -/
theorem C16_write_local (hi : cfg.mode.isInt = false) (hdo : cfg.digitalOnly = false)
    (hr : Runs E cfg h x) (hw : xWrite E cfg x mat m n = .ok x') {r k : Nat} (hrk : ¬(r < m ∧ k < n)) :
    x'.mapper.core.ia.p.get r k = x.mapper.core.ia.p.get r k ∧
      x'.mapper.core.ia.m.get r k = x.mapper.core.ia.m.get r k := by
  have hsh := runs_shape hr
  have h1 := (cont_aWrite_ok hsh hw hdo rfl).2 hi
  have hmd := hsh.core.mode
  constructor
  · have := h1.p r k
    rw [if_neg hrk] at this
    exact ((Prod.mk.injEq _ _ _ _).mp this).1
  · by_cases hm : cfg.mode = .bnn3 ∨ cfg.mode = .bnn4
    · rw [(h1.m' (by rw [← hmd] at hm; exact hm)).1]
    · have := h1.m (by rw [← hmd, not_or] at hm; exact hm) r k
      rw [if_neg hrk] at this
      exact ((Prod.mk.injEq _ _ _ _).mp this).1

example : ∃ x, Runs Ex.envNeg (Ex.noisyCfg .bnn1) [.write Ex.mat 2 3] x ∧
    (x.mapper.core.gd.p.get 0 0 == 1 && x.mapper.core.ia.p.get 0 0 == 10
      && x.mapper.core.ia.m.get 0 0 == 6 && x.mapper.core.ia.p.get 0 1 == 0
      && x.mapper.core.ia.m.get 0 1 == 13) = true :=
  Ex.wrote _ (by decide +kernel)

example : ExactArith Ex.envNeg ∧ CfgOk (Ex.noisyCfg .bnn1) ∧ (Ex.noisyCfg .bnn1).mode.isInt = false ∧
    (Ex.noisyCfg .bnn1).digitalOnly = false ∧ (Ex.noisyCfg .bnn1).readDisturb = false ∧
    0 ≤ (Ex.noisyCfg .bnn1).hrs ∧ 0 ≤ (Ex.noisyCfg .bnn1).lrs :=
  ⟨⟨fun _ => rfl, fun _ => rfl⟩, Ex.acfg_ok .bnn1, rfl, rfl, rfl, by simp [Ex.noisyCfg, Ex.acfg, Ex.cfg],
    by simp [Ex.noisyCfg, Ex.acfg, Ex.cfg]⟩

/-- C38.  With or without cycle-to-cycle variation, for every noise stream and every rounding, a
multiplication without read disturb leaves the stored currents as it found them. -/
theorem C38_c2c_removed (hok : CfgOk cfg) (hi : cfg.mode.isInt = false)
    (hdo : cfg.digitalOnly = false) (hrd : cfg.readDisturb = false) (hr : Runs E cfg h x)
    (hm : xMvm E cfg x res vec mat m n l = .ok (x', out)) (r k : Nat) :
    x'.mapper.core.ia.p.get r k = x.mapper.core.ia.p.get r k ∧
      x'.mapper.core.ia.m.get r k = x.mapper.core.ia.m.get r k := by
  have hb := runs_binCur hok hi hdo hrd hr
  obtain ⟨_, _, e3⟩ := xMvm_ia (runs_shape hr) hrd hm
  have e := e3 r k
  split at e
  · have e := (Prod.mk.injEq _ _ _ _).mp e
    rw [e.1, e.2, hb.eqP, hb.eqM]; exact ⟨rfl, rfl⟩
  · exact (Prod.mk.injEq _ _ _ _).mp e

/-- The multiplication below really sees other currents: its result is not the product. -/
example : ∃ x x' r, Runs Ex.env (Ex.c2cCfg .bnn1) [.write Ex.mat 2 3] x ∧
    xMvm Ex.env (Ex.c2cCfg .bnn1) x Ex.res Ex.vec Ex.mat 2 3 "" = .ok (x', r) ∧
    (x'.mapper.core.ia.p.get 0 1 == 7 && x'.mapper.aux.rng == 24 && r.get 0 == 7) = true :=
  Ex.multiplied (fun x' r => x'.mapper.core.ia.p.get 0 1 == 7 && x'.mapper.aux.rng == 24
    && r.get 0 == 7) (by decide +kernel)

end

end Acs.Props
