import Verif.Lemmas.RdCur

/-! # The read-disturb formula in exact arithmetic -/

set_option linter.unusedSectionVars false

namespace Acs

open Spec

section
variable {K : Type} [Field K] [LinearOrder K] [IsStrictOrderedRing K] [FloorRing K]
variable {E : Env K} {cfg : Cfg K} {x x' y : Xbar K} {rd rd' : Rd K}

theorem ExactArith.lit (hE : ExactArith E) (a : K) : E.lit a = a := by
  unfold Env.lit; rw [hE.f32, hE.f64]

theorem mkRd_exact (hE : ExactArith E) (h : mkRd E cfg = .ok rd) :
    rd.p = decay E cfg.vRead ∧ rd.expTt = 1 / decay E cfg.vRead ∧ decay E cfg.vRead ≠ 0 := by
  unfold mkRd at h
  rw [bind_eq_ok] at h
  obtain ⟨p, h1, h⟩ := h
  rw [bind_eq_ok] at h
  obtain ⟨e, h2, h⟩ := h
  rw [ok_inj] at h
  subst h
  unfold rdCalcP rdKbT at h1
  dsimp only at h1
  rw [bind_eq_ok] at h1
  obtain ⟨kt, h3, h1⟩ := h1
  split at h3
  · cases h3
  · rw [ok_inj] at h3
    rw [bind_eq_ok] at h1
    obtain ⟨q, h4, h1⟩ := h1
    rw [ok_inj] at h1
    unfold Env.fdiv at h4 h2
    split at h4
    · cases h4
    · split at h2
      · cases h2
      · next hp =>
        rw [ok_inj] at h4 h2
        unfold Env.fmul at h3 h4 h1
        simp only [ExactArith.lit hE, hE.f32, hE.f64] at h1 h2 h3 h4
        have hd : p = decay E cfg.vRead := by
          rw [← h1, ← h4, ← h3]
          rfl
        rw [hd] at h2 hp ⊢
        exact ⟨rfl, h2.symm, hp⟩

theorem rdTime_exact (hE : ExactArith E) (h : rd.expTt = 1 / decay E cfg.vRead) (c : Nat) :
    rdTime E rd c = transition E cfg.vRead c := by
  unfold rdTime transition rdExp wear Env.fmul
  simp only [ExactArith.lit hE, hE.f32, hE.f64, h]

theorem rdStress_exact (hE : ExactArith E) (r : Nat) : rdStress E cfg r = r * cfg.tRead := by
  unfold rdStress Env.fmul
  simp only [hE.f32]

theorem rdFactor_exact (hE : ExactArith E) (hp : rd.p = decay E cfg.vRead)
    (he : rd.expTt = 1 / decay E cfg.vRead) (r c : Nat)
    (hd : ¬(transition E cfg.vRead c = 0 ∧ (r : K) * cfg.tRead = 0)) :
    rdFactor E cfg rd r c = .ok (attenuation E cfg r c) := by
  unfold rdFactor attenuation
  dsimp only
  rw [rdTime_exact hE he, rdStress_exact hE, hp]
  split
  · rfl
  · split
    · next h0 => rw [if_neg fun h => hd ⟨h0, h⟩]
    · next h0 =>
      unfold Env.fdiv
      rw [if_neg h0, ok_bind, hE.f32, hE.f32]

theorem rdFactor_att (hE : ExactArith E) (hp : Params E cfg rd) {r c : Nat} {f : K}
    (h : rdFactor E cfg rd r c = .ok f) : f = attenuation E cfg r c := by
  obtain ⟨rd0, h0, e1, e2⟩ := hp
  obtain ⟨d1, d2, _⟩ := mkRd_exact hE h0
  rw [d1] at e2
  rw [d2] at e1
  rw [rdFactor_exact hE e2 e1, ok_inj] at h
  · exact h.symm
  · intro hz
    have : rdTime E rd c = 0 ∧ rdStress E cfg r = 0 := by
      rw [rdTime_exact hE e1, rdStress_exact hE]; exact hz
    unfold rdFactor at h
    dsimp only at h
    rw [this.1, this.2, if_neg (lt_irrefl _), if_pos rfl, if_pos rfl] at h
    cases h

theorem binCell_programmed (hE : ExactArith E) (hi : cfg.mode.isInt = false) {r : Nat} {g : Int} {y : K}
    (h : BinCell E cfg r g y) : Programmed E cfg g y := by
  have hce := curExact (cfg := cfg) hE
  unfold CurExact at hce
  rw [if_neg (by simp [hi])] at hce
  have hg := binCell_state h
  refine ⟨hg, ?_⟩
  unfold BinCell Noisy at h
  rw [← hce g hg]
  unfold noiseOf
  rcases h with ⟨h1, h2⟩ | ⟨h1, h2⟩
  · rw [if_pos h1]; exact h2
  · rw [if_neg (by rw [h1]; decide)]; exact h2

theorem outOfBand_exact (hE : ExactArith E) (y : K) : OutOfBand E cfg y ↔
    y < (1 - cfg.tol) * cfg.lrs ∨ (1 + cfg.tol) * cfg.lrs < y := by
  unfold OutOfBand Env.fmul Env.fsub Env.fadd
  simp only [hE.f32]

theorem check_exact (hE : ExactArith E) (h : rd.expTt = 1 / decay E cfg.vRead) (r w : Nat) :
    rdCheckSoftware E cfg rd r w = true ↔ cfg.fp * transition E cfg.vRead w ≤ r * cfg.tRead := by
  unfold rdCheckSoftware Env.fmul
  rw [decide_eq_true_iff, rdTime_exact hE h, rdStress_exact hE, hE.f32]

/-- Original currents are programmed currents or those of a new crossbar. -/
theorem set_programmed (hE : ExactArith E) (hi : cfg.mode.isInt = false) {o : Option Int} {g : Int} {y : K}
    (h : Set E cfg o g y) : Programmed E cfg g y ∨ (o = none ∧ y = cfg.hrs) :=
  h.imp (binCell_programmed hE hi) _root_.id

theorem cellAfter_none {f : Int → Int} {h : List Op} {i j : Nat} (e : lastWrite h i j = none) :
    cellAfter f h i j = 0 := by
  unfold cellAfter; rw [e]; rfl

theorem encM_bnn34 (hm : cfg.mode = .bnn3 ∨ cfg.mode = .bnn4) (w : Int) (s : Nat) : encM cfg w s = 0 := by
  unfold encM; rcases hm with hm | hm <;> rw [hm]

theorem gdM_bnn34 {h : List Op} (hok : CfgOk cfg) (hm : cfg.mode = .bnn3 ∨ cfg.mode = .bnn4)
    (hr : Runs E cfg h x) (r k : Nat) : x.mapper.core.gd.m.get r k = 0 := by
  rw [runs_gdM hok hr]
  simp only [encM_bnn34 hm]
  unfold cellAfter
  cases lastWrite h (rowOf cfg r).1 k <;> rfl

theorem block_programmed (hE : ExactArith E) (hi : cfg.mode.isInt = false) {c : Core K} {m n : Nat}
    {ia : Ia K} (hmd : c.mode = cfg.mode) (hb : BinDone E cfg c m n ia) {r k : Nat} (hr : r < m)
    (hk : k < n) :
    Programmed E cfg (c.gd.p.get r k) (ia.p.get r k) ∧
      (cfg.mode ≠ .bnn3 ∧ cfg.mode ≠ .bnn4 → Programmed E cfg (c.gd.m.get r k) (ia.m.get r k)) := by
  refine ⟨?_, fun hm => ?_⟩
  · have := hb.p r k
    rw [if_pos ⟨hr, hk⟩] at this
    exact binCell_programmed (r := 0) hE hi this.1
  · have := hb.m (by rw [hmd]; exact hm) r k
    rw [if_pos ⟨hr, hk⟩] at this
    exact binCell_programmed (r := 0) hE hi this.1

end

end Acs
