import Verif.Lemmas.DetMvm
import Verif.Lemmas.Frame

/-! # Multiplications of two crossbars with the same cells -/

set_option linter.unusedSectionVars false

namespace Acs

open Spec

section
variable {K : Type} [Field K] [LinearOrder K] [IsStrictOrderedRing K] [FloorRing K]
variable {E : Env K} {cfg : Cfg K} {x y x' y' : Xbar K} {res vec mat mat' : Vec Int} {m n : Nat}
variable {l : String} {w : Bool}

theorem AuxShape.sim {a b : Aux K} (h : AuxShape cfg a) (h' : AuxShape cfg b) : AuxSim cfg a b :=
  ⟨h.vdP.trans h'.vdP.symm, h.vdM.trans h'.vdM.symm, h.vdSlice.trans h'.vdSlice.symm,
    h.tmpInt.trans h'.tmpInt.symm, fun hp => (h.tmpFp hp).trans (h'.tmpFp hp).symm,
    h.tmp.trans h'.tmp.symm, h.tmpP.trans h'.tmpP.symm, h.tmpM.trans h'.tmpM.symm,
    h.tmpLsb.trans h'.tmpLsb.symm, h.tmpMsb.trans h'.tmpMsb.symm, h.resFp.trans h'.resFp.symm⟩

theorem coreShape_mode {c : Core K} (h : CoreShape E cfg c) : c.mode = cfg.mode := by
  obtain ⟨c0, h0, hs⟩ := h.fixed
  exact hs.mode.trans (mkCore_inv h0).1

/-- The result of a multiplication is a function of the cells and the arguments. -/
theorem rel_xMvm (hq : cfg.digitalOnly = true ∨ cfg.c2c = false ∧ cfg.readDisturb = false)
    (hx : Shape E cfg x) (hy : Shape E cfg y) (hc : x.mapper.core = y.mapper.core)
    (hw : cfg.digitalOnly = false → cfg.adcProfile = true → w = true) :
    Rel w (fun r r' => r.2 = r'.2) (xMvm E cfg x res vec mat m n l)
      (xMvm E cfg y res vec mat' m n l) := by
  unfold xMvm
  dsimp only
  rw [hc]
  refine Rel.ite (fun _ => ?_) fun hd => ?_
  · exact Rel.bind (rel_dMvm (hx.aux.sim hy.aux)) fun _ _ h => h
  · obtain hq | hq := hq
    · exact absurd hq hd
    have h1 : ¬(cfg.c2c = true) := by simp [hq.1]
    have h2 : ¬(cfg.readDisturb = true) := by simp [hq.2]
    simp only [if_neg h1, if_neg h2, ok_bind, hc]
    exact Rel.bind (rel_aMvm (hx.aux.sim hy.aux) (hw (by simpa using hd)) (coreShape_mode hy.core))
      fun _ _ h => h

/-- Multiplications leave the cells alone. -/
theorem exec_mvms (hq : cfg.digitalOnly = true ∨ cfg.c2c = false ∧ cfg.readDisturb = false)
    {ops : List Op} (ho : ∀ op ∈ ops, isMvm op) {rs : List (Vec Int)} (hx : Shape E cfg x)
    (h : exec E cfg x ops = .ok (y, rs)) : Shape E cfg y ∧ y.mapper.core = x.mapper.core := by
  induction ops generalizing x rs with
  | nil =>
    unfold exec at h
    rw [ok_inj, Prod.mk.injEq] at h
    obtain ⟨rfl, _⟩ := h
    exact ⟨hx, rfl⟩
  | cons op ops ih =>
    cases op with
    | write mat m n => exact absurd (ho _ (List.mem_cons_self ..)) id
    | mvm res vec mat m n l =>
      unfold exec at h
      rw [bind_eq_ok] at h
      obtain ⟨⟨x1, r1⟩, h1, h⟩ := h
      dsimp only at h
      rw [bind_eq_ok] at h
      obtain ⟨⟨x2, r2⟩, h2, h⟩ := h
      rw [ok_inj, Prod.mk.injEq] at h
      obtain ⟨rfl, _⟩ := h
      obtain ⟨s, e⟩ := ih (fun op ho' => ho op (List.mem_cons_of_mem _ ho')) (xMvm_shape hx h1) h2
      exact ⟨s, e.trans (xMvm_core h1 hq).1⟩

end

end Acs
