import Verif.Lemmas.UnitsMvm
import Verif.Lemmas.DetXbar
import Verif.Lemmas.HistMvm

/-! # The crossbar in another unit of current -/

set_option linter.unusedSectionVars false

namespace Acs

open Spec

theorem Rel.with {α β : Type} {w : Bool} {R : α → β → Prop} {P : α → Prop} {Q : β → Prop} {x : C α} {y : C β}
    (h : Rel w R x y) (hx : ∀ a, x = .ok a → P a) (hy : ∀ b, y = .ok b → Q b) :
    Rel w (fun a b => R a b ∧ P a ∧ Q b) x y := by
  cases x with
  | ok a =>
    cases y with
    | ok b => exact ⟨h, hx a rfl, hy b rfl⟩
    | error _ => exact h
  | error _ =>
    cases y with
    | ok _ => exact h
    | error _ => exact h

section
variable {K : Type} [Field K] [LinearOrder K] [IsStrictOrderedRing K] [FloorRing K]
variable {w : Bool} {E : Env K} {cfg : Cfg K} {c : K} {k : Core K} {m n : Nat} {l : String} {a : Aux K}
variable {res vec mat : Vec Int}

/-! ## Multiplications draw no numbers -/

theorem rng_bnn34 : Sat (fun _ => True) (bnn34Currents E cfg k a vec m n l) fun r => r.1.rng = a.rng := by
  unfold bnn34Currents
  repeat first
    | exact rfl
    | refine Sat.bind Sat.anyway fun _ _ => ?_

theorem rng_aMvm : Sat (fun _ => True) (aMvm E cfg k a res vec m n l) fun r => r.1.rng = a.rng := by
  unfold aMvm
  cases k.mode <;> simp only
  all_goals
    first
      | unfold aMvmIntI | unfold aMvmIntII | unfold aMvmIntIII | unfold aMvmIntIV | unfold aMvmIntV
      | unfold aMvmBnnI | unfold aMvmBnnII | unfold aMvmBnnIII | unfold aMvmBnnIV | unfold aMvmBnnV
      | unfold aMvmBnnVI | unfold aMvmTnnI | unfold aMvmTnnII | unfold aMvmTnnIII | unfold aMvmTnnIV
      | unfold aMvmTnnV
    repeat first
      | exact rfl
      | refine Sat.bind rng_bnn34 fun _ h => Sat.bind Sat.anyway fun _ _ => h
      | refine Sat.bind Sat.anyway fun _ _ => ?_
      | refine Sat.ite (fun _ => Sat.err trivial) fun _ => ?_
      | refine Sat.ite (fun _ => ?_) fun _ => ?_

theorem rng_dMvm : Sat (fun _ => True) (dMvm E cfg k a res vec m n) fun r => r.1.rng = a.rng := by
  unfold dMvm
  cases k.mode <;> simp only
  all_goals
    first
      | unfold dMvmIntI | unfold dMvmIntII | unfold dMvmIntIII | unfold dMvmIntIV | unfold dMvmIntV
      | unfold dMvmBnnI | unfold dMvmBnnII | unfold dMvmBnnIII | unfold dMvmBnnIV | unfold dMvmBnnV
      | unfold dMvmBnnVI | unfold dMvmTnnI | unfold dMvmTnnII | unfold dMvmTnnIII | unfold dMvmTnnIV
      | unfold dMvmTnnV
    repeat first
      | exact rfl
      | refine Sat.bind Sat.anyway fun _ _ => ?_
      | refine Sat.ite (fun _ => Sat.err trivial) fun _ => ?_

/-! ## Construction -/

section
variable (hu : Unitlike E c)
include hu

theorem fieldDiv_times (a b : K) : fieldDiv (drawnIn c E) (c * a) b = (fieldDiv E a b).map (c * ·) := by
  unfold fieldDiv
  by_cases hb : b = 0
  · rw [if_pos hb, if_pos hb]; rfl
  · rw [if_neg hb, if_neg hb]
    show some (E.f32 (c * a / b)) = some (c * E.f32 (a / b))
    rw [← hu.f32, mul_div_assoc]

theorem fieldDiv_both (a b : K) : fieldDiv (drawnIn c E) (c * a) (c * b) = fieldDiv E a b := by
  unfold fieldDiv
  rw [mul_div_mul_left _ _ hu.ne]
  by_cases hb : b = 0
  · rw [if_pos hb, if_pos (by rw [hb, mul_zero])]
  · rw [if_neg hb, if_neg (mul_ne_zero hu.ne hb)]; rfl

theorem rel_stepSizes_times {i : K} {s : List Nat} :
    Rel w (fun v v' : Vec (Option K) => v' = ⟨v.size, fun i => (v.get i).map (c * ·)⟩) (stepSizes E i s)
      (stepSizes (drawnIn c E) (c * i) s) := by
  unfold stepSizes setG
  refine Rel.loop' ?_ fun i s t _ hst => ?_
  · show Vec.const _ _ = _
    unfold Vec.const
    congr 1
    funext i
    show some 0 = some (c * 0)
    rw [mul_zero]
  · subst hst
    refine Rel.bind (P := fun x y : Option K => y = x.map (c * ·)) ?_ fun x y e => ?_
    · refine Rel.bindEq rfl fun mk => ?_
      exact fieldDiv_times hu _ _
    · subst e
      unfold Vec.wr
      refine Rel.ite (fun _ => ?_) fun _ => Rel.err
      show _ = _
      congr 1
      funext j
      dsimp only
      split <;> rfl

theorem deltaOf_times {i : K} {sh : Vec Nat} : deltaOf (drawnIn c E) (inUnit c cfg) (c * i) sh = deltaOf E cfg i sh := by
  unfold deltaOf
  show (_ >>= fun d => Except.ok ((fieldDiv (drawnIn c E) (c * cfg.hrs) (c * i)).map _)) = _
  rw [fieldDiv_both hu]
  rfl

theorem rel_mkCore_times : Rel w (fun k k' => k' = k.times c) (mkCore E cfg) (mkCore (drawnIn c E) (inUnit c cfg)) := by
  unfold mkCore
  refine Rel.bindEq rfl fun adc => ?_
  dsimp only
  have hi : (if (inUnit c cfg).digitalOnly = true then (drawnIn c E).junk else
      (drawnIn c E).fsub (inUnit c cfg).lrs (inUnit c cfg).hrs) =
      c * if cfg.digitalOnly = true then E.junk else E.fsub cfg.lrs cfg.hrs := by
    show (if cfg.digitalOnly = true then c * E.junk else E.fsub (c * cfg.lrs) (c * cfg.hrs)) = _
    split
    · rfl
    · exact hu.fsub _ _
  rw [hi]
  generalize (if cfg.digitalOnly = true then E.junk else E.fsub cfg.lrs cfg.hrs) = i
  refine Rel.bind (P := fun s s' : Option (Solver K) => s' = s.map (Solver.times c)) ?_ fun s s' e => ?_
  · unfold optSolver
    refine Rel.ite (fun _ => ?_) fun _ => rfl
    unfold mkSolver
    show Rel w _ ((match cfg.mode.wEnc with | none => _ | some _ => _) >>= _) ((match cfg.mode.wEnc with | none => _ | some _ => _) >>= _)
    cases cfg.mode.wEnc with
    | none => exact Rel.err
    | some _ => exact rfl
  subst e
  refine Rel.ite (fun _ => Rel.err) fun _ => ?_
  refine Rel.bind (P := fun v v' : Vec (Option K) => v' = ⟨v.size, fun i => (v.get i).map (c * ·)⟩) ?_ fun v v' e => ?_
  · refine Rel.ite (fun _ => rel_stepSizes_times hu) fun _ => ?_
    show Vec.const _ _ = _
    unfold Vec.const
    congr 1
    funext i
    show some 0 = some (c * 0)
    rw [mul_zero]
  subst e
  refine Rel.bindEq ?_ fun d => rfl
  unfold optDelta
  rw [deltaOf_times hu]
  rfl

end

end

end Acs
