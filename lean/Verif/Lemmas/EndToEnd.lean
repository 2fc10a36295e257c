import Verif.Lemmas.SessionInv
import Verif.Lemmas.ApplyDoc
import Verif.SpecEnd

/-! # Call sequences through the interface -/

set_option linter.unusedSectionVars false

namespace Acs

open Spec

section
variable {K : Type} [Field K] [LinearOrder K] [IsStrictOrderedRing K] [FloorRing K]
variable {E : Env K} {w w' : World K} {x x' : Xbar K} {ops : List Op} {cfg : Cfg K} {rs : List (Vec Int)} {cs : List Int}
variable {h : List Op} {k : Nat}

theorem write_served {mat : Vec Int} {m n : Nat} (hx : w.xbar = some x) (hd : Accepted w.cfg m n) (hm : m < 2147483648) :
    cpyMtrx E mat (m : Int) (n : Int) w =
      (lift w (xWrite E w.cfg x mat m n)).bind fun y => .ok ({ w with xbar := some y }, 0) := by
  have hm' : m < 2147483648 ∧ n < 2147483648 := ⟨hm, by have := hd.2.2; omega⟩
  unfold cpyMtrx
  rw [hx]
  dsimp only
  rw [if_neg (not_tooBig hd hm'), toSize_cast hm'.1, toSize_cast hm'.2]
  rfl

theorem mvm_served {res vec mat : Vec Int} {m n : Nat} {l : String} (hx : w.xbar = some x) (hd : Accepted w.cfg m n)
    (hm : m < 2147483648) : exeMvm E res vec mat (m : Int) (n : Int) l w =
      (lift w (xMvm E w.cfg x res vec mat m n l)).bind fun r => .ok ({ w with xbar := some r.1 }, r.2, 0) := by
  have hm' : m < 2147483648 ∧ n < 2147483648 := ⟨hm, by have := hd.2.2; omega⟩
  unfold exeMvm
  rw [hx]
  dsimp only
  rw [if_neg (not_tooBig hd hm'), toSize_cast hm'.1, toSize_cast hm'.2]
  rfl

/-- The interface returns what the crossbar returns. -/
theorem serve_ok (hx : w.xbar = some x) (hd : DimsFit w.cfg ops) (he : exec E w.cfg x ops = .ok (x', rs)) :
    serve E w ops = .ok (served w ops (x', rs)) := by
  induction ops generalizing w x rs with
  | nil =>
    rw [exec, ok_inj] at he
    cases he
    unfold serve served
    rw [← hx]
    rfl
  | cons op ops ih =>
    have hd' : DimsFit w.cfg ops := fun op ho => hd op (List.mem_cons_of_mem _ ho)
    have h0 := hd op List.mem_cons_self
    cases op with
    | write mat m n =>
      rw [exec, bind_eq_ok] at he
      obtain ⟨y, h1, h2⟩ := he
      rw [serve, write_served hx h0.1 h0.2, lift_ok.2 h1]
      show (do
        let q ← serve E { w with xbar := some y } ops
        (.ok (q.1, q.2.1, 0 :: q.2.2) : R K (World K × List (Vec Int) × List Int))) = _
      rw [ih (w := { w with xbar := some y }) rfl hd' h2]
      rfl
    | mvm res vec mat m n l =>
      rw [exec, bind_eq_ok] at he
      obtain ⟨y, h1, h2⟩ := he
      dsimp only at h2
      rw [bind_eq_ok] at h2
      obtain ⟨z, h2, h3⟩ := h2
      rw [ok_inj] at h3
      cases h3
      rw [serve, mvm_served hx h0.1 h0.2, lift_ok.2 h1]
      show (do
        let q ← serve E { w with xbar := some y.1 } ops
        (.ok (q.1, y.2 :: q.2.1, 0 :: q.2.2) : R K (World K × List (Vec Int) × List Int))) = _
      rw [ih (w := { w with xbar := some y.1 }) rfl hd' h2]
      rfl

theorem bind_lift_error {α β : Type} {v : World K} {f : Fault} (g : α → R K β) :
    (lift v (.error f : C α)).bind g = lift v (.error f : C β) := by cases f <;> rfl

/-- A fault of the crossbar ends the interface call in the same way; an exception leaves the state `v`. -/
theorem serve_error {f : Fault} (hx : w.xbar = some x) (hd : DimsFit w.cfg ops)
    (he : exec E w.cfg x ops = .error f) : ∃ v y, v = { w with xbar := some y } ∧ serve E w ops = lift v (.error f) := by
  induction ops generalizing w x with
  | nil => cases he
  | cons op ops ih =>
    have hd' : DimsFit w.cfg ops := fun op ho => hd op (List.mem_cons_of_mem _ ho)
    have h0 := hd op List.mem_cons_self
    have ew : w = { w with xbar := some x } := by rw [← hx]
    cases op with
    | write mat m n =>
      rw [exec] at he
      rw [serve, write_served hx h0.1 h0.2]
      cases h1 : xWrite E w.cfg x mat m n with
      | error g =>
        rw [h1] at he
        cases he
        refine ⟨w, x, ew, ?_⟩
        rw [bind_lift_error]
        exact bind_lift_error _
      | ok y =>
        rw [h1] at he
        rw [lift_ok.2 rfl]
        obtain ⟨v, z, hv, h2⟩ := ih (w := { w with xbar := some y }) rfl hd' he
        refine ⟨v, z, hv, ?_⟩
        show (serve E { w with xbar := some y } ops).bind _ = _
        rw [h2, bind_lift_error]
    | mvm res vec mat m n l =>
      rw [exec] at he
      rw [serve, mvm_served hx h0.1 h0.2]
      cases h1 : xMvm E w.cfg x res vec mat m n l with
      | error g =>
        rw [h1] at he
        cases he
        refine ⟨w, x, ew, ?_⟩
        rw [bind_lift_error]
        exact bind_lift_error _
      | ok y =>
        rw [h1] at he
        rw [lift_ok.2 rfl]
        have he' : (exec E w.cfg y.1 ops).bind (fun p => (.ok (p.1, y.2 :: p.2) : C (Xbar K × List (Vec Int)))) = .error f := he
        cases h2 : exec E w.cfg y.1 ops with
        | error g =>
          rw [h2] at he'
          cases he'
          obtain ⟨v, z, hv, h3⟩ := ih (w := { w with xbar := some y.1 }) rfl hd' h2
          refine ⟨v, z, hv, ?_⟩
          show (serve E { w with xbar := some y.1 } ops).bind _ = _
          rw [h3, bind_lift_error]
        | ok z =>
          rw [h2] at he'
          cases he'

theorem dimsFit (hl : LegalOps cfg k h ops) (hh : Heights ops) : DimsFit cfg ops := by
  induction ops generalizing h with
  | nil => exact fun op ho => by cases ho
  | cons op ops ih =>
    have hh' : Heights ops := fun op ho => hh op (List.mem_cons_of_mem _ ho)
    have h0 := hh op List.mem_cons_self
    cases op with
    | write mat m n =>
      intro op ho
      rcases List.mem_cons.1 ho with rfl | ho
      · exact ⟨hl.1.dims, h0⟩
      · exact ih hl.2 hh' op ho
    | mvm res vec mat m n l =>
      intro op ho
      rcases List.mem_cons.1 ho with rfl | ho
      · exact ⟨hl.1.dims, h0⟩
      · exact ih hl.2 hh' op ho

/-- The slicing parameters of a new binary or ternary crossbar need not be assumed. -/
theorem fresh_ok (hw : Settled E [] w) (hi : w.cfg.mode.family = .int → CfgOk w.cfg) :
    CfgOk w.cfg ∧ (w.cfg.digitalOnly = false → AnalogOk w.cfg) := by
  have key : BitsOk w.cfg ∧ (w.cfg.digitalOnly = false → AnalogOk w.cfg) := by
    generalize hhs : ([] : List Op) = hs at hw
    cases hw with
    | load h =>
      obtain ⟨_, x, _, _, h4⟩ := setConfig_inv h
      rcases h4 with ⟨h4, _⟩ | ⟨j', _, _, h5⟩
      · cases h4
      · exact (applyConfig_ok h5).2.2
    | rebuild hc hk h' =>
      rcases updateConfig_inv h' with ⟨_, h2, _⟩ | ⟨x, j', q, _, hj, _, hq, h2⟩
      · cases h2
      · cases hj
        obtain ⟨_, _, _, a4, _, a6, _⟩ := updateCfg_inv hk hq
        have e : w.cfg = q.1.cfg := by
          rcases h2 with ⟨_, _, _, _, _, _, h6, _⟩ | ⟨_, rfl⟩
          · exact h6
          · rfl
        rw [e]
        obtain ⟨k, _, hc⟩ := hc
        exact (applyConfig_ok (a6 (a4.2 ⟨k, hc⟩))).2.2
    | write => cases hhs
    | mvm => cases hhs
  refine ⟨?_, key.2⟩
  have hb := key.1
  unfold BitsOk at hb
  unfold CfgOk at hi ⊢
  cases hm : w.cfg.mode <;> simp only [hm, Mode.family] at hi hb ⊢
  all_goals first
    | exact hi trivial
    | exact hb.2.2 (by decide) (by decide) (by decide)
    | exact ⟨(hb.2.1 (by decide)).2, (hb.2.1 (by decide)).1⟩

end

end Acs
