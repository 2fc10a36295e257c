import Verif.Props.Ex
import Verif.Lemmas.IntMod

/-! # C14: integer operands of any size -/

namespace Acs.Props

open Acs.Spec Finset

variable {K : Type} [Field K] [LinearOrder K] [IsStrictOrderedRing K] [FloorRing K]
variable {E : Env K} {cfg : Cfg K} {x x' : Xbar K} {h : List Op} {res vec mat r : Vec Int} {m n : Nat} {l : String}
  {W : Nat → Nat → Int}

/-- C14, what the code computes instead: whatever the weights and the inputs, a digital integer multiplication that
returns holds 32 bit numbers that agree modulo `2^32` with the products of the cut weights and the inputs in use. -/
theorem C14_computed (hfam : cfg.mode.family = .int) (hok : CfgOk cfg) (hdo : cfg.digitalOnly = true)
    (hr : Runs E cfg h x) (hd : Accepted cfg m n)
    (hw : ∀ i j, i < m → j < n → lastWrite h i j = some (W i j)) (hs : cfg.mode = .iOffsWDiff → WidthIs n h)
    (hx : xMvm E cfg x res vec mat m n l = .ok (x', r)) :
    r.size = res.size ∧ (∀ i, m ≤ i → r.get i = res.get i) ∧ ∀ i, i < m → InI32 (r.get i) ∧
      r.get i ≡ res.get i + (∑ j ∈ range n, wrapW cfg (W i j) * usedX cfg (vec.get j) + cutError cfg (W i) n)
        [ZMOD 4294967296] :=
  xMvm_mod hfam hok hdo hr hd hw hs hx

/-- 1, -14, 7 with weights 9, -10, 3 of three bits and inputs in two's complement of three bits: the call computes
`1·1 + (-2)·2 + 3·(-1)` instead of `9·1 - 10·(-14) + 3·7`. -/
example : ∃ x x' r, Runs Ex.env (Ex.cfg .iTcWDiff) [.write (Vec.ofList [9, -10, 3]) 1 3] x ∧
    xMvm Ex.env (Ex.cfg .iTcWDiff) x (Vec.ofList [0]) (Vec.ofList [1, -14, 7]) (Vec.ofList [9, -10, 3]) 1 3 ""
      = .ok (x', r) ∧ Accepted (Ex.cfg .iTcWDiff) 1 3 ∧ r.get 0 = -6 ∧ usedX (Ex.cfg .iTcWDiff) (-14) = 2 :=
  ⟨_, _, _, .write (.init (rng := 0) (hists := []) rfl) rfl, rfl, ⟨by decide, by decide, by decide⟩, by decide,
    by decide⟩

/-- C14, when this is the exact product: weights that fit, inputs that fit in `I_TC_W_DIFF` and a result of 32 bits.
Inputs out of range do no harm in the other mappings, and intermediate values may leave the 32 bits only where the
call stops. -/
theorem C14_exact_if (hfam : cfg.mode.family = .int) (hok : CfgOk cfg) (hdo : cfg.digitalOnly = true)
    (hr : Runs E cfg h x) (hd : Accepted cfg m n)
    (hw : ∀ i j, i < m → j < n → lastWrite h i j = some (W i j)) (hs : cfg.mode = .iOffsWDiff → WidthIs n h)
    (hx : xMvm E cfg x res vec mat m n l = .ok (x', r)) {i : Nat} (hi : i < m)
    (hW : ∀ j, j < n → LegalW cfg (W i j)) (hX : cfg.mode = .iTcWDiff → LegalVec cfg vec n)
    (hroom : InI32 (res.get i + ∑ j ∈ range n, W i j * vec.get j)) :
    r.get i = res.get i + ∑ j ∈ range n, W i j * vec.get j := by
  have hio := intOk hok (by simp [Mode.isInt, hfam])
  have hpow : ∀ b, 1 ≤ b → (2 : Int) ^ b = 2 ^ (b - 1) + 2 ^ (b - 1) := fun b hb => by
    obtain ⟨k, hk⟩ : ∃ k, b = k + 1 := ⟨b - 1, by omega⟩
    rw [hk, pow_succ, Nat.add_sub_cancel]; ring
  have ew : ∀ j, j < n → wrapW cfg (W i j) = W i j := fun j hj => wrapW_legal hok hfam (hW j hj)
  have ex : ∀ j, j < n → usedX cfg (vec.get j) = vec.get j := fun j hj => by
    unfold usedX
    split
    · rename_i hmd
      have h1 := hX hmd j hj
      have h2 := hpow _ hio.i1
      simp only [LegalX, hmd] at h1
      rw [Int.emod_eq_of_lt (by linarith [h1.1]) (by linarith [h1.2])]; ring
    · rfl
  obtain ⟨h1, h2⟩ := (C14_computed hfam hok hdo hr hd hw hs hx).2.2 i hi
  have e1 : ∑ j ∈ range n, wrapW cfg (W i j) * usedX cfg (vec.get j) = ∑ j ∈ range n, W i j * vec.get j :=
    sum_congr rfl fun j hj => by rw [ew j (mem_range.1 hj), ex j (mem_range.1 hj)]
  have e2 : cutError cfg (W i) n = 0 := by
    unfold cutError
    split
    · rw [sum_eq_zero fun j hj => by rw [ew j (mem_range.1 hj), sub_self], mul_zero]
    · rfl
  rw [e1, e2, add_zero] at h2
  unfold InI32 at h1 hroom
  unfold Int.ModEq at h2
  omega

/-- Inputs of 40 and -100 where `I_BIT = 3`. -/
example : ∃ x x' r, Runs Ex.env (Ex.cfg .iUintWOffs) [.write (Vec.ofList [3, -4]) 1 2] x ∧
    xMvm Ex.env (Ex.cfg .iUintWOffs) x (Vec.ofList [5]) (Vec.ofList [40, -100]) (Vec.ofList [3, -4]) 1 2 ""
      = .ok (x', r) ∧ Accepted (Ex.cfg .iUintWOffs) 1 2 ∧ LegalW (Ex.cfg .iUintWOffs) 3 ∧
      LegalW (Ex.cfg .iUintWOffs) (-4) ∧ r.get 0 = 525 :=
  ⟨_, _, _, .write (.init (rng := 0) (hists := []) rfl) rfl, rfl, ⟨by decide, by decide, by decide⟩,
    by show (-(2:Int)^2 ≤ 3 ∧ (3:Int) < 2^2); decide, by show (-(2:Int)^2 ≤ -4 ∧ (-4:Int) < 2^2); decide, by decide⟩

end Acs.Props
