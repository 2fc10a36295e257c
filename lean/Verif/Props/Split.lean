import Verif.Lemmas.Split
import Verif.Props.ExApi

/-! # C80: slices and word length -/

namespace Acs.Props

open Spec Finset

variable {K : Type} [Field K] [LinearOrder K] [IsStrictOrderedRing K] [FloorRing K]
variable {E : Env K} {cfg : Cfg K} {x x' : Xbar K} {h : List Op} {res vec mat r : Vec Int} {m n : Nat} {l : String}
  {W : Nat → Nat → Int}

/-- C80, as stated: with an accepted configuration of a digital integer mapping a stored legal matrix multiplies legal
inputs exactly. -/
def SplitClaim : Prop :=
  ∀ (E : Env ℚ) (w w₁ w₂ : World ℚ) (res vec mat r : Vec Int) (m n : Nat) (l : String), Reach E false w →
    w.cfg.mode.family = .int → w.cfg.digitalOnly = true → LegalMat w.cfg (entry mat n) m n → LegalVec w.cfg vec n →
    cpyMtrx E mat m n w = .ok (w₁, 0) → exeMvm E res vec mat m n l w₁ = .ok (w₂, r, 0) → Adds r res (entry mat n) vec m n

/-- It is false: `SPLIT: [2]` is accepted with `W_BIT: 3`, and the weight 3 multiplies as 2. -/
theorem C80_false : ¬SplitClaim := by
  intro H
  obtain ⟨w, h1, h2⟩ := Ex.arrived (E := Ex.env) (b := false)
    (.good (Ex.digital .iUintWDiff [("SPLIT", .arr [.int 2])])) []
    (fun w => decide (w.cfg.mode = .iUintWDiff ∧ w.cfg.digitalOnly = true ∧ w.cfg.wBit = 3 ∧ w.cfg.iBit = 3) &&
      Ex.goes (cpyMtrx Ex.env (Vec.ofList [3]) (1 : Nat) (1 : Nat) w) fun q => decide (q.2 = 0) &&
      Ex.goes (exeMvm Ex.env Ex.res (Vec.ofList [1]) (Vec.ofList [3]) (1 : Nat) (1 : Nat) "" q.1) fun q =>
        decide (q.2.2 = 0 ∧ q.2.1.get 0 = Ex.res.get 0 + 2)) (by decide +kernel)
  rw [Bool.and_eq_true, decide_eq_true_iff] at h2
  obtain ⟨⟨e1, e2, e3, e4⟩, h2⟩ := h2
  obtain ⟨⟨w₁, _⟩, h3, h4⟩ := Ex.goes_spec h2
  rw [Bool.and_eq_true, decide_eq_true_iff] at h4
  obtain ⟨rfl, h4⟩ := h4
  obtain ⟨⟨w₂, r, _⟩, h5, h6⟩ := Ex.goes_spec h4
  obtain ⟨rfl, h7⟩ := of_decide_eq_true h6
  have := (H _ w w₁ w₂ _ _ _ r 1 1 "" h1 (by rw [e1]; rfl) e2 (fun i j hi hj => ?_) (fun j hj => ?_) h3 h5).head 0
    (by decide)
  · rw [h7] at this
    exact absurd this (by decide)
  · obtain rfl : i = 0 := by omega
    obtain rfl : j = 0 := by omega
    unfold LegalW
    rw [e1, e3]
    decide
  · obtain rfl : j = 0 := by omega
    unfold LegalX
    rw [e1, e4]
    decide

/-- C80, the proved part: with slices of at most `W_BIT` bits together, a digital integer multiplication that returns
adds, modulo `2^32`, the products with the weights without their lowest bits, `W_BIT` less the bits of all slices of them.
Missing: a report of the mismatch, which the code does not make (`C80_false`). -/
theorem C80_short_partial (hfam : cfg.mode.family = .int) (hi : ShortSplit cfg) (hdo : cfg.digitalOnly = true)
    (hr : Runs E cfg h x) (hd : Accepted cfg m n)
    (hw : ∀ i j, i < m → j < n → lastWrite h i j = some (W i j)) (hs : cfg.mode = .iOffsWDiff → WidthIs n h)
    (hx : xMvm E cfg x res vec mat m n l = .ok (x', r)) :
    r.size = res.size ∧ (∀ i, m ≤ i → r.get i = res.get i) ∧ ∀ i, i < m → InI32 (r.get i) ∧
      r.get i ≡ res.get i + (∑ j ∈ range n, keptW cfg (W i j) * usedX cfg (vec.get j) + keptError cfg (W i) n)
        [ZMOD 4294967296] :=
  xMvm_kept hfam hi hdo hr hd hw hs hx

namespace Ex'

/-- Five bits in two slices of two and one. -/
def short (md : Mode) : Cfg ℚ := { Ex.cfg md with wBit := 5 }

theorem short_ok (md : Mode) (h : md.family = .int) : ShortSplit (short md) := by
  cases md <;> first
    | exact absurd h (by decide)
    | exact ⟨by decide, by decide, by decide, by decide, by decide, by decide⟩

end Ex'

/-- Weights 30, -15 and 9 act as 28, -12 and 8. -/
example : ∃ x x' r, Runs Ex.env (Ex'.short .iUintWDiff) [.write (Vec.ofList [30, -15, 9]) 1 3] x ∧
    xMvm Ex.env (Ex'.short .iUintWDiff) x (Vec.ofList [0]) (Vec.ofList [1, 2, 3]) (Vec.ofList [30, -15, 9]) 1 3 ""
      = .ok (x', r) ∧ Accepted (Ex'.short .iUintWDiff) 1 3 ∧ ShortSplit (Ex'.short .iUintWDiff) ∧ r.get 0 = 28 ∧
    keptW (Ex'.short .iUintWDiff) (-15) = -12 :=
  ⟨_, _, _, .write (.init (rng := 0) (hists := []) rfl) rfl, rfl, ⟨by decide, by decide, by decide⟩,
    Ex'.short_ok _ rfl, by decide, by decide⟩

/-- The same where the sum of the weights removes the offset of the inputs: the offset of the lost bits stays. -/
example : ∃ x x' r, Runs Ex.env (Ex'.short .iOffsWDiff) [.write (Vec.ofList [30, -14, 9]) 1 3] x ∧
    xMvm Ex.env (Ex'.short .iOffsWDiff) x (Vec.ofList [0]) (Vec.ofList [1, 2, 3]) (Vec.ofList [30, -14, 9]) 1 3 ""
      = .ok (x', r) ∧ WidthIs 3 [.write (Vec.ofList [30, -14, 9]) 1 3] ∧
    keptError (Ex'.short .iOffsWDiff) (fun j => (Vec.ofList [30, -14, 9]).get j) 3 = -4 ∧ r.get 0 = 24 :=
  ⟨_, _, _, .write (.init (rng := 0) (hists := []) rfl) rfl, rfl, by simp [WidthIs], by decide, by decide⟩

/-- C80, the size of the error: a legal weight changes by less than the value of the lowest stored bit, and not at all if
it is a multiple of this value. -/
theorem C80_kept (hfam : cfg.mode.family = .int) (hi : ShortSplit cfg) {w : Int} (h1 : LegalW cfg w) :
    |keptW cfg w - w| < 2 ^ (cfg.wBit - cfg.split.sum) ∧
      (0 < cfg.split.sum → 2 ^ (cfg.wBit - cfg.split.sum) ∣ w → keptW cfg w = w) :=
  keptW_legal hfam hi h1

example : LegalW (Ex'.short .iUintWOffs) (-13) ∧ keptW (Ex'.short .iUintWOffs) (-13) = -16 ∧
    LegalW (Ex'.short .iUintWOffs) (-12) ∧ keptW (Ex'.short .iUintWOffs) (-12) = -12 ∧
    ShortSplit (Ex'.short .iUintWOffs) :=
  ⟨by show (-2 ^ 4 ≤ (-13 : Int) ∧ (-13 : Int) < 2 ^ 4); decide, by decide,
    by show (-2 ^ 4 ≤ (-12 : Int) ∧ (-12 : Int) < 2 ^ 4); decide, by decide, Ex'.short_ok _ rfl⟩

/-- C80, when the products are exact: legal weights that are multiples of the lowest stored bit, inputs that fit in
`I_TC_W_DIFF` and a result of 32 bits. -/
theorem C80_multiples (hfam : cfg.mode.family = .int) (hi : ShortSplit cfg) (h0 : 0 < cfg.split.sum)
    (hdo : cfg.digitalOnly = true) (hr : Runs E cfg h x) (hd : Accepted cfg m n)
    (hw : ∀ i j, i < m → j < n → lastWrite h i j = some (W i j)) (hs : cfg.mode = .iOffsWDiff → WidthIs n h)
    (hx : xMvm E cfg x res vec mat m n l = .ok (x', r)) {i : Nat} (him : i < m)
    (hW : ∀ j, j < n → LegalW cfg (W i j) ∧ 2 ^ (cfg.wBit - cfg.split.sum) ∣ W i j)
    (hX : cfg.mode = .iTcWDiff → LegalVec cfg vec n)
    (hroom : InI32 (res.get i + ∑ j ∈ range n, W i j * vec.get j)) :
    r.get i = res.get i + ∑ j ∈ range n, W i j * vec.get j := by
  have ew : ∀ j, j < n → keptW cfg (W i j) = W i j := fun j hj =>
    (C80_kept hfam hi (hW j hj).1).2 h0 (hW j hj).2
  have ex : ∀ j, j < n → usedX cfg (vec.get j) = vec.get j := fun j hj => by
    unfold usedX
    split
    · rename_i hmd
      have h1 := hX hmd j hj
      have h2 : (2 : Int) ^ cfg.iBit = 2 ^ (cfg.iBit - 1) + 2 ^ (cfg.iBit - 1) := by
        obtain ⟨k, hk⟩ : ∃ k, cfg.iBit = k + 1 := ⟨cfg.iBit - 1, by have := hi.i1; omega⟩
        rw [hk, pow_succ, Nat.add_sub_cancel]; ring
      simp only [LegalX, hmd] at h1
      rw [Int.emod_eq_of_lt (by linarith [h1.1]) (by linarith [h1.2])]; ring
    · rfl
  obtain ⟨h1, h2⟩ := (C80_short_partial hfam hi hdo hr hd hw hs hx).2.2 i him
  have e1 : ∑ j ∈ range n, keptW cfg (W i j) * usedX cfg (vec.get j) = ∑ j ∈ range n, W i j * vec.get j :=
    sum_congr rfl fun j hj => by rw [ew j (mem_range.1 hj), ex j (mem_range.1 hj)]
  have e2 : keptError cfg (W i) n = 0 := by
    unfold keptError
    split
    · rw [sum_eq_zero fun j hj => by rw [ew j (mem_range.1 hj), sub_self], mul_zero]
    · rfl
  rw [e1, e2, add_zero] at h2
  unfold InI32 at h1 hroom
  unfold Int.ModEq at h2
  omega

example : ∃ x x' r, Runs Ex.env (Ex'.short .iTcWDiff) [.write (Vec.ofList [28, -16, 4]) 1 3] x ∧
    xMvm Ex.env (Ex'.short .iTcWDiff) x (Vec.ofList [0]) (Vec.ofList [1, 2, -3]) (Vec.ofList [28, -16, 4]) 1 3 ""
      = .ok (x', r) ∧ Accepted (Ex'.short .iTcWDiff) 1 3 ∧ ShortSplit (Ex'.short .iTcWDiff) ∧
    LegalW (Ex'.short .iTcWDiff) (-16) ∧ (2 : Int) ^ (5 - 3) ∣ -16 ∧ r.get 0 = -16 :=
  ⟨_, _, _, .write (.init (rng := 0) (hists := []) rfl) rfl, rfl, ⟨by decide, by decide, by decide⟩,
    Ex'.short_ok _ rfl, by show |(-16 : Int)| < 2 ^ 5; decide, by decide, by decide⟩

/-- C80, slices of more than `W_BIT` bits together: even if the crossbar can be built, no write of a matrix that is not empty
returns, on digital and analog crossbars alike. -/
theorem C80_long (hfam : cfg.mode.family = .int) (w31 : cfg.wBit ≤ 31) (hlong : cfg.wBit < cfg.split.sum)
    (hr : Runs E cfg h x) (hm : 0 < m) (hn : 0 < n) : xWrite E cfg x mat m n ≠ .ok x' := fun hw => by
  have := xWrite_split hfam w31 hr hm hn hw
  omega

/-- Two slices of two bits for weights of three bits. -/
example : ∃ x, Runs Ex.env { Ex.cfg .iDiffWDiff1 with split := [2, 2] } [] x ∧
    xWrite Ex.env { Ex.cfg .iDiffWDiff1 with split := [2, 2] } x (Vec.ofList [1]) 1 1 = .error .badShift :=
  ⟨_, .init (rng := 0) (hists := []) rfl, rfl⟩

end Acs.Props
