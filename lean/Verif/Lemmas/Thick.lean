import Verif.Lemmas.Widen
import Verif.SpecThick

/-! # More weight bits than necessary -/

set_option linter.unusedSectionVars false

namespace Acs

open Finset Spec

section
variable {K : Type} [Field K] [LinearOrder K] [IsStrictOrderedRing K] [FloorRing K]
variable {cfg : Cfg K} {x : Vec Int} {m n i c : Nat} {l : String} {lo hi : K} {W W' : Nat → Nat → Int}

theorem legalW_thick (hm : twoCells cfg.mode) {w : Int} (h : LegalW cfg w) : LegalW (withTopSlice cfg c) w := by
  have h1 : (2 : Int) ^ cfg.wBit ≤ 2 ^ (cfg.wBit + c) := pow_le_pow_right₀ (by norm_num) (by omega)
  unfold LegalW at h ⊢
  cases hc : cfg.mode <;> simp only [hc, withTopSlice, twoCells] at h hm ⊢ <;> exact h.trans_le h1

theorem twoCells_enc (hm : twoCells cfg.mode) (w : Int) (s : Nat) :
    encP cfg w s = (if 0 ≤ w then bits w (shiftOf cfg.split s) (cfg.split.getD s 0) else 0) ∧
      encM cfg w s = if 0 ≤ w then 0 else bits (-w) (shiftOf cfg.split s) (cfg.split.getD s 0) := by
  unfold encP encM
  cases hc : cfg.mode <;> simp only [hc, twoCells] at hm <;> exact ⟨rfl, rfl⟩

theorem twoCells_nominal (hm : twoCells cfg.mode) (r : Nat) (g : Int) :
    nominal cfg r g = cfg.hrs + g * ((cfg.lrs - cfg.hrs) / (2 ^ cfg.split.getD (r % cfg.split.length) 0 - 1)) := by
  unfold nominal
  cases hc : cfg.mode <;> simp only [hc, twoCells] at hm <;> rfl

/-- The cells for the further bits are in their lowest state. -/
theorem rowDiff_top (hm : twoCells cfg.mode) (hs : cfg.split.sum = cfg.wBit) {j : Nat} (hw : LegalW cfg (W i j)) :
    rowDiff (withTopSlice cfg c) W i 0 j = 0 := by
  have hw' : |W i j| < 2 ^ cfg.wBit := by
    unfold LegalW at hw
    cases hc : cfg.mode <;> simp only [hc, twoCells] at hm hw <;> exact hw
  have hsh : shiftOf (withTopSlice cfg c).split 0 = cfg.wBit := hs
  have hz : ∀ w : Int, 0 ≤ w → w < 2 ^ cfg.wBit → ∀ k, bits w cfg.wBit k = 0 := fun w h0 h1 k => by
    rw [bits, Int.ediv_eq_zero_of_lt h0 h1, Int.zero_emod]
  obtain ⟨e1, e2⟩ := twoCells_enc (cfg := withTopSlice cfg c) hm (W i j) 0
  rw [hsh] at e1 e2
  have hw2 := abs_lt.1 hw'
  unfold rowDiff
  rw [e1, e2]
  split_ifs with h0
  · rw [hz _ h0 hw2.2, sub_self]
  · rw [hz _ (by omega) (by omega), sub_self]

theorem rowDiff_succ (hm : twoCells cfg.mode) {s : Nat} (hs : s < cfg.split.length) (j : Nat) :
    rowDiff (withTopSlice cfg c) W i (s + 1) j = rowDiff cfg W i s j := by
  obtain ⟨e1, e2⟩ := twoCells_enc (cfg := withTopSlice cfg c) hm (W i j) (s + 1)
  obtain ⟨e3, e4⟩ := twoCells_enc hm (W i j) s
  have r1 : (i * (withTopSlice cfg c).split.length + (s + 1)) % (withTopSlice cfg c).split.length = s + 1 := by
    rw [Nat.mul_add_mod_of_lt]
    exact Nat.succ_lt_succ hs
  have r2 : (i * cfg.split.length + s) % cfg.split.length = s := Nat.mul_add_mod_of_lt hs
  unfold rowDiff
  rw [twoCells_nominal (cfg := withTopSlice cfg c) hm, twoCells_nominal (cfg := withTopSlice cfg c) hm, twoCells_nominal hm,
    twoCells_nominal hm, r1, r2, e1, e2, e3, e4]
  rfl

theorem sliceReads_succ (f : Nat → Nat → K) (v : Nat → Int) (sg : K) (N : Nat) : sliceReads cfg lo hi f v n sg (N + 1)
    = sliceReads cfg lo hi f v n sg N ++ ((List.range cfg.split.length).map fun s =>
      reading cfg lo hi (∑ j ∈ range n, f s j * ((bits (v j) N 1 : Int) : K),
        sg * (2 ^ (shiftOf cfg.split s + N) * (2 ^ cfg.split.getD s 0 - 1)) / (cfg.lrs - cfg.hrs))) := by
  unfold sliceReads
  rw [List.range_succ, List.flatMap_append, List.map_append, List.flatMap_singleton, List.map_map]
  rfl

theorem slice_thick (hm : twoCells cfg.mode) (hs : cfg.split.sum = cfg.wBit) (hW : ∀ j, j < n → LegalW cfg (W i j))
    (hz : ∀ k, reading cfg lo hi (0, k) = 0) (v : Nat → Int) (sg : K) (N : Nat) :
    ((List.range (withTopSlice cfg c).split.length).map fun s => reading (withTopSlice cfg c) lo hi
      (∑ j ∈ range n, rowDiff (withTopSlice cfg c) W i s j * ((bits (v j) N 1 : Int) : K),
        sg * (2 ^ (shiftOf (withTopSlice cfg c).split s + N) * (2 ^ (withTopSlice cfg c).split.getD s 0 - 1))
          / ((withTopSlice cfg c).lrs - (withTopSlice cfg c).hrs))).sum
    = ((List.range cfg.split.length).map fun s => reading cfg lo hi
      (∑ j ∈ range n, rowDiff cfg W i s j * ((bits (v j) N 1 : Int) : K),
        sg * (2 ^ (shiftOf cfg.split s + N) * (2 ^ cfg.split.getD s 0 - 1)) / (cfg.lrs - cfg.hrs))).sum := by
  rw [show (withTopSlice cfg c).split.length = cfg.split.length + 1 from rfl, List.range_succ_eq_map, List.map_cons, List.sum_cons,
    List.map_map, sum_eq_zero fun j hj => by rw [rowDiff_top hm hs (hW j (mem_range.1 hj)), zero_mul]]
  refine (congrArg₂ (· + ·) (hz _) (congrArg List.sum (List.map_congr_left fun s hs' => ?_))).trans (zero_add _)
  simp only [Function.comp_apply, Nat.succ_eq_add_one]
  simp only [rowDiff_succ hm (List.mem_range.1 hs')]
  rfl

theorem sliceReads_thick (hm : twoCells cfg.mode) (hs : cfg.split.sum = cfg.wBit) (hW : ∀ j, j < n → LegalW cfg (W i j))
    (hz : ∀ k, reading cfg lo hi (0, k) = 0) (v : Nat → Int) (sg : K) (N : Nat) :
    (sliceReads (withTopSlice cfg c) lo hi (rowDiff (withTopSlice cfg c) W i) v n sg N).sum
      = (sliceReads cfg lo hi (rowDiff cfg W i) v n sg N).sum := by
  induction N with
  | zero => rfl
  | succ N ih =>
    rw [sliceReads_succ, sliceReads_succ, List.sum_append, List.sum_append, ih, slice_thick hm hs hW hz]

theorem sliceReads_length (f : Nat → Nat → K) (v : Nat → Int) (sg : K) (N : Nat) :
    (sliceReads cfg lo hi f v n sg N).length = N * cfg.split.length := by
  induction N with
  | zero => simp [sliceReads]
  | succ N ih => rw [sliceReads_succ, List.length_append, ih, List.length_map, List.length_range, Nat.succ_mul]

theorem rowResult_offsDiff (hm : cfg.mode = .iOffsWDiff) : rowResult cfg lo hi W x n i
    = (sliceReads cfg lo hi (rowDiff cfg W i) (fun j => x.get j + 2 ^ (cfg.iBit - 1)) n 1 (cfg.iBit + 1)).sum
      - 2 ^ (cfg.iBit - 1) * ∑ j ∈ range n, W i j := by
  simp only [rowResult, conversions, hm]
  rfl

theorem rowResult_tc (hm : cfg.mode = .iTcWDiff) (hb : 1 ≤ cfg.iBit) : rowResult cfg lo hi W x n i
    = 2 * (sliceReads cfg lo hi (rowDiff cfg W i) (fun j => x.get j) n 1 (cfg.iBit - 1)).sum
      - (sliceReads cfg lo hi (rowDiff cfg W i) (fun j => x.get j) n 1 cfg.iBit).sum := by
  have e : rowResult cfg lo hi W x n i
      = ((sliceReads cfg lo hi (rowDiff cfg W i) (fun j => x.get j) n 1 cfg.iBit).take ((cfg.iBit - 1) * cfg.split.length)).sum
        - ((sliceReads cfg lo hi (rowDiff cfg W i) (fun j => x.get j) n 1 cfg.iBit).drop ((cfg.iBit - 1) * cfg.split.length)).sum := by
    simp only [rowResult, conversions, hm]
    rfl
  obtain ⟨b, hb⟩ : ∃ b, cfg.iBit = b + 1 := ⟨cfg.iBit - 1, by omega⟩
  rw [e, hb, Nat.add_sub_cancel, sliceReads_succ,
    List.take_left' (sliceReads_length (cfg := cfg) (lo := lo) (hi := hi) _ _ _ _),
    List.drop_left' (sliceReads_length (cfg := cfg) (lo := lo) (hi := hi) _ _ _ _), List.sum_append]
  ring

theorem rowResult_thick (hm : twoCells cfg.mode) (hok : CfgOk cfg) (hA : AdcOk cfg l lo hi)
    (hz : HasZero cfg lo hi) (hW : ∀ j, j < n → LegalW cfg (W i j)) :
    rowResult (withTopSlice cfg c) lo hi W x n i = rowResult cfg lo hi W x n i := by
  have hk : cfg.split.sum = cfg.wBit ∧ 1 ≤ cfg.iBit := by
    unfold CfgOk at hok
    cases hc : cfg.mode <;> simp only [hc, twoCells] at hm hok <;> exact ⟨hok.2.2.1, hok.2.2.2.2.1⟩
  have key := fun v sg N => sliceReads_thick (c := c) hm hk.1 hW (reading_hasZero hA hz) v sg N
  cases hc : cfg.mode <;> simp only [hc, twoCells] at hm
  case iDiffWDiff1 =>
    rw [rowResult_diff (.inl hc), rowResult_diff (cfg := withTopSlice cfg c) (.inl hc), key, key]
    rfl
  case iDiffWDiff2 =>
    rw [rowResult_diff (.inr hc), rowResult_diff (cfg := withTopSlice cfg c) (.inr hc), key, key]
    rfl
  case iOffsWDiff =>
    rw [rowResult_offsDiff hc, rowResult_offsDiff (cfg := withTopSlice cfg c) hc, key]
    rfl
  case iTcWDiff =>
    rw [rowResult_tc hc hk.2, rowResult_tc (cfg := withTopSlice cfg c) hc hk.2, key, key]
    rfl
  case iUintWDiff =>
    rw [rowResult_uint hc, rowResult_uint (cfg := withTopSlice cfg c) hc, key]
    rfl

end

end Acs
