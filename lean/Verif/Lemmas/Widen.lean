import Verif.Lemmas.Odd
import Verif.Lemmas.Related
import Verif.SpecWiden

/-! # More input bits than necessary -/

set_option linter.unusedSectionVars false

namespace Acs

open Finset Spec

section
variable {K : Type} [Field K] [LinearOrder K] [IsStrictOrderedRing K] [FloorRing K]
variable {cfg : Cfg K} {x : Vec Int} {m n i b : Nat} {l : String} {lo hi : K} {W W' : Nat → Nat → Int}

theorem reading_hasZero (hA : AdcOk cfg l lo hi) (hz : HasZero cfg lo hi) (k : K) : reading cfg lo hi (0, k) = 0 := by
  rcases hz with hc | rfl
  · exact reading_none hA hc k
  · have hlt := hA.lt
    rw [reading_eq hA.lt.le]
    show roundAway ((levelOf cfg 0 hi 0 * adcStep cfg 0 hi + 0) * k) = 0
    have e : levelOf cfg 0 hi 0 = 0 := by
      unfold levelOf
      rw [clip_id le_rfl hlt.le, sub_zero, zero_div]
      simpa using roundAway_int (K := K) 0
    rw [e, Int.cast_zero, zero_mul, add_zero, zero_mul]
    simpa using roundAway_int (K := K) 0

theorem sliceReads_more (hz : ∀ k, reading cfg lo hi (0, k) = 0) (f : Nat → Nat → K) {v : Nat → Int} {N : Nat} (sg : K)
    (hv : ∀ j, j < n → 0 ≤ v j ∧ v j < 2 ^ N) {M : Nat} (hM : N ≤ M) :
    (sliceReads cfg lo hi f v n sg M).sum = (sliceReads cfg lo hi f v n sg N).sum := by
  induction M, hM using Nat.le_induction with
  | base => rfl
  | succ M hM ih =>
    rw [← ih]
    unfold sliceReads
    rw [List.range_succ, List.flatMap_append, List.map_append, List.sum_append, List.flatMap_singleton, List.map_map]
    refine add_eq_left.2 (List.sum_eq_zero fun z hz' => ?_)
    obtain ⟨s, -, rfl⟩ := List.mem_map.1 hz'
    have e : ∑ j ∈ range n, f s j * ((bits (v j) M 1 : Int) : K) = 0 := sum_eq_zero fun j hj => by
      obtain ⟨h1, h2⟩ := hv j (mem_range.1 hj)
      rw [bits, Int.ediv_eq_zero_of_lt h1 (h2.trans_le (pow_le_pow_right₀ (by norm_num) hM))]
      simp
    simp only [Function.comp_apply]
    rw [e]
    exact hz _

theorem legalX_widen (hb : cfg.iBit ≤ b) {y : Int} (h : LegalX cfg y) : LegalX (withInputBits cfg b) y := by
  have h1 : (2 : Int) ^ (cfg.iBit - 1) ≤ 2 ^ (b - 1) := pow_le_pow_right₀ (by norm_num) (by omega)
  have h2 : (2 : Int) ^ cfg.iBit ≤ 2 ^ b := pow_le_pow_right₀ (by norm_num) hb
  unfold LegalX at h ⊢
  cases hm : cfg.mode <;> simp only [hm, withInputBits] at h ⊢ <;> first | exact h | exact ⟨by omega, by omega⟩

/-- Differences and single cells of a row. -/
def rowDiff (cfg : Cfg K) (W : Nat → Nat → Int) (i s j : Nat) : K :=
  nominal cfg (i * cfg.split.length + s) (encP cfg (W i j) s) - nominal cfg (i * cfg.split.length + s) (encM cfg (W i j) s)

def rowCell (cfg : Cfg K) (W : Nat → Nat → Int) (i s j : Nat) : K := nominal cfg (i * cfg.split.length + s) (encP cfg (W i j) s)

theorem rowResult_diff (hm : cfg.mode = .iDiffWDiff1 ∨ cfg.mode = .iDiffWDiff2) : rowResult cfg lo hi W x n i
    = (sliceReads cfg lo hi (rowDiff cfg W i) (fun j => max (x.get j) 0) n 1 (cfg.iBit - 1)).sum
      + (sliceReads cfg lo hi (rowDiff cfg W i) (fun j => max (-x.get j) 0) n (-1) cfg.iBit).sum := by
  rcases hm with hm | hm <;>
  · simp only [rowResult, conversions, hm, List.map_append, List.sum_append]
    rfl

theorem rowResult_uint (hm : cfg.mode = .iUintWDiff) : rowResult cfg lo hi W x n i
    = (sliceReads cfg lo hi (rowDiff cfg W i) (fun j => x.get j) n 1 cfg.iBit).sum := by
  simp only [rowResult, conversions, hm]
  rfl

theorem rowResult_offs (hm : cfg.mode = .iUintWOffs) : rowResult cfg lo hi W x n i
    = nearest (((sliceReads cfg lo hi (rowCell cfg W i) (fun j => x.get j) n 1 cfg.iBit).sum : K)
      - (∑ j ∈ range n, x.get j : Int) * (leakage cfg + 2 ^ (cfg.wBit - 1))) := by
  simp only [rowResult, conversions, hm]
  rfl

theorem rowResult_widen (hm : widenFree cfg.mode) (hok : CfgOk cfg) (hb : cfg.iBit ≤ b) (hA : AdcOk cfg l lo hi)
    (hz : HasZero cfg lo hi) (hx : LegalVec cfg x n) :
    rowResult (withInputBits cfg b) lo hi W x n i = rowResult cfg lo hi W x n i := by
  have hz' := reading_hasZero hA hz
  by_cases h1 : cfg.mode = .iDiffWDiff1 ∨ cfg.mode = .iDiffWDiff2
  · have hi1 : 1 ≤ cfg.iBit := by
      rcases h1 with h1 | h1 <;> simp only [CfgOk, h1] at hok <;> exact hok.2.2.2.2.1
    have hx1 : ∀ j, j < n → -2 ^ (cfg.iBit - 1) ≤ x.get j ∧ x.get j < 2 ^ (cfg.iBit - 1) := fun j hj => by
      have := hx j hj
      rcases h1 with h1 | h1 <;> simpa only [LegalX, h1] using this
    have hp : (0 : Int) < 2 ^ (cfg.iBit - 1) := by positivity
    have hp2 : (2 : Int) ^ (cfg.iBit - 1) < 2 ^ cfg.iBit := pow_lt_pow_right₀ (by norm_num) (by omega)
    refine (rowResult_diff (cfg := withInputBits cfg b) h1).trans ?_
    rw [rowResult_diff h1]
    exact congrArg₂ (· + ·)
      (sliceReads_more hz' (rowDiff cfg W i) (N := cfg.iBit - 1) 1 (fun j hj => ⟨le_max_right _ _, max_lt (hx1 j hj).2 hp⟩)
        (Nat.sub_le_sub_right hb 1))
      (sliceReads_more hz' (rowDiff cfg W i) (N := cfg.iBit) (-1)
        (fun j hj => ⟨le_max_right _ _, max_lt (by have := (hx1 j hj).1; omega) (by omega)⟩) hb)
  by_cases h2 : cfg.mode = .iUintWDiff
  · refine (rowResult_uint (cfg := withInputBits cfg b) h2).trans ?_
    rw [rowResult_uint h2]
    exact sliceReads_more hz' (rowDiff cfg W i) (N := cfg.iBit) 1 (fun j hj => by
      have := hx j hj
      simpa only [LegalX, h2] using this) hb
  by_cases h3 : cfg.mode = .iUintWOffs
  · refine (rowResult_offs (cfg := withInputBits cfg b) h3).trans ?_
    rw [rowResult_offs h3]
    exact congrArg (fun z : Int => nearest ((z : K) - (∑ j ∈ range n, x.get j : Int) * (leakage cfg + 2 ^ (cfg.wBit - 1))))
      (sliceReads_more hz' (rowCell cfg W i) (N := cfg.iBit) 1 (fun j hj => by
        have := hx j hj
        simpa only [LegalX, h3] using this) hb)
  have key : ∀ md, md = cfg.mode → rowResult (withMode (withInputBits cfg b) md) lo hi W x n i
      = rowResult (withMode cfg md) lo hi W x n i := fun md hmd => by
    rw [← hmd] at hm h1 h2 h3
    cases md <;> first | rfl | exact absurd rfl h2 | exact absurd rfl h3 | exact absurd (.inl rfl) h1 | exact absurd (.inr rfl) h1 | exact hm.elim
  exact key cfg.mode rfl

theorem rowResult_sameBlock (h : SameBlock W W' m n) (hi' : i < m) :
    rowResult cfg lo hi W' x n i = rowResult cfg lo hi W x n i :=
  row_same (m := m) ⟨fun i j hi hj => by rw [h i j hi hj, one_mul], fun j _ => (one_mul _).symm⟩ hi'

end

end Acs
