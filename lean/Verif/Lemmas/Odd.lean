import Verif.Lemmas.Rank
import Verif.SpecOdd

/-! # Inputs of the opposite sign -/

set_option linter.unusedSectionVars false

namespace Acs

open Finset Spec

section
variable {K : Type} [Field K] [LinearOrder K] [IsStrictOrderedRing K] [FloorRing K]
variable {cfg : Cfg K} {vec vec' : Vec Int} {n i : Nat} {l : String} {lo hi : K} {W : Nat → Nat → Int}

theorem roundAway_opp (y : K) : roundAway (-y) = -roundAway y := by
  unfold roundAway
  rcases lt_trichotomy y 0 with h | rfl | h
  · rw [if_pos (by linarith), if_neg (by linarith), ← Int.floor_neg]
    congr 1; ring
  · have a : ⌊(1 / 2 : K)⌋ = 0 := by rw [Int.floor_eq_iff]; constructor <;> norm_num
    rw [neg_zero, if_pos le_rfl, zero_add, a, neg_zero]
  · rw [if_neg (by linarith), if_pos (by linarith), ← Int.ceil_neg]
    congr 1; ring

/-- Half of the distance between the lowest and the highest level. -/
theorem centred_half (hA : AdcOk cfg l lo hi) (hc : Centred cfg lo hi) :
    ∃ k : Int, (k : K) * adcStep cfg lo hi = hi := by
  have h := levels_mul_step hA
  have hr := hA.res
  rw [if_pos hc.type] at hr
  obtain ⟨p, hp⟩ : ∃ p : Nat, cfg.resolution.toNat = p + 1 := ⟨cfg.resolution.toNat - 1, by omega⟩
  have e : adcLevels cfg - 1 = 2 * (2 ^ p - 1) := by
    simp only [adcLevels, hc.type, hp, pow_succ]
    ring
  refine ⟨2 ^ p - 1, ?_⟩
  rw [e, hc.range] at h
  push_cast at h ⊢
  rw [hc.range]
  linarith

theorem clip_neg (h : 0 ≤ hi) (a : K) : clip (-a) (-hi) hi = -clip a (-hi) hi := by
  simp only [clip]
  split_ifs <;> linarith

theorem level_neg (hA : AdcOk cfg l lo hi) (hc : Centred cfg lo hi) {a : K} (hm : ¬Halfway cfg lo hi a) :
    levelOf cfg lo hi (-a) * adcStep cfg lo hi + lo = -(levelOf cfg lo hi a * adcStep cfg lo hi + lo) := by
  obtain ⟨k, hk⟩ := centred_half hA hc
  have hq := adcOk_step_pos hA
  have hlt := hA.lt
  have hhi : 0 ≤ hi := by have := hc.range; linarith
  set q := adcStep cfg lo hi with hqd
  set y := (clip a lo hi - lo) / q with hy
  have e : (clip (-a) lo hi - lo) / q = ((2 * k : Int) : K) - y := by
    rw [hy, hc.range, clip_neg hhi, eq_sub_iff_add_eq, ← add_div, div_eq_iff hq.ne']
    push_cast
    linear_combination -2 * hk
  have hne : |y - roundAway y| < 1 / 2 := by
    refine lt_of_le_of_ne (by rw [abs_sub_comm]; exact roundAway_near y) fun h => hm ?_
    have e2 : clip a lo hi = lo + y * q := by rw [hy, div_mul_cancel₀ _ hq.ne']; ring
    rw [clip_eq hlt.le] at e2
    rcases abs_eq (by norm_num : (0 : K) ≤ 1 / 2) |>.1 h with h | h
    · exact ⟨roundAway y, by rw [e2, ← hqd]; congr 2; linarith⟩
    · exact ⟨roundAway y - 1, by rw [e2, ← hqd]; congr 2; push_cast; linarith⟩
  have e3 : levelOf cfg lo hi (-a) = 2 * k - roundAway y := by
    unfold levelOf
    rw [← hqd, e]
    refine roundAway_of_near ?_
    push_cast
    rw [show ((2 : K) * k - y - (2 * k - roundAway y)) = -(y - roundAway y) by ring, abs_neg]
    exact hne
  rw [e3, show levelOf cfg lo hi a = roundAway y from rfl, hc.range]
  push_cast
  linear_combination 2 * hk

/-- Currents of opposite sign. -/
theorem reading_opp (hA : AdcOk cfg l lo hi) (hc : Centred cfg lo hi) {a k : K} (hm : ¬Halfway cfg lo hi a) :
    reading cfg lo hi (-a, k) = -reading cfg lo hi (a, k) := by
  rw [reading_eq hA.lt.le, reading_eq hA.lt.le]
  show roundAway ((levelOf cfg lo hi (-a) * adcStep cfg lo hi + lo) * k) = -roundAway ((levelOf cfg lo hi a * adcStep cfg lo hi + lo) * k)
  rw [level_neg hA hc hm, neg_mul, roundAway_opp]

/-- Factors of opposite sign. -/
theorem reading_factor (hA : AdcOk cfg l lo hi) (a k : K) : reading cfg lo hi (a, -k) = -reading cfg lo hi (a, k) := by
  rw [reading_eq hA.lt.le, reading_eq hA.lt.le]
  show roundAway ((levelOf cfg lo hi a * adcStep cfg lo hi + lo) * -k) = -roundAway ((levelOf cfg lo hi a * adcStep cfg lo hi + lo) * k)
  rw [mul_neg, roundAway_opp]

/-- No current. -/
theorem reading_none (hA : AdcOk cfg l lo hi) (hc : Centred cfg lo hi) (k : K) : reading cfg lo hi (0, k) = 0 := by
  obtain ⟨z, hz⟩ := centred_half hA hc
  have hq := adcOk_step_pos hA
  have hlt := hA.lt
  have hr := hc.range
  rw [reading_eq hA.lt.le]
  show roundAway ((levelOf cfg lo hi 0 * adcStep cfg lo hi + lo) * k) = 0
  have e : levelOf cfg lo hi 0 = z := by
    unfold levelOf
    rw [clip_id (by linarith) (by linarith), show (0 - lo) / adcStep cfg lo hi = z by
      rw [div_eq_iff hq.ne', hz, hr]; ring]
    exact roundAway_int z
  rw [e, hz, hr, add_neg_cancel, zero_mul]
  simpa using roundAway_int (K := K) 0

theorem rowResult_opp_bin (hm : cfg.mode = .bnn6 ∨ cfg.mode = .tnn1) (hA : AdcOk cfg l lo hi) (hc : Centred cfg lo hi)
    (hW : ∀ j, j < n → LegalW cfg (W i j)) (hx : LegalVec cfg vec n) (hx' : LegalVec cfg vec' n)
    (ho : Opposite vec vec' n) (hh : ¬Halfway cfg lo hi ((cfg.lrs - cfg.hrs) * (prod W vec n i : Int))) :
    rowResult cfg lo hi W vec' n i = -rowResult cfg lo hi W vec n i := by
  have e : prod W vec' n i = -prod W vec n i := by
    unfold prod
    rw [← sum_neg_distrib]
    exact sum_congr rfl fun j hj => by rw [ho j (mem_range.1 hj)]; ring
  rcases hm with hm | hm
  · simp only [rowResult, hm, current_signed (.inl hm) hW hx, current_signed (.inl hm) hW hx', List.map_cons, List.map_nil,
      List.getD_cons_zero, e, Int.cast_neg, mul_neg]
    exact reading_opp hA hc hh
  · simp only [rowResult, hm, current_signed (.inr hm) hW hx, current_signed (.inr hm) hW hx', List.map_cons, List.map_nil,
      List.getD_cons_zero, e, Int.cast_neg, mul_neg]
    exact reading_opp hA hc hh

/-- The readings for the bits of `v`, `N` of them. -/
def sliceReads (cfg : Cfg K) (lo hi : K) (f : Nat → Nat → K) (v : Nat → Int) (n : Nat) (sg : K) (N : Nat) : List Int :=
  ((List.range N).flatMap fun b => (List.range cfg.split.length).map fun s =>
      (∑ j ∈ range n, f s j * ((bits (v j) b 1 : Int) : K),
        sg * (2 ^ (shiftOf cfg.split s + b) * (2 ^ cfg.split.getD s 0 - 1)) / (cfg.lrs - cfg.hrs))).map (reading cfg lo hi)

theorem sliceReads_congr {f : Nat → Nat → K} {u v : Nat → Int} (h : ∀ j, j < n → u j = v j) (sg : K) (N : Nat) :
    sliceReads cfg lo hi f u n sg N = sliceReads cfg lo hi f v n sg N := by
  have e : ∀ s b, ∑ j ∈ range n, f s j * ((bits (u j) b 1 : Int) : K) = ∑ j ∈ range n, f s j * ((bits (v j) b 1 : Int) : K) :=
    fun s b => sum_congr rfl fun j hj => by rw [h j (mem_range.1 hj)]
  simp only [sliceReads, e]

theorem sliceReads_neg (hA : AdcOk cfg l lo hi) (f : Nat → Nat → K) (v : Nat → Int) (N : Nat) :
    (sliceReads cfg lo hi f v n (-1) N).sum = -(sliceReads cfg lo hi f v n 1 N).sum := by
  induction N with
  | zero => rfl
  | succ N ih =>
    unfold sliceReads at ih ⊢
    rw [List.range_succ, List.flatMap_append, List.flatMap_append, List.map_append, List.map_append, List.sum_append,
      List.sum_append, ih, neg_add]
    congr 1
    rw [List.flatMap_singleton, List.flatMap_singleton, List.map_map, List.map_map]
    generalize List.range cfg.split.length = L
    induction L with
    | nil => rfl
    | cons s L ihL =>
      rw [List.map_cons, List.map_cons, List.sum_cons, List.sum_cons, ihL, neg_add]
      congr 1
      simp only [Function.comp_apply]
      rw [neg_one_mul, neg_div, reading_factor hA, one_mul]

theorem sliceReads_top (hA : AdcOk cfg l lo hi) (hc : Centred cfg lo hi) (f : Nat → Nat → K) {v : Nat → Int} {N : Nat}
    (hv : ∀ j, j < n → 0 ≤ v j ∧ v j < 2 ^ N) :
    (sliceReads cfg lo hi f v n 1 (N + 1)).sum = (sliceReads cfg lo hi f v n 1 N).sum := by
  unfold sliceReads
  rw [List.range_succ, List.flatMap_append, List.map_append, List.sum_append, List.flatMap_singleton, List.map_map]
  refine add_eq_left.2 (List.sum_eq_zero fun z hz => ?_)
  obtain ⟨s, -, rfl⟩ := List.mem_map.1 hz
  have e : ∑ j ∈ range n, f s j * ((bits (v j) N 1 : Int) : K) = 0 := sum_eq_zero fun j hj => by
    obtain ⟨h1, h2⟩ := hv j (mem_range.1 hj)
    rw [bits, Int.ediv_eq_zero_of_lt h1 h2]
    simp
  simp only [Function.comp_apply]
  rw [e]
  exact reading_none hA hc _

theorem rowResult_opp_int (hm : cfg.mode = .iDiffWDiff1 ∨ cfg.mode = .iDiffWDiff2) (hb : 1 ≤ cfg.iBit) (hA : AdcOk cfg l lo hi)
    (hc : Centred cfg lo hi) (hx : LegalVec cfg vec n) (hx' : LegalVec cfg vec' n) (ho : Opposite vec vec' n) :
    rowResult cfg lo hi W vec' n i = -rowResult cfg lo hi W vec n i := by
  obtain ⟨b, hb⟩ : ∃ b, cfg.iBit = b + 1 := ⟨cfg.iBit - 1, by omega⟩
  let f : Nat → Nat → K := fun s j => nominal cfg (i * cfg.split.length + s) (encP cfg (W i j) s)
    - nominal cfg (i * cfg.split.length + s) (encM cfg (W i j) s)
  have key : ∀ x : Vec Int, rowResult cfg lo hi W x n i
      = (sliceReads cfg lo hi f (fun j => max (x.get j) 0) n 1 b).sum
        + (sliceReads cfg lo hi f (fun j => max (-x.get j) 0) n (-1) (b + 1)).sum := fun x => by
    rcases hm with hm | hm <;>
    · simp only [rowResult, conversions, hm, hb, Nat.add_sub_cancel, List.map_append, List.sum_append]
      rfl
  have hx1 : ∀ j, j < n → -2 ^ b ≤ vec.get j ∧ vec.get j < 2 ^ b := fun j hj => by
    have := hx j hj
    rcases hm with hm | hm <;> simpa only [LegalX, hm, hb, Nat.add_sub_cancel] using this
  have hx2 : ∀ j, j < n → -2 ^ b ≤ vec'.get j ∧ vec'.get j < 2 ^ b := fun j hj => by
    have := hx' j hj
    rcases hm with hm | hm <;> simpa only [LegalX, hm, hb, Nat.add_sub_cancel] using this
  have hp : (0 : Int) < 2 ^ b := by positivity
  have eP : sliceReads cfg lo hi f (fun j => max (vec'.get j) 0) n 1 b
      = sliceReads cfg lo hi f (fun j => max (-vec.get j) 0) n 1 b :=
    sliceReads_congr (fun j hj => by rw [ho j hj]) _ _
  have eM : sliceReads cfg lo hi f (fun j => max (-vec'.get j) 0) n (-1) (b + 1)
      = sliceReads cfg lo hi f (fun j => max (vec.get j) 0) n (-1) (b + 1) :=
    sliceReads_congr (fun j hj => by rw [ho j hj, neg_neg]) _ _
  rw [key, key, eP, eM, sliceReads_neg hA, sliceReads_neg hA,
    sliceReads_top hA hc f (v := fun j => max (vec.get j) 0) (N := b) fun j hj => ⟨le_max_right _ _, max_lt (hx1 j hj).2 hp⟩,
    sliceReads_top hA hc f (v := fun j => max (-vec.get j) 0) (N := b) fun j hj =>
      ⟨le_max_right _ _, max_lt (by rw [← ho j hj]; exact (hx2 j hj).2) hp⟩]
  ring

end

end Acs
