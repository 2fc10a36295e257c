import Verif.SpecAdcTest
import Verif.Lemmas.Reading
import Verif.Lemmas.InRange

/-! # Lemmas for C92 -/

set_option linter.unusedSectionVars false

namespace Acs

open Finset Spec

section
variable {K : Type} [Field K] [LinearOrder K] [IsStrictOrderedRing K] [FloorRing K]
variable {E : Env K} {cfg : Cfg K} {vec res : Vec Int} {m n : Nat} {l : String} {lo hi : K} {W : Nat → Nat → Int}

/-! ## Rounding -/

theorem pyRound_lower {y : K} {z : Int} (h : z + 1 ≤ pyRound y) : (z : K) + 1 / 2 ≤ y := by
  have h1 := Int.floor_le y
  unfold pyRound at h
  split at h
  · have : ((z + 1 : Int) : K) ≤ (⌊y⌋ : K) := Int.cast_le.2 h
    push_cast at this
    linarith
  · next h2 =>
    rw [not_or, not_lt] at h2
    have : ((z + 1 : Int) : K) ≤ ((⌊y⌋ + 1 : Int) : K) := Int.cast_le.2 h
    push_cast at this
    linarith [h2.1]

theorem pyRound_upper {y : K} {z : Int} (h : pyRound y + 1 ≤ z) : y ≤ (z : K) - 1 / 2 := by
  have h1 := Int.lt_floor_add_one y
  unfold pyRound at h
  split at h
  · next h2 =>
    have : ((⌊y⌋ + 1 : Int) : K) ≤ (z : K) := Int.cast_le.2 h
    push_cast at this
    have h3 : y - ⌊y⌋ ≤ 1 / 2 := by rcases h2 with h2 | h2; exacts [h2.le, h2.1.le]
    linarith
  · have : ((⌊y⌋ + 1 + 1 : Int) : K) ≤ (z : K) := Int.cast_le.2 h
    push_cast at this
    linarith

/-- An integer nearest to a number that is at most `e` away from `c`. -/
theorem within_half {y e : K} {c r : Int} (hr : |y - r| ≤ 1 / 2) (hy : |y - c| ≤ e)
    (ht : ∀ t : Int, 2 * e = t → ∃ u : Int, y = u) : pyRound ((c : K) - e) ≤ r ∧ r ≤ pyRound ((c : K) + e) := by
  rw [abs_le] at hr hy
  have odd : ∀ a b : Int, (a : K) = (b : K) + 1 / 2 → False := fun a b h => by
    have : ((2 * a : Int) : K) = ((2 * b + 1 : Int) : K) := by push_cast; linarith
    have := Int.cast_injective this
    omega
  constructor
  · by_contra h
    have h1 := pyRound_lower (y := (c : K) - e) (z := r) (by omega)
    obtain ⟨u, hu⟩ := ht (2 * c - 2 * r - 1) (by push_cast; linarith)
    exact odd u r (by linarith)
  · by_contra h
    have h1 := pyRound_upper (y := (c : K) + e) (z := r) (by omega)
    obtain ⟨u, hu⟩ := ht (2 * r - 2 * c - 1) (by push_cast; linarith)
    exact odd r u (by linarith)

theorem within_one {y e : K} {c r : Int} (hr : |y - r| ≤ 1) (hy : |y - c| ≤ e) :
    pyRound ((c : K) - e) - 1 ≤ r ∧ r ≤ pyRound ((c : K) + e) + 1 := by
  rw [abs_le] at hr hy
  constructor
  · by_contra h
    have h1 := pyRound_lower (y := (c : K) - e) (z := r + 1) (by omega)
    push_cast at h1
    linarith
  · by_contra h
    have h1 := pyRound_upper (y := (c : K) + e) (z := r - 1) (by omega)
    push_cast at h1
    linarith

/-! ## The converter of the tests -/

theorem oneSlice_ok (h : OneSlice cfg) : AdcOk cfg l (maxRange cfg).1 (maxRange cfg).2 where
  real := by
    have := h.adc
    unfold adcFits at this
    intro h'
    rw [h'] at this
    revert this
    cases cfg.mode <;> simp
  res := h.res
  res30 := h.res30
  range := by
    have := h.adc
    unfold adcFits at this
    unfold adcRange maxRange
    rw [h.calib]
    cases ht : cfg.adcType
    · rw [ht] at this
      revert this
      cases cfg.mode <;> simp
    all_goals rfl
  lt := by
    have h1 : (0 : K) < cfg.N := Nat.cast_pos.2 h.cols
    have h2 := h.high
    have h3 := h.low
    unfold maxRange
    split
    · have := mul_pos h1 (sub_pos.2 h2)
      show -_ < _
      linarith
    · exact mul_pos h1 (by linarith)

/-- One conversion with the factor of the tests. -/
theorem reading_one (h : OneSlice cfg) {a k : K} (hk : k = (2 ^ cfg.wBit - 1) / (cfg.lrs - cfg.hrs) ∨
      k = -((2 ^ cfg.wBit - 1) / (cfg.lrs - cfg.hrs))) (h1 : (maxRange cfg).1 ≤ a) (h2 : a ≤ (maxRange cfg).2) :
    ∃ y : K, |y - reading cfg (maxRange cfg).1 (maxRange cfg).2 (a, k)| ≤ 1 / 2 ∧ |y - a * k| ≤ testError cfg ∧
      ∀ t : Int, 2 * testError cfg = t → ∃ u : Int, y = u := by
  have hA := oneSlice_ok (l := "") h
  have hq := adcOk_step_pos hA
  have hd : (0 : K) < cfg.lrs - cfg.hrs := sub_pos.2 h.high
  have hw : (0 : K) < 2 ^ cfg.wBit - 1 := by
    have : (1 : K) < 2 ^ cfg.wBit := one_lt_pow₀ (by norm_num) (by have := h.width; omega)
    linarith
  have hg : 0 < (2 ^ cfg.wBit - 1) / (cfg.lrs - cfg.hrs) := div_pos hw hd
  have hs : adcStep cfg (maxRange cfg).1 (maxRange cfg).2 = testDelta cfg := by
    unfold adcStep testDelta maxRange adcLevels
    cases cfg.adcType <;> simp only
    · push_cast; rw [sub_zero]
    · push_cast
      congr 1 <;> ring
    · push_cast; rw [sub_zero]
  have he : adcStep cfg (maxRange cfg).1 (maxRange cfg).2 * ((2 ^ cfg.wBit - 1) / (cfg.lrs - cfg.hrs))
      = 2 * testError cfg := by
    rw [hs]
    unfold testError
    field_simp
  have hk' : |k| = (2 ^ cfg.wBit - 1) / (cfg.lrs - cfg.hrs) := by
    rcases hk with rfl | rfl
    · exact abs_of_pos hg
    · rw [abs_neg, abs_of_pos hg]
  refine ⟨(levelOf cfg (maxRange cfg).1 (maxRange cfg).2 a * adcStep cfg (maxRange cfg).1 (maxRange cfg).2
    + (maxRange cfg).1) * k, ?_, ?_, fun t ht => ?_⟩
  · rw [reading_eq hA.lt.le, abs_sub_comm]
    exact roundAway_near _
  · rw [← sub_mul, abs_mul, hk']
    have := mul_le_mul_of_nonneg_right (level_near hA h1 h2) hg.le
    linarith
  · rw [← he] at ht
    obtain ⟨z, hz⟩ : ∃ z : Int, (maxRange cfg).1 * ((2 ^ cfg.wBit - 1) / (cfg.lrs - cfg.hrs)) = z := by
      unfold maxRange
      split
      · refine ⟨-(cfg.N * (2 ^ cfg.wBit - 1)), ?_⟩
        push_cast
        field_simp
      · exact ⟨0, by simp⟩
    have e : (levelOf cfg (maxRange cfg).1 (maxRange cfg).2 a * adcStep cfg (maxRange cfg).1 (maxRange cfg).2
        + (maxRange cfg).1) * ((2 ^ cfg.wBit - 1) / (cfg.lrs - cfg.hrs))
        = ((levelOf cfg (maxRange cfg).1 (maxRange cfg).2 a * t + z : Int) : K) := by
      rw [add_mul, mul_assoc, ht, hz]
      push_cast
      ring
    rcases hk with rfl | rfl
    · exact ⟨_, e⟩
    · exact ⟨-(levelOf cfg (maxRange cfg).1 (maxRange cfg).2 a * t + z), by rw [mul_neg, e, Int.cast_neg]⟩

/-- Zero is a level of a symmetric converter. -/
theorem reading_zero (h : OneSlice cfg) (ht : cfg.adcType = .sym) (k : K) :
    reading cfg (maxRange cfg).1 (maxRange cfg).2 (0, k) = 0 := by
  have hA := oneSlice_ok (l := "") h
  have hq := adcOk_step_pos hA
  have hr := h.res
  rw [if_pos ht] at hr
  obtain ⟨b, hb⟩ : ∃ b, cfg.resolution.toNat = b + 1 := ⟨cfg.resolution.toNat - 1, by omega⟩
  have e1 : (maxRange cfg).2 = -(maxRange cfg).1 := by unfold maxRange; rw [ht]; simp
  have e2 := levels_mul_step hA
  have e3 : adcLevels cfg - 1 = 2 * (2 ^ b - 1) := by
    unfold adcLevels
    rw [ht, hb]
    simp only [pow_succ]
    ring
  have e4 : -(maxRange cfg).1 = ((2 ^ b - 1 : Int) : K) * adcStep cfg (maxRange cfg).1 (maxRange cfg).2 := by
    rw [e3, e1] at e2
    rw [e1]
    push_cast at e2 ⊢
    linarith
  have hlo : (maxRange cfg).1 ≤ 0 ∧ 0 ≤ (maxRange cfg).2 := by
    have := hA.lt
    rw [e1] at this ⊢
    constructor <;> linarith
  rw [reading_eq hA.lt.le]
  show roundAway ((levelOf cfg (maxRange cfg).1 (maxRange cfg).2 0 * _ + _) * k) = 0
  unfold levelOf
  rw [clip_id hlo.1 hlo.2, zero_sub]
  nth_rw 1 [e4]
  rw [mul_div_cancel_right₀ _ hq.ne', roundAway_int, ← e4, neg_add_cancel, zero_mul]
  simpa using roundAway_int (K := K) 0

/-! ## Rows -/

namespace Spec.OneSlice
variable (h : OneSlice cfg)
include h

theorem delta : (0 : K) < cfg.lrs - cfg.hrs := sub_pos.2 h.high

theorem mask : (0 : K) < 2 ^ cfg.wBit - 1 := by
  have : (1 : K) < 2 ^ cfg.wBit := one_lt_pow₀ (by norm_num) (by have := h.width; omega)
  linarith

theorem pairW (hm : cfg.mode ≠ .iUintWOffs) {w : Int} (hw : LegalW cfg w) (r : Nat) :
    nominal cfg r (encP cfg w 0) - nominal cfg r (encM cfg w 0) = w * ((cfg.lrs - cfg.hrs) / (2 ^ cfg.wBit - 1)) := by
  rw [nominal_int h.int, nominal_int h.int]
  have e : (encP cfg w 0 : Int) - encM cfg w 0 = w := by
    have hi := h.int
    unfold LegalW at hw
    unfold encP encM
    cases hmd : cfg.mode <;> simp only [hmd] at hw hm hi ⊢
    case iUintWOffs => exact absurd rfl hm
    all_goals first
      | exact absurd hi (by decide)
      | (simp only [h.split, shiftOf, bits, List.drop_succ_cons, List.drop_nil, List.sum_nil, pow_zero, Int.ediv_one,
          List.getD_cons_zero]
         rw [abs_lt] at hw
         split
         · rw [Int.emod_eq_of_lt (by omega) (by omega)]; ring
         · rw [Int.emod_eq_of_lt (by omega) (by omega)]; ring)
  have e1 : cfg.split.getD (r % cfg.S) 0 = cfg.wBit := by
    unfold Cfg.S
    rw [h.split, List.length_singleton, Nat.mod_one]
    rfl
  rw [e1]
  have e2 : ((encP cfg w 0 - encM cfg w 0 : Int) : K) = (w : K) := by rw [e]
  push_cast at e2
  rw [← e2]
  ring

theorem lineW (hm : cfg.mode = .iUintWOffs) {w : Int} (hw : LegalW cfg w) (r : Nat) :
    nominal cfg r (encP cfg w 0) = cfg.hrs + ((w + 2 ^ (cfg.wBit - 1) : Int) : K) * ((cfg.lrs - cfg.hrs) / (2 ^ cfg.wBit - 1)) := by
  rw [nominal_int h.int]
  have e1 : cfg.split.getD (r % cfg.S) 0 = cfg.wBit := by
    unfold Cfg.S
    rw [h.split, List.length_singleton, Nat.mod_one]
    rfl
  have e2 : encP cfg w 0 = w + 2 ^ (cfg.wBit - 1) := by
    unfold LegalW at hw
    unfold encP
    simp only [hm] at hw ⊢
    simp only [h.split, shiftOf, bits, List.drop_succ_cons, List.drop_nil, List.sum_nil, pow_zero, Int.ediv_one,
      List.getD_cons_zero]
    have e3 : (2 : Int) ^ cfg.wBit = 2 * 2 ^ (cfg.wBit - 1) := by
      rw [← pow_succ']; congr 1; have := h.width; omega
    exact Int.emod_eq_of_lt (by omega) (by omega)
  rw [e1, e2]

theorem leak : leakage cfg = (2 ^ cfg.wBit - 1) * cfg.hrs / (cfg.lrs - cfg.hrs) := by
  unfold leakage
  rw [h.split]
  simp [shiftOf]

/-- A conversion of the difference of two columns. -/
theorem pairConv_val (hm : cfg.mode ≠ .iUintWOffs) {i : Nat} (hW : ∀ j, j < n → LegalW cfg (W i j)) (sg : K) (v : Int → Int) (b : Nat) :
    pairConv cfg W vec n sg v b i 0
      = (((∑ j ∈ range n, W i j * bits (v (vec.get j)) b 1 : Int) : K) * ((cfg.lrs - cfg.hrs) / (2 ^ cfg.wBit - 1)),
        sg * 2 ^ b * ((2 ^ cfg.wBit - 1) / (cfg.lrs - cfg.hrs))) := by
  unfold pairConv
  rw [sum_congr rfl fun j hj => by rw [h.pairW hm (hW j (mem_range.1 hj))]]
  refine Prod.ext ?_ ?_
  · push_cast
    rw [sum_mul]
    exact sum_congr rfl fun j _ => by ring
  · simp only [h.split, shiftOf, List.drop_succ_cons, List.drop_nil, List.sum_nil, List.getD_cons_zero, zero_add]
    ring

theorem lineConv_val (hm : cfg.mode = .iUintWOffs) {i : Nat} (hW : ∀ j, j < n → LegalW cfg (W i j)) (b : Nat) :
    lineConv cfg W vec n b i 0
      = (∑ j ∈ range n, (cfg.hrs + ((W i j + 2 ^ (cfg.wBit - 1) : Int) : K) * ((cfg.lrs - cfg.hrs) / (2 ^ cfg.wBit - 1)))
          * (bits (vec.get j) b 1 : K), 2 ^ b * ((2 ^ cfg.wBit - 1) / (cfg.lrs - cfg.hrs))) := by
  unfold lineConv
  rw [sum_congr rfl fun j hj => by rw [h.lineW hm (hW j (mem_range.1 hj))]]
  refine Prod.ext rfl ?_
  simp only [h.split, shiftOf, List.drop_succ_cons, List.drop_nil, List.sum_nil, List.getD_cons_zero, zero_add]
  ring

/-- The claim of the tests for one row. -/
theorem row (hm : cfg.mode ≠ .iUintWOffs) (hn : n ≤ cfg.N) (hW : LegalMat cfg W m n) (hx : LegalVec cfg vec n) {i : Nat}
    (hi : i < m) : WithinTest cfg 0 (prod W vec n i)
      (rowResult cfg (maxRange cfg).1 (maxRange cfg).2 W vec n i) := by
  have hA := oneSlice_ok (l := "") h
  have hrg := conversions_in_range (vec := vec) (i := i) h.low h.high.le h.calib h.adc hA.range hn
    (fun h' => by have := h.int; rcases h' with h' | h' <;> rw [h'] at this <;> exact absurd this (by decide)) hW hx hi
  have hd := h.delta
  have hk := h.mask
  have hW' : ∀ j, j < n → LegalW cfg (W i j) := fun j hj => hW i j hi hj
  have one : ∀ (sg : Int) (v : Int → Int), sg = 1 ∨ sg = -1 →
      pairConv cfg W vec n (sg : K) v 0 i 0 ∈ conversions cfg W vec n i →
      ∃ y : K, |y - reading cfg (maxRange cfg).1 (maxRange cfg).2 (pairConv cfg W vec n (sg : K) v 0 i 0)| ≤ 1 / 2 ∧
        |y - ((sg * ∑ j ∈ range n, W i j * bits (v (vec.get j)) 0 1 : Int) : K)| ≤ testError cfg ∧
        ∀ t : Int, 2 * testError cfg = t → ∃ u : Int, y = u := by
    intro sg v hsg hmem
    obtain ⟨h1, h2⟩ := hrg _ hmem
    obtain ⟨y, e1, e2, e3⟩ := reading_one h (k := (pairConv cfg W vec n (sg : K) v 0 i 0).2) (by
      rw [h.pairConv_val hm hW']
      rcases hsg with rfl | rfl
      · left; push_cast; ring
      · right; push_cast; ring) h1 h2
    refine ⟨y, e1, ?_, e3⟩
    rw [h.pairConv_val hm hW'] at e2
    convert e2 using 3
    push_cast
    field_simp
  have sumE : ∀ {f g : Nat → Int}, (∀ j, j < n → f j = g j) → ∑ j ∈ range n, f j = ∑ j ∈ range n, g j :=
    fun hfg => sum_congr rfl fun j hj => hfg j (mem_range.1 hj)
  have hi0 := h.int
  unfold LegalVec LegalX at hx
  unfold WithinTest
  rw [sub_zero, add_zero]
  unfold prod
  cases hmd : cfg.mode <;> simp only [hmd] at hx hm hi0
  case iUintWOffs => exact absurd rfl hm
  case iUintWDiff =>
    obtain ⟨y, e1, e2, e3⟩ := one 1 _root_.id (.inl rfl) (by
      simp only [conversions, hmd, h.input, h.split]
      simp [pairConv, h.split])
    have e : rowResult cfg (maxRange cfg).1 (maxRange cfg).2 W vec n i
        = reading cfg (maxRange cfg).1 (maxRange cfg).2 (pairConv cfg W vec n ((1 : Int) : K) _root_.id 0 i 0) := by
      simp only [rowResult, hmd, conversions, h.input, h.split]
      simp [pairConv, h.split]
    rw [e]
    refine within_half e1 ?_ e3
    rwa [one_mul, sumE (g := fun j => W i j * vec.get j) fun j hj => by
      have := hx j hj
      rw [h.input, pow_one] at this
      rcases (by omega : vec.get j = 0 ∨ vec.get j = 1) with e | e <;> rw [e] <;> rfl] at e2
  case iTcWDiff =>
    obtain ⟨y, e1, e2, e3⟩ := one 1 _root_.id (.inl rfl) (by
      simp only [conversions, hmd, h.input, h.split]
      simp [pairConv, h.split])
    have e : rowResult cfg (maxRange cfg).1 (maxRange cfg).2 W vec n i
        = -reading cfg (maxRange cfg).1 (maxRange cfg).2 (pairConv cfg W vec n ((1 : Int) : K) _root_.id 0 i 0) := by
      simp only [rowResult, hmd, conversions, h.input, h.split]
      simp [pairConv, h.split]
    rw [e]
    refine within_half (y := -y) ?_ ?_ fun t ht => ?_
    · rwa [Int.cast_neg, ← neg_sub', abs_neg]
    · rw [one_mul, sumE (g := fun j => -(W i j * vec.get j)) fun j hj => by
        have := hx j hj
        rw [h.input] at this
        rcases (by omega : vec.get j = 0 ∨ vec.get j = -1) with e | e <;> rw [e] <;>
        simp [bits], sum_neg_distrib, Int.cast_neg] at e2
      rwa [← abs_neg, neg_sub, sub_neg_eq_add, add_comm, ← sub_neg_eq_add]
    · obtain ⟨u, hu⟩ := e3 t ht
      exact ⟨-u, by rw [hu, Int.cast_neg]⟩
  case iOffsWDiff =>
    obtain ⟨y, e1, e2, e3⟩ := one 1 (fun y => y + 1) (.inl rfl) (by
      simp only [conversions, hmd, h.input, h.split]
      simp [pairConv, h.split, List.range_succ])
    have e : rowResult cfg (maxRange cfg).1 (maxRange cfg).2 W vec n i
        = reading cfg (maxRange cfg).1 (maxRange cfg).2 (pairConv cfg W vec n ((1 : Int) : K) (fun y => y + 1) 0 i 0)
          + reading cfg (maxRange cfg).1 (maxRange cfg).2 (pairConv cfg W vec n ((1 : Int) : K) (fun y => y + 1) 1 i 0)
          - ∑ j ∈ range n, W i j := by
      simp only [rowResult, hmd, conversions, h.input, h.split]
      simp [pairConv, h.split, List.range_succ]
    have e0 : reading cfg (maxRange cfg).1 (maxRange cfg).2 (pairConv cfg W vec n ((1 : Int) : K) (fun y => y + 1) 1 i 0)
        = 0 := by
      rw [h.pairConv_val (by rw [hmd]; decide) hW', sumE (g := fun _ => 0) fun j hj => by
        have := hx j hj
        rw [h.input] at this
        rcases (by omega : vec.get j = 0 ∨ vec.get j = -1) with e | e <;> rw [e] <;> simp [bits], sum_const_zero, Int.cast_zero,
        zero_mul]
      exact reading_zero h (by have := h.adc; unfold adcFits at this; rw [hmd] at this; exact this) _
    rw [e, e0, add_zero]
    refine within_half (y := y - ((∑ j ∈ range n, W i j : Int) : K)) ?_ ?_ fun t ht => ?_
    · rwa [Int.cast_sub, sub_sub_sub_cancel_right]
    · rw [one_mul, sumE (g := fun j => W i j * vec.get j + W i j) fun j hj => by
        have := hx j hj
        rw [h.input] at this
        rcases (by omega : vec.get j = 0 ∨ vec.get j = -1) with e | e <;> rw [e] <;>
        simp [bits], sum_add_distrib, Int.cast_add] at e2
      rwa [sub_sub, add_comm]
    · obtain ⟨u, hu⟩ := e3 t ht
      exact ⟨u - ∑ j ∈ range n, W i j, by rw [hu, Int.cast_sub]⟩
  case iDiffWDiff1 | iDiffWDiff2 =>
    obtain ⟨y, e1, e2, e3⟩ := one (-1) (fun y => max (-y) 0) (.inr rfl) (by
      simp only [conversions, hmd, h.input, h.split]
      simp [pairConv, h.split])
    have e : rowResult cfg (maxRange cfg).1 (maxRange cfg).2 W vec n i
        = reading cfg (maxRange cfg).1 (maxRange cfg).2 (pairConv cfg W vec n ((-1 : Int) : K) (fun y => max (-y) 0) 0 i 0) := by
      simp only [rowResult, hmd, conversions, h.input, h.split]
      simp [pairConv, h.split]
    rw [e]
    refine within_half e1 ?_ e3
    rwa [neg_one_mul, ← sum_neg_distrib, sumE (g := fun j => W i j * vec.get j) fun j hj => by
      have := hx j hj
      rw [h.input] at this
      rcases (by omega : vec.get j = 0 ∨ vec.get j = -1) with e | e <;> rw [e] <;> simp [bits]] at e2
  all_goals exact absurd hi0 (by decide)

/-- The same for the offset mapping. -/
theorem rowOffs (hm : cfg.mode = .iUintWOffs) (hn : n ≤ cfg.N) (hW : LegalMat cfg W m n) (hx : LegalVec cfg vec n) {i : Nat}
    (hi : i < m) : WithinTest cfg 1 (prod W vec n i) (rowResult cfg (maxRange cfg).1 (maxRange cfg).2 W vec n i) ∧
      (WholeLeakage cfg → WithinTest cfg 0 (prod W vec n i) (rowResult cfg (maxRange cfg).1 (maxRange cfg).2 W vec n i)) := by
  have hA := oneSlice_ok (l := "") h
  have hrg := conversions_in_range (vec := vec) (i := i) h.low h.high.le h.calib h.adc hA.range hn
    (fun h' => by have := h.int; rcases h' with h' | h' <;> rw [h'] at this <;> exact absurd this (by decide)) hW hx hi
  have hd := h.delta
  have hk := h.mask
  have hW' : ∀ j, j < n → LegalW cfg (W i j) := fun j hj => hW i j hi hj
  unfold LegalVec LegalX at hx
  simp only [hm, h.input, pow_one] at hx
  have hb : ∀ j, j < n → bits (vec.get j) 0 1 = vec.get j := fun j hj => by
    have := hx j hj
    rcases (by omega : vec.get j = 0 ∨ vec.get j = 1) with e | e <;> rw [e] <;> rfl
  obtain ⟨h1, h2⟩ := hrg (lineConv cfg W vec n 0 i 0) (by
    simp only [conversions, hm, h.input, h.split]
    simp [lineConv, h.split])
  obtain ⟨y, e1, e2, e3⟩ := reading_one h (k := (lineConv cfg W vec n 0 i 0).2) (by
    rw [h.lineConv_val hm hW']
    left; push_cast; ring) h1 h2
  set z := reading cfg (maxRange cfg).1 (maxRange cfg).2 (lineConv cfg W vec n 0 i 0) with hz
  set B : K := ((∑ j ∈ range n, vec.get j : Int) : K) * (leakage cfg + 2 ^ (cfg.wBit - 1)) with hB
  have e : rowResult cfg (maxRange cfg).1 (maxRange cfg).2 W vec n i = nearest ((z : K) - B) := by
    simp only [rowResult, hm, conversions, h.input, h.split]
    simp [lineConv, h.split, hz, hB]
  have e4 : |y - B - ((prod W vec n i : Int) : K)| ≤ testError cfg := by
    convert e2 using 2
    rw [sub_sub, h.lineConv_val hm hW', hB, h.leak]
    congr 1
    unfold prod
    push_cast
    rw [sum_mul, ← sum_add_distrib, sum_mul]
    refine sum_congr rfl fun j hj => ?_
    rw [hb j (mem_range.1 hj)]
    field_simp
    ring
  rw [e]
  unfold WithinTest
  rw [sub_zero, add_zero]
  constructor
  · refine within_one (y := y - B) ?_ e4
    have e5 := (roundAway_near ((z : K) - B))
    rw [← nearest_eq] at e5
    have e6 := abs_sub_le (y - B) ((z : K) - B) (nearest ((z : K) - B))
    rw [sub_sub_sub_cancel_right, abs_sub_comm ((z : K) - B)] at e6
    linarith
  · rintro ⟨u, hu⟩
    have e7 : (z : K) - B = ((z - (∑ j ∈ range n, vec.get j) * (u + 2 ^ (cfg.wBit - 1)) : Int) : K) := by
      rw [hB, hu]; push_cast; ring
    refine within_half (y := y - B) ?_ e4 fun t ht => ?_
    · rw [nearest_eq, e7, roundAway_int, ← e7, sub_sub_sub_cancel_right]
      exact e1
    · obtain ⟨v, hv⟩ := e3 t ht
      exact ⟨v - (∑ j ∈ range n, vec.get j) * (u + 2 ^ (cfg.wBit - 1)), by rw [hv, hB, hu]; push_cast; ring⟩

end Spec.OneSlice

end

end Acs
