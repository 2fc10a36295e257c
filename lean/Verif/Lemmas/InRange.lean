import Verif.Lemmas.RefineA

/-! # Currents and the range of the converters -/

set_option linter.unusedSectionVars false

namespace Acs

open Finset Spec

section
variable {K : Type} [Field K] [LinearOrder K] [IsStrictOrderedRing K] [FloorRing K]
variable {E : Env K} {cfg : Cfg K} {vec : Vec Int} {m n : Nat} {l : String}
variable {lo hi : K} {W : Nat → Nat → Int}

theorem nominal_range (hle : cfg.hrs ≤ cfg.lrs) {r : Nat} {g : Int} (h0 : 0 ≤ g) (h1 : g ≤ topState cfg r) :
    cfg.hrs ≤ nominal cfg r g ∧ nominal cfg r g ≤ cfg.lrs := by
  have hd : 0 ≤ cfg.lrs - cfg.hrs := by linarith
  have g0 : (0 : K) ≤ g := by exact_mod_cast h0
  cases hi : cfg.mode.isInt
  · rw [nominal_bin hi]
    rw [topState_bin hi] at h1
    have g1 : (g : K) ≤ 1 := by exact_mod_cast h1
    constructor <;> nlinarith
  · rw [topState_int hi] at h1
    rw [nominal_int hi]
    rcases eq_or_ne ((2 : K) ^ cfg.split.getD (r % cfg.S) 0 - 1) 0 with hz | hz
    · rw [hz, div_zero, mul_zero, add_zero]; exact ⟨le_refl _, hle⟩
    · have g1 : (g : K) ≤ 2 ^ cfg.split.getD (r % cfg.S) 0 - 1 := by exact_mod_cast h1
      have hp : (0 : K) < 2 ^ cfg.split.getD (r % cfg.S) 0 - 1 := lt_of_le_of_ne (g0.trans g1) (Ne.symm hz)
      have hst := div_nonneg hd hp.le
      have e : (2 ^ cfg.split.getD (r % cfg.S) 0 - 1) * ((cfg.lrs - cfg.hrs) / (2 ^ cfg.split.getD (r % cfg.S) 0 - 1))
          = cfg.lrs - cfg.hrs := by field_simp
      have k1 := mul_nonneg g0 hst
      have k2 := mul_le_mul_of_nonneg_right g1 hst
      rw [e] at k2
      constructor <;> linarith

theorem bits_range (a : Int) (lo w : Nat) : 0 ≤ bits a lo w ∧ bits a lo w ≤ 2 ^ w - 1 := by
  have h : (0 : Int) < 2 ^ w := by positivity
  unfold bits
  have := Int.emod_nonneg (a / 2 ^ lo) h.ne'
  have := Int.emod_lt_of_pos (a / 2 ^ lo) h
  omega

/-- The programmed states exist. -/
theorem enc_range {w : Int} (hw : LegalW cfg w) {r s : Nat} (hs : cfg.mode.isInt = true → r % cfg.S = s) :
    (0 ≤ encP cfg w s ∧ encP cfg w s ≤ topState cfg r) ∧ 0 ≤ encM cfg w s ∧ encM cfg w s ≤ topState cfg r := by
  cases hi : cfg.mode.isInt
  · rw [topState_bin hi]
    unfold LegalW at hw
    unfold encP encM
    cases hm : cfg.mode <;> simp only [hm] at hw hi ⊢ <;> first
      | (rcases hw with e | e | e <;> rw [e] <;> decide)
      | (rcases hw with e | e <;> rw [e] <;> decide)
      | exact absurd hi (by decide)
  · rw [topState_int hi, hs hi]
    have h0 : (0 : Int) < 2 ^ cfg.split.getD s 0 := by positivity
    have z : (0 : Int) ≤ 0 ∧ (0 : Int) ≤ 2 ^ cfg.split.getD s 0 - 1 := ⟨le_refl _, by omega⟩
    unfold encP encM
    cases hm : cfg.mode <;> simp only [hm] at hi ⊢
    case iUintWOffs => exact ⟨bits_range _ _ _, z⟩
    all_goals first
      | exact absurd hi (by decide)
      | (split
         · exact ⟨bits_range _ _ _, z⟩
         · exact ⟨z, bits_range _ _ _⟩)

theorem sum_range_bounds {t : Nat → K} {a b : K} (ha : a ≤ 0) (hb : 0 ≤ b) {N : Nat} (hn : n ≤ N)
    (h : ∀ j, j < n → a ≤ t j ∧ t j ≤ b) : N * a ≤ ∑ j ∈ range n, t j ∧ ∑ j ∈ range n, t j ≤ N * b := by
  have hN : (n : K) ≤ (N : K) := by exact_mod_cast hn
  have h1 : ∑ j ∈ range n, t j ≤ ∑ _j ∈ range n, b := sum_le_sum fun j hj => (h j (mem_range.1 hj)).2
  have h2 : ∑ _j ∈ range n, a ≤ ∑ j ∈ range n, t j := sum_le_sum fun j hj => (h j (mem_range.1 hj)).1
  rw [sum_const, card_range, nsmul_eq_mul] at h1 h2
  have := mul_le_mul_of_nonneg_right hN hb
  have := mul_le_mul_of_nonpos_right hN ha
  constructor <;> linarith

theorem adcRange_sym (hc : cfg.calibMode = .max) (ht : cfg.adcType = .sym) (h : adcRange cfg l = some (lo, hi)) :
    lo = (cfg.N : K) * (-(cfg.lrs - cfg.hrs)) ∧ hi = cfg.N * (cfg.lrs - cfg.hrs) := by
  unfold adcRange at h
  simp only [hc, ht, Option.some.injEq, Prod.mk.injEq] at h
  constructor
  · rw [← h.1]; ring
  · exact h.2.symm

theorem adcRange_pos (hc : cfg.calibMode = .max) (ht : cfg.adcType = .pos) (h : adcRange cfg l = some (lo, hi)) :
    lo = (cfg.N : K) * 0 ∧ hi = cfg.N * cfg.lrs := by
  unfold adcRange at h
  simp only [hc, ht, Option.some.injEq, Prod.mk.injEq] at h
  constructor
  · rw [← h.1]; ring
  · exact h.2.symm

theorem all_slices {α : Type} {g : Nat → Nat → α} {P : α → Prop} {N S : Nat}
    (h : ∀ b s, b < N → s < S → P (g b s)) :
    ∀ c ∈ (List.range N).flatMap fun b => (List.range S).map fun s => g b s, P c := by
  intro c hc
  obtain ⟨b, hb, hc⟩ := List.mem_flatMap.1 hc
  obtain ⟨s, hs, rfl⟩ := List.mem_map.1 hc
  exact h b s (List.mem_range.1 hb) (List.mem_range.1 hs)

theorem bits_01 (a : Int) (b : Nat) : bits a b 1 = 0 ∨ bits a b 1 = 1 := by
  have := bits_range a b 1
  rw [pow_one] at this
  omega

/-- Noise-free column currents are in the range. -/
theorem conversions_in_range (h0 : 0 ≤ cfg.hrs) (hle : cfg.hrs ≤ cfg.lrs) (hc : cfg.calibMode = .max)
    (hfit : adcFits cfg) (hra : adcRange cfg l = some (lo, hi)) (hn : n ≤ cfg.N)
    (h45 : cfg.mode = .tnn4 ∨ cfg.mode = .tnn5 → cfg.hrs = 0)
    (hW : LegalMat cfg W m n) (hx : LegalVec cfg vec n) {i : Nat} (hi' : i < m) :
    ∀ c ∈ conversions cfg W vec n i, lo ≤ c.1 ∧ c.1 ≤ hi := by
  have hd : 0 ≤ cfg.lrs - cfg.hrs := by linarith
  have hl : 0 ≤ cfg.lrs := h0.trans hle
  have rng : ∀ s, s < cfg.split.length ∨ cfg.mode.isInt = false → ∀ j, j < n →
      (cfg.hrs ≤ nominal cfg (i * cfg.split.length + s) (encP cfg (W i j) s) ∧
        nominal cfg (i * cfg.split.length + s) (encP cfg (W i j) s) ≤ cfg.lrs) ∧
      cfg.hrs ≤ nominal cfg (i * cfg.split.length + s) (encM cfg (W i j) s) ∧
        nominal cfg (i * cfg.split.length + s) (encM cfg (W i j) s) ≤ cfg.lrs := by
    intro s hs j hj
    have := enc_range (cfg := cfg) (hW i j hi' hj) (r := i * cfg.split.length + s) (s := s) fun h => by
      rcases hs with hs | hs
      · exact blk_mod hs
      · rw [h] at hs; exact absurd hs (by decide)
    exact ⟨nominal_range hle this.1.1 this.1.2, nominal_range hle this.2.1 this.2.2⟩
  -- signed converter: any input in `{-1, 0, 1}` times a difference
  have sym : cfg.adcType = .sym → ∀ s, s < cfg.split.length ∨ cfg.mode.isInt = false → ∀ v : Nat → Int,
      (∀ j, j < n → v j = 0 ∨ v j = 1 ∨ v j = -1) →
      lo ≤ ∑ j ∈ range n, (nominal cfg (i * cfg.split.length + s) (encP cfg (W i j) s)
        - nominal cfg (i * cfg.split.length + s) (encM cfg (W i j) s)) * (v j : K) ∧
      ∑ j ∈ range n, (nominal cfg (i * cfg.split.length + s) (encP cfg (W i j) s)
        - nominal cfg (i * cfg.split.length + s) (encM cfg (W i j) s)) * (v j : K) ≤ hi := by
    intro ht s hs v hv
    obtain ⟨e1, e2⟩ := adcRange_sym hc ht hra
    rw [e1, e2]
    refine sum_range_bounds (by linarith) hd hn fun j hj => ?_
    obtain ⟨⟨a1, a2⟩, b1, b2⟩ := rng s hs j hj
    rcases hv j hj with e | e | e <;> rw [e] <;> push_cast <;> constructor <;> linarith
  -- unsigned converter: every column contributes between zero and `LRS`
  have pos : cfg.adcType = .pos → ∀ t : Nat → K, (∀ j, j < n → 0 ≤ t j ∧ t j ≤ cfg.lrs) →
      lo ≤ ∑ j ∈ range n, t j ∧ ∑ j ∈ range n, t j ≤ hi := by
    intro ht t h
    obtain ⟨e1, e2⟩ := adcRange_pos hc ht hra
    rw [e1, e2]
    exact sum_range_bounds le_rfl hl hn h
  have hslice : ∀ (sg : K) (v : Int → Int) (N : Nat), cfg.adcType = .sym →
      ∀ c ∈ (List.range N).flatMap fun b => (List.range cfg.split.length).map fun s =>
        (∑ j ∈ range n, (nominal cfg (i * cfg.split.length + s) (encP cfg (W i j) s)
          - nominal cfg (i * cfg.split.length + s) (encM cfg (W i j) s)) * (bits (v (vec.get j)) b 1 : K),
          sg * (2 ^ (shiftOf cfg.split s + b) * (2 ^ cfg.split.getD s 0 - 1)) / (cfg.lrs - cfg.hrs)),
        lo ≤ c.1 ∧ c.1 ≤ hi := fun sg v N ht => all_slices fun b s _ hs =>
    sym ht s (Or.inl hs) _ fun j _ => by rcases bits_01 (v (vec.get j)) b with e | e <;> simp [e]
  unfold LegalVec LegalX at hx
  unfold adcFits at hfit
  unfold conversions
  have hsp := fun ht hb => sym ht 0 (Or.inr hb)
  have hrp := fun hb => rng 0 (Or.inr hb)
  simp only [Nat.add_zero] at hsp hrp
  cases hm : cfg.mode <;> simp only [hm, List.forall_mem_cons, List.forall_mem_append, List.not_mem_nil, false_implies,
    implies_true, and_true] at hx hfit ⊢
  case iDiffWDiff1 => exact ⟨hslice 1 (fun y => max y 0) _ hfit, hslice (-1) (fun y => max (-y) 0) _ hfit⟩
  case iDiffWDiff2 => exact ⟨hslice 1 (fun y => max y 0) _ hfit, hslice (-1) (fun y => max (-y) 0) _ hfit⟩
  case iOffsWDiff => exact hslice 1 (fun y => y + 2 ^ (cfg.iBit - 1)) _ hfit
  case iTcWDiff => exact hslice 1 id _ hfit
  case iUintWDiff => exact hslice 1 id _ hfit
  case iUintWOffs =>
    refine all_slices fun b s _ hs => pos hfit _ fun j hj => ?_
    obtain ⟨⟨a1, a2⟩, -⟩ := rng s (Or.inl hs) j hj
    rcases bits_01 (id (vec.get j)) b with e | e <;> rw [e] <;> push_cast <;> constructor <;> linarith
  case bnn1 =>
    exact hsp hfit (by rw [hm]; rfl) _ fun j hj => by rcases hx j hj with e | e <;> rw [e] <;> decide
  case bnn2 =>
    have := hsp hfit (by rw [hm]; rfl) (fun j => -(if vec.get j = -1 then 1 else 0)) fun j hj => by
      rcases hx j hj with e | e <;> rw [e] <;> decide
    simp only [Int.cast_neg, mul_neg, sum_neg_distrib] at this
    exact this
  case bnn3 =>
    have hb : cfg.mode.isInt = false := by rw [hm]; rfl
    constructor
    · rw [Int.cast_sum, sum_mul, ← sum_sub_distrib]
      refine pos hfit _ fun j hj => ?_
      obtain ⟨⟨a1, a2⟩, -⟩ := hrp hb j hj
      rcases hx j hj with e | e <;> rw [e] <;> norm_num <;> constructor <;> linarith
    · refine pos hfit _ fun j hj => ?_
      obtain ⟨⟨a1, a2⟩, -⟩ := hrp hb j hj
      rcases hx j hj with e | e <;> rw [e] <;> norm_num <;> first | exact hl | (constructor <;> linarith)
  case bnn4 =>
    have hb : cfg.mode.isInt = false := by rw [hm]; rfl
    constructor
    · rw [Int.cast_sum, sum_mul, ← sum_sub_distrib]
      refine pos hfit _ fun j hj => ?_
      obtain ⟨⟨a1, a2⟩, -⟩ := hrp hb j hj
      rcases hx j hj with e | e <;> rw [e] <;> norm_num <;> constructor <;> linarith
    · refine pos hfit _ fun j hj => ?_
      obtain ⟨⟨a1, a2⟩, -⟩ := hrp hb j hj
      rcases hx j hj with e | e <;> rw [e] <;> norm_num <;> first | exact hl | (constructor <;> linarith)
  case bnn5 =>
    have hb : cfg.mode.isInt = false := by rw [hm]; rfl
    have e : ∀ a : K, a - n * cfg.hrs = a - ∑ _j ∈ range n, cfg.hrs := fun a => by
      rw [sum_const, card_range, nsmul_eq_mul]
    rw [e, ← sum_add_distrib, ← sum_sub_distrib]
    refine pos hfit _ fun j hj => ?_
    obtain ⟨⟨a1, a2⟩, b1, b2⟩ := hrp hb j hj
    rcases hx j hj with e | e <;> rw [e] <;> norm_num <;> constructor <;> linarith
  case bnn6 =>
    have := hsp hfit (by rw [hm]; rfl) (fun j => (if vec.get j = 1 then 1 else 0) - (if vec.get j = -1 then 1 else 0))
      fun j hj => by rcases hx j hj with e | e <;> rw [e] <;> decide
    simp only [Int.cast_sub, mul_sub, sum_sub_distrib] at this
    exact this
  case tnn1 =>
    have := hsp hfit (by rw [hm]; rfl) (fun j => (if vec.get j = 1 then 1 else 0) - (if vec.get j = -1 then 1 else 0))
      fun j hj => by rcases hx j hj with e | e | e <;> rw [e] <;> decide
    simp only [Int.cast_sub, mul_sub, sum_sub_distrib] at this
    exact this
  case tnn2 =>
    exact ⟨hsp hfit (by rw [hm]; rfl) _ fun j hj => by rcases hx j hj with e | e | e <;> rw [e] <;> decide,
      hsp hfit (by rw [hm]; rfl) _ fun j hj => by rcases hx j hj with e | e | e <;> rw [e] <;> decide⟩
  case tnn3 =>
    exact ⟨hsp hfit (by rw [hm]; rfl) _ fun j hj => by rcases hx j hj with e | e | e <;> rw [e] <;> decide,
      hsp hfit (by rw [hm]; rfl) _ fun j hj => by rcases hx j hj with e | e | e <;> rw [e] <;> decide⟩
  case tnn4 =>
    have hb : cfg.mode.isInt = false := by rw [hm]; rfl
    simp only [h45 (Or.inl hm), zero_div, mul_zero, add_zero, sub_zero]
    refine ⟨?_, ?_, ?_, ?_⟩ <;>
    · refine pos hfit _ fun j hj => ?_
      obtain ⟨⟨a1, a2⟩, b1, b2⟩ := hrp hb j hj
      rcases hx j hj with e | e | e <;> rw [e] <;> norm_num <;> first | exact hl | (constructor <;> linarith)
  case tnn5 =>
    have hb : cfg.mode.isInt = false := by rw [hm]; rfl
    simp only [h45 (Or.inr hm), mul_zero, add_zero]
    refine ⟨?_, ?_, ?_, ?_⟩ <;>
    · refine pos hfit _ fun j hj => ?_
      obtain ⟨⟨a1, a2⟩, b1, b2⟩ := hrp hb j hj
      rcases hx j hj with e | e | e <;> rw [e] <;> norm_num <;> first | exact hl | (constructor <;> linarith)

end

end Acs
