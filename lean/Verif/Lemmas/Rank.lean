import Verif.Lemmas.Reading
import Verif.SpecRank

/-! # The order of the results -/

set_option linter.unusedSectionVars false

namespace Acs

open Finset Spec

section
variable {K : Type} [Field K] [LinearOrder K] [IsStrictOrderedRing K] [FloorRing K]
variable {cfg : Cfg K} {vec : Vec Int} {n i i' : Nat} {l : String} {lo hi : K} {W : Nat → Nat → Int}

theorem level_mono (hA : AdcOk cfg l lo hi) {a b : K} (hab : a ≤ b) :
    levelOf cfg lo hi a * adcStep cfg lo hi + lo ≤ levelOf cfg lo hi b * adcStep cfg lo hi + lo := by
  have hq := adcOk_step_pos hA
  refine add_le_add_left (mul_le_mul_of_nonneg_right ?_ hq.le) _
  exact Int.cast_le.2 (roundAway_mono (div_le_div_of_nonneg_right (sub_le_sub_right (clip_mono lo hi hab) _) hq.le))

/-- Readings of scaled numbers are in the order of the numbers, for either sign of the scale. -/
theorem reading_scaled_mono (hA : AdcOk cfg l lo hi) {a b c d : K} (hc : 0 ≤ c) (hab : a ≤ b) :
    reading cfg lo hi (d * a, c / d) ≤ reading cfg lo hi (d * b, c / d) := by
  rw [reading_eq hA.lt.le, reading_eq hA.lt.le]
  refine roundAway_mono ?_
  rcases le_total 0 d with hd | hd
  · exact mul_le_mul_of_nonneg_right (level_mono hA (mul_le_mul_of_nonneg_left hab hd)) (div_nonneg hc hd)
  · exact mul_le_mul_of_nonpos_right (level_mono hA (mul_le_mul_of_nonpos_left hab hd))
      (div_nonpos_of_nonneg_of_nonpos hc hd)

/-- The current of a mapping with two cells per weight and signed inputs. -/
theorem current_signed (hm : cfg.mode = .bnn6 ∨ cfg.mode = .tnn1) (hW : ∀ j, j < n → LegalW cfg (W i j))
    (hx : LegalVec cfg vec n) :
    conversions cfg W vec n i = [((cfg.lrs - cfg.hrs) * (prod W vec n i : Int), 1 / (cfg.lrs - cfg.hrs))] := by
  have key : ∀ j, j < n → ∀ r,
      (nominal cfg r (encP cfg (W i j) 0) - nominal cfg r (encM cfg (W i j) 0)) * ((if vec.get j = 1 then 1 else 0 : Int) : K)
      - (nominal cfg r (encP cfg (W i j) 0) - nominal cfg r (encM cfg (W i j) 0)) * ((if vec.get j = -1 then 1 else 0 : Int) : K)
      = (cfg.lrs - cfg.hrs) * ((W i j * vec.get j : Int) : K) := by
    intro j hj r
    have h1 := hW j hj
    have h2 := hx j hj
    rcases hm with hm | hm <;> simp only [LegalW, LegalX, nominal, encP, encM, hm] at h1 h2 ⊢ <;>
      [rcases h1 with e | e; rcases h1 with e | e | e] <;>
      [rcases h2 with f | f; rcases h2 with f | f; rcases h2 with f | f | f; rcases h2 with f | f | f;
        rcases h2 with f | f | f] <;>
      rw [e, f] <;> norm_num
  have e : (∑ j ∈ range n, (nominal cfg (i * cfg.split.length + 0) (encP cfg (W i j) 0)
        - nominal cfg (i * cfg.split.length + 0) (encM cfg (W i j) 0)) * ((if vec.get j = 1 then 1 else 0 : Int) : K))
      - ∑ j ∈ range n, (nominal cfg (i * cfg.split.length + 0) (encP cfg (W i j) 0)
        - nominal cfg (i * cfg.split.length + 0) (encM cfg (W i j) 0)) * ((if vec.get j = -1 then 1 else 0 : Int) : K)
      = (cfg.lrs - cfg.hrs) * (prod W vec n i : Int) := by
    rw [← sum_sub_distrib, prod, Int.cast_sum, mul_sum]
    exact sum_congr rfl fun j hj => key j (mem_range.1 hj) _
  unfold conversions
  rcases hm with hm | hm <;> simp only [hm, e]

/-- The current of the mapping that counts the equal entries. -/
theorem current_count (hm : cfg.mode = .bnn5) (hW : ∀ j, j < n → LegalW cfg (W i j)) (hx : LegalVec cfg vec n) :
    conversions cfg W vec n i
      = [((cfg.lrs - cfg.hrs) * (((prod W vec n i : Int) + n) / 2), 2 / (cfg.lrs - cfg.hrs))] := by
  have key : ∀ j, j < n → ∀ r,
      nominal cfg r (encP cfg (W i j) 0) * ((if vec.get j = 1 then 1 else 0 : Int) : K)
      + nominal cfg r (encM cfg (W i j) 0) * ((if vec.get j = -1 then 1 else 0 : Int) : K)
      = (cfg.lrs - cfg.hrs) / 2 * ((W i j * vec.get j : Int) : K) + ((cfg.lrs - cfg.hrs) / 2 + cfg.hrs) := by
    intro j hj r
    have h1 := hW j hj
    have h2 := hx j hj
    simp only [LegalW, LegalX, nominal, encP, encM, hm] at h1 h2 ⊢
    rcases h1 with e | e <;> rcases h2 with f | f <;> rw [e, f] <;> norm_num <;> ring
  have e : (∑ j ∈ range n, nominal cfg (i * cfg.split.length + 0) (encP cfg (W i j) 0)
          * ((if vec.get j = 1 then 1 else 0 : Int) : K))
      + (∑ j ∈ range n, nominal cfg (i * cfg.split.length + 0) (encM cfg (W i j) 0)
          * ((if vec.get j = -1 then 1 else 0 : Int) : K)) - n * cfg.hrs
      = (cfg.lrs - cfg.hrs) * (((prod W vec n i : Int) + n) / 2) := by
    rw [← sum_add_distrib, sum_congr rfl fun j hj => key j (mem_range.1 hj) _, sum_add_distrib, sum_const, card_range,
      nsmul_eq_mul, ← mul_sum, prod, Int.cast_sum]
    ring
  unfold conversions
  simp only [hm, e]

theorem rowResult_mono (ho : oneReading cfg.mode) (hA : AdcOk cfg l lo hi) (hx : LegalVec cfg vec n)
    (hW : ∀ j, j < n → LegalW cfg (W i j)) (hW' : ∀ j, j < n → LegalW cfg (W i' j))
    (hp : prod W vec n i ≤ prod W vec n i') : rowResult cfg lo hi W vec n i ≤ rowResult cfg lo hi W vec n i' := by
  have hp' : ((prod W vec n i : Int) : K) ≤ (prod W vec n i' : Int) := by exact_mod_cast hp
  cases hm : cfg.mode <;> simp only [hm, oneReading] at ho
  case bnn5 =>
    simp only [rowResult, hm, current_count hm hW hx, current_count hm hW' hx, List.map_cons, List.map_nil, List.getD_cons_zero]
    exact sub_le_sub_right (reading_scaled_mono hA (by norm_num) (by linarith)) _
  case bnn6 =>
    simp only [rowResult, hm, current_signed (.inl hm) hW hx, current_signed (.inl hm) hW' hx, List.map_cons, List.map_nil,
      List.getD_cons_zero]
    exact reading_scaled_mono hA (by norm_num) hp'
  case tnn1 =>
    simp only [rowResult, hm, current_signed (.inr hm) hW hx, current_signed (.inr hm) hW' hx, List.map_cons, List.map_nil,
      List.getD_cons_zero]
    exact reading_scaled_mono hA (by norm_num) hp'

theorem answers_ordered (ho : oneReading cfg.mode) {rg : String → K × K} {w : Nat} {h ops : List Op} {rs : List (Vec Int)}
    (hh : HistOk cfg w h) (hl : LegalOps cfg w h ops) (hC : AllReadable cfg rg h ops) (ha : AnswersRead cfg rg h ops rs) :
    AnswersOrdered h ops rs := by
  unfold AnswersRead at ha
  induction ha with
  | nil => exact .nil
  | write _ ih => exact .write (ih (hh.write hl.1) hl.2 hC)
  | mvm h2 _ ih =>
    refine .mvm (fun i i' hi hi' hp => ?_) (ih hh.mvm hl.2 hC.2)
    have hW : ∀ i, i < _ → ∀ j, j < _ → LegalW cfg (stored _ i j) := fun i hi j hj => by
      obtain ⟨v, hv⟩ := Option.isSome_iff_exists.1 (hl.1.written i j hi hj)
      rw [stored, hv]
      exact hh.vals i j v hv
    rw [h2.head i hi, h2.head i' hi', add_sub_cancel_left, add_sub_cancel_left]
    exact rowResult_mono ho hC.1.1 hl.1.vals (hW i hi) (hW i' hi') hp

end

end Acs
