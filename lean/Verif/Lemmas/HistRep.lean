import Verif.Lemmas.HistInv
import Mathlib.Algebra.Order.BigOperators.Group.Finset
import Mathlib.Algebra.BigOperators.Ring.Finset

/-! # What a profile report says about the values counted -/

set_option linter.unusedSectionVars false

namespace Acs

open Finset Spec

section
variable {K : Type} [Field K] [LinearOrder K] [IsStrictOrderedRing K] [FloorRing K]
variable {E : Env K} {g g' : Hist K} {vals : Vec K} {len : Nat} {mn mx b : K} {vs : List K}

/-- The label of a bin. -/
def lab (mn b : K) (k : Nat) : K := mn + k * b + b / 2

theorem filled_inv (h : Filled E mn mx b vs g) : g.minV = mn ∧ g.maxV = mx ∧ g.bin = b ∧
    total g = vs.length ∧ ∀ k, 0 ≤ g.data.get k := by
  induction h with
  | new h =>
    obtain ⟨h1, h2, h3, h4, h5⟩ := mkHist_inv h
    exact ⟨h2, h3, h4, by simp [h1], fun k => by rw [h5]⟩
  | more h h' ih =>
    obtain ⟨u1, _, u2, u3, u4⟩ := update_total h'
    refine ⟨u2.trans ih.1, u3.trans ih.2.1, u4.trans ih.2.2.1, ?_, fun k => ?_⟩
    · rw [u1, ih.2.2.2.1]; simp
    · obtain ⟨_, idx, _, rfl⟩ := update_inv h'
      exact add_nonneg (ih.2.2.2.2 k) (by positivity)

/-- Weighted sum of the labels. -/
def wsum (g : Hist K) : K := ∑ k ∈ range g.data.size, (g.data.get k : K) * lab g.minV g.bin k

theorem update_wsum (hE : ExactArith E) (hb : 0 < g.bin) (hu : g.update E vals len = .ok g') :
    ∃ idx : Nat → Nat, (∀ i, i < len → InBin g.minV g.bin (idx i) (vals.get i)) ∧
      wsum g' = wsum g + ∑ i ∈ range len, lab g.minV g.bin (idx i) := by
  obtain ⟨_, idx, hi, rfl⟩ := update_inv hu
  refine ⟨idx, fun i hil => ?_, ?_⟩
  · have := (hi i hil).1
    rw [index_exact hE hb.ne'] at this
    exact (inBin_iff hb).2 (toI32_inv this).1
  · unfold wsum
    dsimp only
    simp only [Int.cast_add, Int.cast_natCast, add_mul, sum_add_distrib]
    congr 1
    have hm : ∀ i ∈ range len, idx i ∈ range g.data.size := fun i hi' => mem_range.2 (hi i (mem_range.1 hi')).2
    rw [← sum_fiberwise_of_maps_to hm]
    refine sum_congr rfl fun k _ => ?_
    rw [← nsmul_eq_mul, ← sum_const]
    exact sum_congr rfl fun i hi' => by rw [(mem_filter.1 hi').2]

theorem list_sum_range (f : Nat → K) (len : Nat) : ((List.range len).map f).sum = ∑ i ∈ range len, f i := by
  induction len with
  | zero => simp
  | succ len ih => rw [List.range_succ, List.map_append, List.sum_append, ih, sum_range_succ]; simp

theorem filled_wsum (hE : ExactArith E) (hb : 0 < b) (h : Filled E mn mx b vs g) :
    vs.sum ≤ wsum g ∧ wsum g ≤ vs.sum + vs.length * b ∧ (vs ≠ [] → vs.sum < wsum g) := by
  induction h with
  | new h =>
    obtain ⟨_, _, _, _, h5⟩ := mkHist_inv h
    have : wsum ‹Hist K› = 0 := by simp [wsum, h5]
    simp [this]
  | @more vs g g' vals len h h' ih =>
    obtain ⟨e1, _, e2, _⟩ := filled_inv h
    obtain ⟨idx, hi, hw⟩ := update_wsum hE (by rw [e2]; exact hb) h'
    rw [e1, e2] at hi hw
    have hl : ∀ i, i < len → vals.get i < lab mn b (idx i) ∧ lab mn b (idx i) ≤ vals.get i + b := by
      intro i hil
      have := hi i hil
      unfold InBin at this
      unfold lab
      exact ⟨by linarith [this.2.1], by linarith [this.1]⟩
    have es : ((List.range len).map vals.get).sum = ∑ i ∈ range len, vals.get i := by
      exact list_sum_range _ _
    have hlo : ∑ i ∈ range len, vals.get i ≤ ∑ i ∈ range len, lab mn b (idx i) :=
      sum_le_sum fun i hi' => (hl i (mem_range.1 hi')).1.le
    have hhi : ∑ i ∈ range len, lab mn b (idx i) ≤ ∑ i ∈ range len, (vals.get i + b) :=
      sum_le_sum fun i hi' => (hl i (mem_range.1 hi')).2
    rw [sum_add_distrib, sum_const, card_range, nsmul_eq_mul] at hhi
    rw [hw, List.sum_append, es, List.length_append, List.length_map, List.length_range]
    refine ⟨by linarith [ih.1], ?_, fun hne => ?_⟩
    · push_cast
      linarith [ih.2.1]
    · by_cases hz : len = 0
      · subst hz
        have : vs ≠ [] := by rintro rfl; simp at hne
        have := ih.2.2 this
        simp only [range_zero, sum_empty, add_zero]
        exact this
      · have : ∑ i ∈ range len, vals.get i < ∑ i ∈ range len, lab mn b (idx i) :=
          sum_lt_sum_of_nonempty (nonempty_range_iff.2 hz) fun i hi' => (hl i (mem_range.1 hi')).1
        linarith [ih.1]

theorem countP_range (p : K → Bool) (f : Nat → K) (len : Nat) :
    ((List.range len).map f).countP p = ((range len).filter fun i => p (f i) = true).card := by
  induction len with
  | zero => simp
  | succ len ih =>
    rw [List.range_succ, List.map_append, List.countP_append, ih, range_add_one, filter_insert]
    by_cases h : p (f len) = true
    · rw [if_pos h, card_insert_of_notMem (by simp)]
      simp [h]
    · rw [if_neg h]
      simp [h]

/-- Every bin counts the values that belong to it. -/
theorem filled_counts (hE : ExactArith E) (hb : 0 < b) (h : Filled E mn mx b vs g) (k : Nat) :
    g.data.get k = (vs.countP fun v => decide (InBin mn b k v) : Nat) := by
  induction h with
  | new h => simp [(mkHist_inv h).2.2.2.2 k]
  | more h h' ih =>
    obtain ⟨e1, _, e2, _⟩ := filled_inv h
    rw [(update_exact_inv hE (by rw [e2]; exact hb) h').2 k, ih, e1, e2, List.countP_append, countP_range]
    push_cast
    congr 2
    unfold tally
    congr 1
    ext i
    simp

/-! ## The summaries -/

theorem samples_ok (h : Filled E mn mx b vs g) (hl : vs.length < 9223372036854775808) :
    g.samples = .ok (vs.length : Int) := by
  obtain ⟨_, _, _, ht, hp⟩ := filled_inv h
  unfold Hist.samples
  rw [loop_ok (fun k => ∑ i ∈ range k, g.data.get i) (by simp) fun k hk => ?_]
  · exact congrArg _ ht
  · rw [Vec.rd_ok hk, ok_bind, sum_range_succ]
    unfold addL i64
    rw [← sum_range_succ, if_pos]
    have h1 : ∑ i ∈ range (k + 1), g.data.get i ≤ total g :=
      sum_le_sum_of_subset_of_nonneg (range_subset_range.2 hk) fun i _ _ => hp i
    have h2 : 0 ≤ ∑ i ∈ range (k + 1), g.data.get i := sum_nonneg fun i _ => hp i
    unfold InI64
    omega

theorem mean_ok (hE : ExactArith E) (h : Filled E mn mx b vs g) (hl : vs.length < 9223372036854775808)
    (hne : vs ≠ []) : g.mean E = .ok (wsum g / (vs.length : K)) := by
  obtain ⟨_, _, _, ht, hp⟩ := filled_inv h
  unfold Hist.mean
  rw [loop_ok (fun k => ∑ i ∈ range k, (g.data.get i : K) * lab g.minV g.bin i) (by simp) fun k hk => ?_, ok_bind,
    samples_ok h hl, ok_bind, if_neg (by simpa using hne), hE.f32, hE.f64, hE.f64]
  · push_cast; rfl
  · rw [Vec.rd_ok hk, ok_bind, label_exact hE, ok_bind, sum_range_succ]
    unfold Env.fadd Env.fmul Env.ofInt
    rw [hE.f32, hE.f32, hE.f32]
    rfl

/-- The variance with the labels that the code uses. -/
theorem variance_ok (hE : ExactArith E) (h : Filled E mn mx b vs g) (hl : vs.length < 9223372036854775808)
    (hne : vs ≠ []) {z : Nat → Int} (hz : ∀ k, k < g.data.size → toI32 (lab mn b k) = .ok (z k)) :
    g.variance E = .ok ((∑ k ∈ range g.data.size, (g.data.get k : K) * ((z k : K) - wsum g / (vs.length : K)) ^ 2)
      / (vs.length : K)) := by
  obtain ⟨e1, _, e2, ht, hp⟩ := filled_inv h
  unfold Hist.variance
  rw [mean_ok hE h hl hne, ok_bind, loop_ok (fun k => ∑ i ∈ range k, (g.data.get i : K) *
      ((z i : K) - wsum g / (vs.length : K)) ^ 2) (by simp) fun k hk => ?_, ok_bind,
    samples_ok h hl, ok_bind, if_neg (by simpa using hne), hE.f32, hE.f64, hE.f64]
  · push_cast; rfl
  · rw [Vec.rd_ok hk, ok_bind, label_exact hE, ok_bind, e1, e2, show mn + k * b + b / 2 = lab mn b k from rfl,
      hz k hk, ok_bind, sum_range_succ]
    unfold Env.fadd Env.fsub Env.ofInt
    simp only [hE.f32, hE.f64]

/-- The reported bins. -/
theorem report_bins (hE : ExactArith E) (hb : 0 < g.bin) :
    loop g.data.size (fun k (hm : List (K × Int)) => do
      let d ← g.data.rd k
      let v ← g.label E k
      .ok (insNew hm v d)) [] = .ok ((List.range g.data.size).map fun k => (lab g.minV g.bin k, g.data.get k)) := by
  refine loop_ok (fun n => (List.range n).map fun k => (lab g.minV g.bin k, g.data.get k)) (by simp) fun k hk => ?_
  rw [Vec.rd_ok hk, ok_bind, label_exact hE, ok_bind]
  unfold insNew
  rw [if_neg]
  · rw [List.range_succ, List.map_append]; rfl
  · rw [List.contains_iff_mem, List.map_map]
    intro hm
    obtain ⟨i, hi, e⟩ := List.mem_map.1 hm
    rw [List.mem_range] at hi
    have e : g.minV + i * g.bin + g.bin / 2 = g.minV + k * g.bin + g.bin / 2 := e
    have h2 : (i : K) * g.bin = k * g.bin := by linarith
    have := Nat.cast_injective (R := K) (mul_right_cancel₀ hb.ne' h2)
    omega

end

end Acs
