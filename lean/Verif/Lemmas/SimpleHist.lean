import Verif.Lemmas.HistRep
import Verif.SpecSimple

/-! # Histograms of integers -/

set_option linter.unusedSectionVars false

namespace Acs

open Finset Spec

/-! ## Construction -/

theorem i32r_ok {z : Int} (h : -2147483648 ≤ z) (h' : z ≤ 2147483647) : i32 z = .ok z := by
  unfold i32; rw [if_pos (by unfold InI32; omega)]

theorem i32r_inv {z w : Int} (h : i32 z = .ok w) : w = z ∧ -2147483648 ≤ z ∧ z ≤ 2147483647 := by
  unfold i32 at h
  split at h
  · next hi => cases h; unfold InI32 at hi; exact ⟨rfl, by omega, by omega⟩
  · cases h

theorem i32r_err {z : Int} (h : z < -2147483648 ∨ 2147483647 < z) : i32 z = .error .overflow := by
  unfold i32; rw [if_neg (by unfold InI32; omega)]

theorem genValues_ok {mn : Int} {size : Nat} (h1 : -2147483648 ≤ mn) (h2 : mn + size ≤ 2147483647) :
    ∃ n, genValues mn size = .ok (⟨size, fun k => if k < size then mn + k else 0⟩, n) := by
  refine ⟨mn + size, ?_⟩
  unfold genValues
  refine loop_ok (fun t => ((⟨size, fun k => if k < t then mn + k else 0⟩, mn + t) : Vec Int × Int)) ?_ fun t ht => ?_
  · simp [Vec.const]
  · rw [Vec.wr_ok (by exact ht), ok_bind]
    unfold addI
    rw [i32r_ok (by dsimp only; omega) (by dsimp only; omega), ok_bind]
    congr 2
    · refine Vec.ext' (by rfl) fun k => ?_
      dsimp only
      split
      · next e => subst e; rw [if_pos (by omega)]
      · next e => simp only [show k < t + 1 ↔ k < t by omega]
    · push_cast; ring

theorem genValues_inv {mn : Int} {size : Nat} {r : Vec Int × Int} (h : genValues mn size = .ok r) :
    r.1.size = size ∧ (∀ k, k < size → r.1.get k = mn + k) ∧ r.2 = mn + size ∧
      (0 < size → mn + size ≤ 2147483647) := by
  have key : ∀ t, t ≤ size → ∀ r, loop t (fun k (st : Vec Int × Int) => do
      let v ← st.1.wr k st.2
      let n ← addI st.2 1
      (.ok (v, n) : C _)) (Vec.const size 0, mn) = .ok r →
      r.1.size = size ∧ (∀ k, k < t → r.1.get k = mn + k) ∧ r.2 = mn + t ∧ (0 < t → mn + t ≤ 2147483647) := by
    intro t
    induction t with
    | zero => intro _ r hr; cases hr; exact ⟨rfl, fun k hk => by omega, by simp, fun h => by omega⟩
    | succ t ih =>
      intro ht r hr
      rw [loop_succ, bind_eq_ok] at hr
      obtain ⟨s, hs, hr⟩ := hr
      obtain ⟨e1, e2, e3, _⟩ := ih (by omega) s hs
      rw [Vec.wr_ok (by rw [e1]; omega), ok_bind, bind_eq_ok] at hr
      obtain ⟨n, hn, hr⟩ := hr
      obtain ⟨rfl, n1, n2⟩ := i32r_inv hn
      cases hr
      refine ⟨e1, fun k hk => ?_, ?_, fun _ => ?_⟩
      · dsimp only
        split
        · next e => subst e; exact e3
        · exact e2 k (by omega)
      · dsimp only; push_cast; omega
      · push_cast; omega
  exact key size (le_refl _) r h

/-- Invariant of a histogram. -/
structure SInv (mn mx : Int) (vs : List Int) (g : SHist) : Prop where
  lo : g.minV = mn
  hi : g.maxV = mx
  size : (g.data.size : Int) = mx - mn + 1
  small : mx - mn + 1 ≤ 2147483647
  vsize : g.values.size = g.data.size
  values : ∀ k, k < g.data.size → g.values.get k = mn + k
  counts : ∀ k, k < g.data.size → g.data.get k = (vs.count (mn + k) : Nat)
  range : ∀ v ∈ vs, mn ≤ v ∧ v ≤ mx

theorem mkSimple_inv {mn mx : Int} {g : SHist} (h : mkSimple mn mx = .ok g) : SInv mn mx [] g := by
  unfold mkSimple at h
  rw [bind_eq_ok] at h
  obtain ⟨d, h1, h⟩ := h
  obtain ⟨rfl, _⟩ := i32r_inv h1
  rw [bind_eq_ok] at h
  obtain ⟨s, h2, h⟩ := h
  obtain ⟨rfl, _, hs2⟩ := i32r_inv h2
  split at h
  · cases h
  · next hs =>
    rw [bind_eq_ok] at h
    obtain ⟨r, h3, h⟩ := h
    obtain ⟨e1, e2, _⟩ := genValues_inv h3
    cases h
    exact ⟨rfl, rfl, by show (((mx - mn + 1).toNat : Nat) : Int) = _; omega, hs2, e1, e2, fun k _ => by simp [Vec.const],
      by simp⟩

/-! ## Updates -/

theorem simpleIdx_inv {mn : Int} {vs is : List Int} (h : simpleIdx mn vs = .ok is) : is = vs.map (· - mn) := by
  induction vs generalizing is with
  | nil => cases h; rfl
  | cons v vs ih =>
    unfold simpleIdx at h
    rw [bind_eq_ok] at h
    obtain ⟨i, h1, h⟩ := h
    rw [bind_eq_ok] at h
    obtain ⟨js, h2, h⟩ := h
    obtain ⟨rfl, _⟩ := i32r_inv h1
    cases h
    rw [ih h2, List.map_cons]

theorem simpleIdx_ok {mn : Int} {vs : List Int} (h : ∀ v ∈ vs, -2147483648 ≤ v - mn ∧ v - mn ≤ 2147483647) :
    simpleIdx mn vs = .ok (vs.map (· - mn)) := by
  induction vs with
  | nil => rfl
  | cons v vs ih =>
    have := h v (by simp)
    unfold simpleIdx subI
    rw [i32r_ok this.1 this.2, ok_bind, ih fun v hv => h v (by simp [hv]), ok_bind, List.map_cons]

theorem simpleBump_inv {d d' : Vec Int} {is : List Int} (h : simpleBump d is = .ok d') :
    d'.size = d.size ∧ (∀ i ∈ is, 0 ≤ i ∧ i < d.size) ∧
      ∀ k, d'.get k = d.get k + (is.count (k : Int) : Nat) := by
  induction is generalizing d with
  | nil => cases h; exact ⟨rfl, by simp, by simp⟩
  | cons i is ih =>
    unfold simpleBump at h
    split at h
    · cases h
    · next hi =>
      rw [bind_eq_ok] at h
      obtain ⟨e, h1, h2⟩ := h
      unfold updAt at h1
      simp only [bind_eq_ok, Vec.rd_eq_ok] at h1
      obtain ⟨a, ⟨ha, rfl⟩, b, hb, h3⟩ := h1
      obtain ⟨rfl, _⟩ := i32r_inv hb
      rw [Vec.wr_ok ha] at h3
      cases h3
      obtain ⟨e1, e2, e3⟩ := ih h2
      refine ⟨e1, fun j hj => ?_, fun k => ?_⟩
      · rcases List.mem_cons.1 hj with rfl | hj
        · omega
        · exact e2 j hj
      · rw [e3 k, List.count_cons]
        dsimp only
        by_cases hk : k = i.toNat
        · subst hk
          rw [if_pos rfl, if_pos (by simp; omega)]
          push_cast; ring
        · rw [if_neg hk, if_neg (by simp; omega)]
          simp

theorem simpleBump_ok {d : Vec Int} {is : List Int} (hi : ∀ i ∈ is, 0 ≤ i ∧ i < d.size)
    (hb : ∀ k, k < d.size → 0 ≤ d.get k ∧ d.get k + (is.count (k : Int) : Nat) ≤ 2147483647) :
    ∃ d', simpleBump d is = .ok d' := by
  induction is generalizing d with
  | nil => exact ⟨d, rfl⟩
  | cons i is ih =>
    obtain ⟨i0, i1⟩ := hi i (by simp)
    have hlt : i.toNat < d.size := by omega
    have hc := hb i.toNat hlt
    rw [Int.toNat_of_nonneg i0, List.count_cons_self] at hc
    unfold simpleBump
    rw [if_neg (by omega)]
    unfold updAt addI
    rw [Vec.rd_ok hlt, ok_bind]
    dsimp only
    rw [i32r_ok (by omega) (by push_cast at hc; omega), ok_bind, Vec.wr_ok hlt, ok_bind]
    refine ih (fun j hj => hi j (by simp [hj])) fun k hk => ?_
    have hk' := hb k hk
    rw [List.count_cons] at hk'
    dsimp only
    by_cases e : k = i.toNat
    · subst e
      rw [if_pos rfl]
      rw [if_pos (by simp; omega)] at hk'
      push_cast at hk'
      omega
    · rw [if_neg e]
      push_cast at hk'
      constructor
      · omega
      · split at hk' <;> omega

theorem count_shift (mn : Int) (vs : List Int) (k : Int) : (vs.map (· - mn)).count k = vs.count (mn + k) := by
  induction vs with
  | nil => rfl
  | cons v vs ih =>
    rw [List.map_cons, List.count_cons, List.count_cons, ih]
    congr 1
    simp only [beq_iff_eq, show v - mn = k ↔ v = mn + k by omega]

theorem update_sinv {mn mx : Int} {vs new : List Int} {g g' : SHist} (hi : SInv mn mx vs g)
    (h : g.update new = .ok g') : SInv mn mx (vs ++ new) g' := by
  unfold SHist.update at h
  rw [bind_eq_ok] at h
  obtain ⟨is, h1, h⟩ := h
  rw [bind_eq_ok] at h
  obtain ⟨d, h2, h⟩ := h
  cases h
  have e := simpleIdx_inv h1
  rw [hi.lo] at e
  subst e
  obtain ⟨b1, b2, b3⟩ := simpleBump_inv h2
  refine ⟨hi.lo, hi.hi, by rw [← hi.size]; exact_mod_cast b1, hi.small, hi.vsize.trans b1.symm, fun k hk => ?_, fun k hk => ?_,
    fun v hv => ?_⟩
  · exact hi.values k (by rwa [b1] at hk)
  · show d.get k = _
    rw [b3 k, hi.counts k (by rwa [b1] at hk), count_shift, List.count_append]
    push_cast; ring
  · rcases List.mem_append.1 hv with hv | hv
    · exact hi.range v hv
    · have := b2 (v - mn) (List.mem_map.2 ⟨v, hv, rfl⟩)
      have := hi.size
      omega

theorem collected_inv {mn mx : Int} {vs : List Int} {g : SHist} (h : Collected mn mx vs g) : SInv mn mx vs g := by
  induction h with
  | new h => exact mkSimple_inv h
  | more _ h' ih => exact update_sinv ih h'

/-! ## Sums over the bins -/

/-- A sum over the values is a sum over the bins. -/
theorem sum_bins {M : Type} [CommRing M] {mn : Int} {size : Nat} {vs : List Int} (f : Int → M)
    (h : ∀ v ∈ vs, mn ≤ v ∧ v < mn + size) :
    ∑ k ∈ range size, ((vs.count (mn + k) : Nat) : M) * f (mn + k) = (vs.map f).sum := by
  induction vs with
  | nil => simp
  | cons v vs ih =>
    rw [List.map_cons, List.sum_cons, ← ih fun v hv => h v (by simp [hv])]
    have hv := h v (by simp)
    have : ∀ k ∈ range size, (((v :: vs).count (mn + k) : Nat) : M) * f (mn + k) =
        (if k = (v - mn).toNat then f v else 0) + ((vs.count (mn + k) : Nat) : M) * f (mn + k) := by
      intro k _
      rw [List.count_cons]
      by_cases e : k = (v - mn).toNat
      · have : v = mn + k := by omega
        rw [if_pos (by simpa using this), if_pos e, ← this]
        push_cast; ring
      · rw [if_neg (by simp; omega), if_neg e]
        push_cast; ring
    rw [sum_congr rfl this, sum_add_distrib, sum_ite_eq' , if_pos (mem_range.2 (by omega))]

section
variable {mn mx : Int} {vs : List Int} {g : SHist}

theorem SInv.bins (hi : SInv mn mx vs g) : ∀ v ∈ vs, mn ≤ v ∧ v < mn + g.data.size := fun v hv => by
  have := hi.range v hv
  have := hi.size
  omega

theorem SInv.total (hi : SInv mn mx vs g) : ∑ k ∈ Finset.range g.data.size, g.data.get k = vs.length := by
  have := sum_bins (M := Int) (fun _ => 1) hi.bins
  rw [List.map_const', List.sum_replicate] at this
  simp only [mul_one, nsmul_eq_mul] at this
  rw [← this]
  exact sum_congr rfl fun k hk => hi.counts k (mem_range.1 hk)

theorem SInv.samples (hi : SInv mn mx vs g) (hl : vs.length < 9223372036854775808) :
    g.samples = .ok (vs.length : Int) := by
  unfold SHist.samples
  rw [loop_ok (fun k => ∑ i ∈ Finset.range k, g.data.get i) (by simp) fun k hk => ?_]
  · exact congrArg _ hi.total
  · rw [Vec.rd_ok hk, ok_bind, sum_range_succ]
    unfold addL i64
    rw [← sum_range_succ, if_pos]
    have hp : ∀ i ∈ Finset.range g.data.size, 0 ≤ g.data.get i := fun i hi' => by
      rw [hi.counts i (mem_range.1 hi')]; positivity
    have h1 : ∑ i ∈ Finset.range (k + 1), g.data.get i ≤ vs.length := by
      rw [← hi.total]
      exact sum_le_sum_of_subset_of_nonneg (range_subset_range.2 hk) fun i hi' _ => hp i hi'
    have h2 : 0 ≤ ∑ i ∈ Finset.range (k + 1), g.data.get i :=
      sum_nonneg fun i hi' => hp i (mem_range.2 (lt_of_lt_of_le (mem_range.1 hi') hk))
    unfold InI64
    omega

/-- The reported bins. -/
theorem SInv.hist (hi : SInv mn mx vs g) :
    loop g.data.size (fun k (hm : List (Int × Int)) => do
      let d ← g.data.rd k
      let v ← g.values.rd k
      (.ok (insNew hm v d) : C _)) [] =
      .ok ((List.range g.data.size).map fun k : Nat => (mn + k, ((vs.count (mn + k) : Nat) : Int))) := by
  refine loop_ok (fun n => (List.range n).map fun k : Nat => (mn + k, ((vs.count (mn + k) : Nat) : Int))) (by simp)
    fun k hk => ?_
  rw [Vec.rd_ok hk, ok_bind, Vec.rd_ok (by rw [hi.vsize]; exact hk), ok_bind, hi.values k hk, hi.counts k hk]
  unfold insNew
  rw [if_neg]
  · rw [List.range_succ, List.map_append]; rfl
  · rw [List.contains_iff_mem, List.map_map]
    intro hm
    obtain ⟨i, hi', e⟩ := List.mem_map.1 hm
    rw [List.mem_range] at hi'
    have e : mn + (i : Int) = mn + k := e
    omega

variable {K : Type} [Field K] [LinearOrder K] [IsStrictOrderedRing K] [FloorRing K] {E : Env K}

/-- The sum of the values, if the arithmetic is exact on the partial sums. -/
theorem SInv.wsum (hi : SInv mn mx vs g) (hc : ∀ k, k < g.data.size → E.f32 ((vs.count (mn + k) : Nat) : K) = (vs.count (mn + k) : Nat))
    (hv : ∀ k : Nat, k < g.data.size → E.f32 ((mn + k : Int) : K) = ((mn + k : Int) : K))
    (hm : ∀ k : Nat, k < g.data.size → E.f32 (((vs.count (mn + k) : Nat) * (mn + k) : Int) : K) = (((vs.count (mn + k) : Nat) * (mn + k) : Int) : K))
    (hs : ∀ k : Nat, k ≤ g.data.size → E.f32 ((∑ i ∈ Finset.range k, (vs.count (mn + i) : Nat) * (mn + i) : Int) : K) =
      ((∑ i ∈ Finset.range k, (vs.count (mn + i) : Nat) * (mn + i) : Int) : K)) :
    loop g.data.size (fun k s => do
      let d ← g.data.rd k
      let v ← g.values.rd k
      (.ok (E.fadd s (E.fmul (E.ofInt d) (E.ofInt v))) : C K)) 0 = .ok (vs.sum : K) := by
  have e := sum_bins (M := Int) (fun v => v) hi.bins
  rw [List.map_id'] at e
  rw [loop_ok (fun k => ((∑ i ∈ Finset.range k, (vs.count (mn + i) : Nat) * (mn + i) : Int) : K)) (by simp)
    fun k hk => ?_]
  · exact congrArg _ (congrArg _ e)
  · rw [Vec.rd_ok hk, ok_bind, Vec.rd_ok (by rw [hi.vsize]; exact hk), ok_bind, hi.values k hk, hi.counts k hk]
    congr 1
    unfold Env.fadd Env.fmul Env.ofInt
    rw [Int.cast_natCast, hc k hk, hv k hk]
    rw [show ((vs.count (mn + k) : Nat) : K) * ((mn + k : Int) : K) = (((vs.count (mn + k) : Nat) * (mn + k) : Int) : K) by push_cast; ring,
      hm k hk, ← Int.cast_add, ← sum_range_succ, hs (k + 1) hk]

theorem SInv.mean (hE : ExactArith E) (hi : SInv mn mx vs g) (hl : vs.length < 9223372036854775808) (hne : vs ≠ []) :
    g.mean E = .ok (meanOf K vs) := by
  unfold SHist.mean
  rw [hi.wsum (E := E) (fun _ _ => hE.f32 _) (fun _ _ => hE.f32 _) (fun _ _ => hE.f32 _) (fun _ _ => hE.f32 _), ok_bind,
    hi.samples hl, ok_bind, if_neg (by simpa using hne), hE.f32, hE.f64, hE.f64]
  unfold meanOf
  rw [Int.cast_natCast]

theorem SInv.variance (hE : ExactArith E) (hi : SInv mn mx vs g) (hl : vs.length < 9223372036854775808)
    (hne : vs ≠ []) : g.variance E = .ok (varianceOf K vs) := by
  unfold SHist.variance
  have e := sum_bins (M := K) (fun v => ((v : K) - meanOf K vs) ^ 2) hi.bins
  rw [hi.mean hE hl hne, ok_bind, loop_ok (fun k => ∑ i ∈ Finset.range k, ((vs.count (mn + i) : Nat) : K) *
      (((mn + i : Int) : K) - meanOf K vs) ^ 2) (by simp) fun k hk => ?_, ok_bind, hi.samples hl, ok_bind,
    if_neg (by simpa using hne), hE.f32, hE.f64, hE.f64, e]
  · unfold varianceOf
    rw [Int.cast_natCast]
  · rw [Vec.rd_ok hk, ok_bind, Vec.rd_ok (by rw [hi.vsize]; exact hk), ok_bind, hi.values k hk, hi.counts k hk,
      sum_range_succ]
    unfold Env.fadd Env.fsub Env.ofInt
    simp only [hE.f32, hE.f64, Int.cast_natCast]

end

end Acs
