import Verif.Lemmas.DMvmInt
import Mathlib.Tactic.LinearCombination

/-! # The digital multiplications of the binary and ternary mappings -/

namespace Acs

open Finset

/-- Values of a binary mapping. -/
def IsBin (x : Int) : Prop := x = 1 ∨ x = -1
/-- Values of a ternary mapping. -/
def IsTern (x : Int) : Prop := x = 1 ∨ x = -1 ∨ x = 0

theorem IsBin.tern {x : Int} (h : IsBin x) : IsTern x := h.elim Or.inl fun h => Or.inr (Or.inl h)
theorem IsTern.abs {x : Int} (h : IsTern x) : |x| ≤ 1 := by
  rcases h with h | h | h <;> simp [h]

/-- Plus/minus cells of a ternary matrix. -/
structure PM (gd : Gd) (W : Nat → Nat → Int) (m n : Nat) : Prop where
  p : ∀ i j, i < m → j < n → gd.p.get i j = if W i j = 1 then 1 else 0
  q : ∀ i j, i < m → j < n → gd.m.get i j = if W i j = -1 then 1 else 0
  tern : ∀ i j, i < m → j < n → IsTern (W i j)

theorem PM.diff {gd : Gd} {W : Nat → Nat → Int} {m n : Nat} (h : PM gd W m n) {i j : Nat}
    (hi : i < m) (hj : j < n) : gd.p.get i j - gd.m.get i j = W i j := by
  rw [h.p i j hi hj, h.q i j hi hj]
  rcases h.tern i j hi hj with h | h | h <;> rw [h] <;> norm_num

theorem PM.diff' {gd : Gd} {W : Nat → Nat → Int} {m n : Nat} (h : PM gd W m n) {i j : Nat}
    (hi : i < m) (hj : j < n) : gd.m.get i j - gd.p.get i j = - W i j := by
  rw [← h.diff hi hj]; ring

theorem small_inI32 {z : Int} (h : |z| ≤ 4) : InI32 z := inI32_of_abs (h.trans (by norm_num))

theorem abs_mul_le_one {a b : Int} (ha : |a| ≤ 1) (hb : |b| ≤ 1) : |a * b| ≤ 1 := by
  rw [abs_mul]; nlinarith [abs_nonneg a, abs_nonneg b]

theorem abs_mul_two {a : Int} (ha : |a| ≤ 1) : |a * 2| ≤ 2 := by
  rw [abs_mul, abs_two]; linarith
theorem abs_two_mul {a : Int} (ha : |a| ≤ 1) : |2 * a| ≤ 2 := by
  rw [abs_mul, abs_two]; linarith

/-! ## Input encodings -/

section
variable {n : Nat} {vec vp vm : Vec Int}

theorem encBnn1_ok (hv : n ≤ vec.size) (hp : n ≤ vp.size) (hx : ∀ j, j < n → InI32 (vec.get j + 1)) :
    encBnn1 n vec vp = .ok (vp.over n fun j => (vec.get j + 1) / 2) := by
  unfold encBnn1
  refine setG_ok _ hp fun j hj => ?_
  rw [Vec.rd_ok (by omega), ok_bind, addI_ok (hx j hj), ok_bind, shrI_ok (by omega), pow_one]

theorem encBnn2_ok (hv : n ≤ vec.size) (hp : n ≤ vp.size) (hx : ∀ j, j < n → InI32 (vec.get j - 1)) :
    encBnn2 n vec vp = .ok (vp.over n fun j => (vec.get j - 1).tdiv (-2)) := by
  unfold encBnn2
  refine setG_ok _ hp fun j hj => ?_
  rw [Vec.rd_ok (by omega), ok_bind, subI_ok (hx j hj), ok_bind]

/-- The two halves of a `+1`/`0`/`-1` input. -/
abbrev plusOf (vp : Vec Int) (n : Nat) (vec : Vec Int) : Vec Int :=
  vp.over n fun j => if vec.get j = 1 then 1 else 0
abbrev minusOf (vm : Vec Int) (n : Nat) (vec : Vec Int) : Vec Int :=
  vm.over n fun j => if vec.get j = -1 then 1 else 0

theorem encPM_ok (hv : n ≤ vec.size) (hp : n ≤ vp.size) (hm : n ≤ vm.size)
    (hx : ∀ j, j < n → IsBin (vec.get j)) :
    encPM n vec vp vm = .ok (plusOf vp n vec, minusOf vm n vec) := by
  unfold encPM
  refine loop_ok (fun i => (vp.over i fun j => if vec.get j = 1 then 1 else 0,
       vm.over i fun j => if vec.get j = -1 then 1 else 0)) ?_ fun i hi => ?_
  · simp [Vec.over_zero]
  rw [Vec.rd_ok (by omega), ok_bind]
  have e1 := Vec.over_wr (v := vp) (i := i) (f := fun j => if vec.get j = 1 then (1 : Int) else 0)
    (by omega)
  have e2 := Vec.over_wr (v := vm) (i := i) (f := fun j => if vec.get j = -1 then (1 : Int) else 0)
    (by omega)
  rcases hx i hi with h | h
  · rw [if_pos h] at e1
    rw [if_neg (by omega)] at e2
    rw [if_pos h, e1, ok_bind, e2, ok_bind]
  · rw [if_neg (by omega)] at e1
    rw [if_pos h] at e2
    rw [if_neg (by omega), if_pos h, e2, ok_bind, e1, ok_bind]

theorem encTern_ok (hv : n ≤ vec.size) (hp : n ≤ vp.size) (hm : n ≤ vm.size)
    (hx : ∀ j, j < n → IsTern (vec.get j)) :
    encTern n vec vp vm = .ok (plusOf vp n vec, minusOf vm n vec) := by
  unfold encTern
  refine loop_ok (fun i => (vp.over i fun j => if vec.get j = 1 then 1 else 0,
       vm.over i fun j => if vec.get j = -1 then 1 else 0)) ?_ fun i hi => ?_
  · simp [Vec.over_zero]
  rw [Vec.rd_ok (by omega), ok_bind]
  have e1 := Vec.over_wr (v := vp) (i := i) (f := fun j => if vec.get j = 1 then (1 : Int) else 0)
    (by omega)
  have e2 := Vec.over_wr (v := vm) (i := i) (f := fun j => if vec.get j = -1 then (1 : Int) else 0)
    (by omega)
  rcases hx i hi with h | h | h
  · rw [if_pos h] at e1
    rw [if_neg (by omega)] at e2
    rw [if_pos h, e1, ok_bind, e2, ok_bind]
  · rw [if_neg (by omega)] at e1
    rw [if_pos h] at e2
    rw [if_neg (by omega), if_pos h, e2, ok_bind, e1, ok_bind]
  · rw [if_neg (by omega)] at e1
    rw [if_neg (by omega)] at e2
    rw [if_neg (by omega), if_neg (by omega), if_pos h, e2, ok_bind, e1, ok_bind]

theorem sum_bound {f : Nat → Int} {n k : Nat} {b : Int} (hb : 0 ≤ b) (hk : k ≤ n)
    (hf : ∀ j, j < n → |f j| ≤ b) : ∑ j ∈ range k, |f j| ≤ n * b := by
  calc ∑ j ∈ range k, |f j| ≤ ∑ _j ∈ range k, b :=
        sum_le_sum fun j hj => hf j (by have := mem_range.1 hj; omega)
    _ = k * b := by simp
    _ ≤ n * b := mul_le_mul_of_nonneg_right (by exact_mod_cast hk) hb

theorem encPMSum_ok (hv : n ≤ vec.size) (hp : n ≤ vp.size) (hm : n ≤ vm.size) (hn : n ≤ 2147483647)
    (hx : ∀ j, j < n → IsBin (vec.get j)) :
    encPMSum n vec vp vm = .ok ((plusOf vp n vec, minusOf vm n vec), ∑ j ∈ range n, vec.get j) := by
  unfold encPMSum
  refine loop_ok (fun i => ((vp.over i fun j => if vec.get j = 1 then 1 else 0,
       vm.over i fun j => if vec.get j = -1 then 1 else 0), ∑ j ∈ range i, vec.get j)) ?_ fun i hi => ?_
  · simp [Vec.over_zero]
  rw [Vec.rd_ok (by omega), ok_bind]
  have hs : InI32 (∑ j ∈ range i, vec.get j + vec.get i) := by
    rw [← sum_range_succ]
    have h1 := sum_bound (f := vec.get) (n := n) (k := i + 1) (b := 1) (by norm_num) (by omega)
      fun j hj => (hx j hj).tern.abs
    have h2 : |∑ j ∈ range (i + 1), vec.get j| ≤ ∑ j ∈ range (i + 1), |vec.get j| :=
      abs_sum_le_sum_abs _ _
    apply inI32_of_abs
    have : (n : Int) ≤ 2147483647 := by exact_mod_cast hn
    linarith
  rw [addI_ok hs, ok_bind, sum_range_succ]
  have e1 := Vec.over_wr (v := vp) (i := i) (f := fun j => if vec.get j = 1 then (1 : Int) else 0)
    (by omega)
  have e2 := Vec.over_wr (v := vm) (i := i) (f := fun j => if vec.get j = -1 then (1 : Int) else 0)
    (by omega)
  rcases hx i hi with h | h
  · rw [if_pos h] at e1
    rw [if_neg (by omega)] at e2
    rw [if_pos h, e1, ok_bind, e2, ok_bind]
  · rw [if_neg (by omega)] at e1
    rw [if_pos h] at e2
    rw [if_neg (by omega), if_pos h, e2, ok_bind, e1, ok_bind]

theorem encNonzero_ok (hv : n ≤ vec.size) (hp : n ≤ vp.size) :
    encNonzero n vec vp = .ok (vp.over n fun j => if vec.get j ≠ 0 then 1 else 0) := by
  unfold encNonzero
  refine setG_ok _ hp fun j hj => ?_
  rw [Vec.rd_ok (by omega), ok_bind]

theorem encNegOne_ok (hv : n ≤ vec.size) (hp : n ≤ vp.size) :
    encNegOne n vec vp = .ok (vp.over n fun j => if vec.get j = -1 then 1 else 0) := by
  unfold encNegOne
  refine setG_ok _ hp fun j hj => ?_
  rw [Vec.rd_ok (by omega), ok_bind]

theorem encBit0_ok (hv : n ≤ vec.size) (hp : n ≤ vp.size) (hx : ∀ j, j < n → InI32 (vec.get j + 1)) :
    encBit0 n vec vp = .ok (vp.over n fun j => (vec.get j + 1) % 2) := by
  unfold encBit0
  refine setG_ok _ hp fun j hj => ?_
  rw [Vec.rd_ok (by omega), ok_bind, addI_ok (hx j hj), ok_bind, and32_one]

theorem encBit1_ok (hv : n ≤ vec.size) (hp : n ≤ vp.size) (hx : ∀ j, j < n → InI32 (vec.get j + 1)) :
    encBit1 n vec vp = .ok (vp.over n fun j => (vec.get j + 1) / 2 % 2) := by
  unfold encBit1
  refine setG_ok _ hp fun j hj => ?_
  rw [Vec.rd_ok (by omega), ok_bind, addI_ok (hx j hj), ok_bind, shr_and_two]

end

theorem IsTern.in1 {x : Int} (h : IsTern x) : InI32 (x + 1) := by
  rcases h with h | h | h <;> rw [h] <;> decide
theorem IsTern.in1' {x : Int} (h : IsTern x) : InI32 (x - 1) := by
  rcases h with h | h | h <;> rw [h] <;> decide
theorem IsTern.in32 {x : Int} (h : IsTern x) : InI32 x := by
  rcases h with h | h | h <;> rw [h] <;> decide

/-! ## The multiplications -/

section
variable {K : Type} {E : Env K} {cfg : Cfg K} {c : Core K} {a : Aux K} {res vec : Vec Int}
  {m n : Nat} {W : Nat → Nat → Int}

/-- Two accumulation stages collapse. -/
theorem over_over {α : Type} {v : Vec α} {T : Nat} {f g : Nat → α} :
    (v.over T f).over T g = v.over T g := by
  refine Vec.ext' (by rfl) fun k => ?_
  simp only [Vec.over]
  split <;> rfl

theorem over_congr {α : Type} {v : Vec α} {T : Nat} {f g : Nat → α} (h : ∀ k, k < T → f k = g k) :
    v.over T f = v.over T g := by
  refine Vec.ext' (by rfl) fun k => ?_
  simp only [Vec.over]
  split
  · next hk => exact h k hk
  · rfl

/-- The scratch vectors for the inputs are large enough. -/
structure InScratch (a : Aux K) (n : Nat) : Prop where
  vdP : n ≤ a.vdP.size
  vdM : n ≤ a.vdM.size

/-- What every digital multiplication must achieve: success, the exact result, and no effect besides
the scratch vectors. -/
def Exact (r : C (Aux K × Vec Int)) (a : Aux K) (res vec : Vec Int) (W : Nat → Nat → Int)
    (m n : Nat) : Prop :=
  ∃ a', r = .ok (a', res.over m fun i => res.get i + ∑ j ∈ range n, W i j * vec.get j) ∧
    AuxLike a a' ∧ a'.rng = a.rng ∧ a'.hists = a.hists

theorem exact_mk {r : C (Aux K × Vec Int)} {a' : Aux K} {g : Nat → Int}
    (h : r = .ok (a', res.over m g))
    (hg : ∀ i, i < m → g i = res.get i + ∑ j ∈ range n, W i j * vec.get j)
    (h1 : AuxLike a a') (h2 : a'.rng = a.rng) (h3 : a'.hists = a.hists) :
    Exact r a res vec W m n :=
  ⟨a', by rw [h, over_congr hg], h1, h2, h3⟩

theorem abs_sum_tern {f : Nat → Int} (hf : ∀ j, j < n → |f j| ≤ 1) : |∑ j ∈ range n, f j| ≤ n := by
  have h1 := sum_bound (f := f) (n := n) (k := n) (b := 1) (by norm_num) le_rfl hf
  have h2 : |∑ j ∈ range n, f j| ≤ ∑ j ∈ range n, |f j| := abs_sum_le_sum_abs _ _
  linarith

theorem abs_wx {i : Nat} (hi : i < m) (ht : ∀ i j, i < m → j < n → IsTern (W i j))
    (hx : ∀ j, j < n → IsTern (vec.get j)) : |∑ j ∈ range n, W i j * vec.get j| ≤ n :=
  abs_sum_tern fun j hj => abs_mul_le_one (ht i j hi hj).abs (hx j hj).abs

theorem final_in {r s : Int} {k : Nat} (hr : |r| + 3 * k ≤ 2147483647) (hs : |s| ≤ k) :
    InI32 (r + s) := by
  apply inI32_of_abs
  have := abs_add_le r s
  have h2 : (0 : Int) ≤ k := by exact_mod_cast Nat.zero_le k
  linarith

theorem dMvmBnnI_ok (hdim : GdDims c.gd m m n) (hscr : InScratch a n) (hpm : PM c.gd W m n)
    (hsum : ∀ i, i < m → c.gd.sumW.get i = ∑ j ∈ range n, W i j)
    (hv : n ≤ vec.size) (hr : m ≤ res.size) (hx : ∀ j, j < n → IsBin (vec.get j))
    (hb : ∀ i, i < m → |res.get i| + 3 * n ≤ 2147483647) :
    Exact (dMvmBnnI c a res vec m n) a res vec W m n := by
  obtain ⟨hpr, hpc, hmr, hmc, hsw⟩ := hdim
  unfold dMvmBnnI
  have ev : ∀ j, j < n → 2 * ((vec.get j + 1) / 2) = vec.get j + 1 := fun j hj => by
    rcases hx j hj with h | h <;> rw [h] <;> norm_num
  have bv : ∀ j, j < n → |(vec.get j + 1) / 2| ≤ 1 := fun j hj => by
    rcases hx j hj with h | h <;> rw [h] <;> norm_num
  have bw : ∀ i j, i < m → j < n → |W i j * ((vec.get j + 1) / 2)| ≤ 1 := fun i j hi hj =>
    abs_mul_le_one (hpm.tern i j hi hj).abs (bv j hj)
  have bt : ∀ i j, i < m → j < n → |W i j * ((vec.get j + 1) / 2) * 2| ≤ 2 := fun i j hi hj =>
    abs_mul_two (bw i j hi hj)
  rw [encBnn1_ok hv hscr.vdP (fun j hj => (hx j hj).tern.in1), ok_bind]
  rw [accG_addI (fun i j => W i j * ((vec.get j + 1) / 2) * 2) hr (fun i j hi hj => by
      rw [diffTerm_ok (by omega) (by omega) (by omega) (by omega) (by simp; exact hj.trans_le hscr.vdP)
        (by rw [hpm.diff hi hj]; exact small_inI32 ((hpm.tern i j hi hj).abs.trans (by norm_num)))
        (by rw [hpm.diff hi hj, Vec.over_lt hj]; exact small_inI32 ((bw i j hi hj).trans (by norm_num))),
        ok_bind, hpm.diff hi hj, Vec.over_lt hj,
        mulI_ok (small_inI32 ((bt i j hi hj).trans (by norm_num)))])
    (fun i hi => by
      have := sum_bound (n := n) (k := n) (b := 2) (by norm_num) le_rfl fun j hj => bt i j hi hj
      have := hb i hi
      linarith), ok_bind]
  have e : ∀ i, i < m → res.get i + ∑ j ∈ range n, W i j * ((vec.get j + 1) / 2) * 2
      - ∑ j ∈ range n, W i j = res.get i + ∑ j ∈ range n, W i j * vec.get j := fun i hi => by
    rw [add_sub_assoc, ← sum_sub_distrib]
    congr 1
    refine sum_congr rfl fun j hj => ?_
    linear_combination W i j * ev j (mem_range.1 hj)
  rw [updG_ok (fun i => res.get i + ∑ j ∈ range n, W i j * vec.get j) (by simpa using hr)
    (fun i hi => by
      rw [Vec.rd_ok (by omega), ok_bind, Vec.over_lt hi, hsum i hi, subI_ok, e i hi]
      rw [e i hi]
      exact final_in (hb i hi) (abs_wx hi hpm.tern fun j hj => (hx j hj).tern)), ok_bind]
  simp only [over_over]
  exact ⟨_, rfl, by constructor <;> rfl, rfl, rfl⟩

theorem dMvmBnnII_ok (hdim : GdDims c.gd m m n) (hscr : InScratch a n) (hpm : PM c.gd W m n)
    (hsum : ∀ i, i < m → c.gd.sumW.get i = ∑ j ∈ range n, W i j)
    (hv : n ≤ vec.size) (hr : m ≤ res.size) (hx : ∀ j, j < n → IsBin (vec.get j))
    (hb : ∀ i, i < m → |res.get i| + 3 * n ≤ 2147483647) :
    Exact (dMvmBnnII c a res vec m n) a res vec W m n := by
  obtain ⟨hpr, hpc, hmr, hmc, hsw⟩ := hdim
  unfold dMvmBnnII
  have ev : ∀ j, j < n → 2 * ((vec.get j - 1).tdiv (-2)) = 1 - vec.get j := fun j hj => by
    rcases hx j hj with h | h <;> rw [h] <;> decide
  have bv : ∀ j, j < n → |(vec.get j - 1).tdiv (-2)| ≤ 1 := fun j hj => by
    rcases hx j hj with h | h <;> rw [h] <;> decide
  have bw : ∀ i j, i < m → j < n → |-W i j * ((vec.get j - 1).tdiv (-2))| ≤ 1 := fun i j hi hj =>
    abs_mul_le_one (by rw [abs_neg]; exact (hpm.tern i j hi hj).abs) (bv j hj)
  have bt : ∀ i j, i < m → j < n → |-W i j * ((vec.get j - 1).tdiv (-2)) * 2| ≤ 2 :=
    fun i j hi hj => abs_mul_two (bw i j hi hj)
  rw [encBnn2_ok hv hscr.vdP (fun j hj => (hx j hj).tern.in1'), ok_bind]
  rw [accG_addI (fun i j => -W i j * ((vec.get j - 1).tdiv (-2)) * 2) hr (fun i j hi hj => by
      rw [diffTermNeg_ok (by omega) (by omega) (by omega) (by omega)
        (by simp; exact hj.trans_le hscr.vdP)
        (by rw [hpm.diff' hi hj]; exact small_inI32 (by
              rw [abs_neg]; exact (hpm.tern i j hi hj).abs.trans (by norm_num)))
        (by rw [hpm.diff' hi hj, Vec.over_lt hj]; exact small_inI32 ((bw i j hi hj).trans (by norm_num))),
        ok_bind, hpm.diff' hi hj, Vec.over_lt hj,
        mulI_ok (small_inI32 ((bt i j hi hj).trans (by norm_num)))])
    (fun i hi => by
      have := sum_bound (n := n) (k := n) (b := 2) (by norm_num) le_rfl fun j hj => bt i j hi hj
      have := hb i hi
      linarith), ok_bind]
  have e : ∀ i, i < m → res.get i + ∑ j ∈ range n, -W i j * ((vec.get j - 1).tdiv (-2)) * 2
      + ∑ j ∈ range n, W i j = res.get i + ∑ j ∈ range n, W i j * vec.get j := fun i hi => by
    rw [add_assoc, ← sum_add_distrib]
    congr 1
    refine sum_congr rfl fun j hj => ?_
    linear_combination (- W i j) * ev j (mem_range.1 hj)
  rw [updG_ok (fun i => res.get i + ∑ j ∈ range n, W i j * vec.get j) (by simpa using hr)
    (fun i hi => by
      rw [Vec.rd_ok (by omega), ok_bind, Vec.over_lt hi, hsum i hi, addI_ok, e i hi]
      rw [e i hi]
      exact final_in (hb i hi) (abs_wx hi hpm.tern fun j hj => (hx j hj).tern)), ok_bind]
  simp only [over_over]
  exact ⟨_, rfl, by constructor <;> rfl, rfl, rfl⟩

theorem plus_sub_minus {x : Int} (h : IsTern x) :
    (if x = 1 then (1 : Int) else 0) - (if x = -1 then 1 else 0) = x := by
  rcases h with h | h | h <;> rw [h] <;> norm_num

theorem ite_abs {p : Prop} [Decidable p] : |if p then (1 : Int) else 0| ≤ 1 := by split <;> norm_num

theorem bnn34Term_ok {gd : Gd} {u w : Vec Int} {i j : Nat} (hp : i < gd.p.rows) (hp' : j < gd.p.cols)
    (hu : j < u.size) (hw : j < w.size) (bg : |gd.p.get i j| ≤ 1) (bu : |u.get j| ≤ 1)
    (bw : |w.get j| ≤ 1) :
    bnn34Term gd u w i j = .ok (2 * (gd.p.get i j * (u.get j - w.get j))) := by
  unfold bnn34Term
  have h1 := abs_mul_le_one bg bu
  have h2 := abs_mul_le_one bg bw
  have h3 : |gd.p.get i j * u.get j - gd.p.get i j * w.get j| ≤ 2 := by
    have := abs_sub (gd.p.get i j * u.get j) (gd.p.get i j * w.get j)
    linarith
  have h4 : |2 * (gd.p.get i j * u.get j - gd.p.get i j * w.get j)| ≤ 4 := by
    rw [abs_mul, abs_two]; linarith
  rw [Mat.rd_ok hp hp', ok_bind, Vec.rd_ok hu, ok_bind, mulI_ok (small_inI32 (by linarith)), ok_bind,
    Vec.rd_ok hw, ok_bind, mulI_ok (small_inI32 (by linarith)), ok_bind,
    subI_ok (small_inI32 (by linarith)), ok_bind, mulI_ok (small_inI32 h4), mul_sub (gd.p.get i j)]

theorem dMvmBnnIII_ok (hpr : m ≤ c.gd.p.rows) (hpc : n ≤ c.gd.p.cols) (hscr : InScratch a n)
    (hg : ∀ i j, i < m → j < n → 2 * c.gd.p.get i j = W i j + 1)
    (hw : ∀ i j, i < m → j < n → IsBin (W i j))
    (hv : n ≤ vec.size) (hr : m ≤ res.size) (hx : ∀ j, j < n → IsBin (vec.get j))
    (hn : n ≤ 2147483647)
    (hb : ∀ i, i < m → |res.get i| + 3 * n ≤ 2147483647) :
    Exact (dMvmBnnIII c a res vec m n) a res vec W m n := by
  unfold dMvmBnnIII
  have bg : ∀ i j, i < m → j < n → |c.gd.p.get i j| ≤ 1 := fun i j hi hj => by
    have := hg i j hi hj
    rcases hw i j hi hj with h | h <;> rw [h] at this <;> rw [abs_le] <;> constructor <;> omega
  rw [encPMSum_ok hv hscr.vdP hscr.vdM hn hx, ok_bind]
  have hn0 : (0 : Int) ≤ n := by exact_mod_cast Nat.zero_le n
  have hsx : |∑ j ∈ range n, vec.get j| ≤ n := abs_sum_tern fun j hj => (hx j hj).tern.abs
  rw [rowLoop_ok (fun i => res.get i + ∑ j ∈ range n, W i j * vec.get j) (fun i hi r hrs hri => by
    have hb' := hb i hi
    rw [updAt_set (x := res.get i - ∑ j ∈ range n, vec.get j) (by omega) (by
      rw [hri]
      refine subI_ok (inI32_of_abs ?_)
      have := abs_sub (res.get i) (∑ j ∈ range n, vec.get j)
      linarith), ok_bind]
    have eg : ∀ j, j < n → |(W i j + 1) * vec.get j| ≤ 2 := fun j hj => by
      rw [← hg i j hi hj, mul_assoc]
      exact abs_two_mul (abs_mul_le_one (bg i j hi hj) (hx j hj).tern.abs)
    rw [accRow_set (fun j => (W i j + 1) * vec.get j) (by simp; omega) (fun j hj => by
        rw [bnn34Term_ok (by omega) (by omega) (by simp; exact hj.trans_le hscr.vdP)
          (by simp; exact hj.trans_le hscr.vdM) (bg i j hi hj) (by rw [Vec.over_lt hj]; exact ite_abs)
          (by rw [Vec.over_lt hj]; exact ite_abs), Vec.over_lt hj, Vec.over_lt hj,
          plus_sub_minus (hx j hj).tern, ← mul_assoc, hg i j hi hj])
      (by
        rw [Vec.set_get]
        have h1 := sum_bound (n := n) (k := n) (b := 2) (by norm_num) le_rfl eg
        have h2 : |res.get i - ∑ j ∈ range n, vec.get j| ≤ _ := abs_sub _ _
        linarith), Vec.set_set, Vec.set_get]
    congr 2
    rw [sub_add_eq_add_sub, add_sub_assoc, ← sum_sub_distrib]
    congr 1
    exact sum_congr rfl fun j _ => by ring), ok_bind]
  exact ⟨_, rfl, by constructor <;> rfl, rfl, rfl⟩

theorem dMvmBnnIV_ok (hpr : m ≤ c.gd.p.rows) (hpc : n ≤ c.gd.p.cols) (hscr : InScratch a n)
    (hg : ∀ i j, i < m → j < n → 2 * c.gd.p.get i j = 1 - W i j)
    (hw : ∀ i j, i < m → j < n → IsBin (W i j))
    (hv : n ≤ vec.size) (hr : m ≤ res.size) (hx : ∀ j, j < n → IsBin (vec.get j))
    (hn : n ≤ 2147483647)
    (hb : ∀ i, i < m → |res.get i| + 3 * n ≤ 2147483647) :
    Exact (dMvmBnnIV c a res vec m n) a res vec W m n := by
  unfold dMvmBnnIV
  have bg : ∀ i j, i < m → j < n → |c.gd.p.get i j| ≤ 1 := fun i j hi hj => by
    have := hg i j hi hj
    rcases hw i j hi hj with h | h <;> rw [h] at this <;> rw [abs_le] <;> constructor <;> omega
  rw [encPMSum_ok hv hscr.vdP hscr.vdM hn hx, ok_bind]
  have hn0 : (0 : Int) ≤ n := by exact_mod_cast Nat.zero_le n
  have hsx : |∑ j ∈ range n, vec.get j| ≤ n := abs_sum_tern fun j hj => (hx j hj).tern.abs
  rw [rowLoop_ok (fun i => res.get i + ∑ j ∈ range n, W i j * vec.get j) (fun i hi r hrs hri => by
    have hb' := hb i hi
    rw [updAt_set (x := res.get i + ∑ j ∈ range n, vec.get j) (by omega) (by
      rw [hri]
      refine addI_ok (inI32_of_abs ?_)
      have := abs_add_le (res.get i) (∑ j ∈ range n, vec.get j)
      linarith), ok_bind]
    have eg : ∀ j, j < n → |(1 - W i j) * -vec.get j| ≤ 2 := fun j hj => by
      rw [← hg i j hi hj, mul_assoc]
      exact abs_two_mul (abs_mul_le_one (bg i j hi hj)
        (by rw [abs_neg]; exact (hx j hj).tern.abs))
    rw [accRow_set (fun j => (1 - W i j) * -vec.get j) (by simp; omega) (fun j hj => by
        have e2 := plus_sub_minus (hx j hj).tern
        rw [bnn34Term_ok (by omega) (by omega) (by simp; exact hj.trans_le hscr.vdM)
          (by simp; exact hj.trans_le hscr.vdP) (bg i j hi hj) (by rw [Vec.over_lt hj]; exact ite_abs)
          (by rw [Vec.over_lt hj]; exact ite_abs), Vec.over_lt hj, Vec.over_lt hj,
          ← neg_sub, e2, ← mul_assoc, hg i j hi hj])
      (by
        rw [Vec.set_get]
        have h1 := sum_bound (n := n) (k := n) (b := 2) (by norm_num) le_rfl eg
        have h2 : |res.get i + ∑ j ∈ range n, vec.get j| ≤ _ := abs_add_le _ _
        linarith), Vec.set_set, Vec.set_get]
    congr 2
    rw [add_assoc, ← sum_add_distrib]
    congr 1
    exact sum_congr rfl fun j _ => by ring), ok_bind]
  exact ⟨_, rfl, by constructor <;> rfl, rfl, rfl⟩

theorem dMvmBnnV_ok (hdim : GdDims c.gd m m n) (hscr : InScratch a n) (hpm : PM c.gd W m n)
    (hw : ∀ i j, i < m → j < n → IsBin (W i j))
    (hv : n ≤ vec.size) (hr : m ≤ res.size) (hx : ∀ j, j < n → IsBin (vec.get j))
    (hb : ∀ i, i < m → |res.get i| + 3 * n ≤ 2147483647) :
    Exact (dMvmBnnV E c a res vec m n) a res vec W m n := by
  obtain ⟨hpr, hpc, hmr, hmc, hsw⟩ := hdim
  unfold dMvmBnnV
  rw [encPM_ok hv hscr.vdP hscr.vdM hx, ok_bind]
  have hn0 : (0 : Int) ≤ n := by exact_mod_cast Nat.zero_le n
  rw [rowLoop_ok (fun i => res.get i + ∑ j ∈ range n, W i j * vec.get j) (fun i hi r hrs hri => by
    have hb' := hb i hi
    rw [updAt_set (x := res.get i - n) (by omega) (by
      rw [hri]
      refine subI_ok (inI32_of_abs ?_)
      have := abs_sub (res.get i) n
      rw [abs_of_nonneg hn0] at this
      linarith), ok_bind]
    have eg : ∀ j, j < n → |W i j * vec.get j + 1| ≤ 2 := fun j hj => by
      have := abs_mul_le_one (hpm.tern i j hi hj).abs (hx j hj).tern.abs
      have h2 := abs_add_le (W i j * vec.get j) 1
      rw [abs_one] at h2; linarith
    rw [accRow_set (fun j => W i j * vec.get j + 1) (by simp; omega) (fun j hj => by
        unfold bnn5Term
        rw [Mat.rd_ok (by omega) (by omega), ok_bind,
          Vec.rd_ok (by simp; exact hj.trans_le hscr.vdP), ok_bind, hpm.p i j hi hj, Vec.over_lt hj,
          Mat.rd_ok (by omega) (by omega), hpm.q i j hi hj]
        rcases hw i j hi hj with h | h <;> rcases hx j hj with h' | h' <;> simp only [h, h'] <;>
          (rw [mulI_ok (by decide), ok_bind, ok_bind,
            Vec.rd_ok (by simp; exact hj.trans_le hscr.vdM), ok_bind, Vec.over_lt hj, h',
            mulI_ok (by decide), ok_bind, addI_ok (by decide), ok_bind,
            shlI_ok (by norm_num) (by decide) (by intro _; decide)] <;> rfl))
      (by
        rw [Vec.set_get]
        have h1 := sum_bound (n := n) (k := n) (b := 2) (by norm_num) le_rfl eg
        have h2 : |res.get i - n| ≤ _ := abs_sub _ _
        rw [abs_of_nonneg hn0] at h2
        linarith), Vec.set_set, Vec.set_get]
    congr 2
    rw [sum_add_distrib]
    simp), ok_bind]
  exact ⟨_, rfl, by constructor <;> rfl, rfl, rfl⟩

theorem quadTerm_ok {gd : Gd} {vp vm : Vec Int} {i j : Nat} {w x : Int}
    (hp : i < gd.p.rows) (hp' : j < gd.p.cols) (hm : i < gd.m.rows) (hm' : j < gd.m.cols)
    (hvp : j < vp.size) (hvm : j < vm.size)
    (ep : gd.p.get i j = if w = 1 then 1 else 0) (em : gd.m.get i j = if w = -1 then 1 else 0)
    (evp : vp.get j = if x = 1 then 1 else 0) (evm : vm.get j = if x = -1 then 1 else 0)
    (hw : IsTern w) (hx : IsTern x) :
    quadTerm gd vp vm i j = .ok (w * x) := by
  unfold quadTerm
  rw [Mat.rd_ok hp hp', ok_bind, Mat.rd_ok hm hm', ok_bind, Vec.rd_ok hvp, ok_bind, Vec.rd_ok hvm,
    ok_bind, ep, em, evp, evm]
  rcases hw with h | h | h <;> rcases hx with h' | h' | h' <;> subst h h' <;> rfl

theorem dMvmBnnVI_ok (hdim : GdDims c.gd m m n) (hscr : InScratch a n) (hpm : PM c.gd W m n)
    (hv : n ≤ vec.size) (hr : m ≤ res.size) (hx : ∀ j, j < n → IsBin (vec.get j))
    (hb : ∀ i, i < m → |res.get i| + 3 * n ≤ 2147483647) :
    Exact (dMvmBnnVI c a res vec m n) a res vec W m n := by
  obtain ⟨hpr, hpc, hmr, hmc, hsw⟩ := hdim
  unfold dMvmBnnVI
  rw [encPM_ok hv hscr.vdP hscr.vdM hx, ok_bind,
    accG_addI (fun i j => W i j * vec.get j) hr (fun i j hi hj =>
      quadTerm_ok (by omega) (by omega) (by omega) (by omega) (by simp; exact hj.trans_le hscr.vdP)
        (by simp; exact hj.trans_le hscr.vdM) (hpm.p i j hi hj) (hpm.q i j hi hj)
        (Vec.over_lt hj) (Vec.over_lt hj) (hpm.tern i j hi hj) (hx j hj).tern)
    (fun i hi => by
      have h1 := sum_bound (n := n) (k := n) (b := 1) (by norm_num) le_rfl fun j hj =>
        abs_mul_le_one (hpm.tern i j hi hj).abs (hx j hj).tern.abs
      have := hb i hi
      have hn0 : (0 : Int) ≤ n := by exact_mod_cast Nat.zero_le n
      linarith), ok_bind]
  exact ⟨_, rfl, by constructor <;> rfl, rfl, rfl⟩

theorem dMvmTnnI_ok (hdim : GdDims c.gd m m n) (hscr : InScratch a n) (hpm : PM c.gd W m n)
    (hv : n ≤ vec.size) (hr : m ≤ res.size) (hx : ∀ j, j < n → IsTern (vec.get j))
    (hb : ∀ i, i < m → |res.get i| + 3 * n ≤ 2147483647) :
    Exact (dMvmTnnI c a res vec m n) a res vec W m n := by
  obtain ⟨hpr, hpc, hmr, hmc, hsw⟩ := hdim
  unfold dMvmTnnI
  rw [encTern_ok hv hscr.vdP hscr.vdM hx, ok_bind,
    accG_addI (fun i j => W i j * vec.get j) hr (fun i j hi hj =>
      quadTerm_ok (by omega) (by omega) (by omega) (by omega) (by simp; exact hj.trans_le hscr.vdP)
        (by simp; exact hj.trans_le hscr.vdM) (hpm.p i j hi hj) (hpm.q i j hi hj)
        (Vec.over_lt hj) (Vec.over_lt hj) (hpm.tern i j hi hj) (hx j hj))
    (fun i hi => by
      have h1 := sum_bound (n := n) (k := n) (b := 1) (by norm_num) le_rfl fun j hj =>
        abs_mul_le_one (hpm.tern i j hi hj).abs (hx j hj).abs
      have := hb i hi
      have hn0 : (0 : Int) ≤ n := by exact_mod_cast Nat.zero_le n
      linarith), ok_bind]
  exact ⟨_, rfl, by constructor <;> rfl, rfl, rfl⟩

/-- Differential term with a small input. -/
theorem PM.term (hpm : PM c.gd W m n) (hdim : GdDims c.gd m m n) {v : Vec Int} {i j : Nat}
    (hi : i < m) (hj : j < n) (hv : j < v.size) (bv : |v.get j| ≤ 1) :
    diffTerm c.gd v i j = .ok (W i j * v.get j) := by
  obtain ⟨hpr, hpc, hmr, hmc, hsw⟩ := hdim
  have := abs_mul_le_one (hpm.tern i j hi hj).abs bv
  rw [diffTerm_ok (by omega) (by omega) (by omega) (by omega) hv
    (by rw [hpm.diff hi hj]; exact small_inI32 ((hpm.tern i j hi hj).abs.trans (by norm_num)))
    (by rw [hpm.diff hi hj]; exact small_inI32 (this.trans (by norm_num))), hpm.diff hi hj]

theorem PM.term2 (hpm : PM c.gd W m n) (hdim : GdDims c.gd m m n) {v : Vec Int} {i j : Nat}
    (hi : i < m) (hj : j < n) (hv : j < v.size) (bv : |v.get j| ≤ 1) :
    diffTerm2 false c.gd v i j = .ok (W i j * v.get j * 2) := by
  unfold diffTerm2
  have := abs_mul_le_one (hpm.tern i j hi hj).abs bv
  rw [hpm.term hdim hi hj hv bv, ok_bind, shlI_ok (by norm_num) (small_inI32 (by
    rw [pow_one]; exact (abs_mul_two this).trans (by norm_num))) (by simp), pow_one]

theorem dMvmTnnII_ok (hstrict : E.strict = false) (hdim : GdDims c.gd m m n) (hscr : InScratch a n)
    (hpm : PM c.gd W m n)
    (hv : n ≤ vec.size) (hr : m ≤ res.size) (hx : ∀ j, j < n → IsTern (vec.get j))
    (hb : ∀ i, i < m → |res.get i| + 3 * n ≤ 2147483647) :
    Exact (dMvmTnnII E c a res vec m n) a res vec W m n := by
  have hn0 : (0 : Int) ≤ n := by exact_mod_cast Nat.zero_le n
  unfold dMvmTnnII
  have b1 : ∀ i j, i < m → j < n → |W i j * (if vec.get j ≠ 0 then 1 else 0)| ≤ 1 :=
    fun i j hi hj => abs_mul_le_one (hpm.tern i j hi hj).abs ite_abs
  have b2 : ∀ i j, i < m → j < n → |W i j * (if vec.get j = -1 then 1 else 0) * 2| ≤ 2 :=
    fun i j hi hj => by
      rw [abs_mul]
      have := abs_mul_le_one (hpm.tern i j hi hj).abs (ite_abs (p := vec.get j = -1))
      rw [abs_two]; linarith
  rw [hstrict, encNonzero_ok hv hscr.vdP, ok_bind,
    accG_addI (fun i j => W i j * (if vec.get j ≠ 0 then 1 else 0)) hr (fun i j hi hj => by
      rw [hpm.term hdim hi hj (by simp; exact hj.trans_le hscr.vdP)
        (by rw [Vec.over_lt hj]; exact ite_abs), Vec.over_lt hj])
    (fun i hi => by
      have h1 := sum_bound (n := n) (k := n) (b := 1) (by norm_num) le_rfl fun j hj => b1 i j hi hj
      have := hb i hi
      linarith), ok_bind, encNegOne_ok hv (by simpa using hscr.vdP), ok_bind,
    accG_subI (fun i j => W i j * (if vec.get j = -1 then 1 else 0) * 2) (by simpa using hr)
      (fun i j hi hj => by
        rw [hpm.term2 hdim hi hj (by simp; exact hj.trans_le hscr.vdP)
          (by rw [Vec.over_lt hj]; exact ite_abs), Vec.over_lt hj])
      (fun i hi => by
        rw [Vec.over_lt hi]
        have h1 := sum_bound (n := n) (k := n) (b := 2) (by norm_num) le_rfl fun j hj => b2 i j hi hj
        have h2 := abs_sum_tern fun j hj => b1 i j hi hj
        have h3 := abs_add_le (res.get i) (∑ j ∈ range n, W i j * (if vec.get j ≠ 0 then 1 else 0))
        have := hb i hi
        linarith), ok_bind]
  simp only [over_over]
  refine exact_mk rfl (fun i hi => ?_) (by constructor <;> rfl) rfl rfl
  rw [Vec.over_lt hi, add_sub_assoc, ← sum_sub_distrib]
  congr 1
  refine sum_congr rfl fun j hj => ?_
  rcases hx j (mem_range.1 hj) with h | h | h <;> rw [h] <;> norm_num <;> ring

theorem dMvmTnnIII_ok (hstrict : E.strict = false) (hdim : GdDims c.gd m m n) (hscr : InScratch a n)
    (hpm : PM c.gd W m n)
    (hsum : ∀ i, i < m → c.gd.sumW.get i = ∑ j ∈ range n, W i j)
    (hv : n ≤ vec.size) (hr : m ≤ res.size) (hx : ∀ j, j < n → IsTern (vec.get j))
    (hb : ∀ i, i < m → |res.get i| + 3 * n ≤ 2147483647) :
    Exact (dMvmTnnIII E c a res vec m n) a res vec W m n := by
  have hn0 : (0 : Int) ≤ n := by exact_mod_cast Nat.zero_le n
  unfold dMvmTnnIII
  have v1 : ∀ j, j < n → |(vec.get j + 1) % 2| ≤ 1 := fun j hj => by
    rcases hx j hj with h | h | h <;> rw [h] <;> norm_num
  have v2 : ∀ j, j < n → |(vec.get j + 1) / 2 % 2| ≤ 1 := fun j hj => by
    rcases hx j hj with h | h | h <;> rw [h] <;> norm_num
  have ev : ∀ j, j < n → (vec.get j + 1) % 2 + (vec.get j + 1) / 2 % 2 * 2 = vec.get j + 1 :=
    fun j hj => by rcases hx j hj with h | h | h <;> rw [h] <;> norm_num
  have b1 : ∀ i j, i < m → j < n → |W i j * ((vec.get j + 1) % 2)| ≤ 1 :=
    fun i j hi hj => abs_mul_le_one (hpm.tern i j hi hj).abs (v1 j hj)
  have b2 : ∀ i j, i < m → j < n → |W i j * ((vec.get j + 1) / 2 % 2) * 2| ≤ 2 :=
    fun i j hi hj => by
      rw [abs_mul]
      have := abs_mul_le_one (hpm.tern i j hi hj).abs (v2 j hj)
      rw [abs_two]; linarith
  rw [hstrict, encBit0_ok hv hscr.vdP (fun j hj => (hx j hj).in1), ok_bind,
    accG_addI (fun i j => W i j * ((vec.get j + 1) % 2)) hr (fun i j hi hj => by
      rw [hpm.term hdim hi hj (by simp; exact hj.trans_le hscr.vdP)
        (by rw [Vec.over_lt hj]; exact v1 j hj), Vec.over_lt hj])
    (fun i hi => by
      have h1 := sum_bound (n := n) (k := n) (b := 1) (by norm_num) le_rfl fun j hj => b1 i j hi hj
      have := hb i hi
      linarith), ok_bind, encBit1_ok hv (by simpa using hscr.vdP) (fun j hj => (hx j hj).in1), ok_bind,
    accG_addI (fun i j => W i j * ((vec.get j + 1) / 2 % 2) * 2) (by simpa using hr)
      (fun i j hi hj => by
        rw [hpm.term2 hdim hi hj (by simp; exact hj.trans_le hscr.vdP)
          (by rw [Vec.over_lt hj]; exact v2 j hj), Vec.over_lt hj])
      (fun i hi => by
        rw [Vec.over_lt hi]
        have h1 := sum_bound (n := n) (k := n) (b := 2) (by norm_num) le_rfl fun j hj => b2 i j hi hj
        have h2 := abs_sum_tern fun j hj => b1 i j hi hj
        have h3 := abs_add_le (res.get i) (∑ j ∈ range n, W i j * ((vec.get j + 1) % 2))
        have := hb i hi
        linarith), ok_bind]
  simp only [over_over]
  have e : ∀ i, i < m → res.get i + ∑ j ∈ range n, W i j * ((vec.get j + 1) % 2)
      + ∑ j ∈ range n, W i j * ((vec.get j + 1) / 2 % 2) * 2 - ∑ j ∈ range n, W i j
      = res.get i + ∑ j ∈ range n, W i j * vec.get j := fun i hi => by
    rw [add_assoc, ← sum_add_distrib, add_sub_assoc, ← sum_sub_distrib]
    congr 1
    refine sum_congr rfl fun j hj => ?_
    linear_combination W i j * ev j (mem_range.1 hj)
  rw [updG_ok (fun i => res.get i + ∑ j ∈ range n, W i j * vec.get j) (by simpa using hr)
    (fun i hi => by
      rw [Vec.rd_ok (by have := hdim.sw; omega), ok_bind, Vec.over_lt hi, Vec.over_lt hi, hsum i hi,
        subI_ok, e i hi]
      rw [e i hi]
      exact final_in (hb i hi) (abs_wx hi hpm.tern hx)), ok_bind]
  simp only [over_over]
  exact ⟨_, rfl, by constructor <;> rfl, rfl, rfl⟩

theorem tcTerms_ok {gd : Gd} {vp vm : Vec Int} {i j : Nat} {x : Int}
    (hp : i < gd.p.rows) (hp' : j < gd.p.cols) (hm : i < gd.m.rows) (hm' : j < gd.m.cols)
    (hvp : j < vp.size) (hvm : j < vm.size) (bp : |gd.p.get i j| ≤ 1) (bq : |gd.m.get i j| ≤ 1)
    (evp : vp.get j = if x = 1 then 1 else 0) (evm : vm.get j = if x = -1 then 1 else 0)
    (hx : IsTern x) :
    tcTerms false gd vp vm i j = .ok (gd.p.get i j * x, gd.m.get i j * x * 2) := by
  unfold tcTerms
  have e := plus_sub_minus hx
  rw [← evp, ← evm] at e
  have b1 := abs_mul_le_one bp hx.abs
  have b2 := abs_mul_le_one bq hx.abs
  rw [Mat.rd_ok hp hp', ok_bind, Vec.rd_ok hvp, ok_bind, Vec.rd_ok hvm,
    ok_bind, subI_ok (by rw [e]; exact hx.in32), e, ok_bind,
    mulI_ok (small_inI32 (b1.trans (by norm_num))), ok_bind, Mat.rd_ok hm hm', ok_bind,
    mulI_ok (small_inI32 (b2.trans (by norm_num))), ok_bind,
    shlI_ok (by norm_num) (small_inI32 (by rw [pow_one]; exact (abs_mul_two b2).trans (by norm_num))) (by simp), ok_bind, pow_one]

theorem dMvmTnnIV_ok (hstrict : E.strict = false) (hsplit : cfg.split = [1, 1])
    (hdim : GdDims c.gd m m n) (hscr : InScratch a n)
    (hp : ∀ i j, i < m → j < n → |c.gd.p.get i j| ≤ 1)
    (hq : ∀ i j, i < m → j < n → |c.gd.m.get i j| ≤ 1)
    (henc : ∀ i j, i < m → j < n → c.gd.p.get i j - c.gd.m.get i j * 2 = W i j)
    (ht : ∀ i j, i < m → j < n → IsTern (W i j))
    (hv : n ≤ vec.size) (hr : m ≤ res.size) (hx : ∀ j, j < n → IsTern (vec.get j))
    (hb : ∀ i, i < m → |res.get i| + 3 * n ≤ 2147483647) :
    Exact (dMvmTnnIV E cfg c a res vec m n) a res vec W m n := by
  have hn0 : (0 : Int) ≤ n := by exact_mod_cast Nat.zero_le n
  obtain ⟨hpr, hpc, hmr, hmc, hsw⟩ := hdim
  have b1 : ∀ i j, i < m → j < n → |W i j * vec.get j| ≤ 1 :=
    fun i j hi hj => abs_mul_le_one (ht i j hi hj).abs (hx j hj).abs
  unfold dMvmTnnIV
  rw [if_neg (by simp [hsplit]), hstrict, encTern_ok hv hscr.vdP hscr.vdM hx, ok_bind,
    accG_addI (fun i j => W i j * vec.get j) hr (fun i j hi hj => by
      have e : c.gd.p.get i j * vec.get j - c.gd.m.get i j * vec.get j * 2 = W i j * vec.get j := by
        rw [← henc i j hi hj]; ring
      rw [tcTerms_ok (x := vec.get j) (by omega) (by omega) (by omega) (by omega)
        (by simp; exact hj.trans_le hscr.vdP) (by simp; exact hj.trans_le hscr.vdM)
        (hp i j hi hj) (hq i j hi hj) (Vec.over_lt hj) (Vec.over_lt hj) (hx j hj), ok_bind,
        subI_ok (by rw [e]; exact small_inI32 ((b1 i j hi hj).trans (by norm_num))), e])
    (fun i hi => by
      have h1 := sum_bound (n := n) (k := n) (b := 1) (by norm_num) le_rfl fun j hj => b1 i j hi hj
      have := hb i hi
      linarith), ok_bind]
  exact ⟨_, rfl, by constructor <;> rfl, rfl, rfl⟩

theorem dMvmTnnV_ok (hstrict : E.strict = false) (hsplit : cfg.split = [1, 1])
    (hdim : GdDims c.gd m m n) (hscr : InScratch a n) (hn : n ≤ 2147483647)
    (hp : ∀ i j, i < m → j < n → |c.gd.p.get i j| ≤ 1)
    (hq : ∀ i j, i < m → j < n → |c.gd.m.get i j| ≤ 1)
    (henc : ∀ i j, i < m → j < n → c.gd.p.get i j + c.gd.m.get i j * 2 = W i j + 1)
    (ht : ∀ i j, i < m → j < n → IsTern (W i j))
    (hv : n ≤ vec.size) (hr : m ≤ res.size) (hx : ∀ j, j < n → IsTern (vec.get j))
    (hb : ∀ i, i < m → |res.get i| + 3 * n ≤ 2147483647) :
    Exact (dMvmTnnV E cfg c a res vec m n) a res vec W m n := by
  have hn0 : (0 : Int) ≤ n := by exact_mod_cast Nat.zero_le n
  obtain ⟨hpr, hpc, hmr, hmc, hsw⟩ := hdim
  have b1 : ∀ i j, i < m → j < n → |(W i j + 1) * vec.get j| ≤ 2 :=
    fun i j hi hj => by
      rw [abs_mul]
      have h1 := abs_add_le (W i j) 1
      have h2 := (ht i j hi hj).abs
      have h3 := (hx j hj).abs
      rw [abs_one] at h1
      nlinarith [abs_nonneg (W i j + 1), abs_nonneg (vec.get j)]
  unfold dMvmTnnV
  rw [if_neg (by simp [hsplit]), hstrict, inpSum_ok hv hn (fun j hj => (hx j hj).in32), ok_bind,
    encTern_ok hv hscr.vdP hscr.vdM hx, ok_bind,
    rowLoop_ok (fun i => res.get i + ∑ j ∈ range n, W i j * vec.get j) (fun i hi r hrs hri => by
      rw [accRow_set (fun j => (W i j + 1) * vec.get j) (by omega) (fun j hj => by
        have e : c.gd.p.get i j * vec.get j + c.gd.m.get i j * vec.get j * 2
            = (W i j + 1) * vec.get j := by rw [← henc i j hi hj]; ring
        rw [tcTerms_ok (x := vec.get j) (by omega) (by omega) (by omega) (by omega)
          (by simp; exact hj.trans_le hscr.vdP) (by simp; exact hj.trans_le hscr.vdM)
          (hp i j hi hj) (hq i j hi hj) (Vec.over_lt hj) (Vec.over_lt hj) (hx j hj), ok_bind,
          addI_ok (by rw [e]; exact small_inI32 ((b1 i j hi hj).trans (by norm_num))), e]) (by
        rw [hri]
        have h1 := sum_bound (n := n) (k := n) (b := 2) (by norm_num) le_rfl fun j hj => b1 i j hi hj
        have := hb i hi
        linarith), ok_bind]
      have e : r.get i + ∑ j ∈ range n, (W i j + 1) * vec.get j - ∑ j ∈ range n, vec.get j
          = res.get i + ∑ j ∈ range n, W i j * vec.get j := by
        rw [hri, add_sub_assoc, ← sum_sub_distrib]
        congr 1
        exact sum_congr rfl fun j _ => by ring
      have hf : InI32 (res.get i + ∑ j ∈ range n, W i j * vec.get j) :=
        final_in (hb i hi) (abs_wx hi ht hx)
      rw [updAt_set (x := res.get i + ∑ j ∈ range n, W i j * vec.get j) (by simp; omega), Vec.set_set]
      rw [Vec.set_get, e, i64_ok ⟨by have := hf.1; omega, by have := hf.2; omega⟩, ok_bind,
        wrap32_id hf]), ok_bind]
  exact ⟨_, rfl, by constructor <;> rfl, rfl, rfl⟩

end

end Acs
