import Verif.Lemmas.AMvmBin

/-!
# The analog multiplications of the binary and ternary mappings

With the ideal converter the result is the exact product; with a real converter it is off by at most
the conversion errors.
-/

set_option linter.unusedSectionVars false

namespace Acs

open Finset Spec

section
variable {K : Type} [Field K] [LinearOrder K] [IsStrictOrderedRing K] [FloorRing K]
variable {E : Env K} {cfg : Cfg K} {c : Core K} {a : Aux K}
variable {mat vec res v w : Vec Int} {m n : Nat} {l : String} {z sc off h d : K} {B : Int}
variable {P Q W : Nat → Nat → Int}

/-! ## The integer identities behind the mappings -/

theorem id_bnn1 {p q w x : Int} (h : p - q = w) (hx : IsBin x) :
    2 * ((p - q) * ((x + 1) / 2)) - w = w * x := by
  rw [h]; rcases hx with e | e <;> rw [e] <;> norm_num <;> ring

theorem id_bnn2 {p q w x : Int} (h : p - q = w) (hx : IsBin x) :
    2 * ((q - p) * ((x - 1).tdiv (-2))) + w = w * x := by
  have : q - p = -w := by rw [← h]; ring
  rw [this]; rcases hx with e | e <;> rw [e] <;> norm_num; ring

theorem up_dn {x : Int} (h : IsTern x) : up x - dn x = x := plus_sub_minus h

theorem id_bnn3 {p w x : Int} (h : 2 * p - 1 = w) (hx : IsBin x) :
    2 * (p * up x) - 2 * (p * dn x) - x = w * x := by
  rw [← h]; rcases hx with e | e <;> rw [e] <;> norm_num [up, dn]; ring

theorem id_bnn4 {p w x : Int} (h : 1 - 2 * p = w) (hx : IsBin x) :
    2 * (p * dn x) - 2 * (p * up x) + x = w * x := by
  rw [← h]; rcases hx with e | e <;> rw [e] <;> norm_num [up, dn] <;> ring

theorem id_bnn5 {p q w x : Int} (hp : 2 * p - 1 = w) (hq : 2 * q - 1 = -w) (hx : IsBin x) :
    2 * (p * up x + q * dn x) - 1 = w * x := by
  rcases hx with e | e <;> rw [e] <;> norm_num [up, dn] <;> linarith

theorem id_quad {p q w x : Int} (h : p - q = w) (hx : IsTern x) : (p - q) * (up x - dn x) = w * x := by
  rw [h, up_dn hx]

theorem id_tnn2 {p q w x : Int} (h : p - q = w) (hx : IsTern x) :
    (p - q) * (if x ≠ 0 then 1 else 0) - 2 * ((p - q) * dn x) = w * x := by
  rw [h]; rcases hx with e | e | e <;> rw [e] <;> norm_num [dn]; ring

theorem id_tnn3 {p q w x : Int} (h : p - q = w) (hx : IsTern x) :
    (p - q) * ((x + 1) % 2) + 2 * ((p - q) * ((x + 1) / 2 % 2)) - w = w * x := by
  rw [h]; rcases hx with e | e | e <;> rw [e] <;> norm_num; ring

theorem id_tnn4 {p q w x : Int} (h : p - 2 * q = w) (hx : IsTern x) :
    p * up x - p * dn x - 2 * (q * up x) + 2 * (q * dn x) = w * x := by
  rw [← h]; conv_rhs => rw [← up_dn hx]
  ring

theorem id_tnn5 {p q w x : Int} (h : p + 2 * q = w + 1) (hx : IsTern x) :
    p * up x - p * dn x + 2 * (q * up x) - 2 * (q * dn x) - x = w * x := by
  have e : w = p + 2 * q - 1 := by linarith
  rw [e]
  linear_combination (p + 2 * q) * up_dn hx

/-! ## Sums -/

section
variable {p q w x : Nat → Int}

theorem sum_bnn1 (h : ∀ j, j < n → p j - q j = w j) (hx : ∀ j, j < n → IsBin (x j)) :
    2 * (∑ j ∈ range n, (p j - q j) * ((x j + 1) / 2)) - ∑ j ∈ range n, w j = ∑ j ∈ range n, w j * x j := by
  rw [mul_sum, ← sum_sub_distrib]
  exact sum_congr rfl fun j hj => id_bnn1 (h j (mem_range.1 hj)) (hx j (mem_range.1 hj))

theorem sum_bnn2 (h : ∀ j, j < n → p j - q j = w j) (hx : ∀ j, j < n → IsBin (x j)) :
    2 * (∑ j ∈ range n, (q j - p j) * ((x j - 1).tdiv (-2))) + ∑ j ∈ range n, w j
      = ∑ j ∈ range n, w j * x j := by
  rw [mul_sum, ← sum_add_distrib]
  exact sum_congr rfl fun j hj => id_bnn2 (h j (mem_range.1 hj)) (hx j (mem_range.1 hj))

theorem sum_bnn3 (h : ∀ j, j < n → 2 * p j - 1 = w j) (hx : ∀ j, j < n → IsBin (x j)) :
    2 * (∑ j ∈ range n, p j * up (x j)) - 2 * (∑ j ∈ range n, p j * dn (x j)) - ∑ j ∈ range n, x j
      = ∑ j ∈ range n, w j * x j := by
  rw [mul_sum, mul_sum, ← sum_sub_distrib, ← sum_sub_distrib]
  exact sum_congr rfl fun j hj => id_bnn3 (h j (mem_range.1 hj)) (hx j (mem_range.1 hj))

theorem sum_bnn4 (h : ∀ j, j < n → 1 - 2 * p j = w j) (hx : ∀ j, j < n → IsBin (x j)) :
    2 * (∑ j ∈ range n, p j * dn (x j)) - 2 * (∑ j ∈ range n, p j * up (x j)) + ∑ j ∈ range n, x j
      = ∑ j ∈ range n, w j * x j := by
  rw [mul_sum, mul_sum, ← sum_sub_distrib, ← sum_add_distrib]
  exact sum_congr rfl fun j hj => id_bnn4 (h j (mem_range.1 hj)) (hx j (mem_range.1 hj))

theorem sum_bnn5 (hp : ∀ j, j < n → 2 * p j - 1 = w j) (hq : ∀ j, j < n → 2 * q j - 1 = -w j)
    (hx : ∀ j, j < n → IsBin (x j)) :
    2 * (∑ j ∈ range n, (p j * up (x j) + q j * dn (x j))) - n = ∑ j ∈ range n, w j * x j := by
  have e : (n : Int) = ∑ j ∈ range n, 1 := by simp
  rw [mul_sum, e, ← sum_sub_distrib]
  exact sum_congr rfl fun j hj =>
    id_bnn5 (hp j (mem_range.1 hj)) (hq j (mem_range.1 hj)) (hx j (mem_range.1 hj))

theorem sum_quad (h : ∀ j, j < n → p j - q j = w j) (hx : ∀ j, j < n → IsTern (x j)) :
    ∑ j ∈ range n, (p j - q j) * (up (x j) - dn (x j)) = ∑ j ∈ range n, w j * x j :=
  sum_congr rfl fun j hj => id_quad (h j (mem_range.1 hj)) (hx j (mem_range.1 hj))

theorem sum_tnn2 (h : ∀ j, j < n → p j - q j = w j) (hx : ∀ j, j < n → IsTern (x j)) :
    ∑ j ∈ range n, (p j - q j) * (if x j ≠ 0 then 1 else 0) - 2 * ∑ j ∈ range n, (p j - q j) * dn (x j)
      = ∑ j ∈ range n, w j * x j := by
  rw [mul_sum, ← sum_sub_distrib]
  exact sum_congr rfl fun j hj => id_tnn2 (h j (mem_range.1 hj)) (hx j (mem_range.1 hj))

theorem sum_tnn3 (h : ∀ j, j < n → p j - q j = w j) (hx : ∀ j, j < n → IsTern (x j)) :
    ∑ j ∈ range n, (p j - q j) * ((x j + 1) % 2) + 2 * ∑ j ∈ range n, (p j - q j) * ((x j + 1) / 2 % 2)
      - ∑ j ∈ range n, w j = ∑ j ∈ range n, w j * x j := by
  rw [mul_sum, ← sum_add_distrib, ← sum_sub_distrib]
  exact sum_congr rfl fun j hj => id_tnn3 (h j (mem_range.1 hj)) (hx j (mem_range.1 hj))

theorem sum_tnn4 (h : ∀ j, j < n → p j - 2 * q j = w j) (hx : ∀ j, j < n → IsTern (x j)) :
    ∑ j ∈ range n, p j * up (x j) - ∑ j ∈ range n, p j * dn (x j) - 2 * ∑ j ∈ range n, q j * up (x j)
      + 2 * ∑ j ∈ range n, q j * dn (x j) = ∑ j ∈ range n, w j * x j := by
  rw [mul_sum, mul_sum, ← sum_sub_distrib, ← sum_sub_distrib, ← sum_add_distrib]
  exact sum_congr rfl fun j hj => id_tnn4 (h j (mem_range.1 hj)) (hx j (mem_range.1 hj))

theorem sum_tnn5 (h : ∀ j, j < n → p j + 2 * q j = w j + 1) (hx : ∀ j, j < n → IsTern (x j)) :
    ∑ j ∈ range n, p j * up (x j) - ∑ j ∈ range n, p j * dn (x j) + 2 * ∑ j ∈ range n, q j * up (x j)
      - 2 * ∑ j ∈ range n, q j * dn (x j) - ∑ j ∈ range n, x j = ∑ j ∈ range n, w j * x j := by
  rw [mul_sum, mul_sum, ← sum_sub_distrib, ← sum_add_distrib, ← sum_sub_distrib, ← sum_sub_distrib]
  exact sum_congr rfl fun j hj => id_tnn5 (h j (mem_range.1 hj)) (hx j (mem_range.1 hj))

theorem sum_up_dn (hx : ∀ j, j < n → IsTern (x j)) :
    ∑ j ∈ range n, up (x j) - ∑ j ∈ range n, dn (x j) = ∑ j ∈ range n, x j := by
  rw [← sum_sub_distrib]
  exact sum_congr rfl fun j hj => up_dn (hx j (mem_range.1 hj))

theorem sum_one (hx : ∀ j, j < n → IsBin (x j)) :
    ∑ j ∈ range n, up (x j) + ∑ j ∈ range n, dn (x j) = n := by
  have e : (n : Int) = ∑ j ∈ range n, 1 := by simp
  rw [← sum_add_distrib, e]
  exact sum_congr rfl fun j hj => by
    rcases hx j (mem_range.1 hj) with e | e <;> rw [e] <;> norm_num [up, dn]

/-- Bounds of the counts. -/
theorem sum_up_le : 0 ≤ ∑ j ∈ range n, up (x j) ∧ 0 ≤ ∑ j ∈ range n, dn (x j) ∧
    ∑ j ∈ range n, up (x j) + ∑ j ∈ range n, dn (x j) ≤ n := by
  refine ⟨sum_nonneg fun j _ => by unfold up; split <;> norm_num,
    sum_nonneg fun j _ => by unfold dn; split <;> norm_num, ?_⟩
  have e : (n : Int) = ∑ j ∈ range n, 1 := by simp
  rw [← sum_add_distrib, e]
  refine sum_le_sum fun j _ => ?_
  unfold up dn
  split <;> split <;> omega

theorem abs_sum_prod {f g : Nat → Int} (hf : ∀ j, j < n → |f j| ≤ 1) (hg : ∀ j, j < n → |g j| ≤ 1) :
    |∑ j ∈ range n, f j * g j| ≤ n :=
  abs_sum_tern fun j hj => abs_mul_le_one (hf j hj) (hg j hj)

end

/-! ## The ideal converter -/

theorem conv_inf (F : Faith E h d B) {adc : Adc} (hk : adc.kind = .inf) {a b o s : Int}
    (h1 : |a + o| ≤ B) (h2 : |b| ≤ B) (h3 : |s * (a + o)| ≤ B) (h4 : |s * b| ≤ B) :
    conv1 E cfg adc (cur h d a b) ((s : K) / d) (cur h d o 0) l
      = .ok (lin (h / (2 * d)) (s * (a + o)) (s * b)) := by
  unfold conv1
  rw [hk]
  dsimp only
  rw [F.fadd h1 (by simpa using h2), add_zero]
  unfold Env.fmul
  rw [cur_scale F.ne, F.out _ _ h3 h4]

theorem conv_inf0 (F : Faith E h d B) {adc : Adc} (hk : adc.kind = .inf) {a b s : Int}
    (h1 : |a| ≤ B) (h2 : |b| ≤ B) (h3 : |s * a| ≤ B) (h4 : |s * b| ≤ B) :
    conv1 E cfg adc (cur h d a b) ((s : K) / d) 0 l = .ok (lin (h / (2 * d)) (s * a) (s * b)) := by
  have := conv_inf (cfg := cfg) (l := l) F hk (o := 0) (by simpa using h1) h2 (by simpa using h3) h4
  rw [cur_zero, add_zero] at this
  exact this

theorem conv_inf_int (F : Faith E h d B) {adc : Adc} (hk : adc.kind = .inf) {b s : Int}
    (h2 : |b| ≤ B) (h4 : |s * b| ≤ B) :
    conv1 E cfg adc (cur h d 0 b) ((s : K) / d) 0 l = .ok ((s * b : Int) : K) := by
  have hB : |(0 : Int)| ≤ B := by simpa using (abs_nonneg b).trans h2
  rw [conv_inf0 F hk hB h2 (by simpa using hB) h4, mul_zero, lin_int]

/-- Room for the result, as an integer and as a `float`. -/
structure RoomF (res : Vec Int) (m n : Nat) (B : Int) : Prop where
  i : ∀ i, i < m → |res.get i| + 3 * n ≤ 2147483647
  f : ∀ i, i < m → |res.get i| + 16 * n ≤ B

theorem lin_out {s b : Int} {z : K} : lin z (s * 0) (s * b) = ((s * b : Int) : K) := by
  rw [mul_zero, lin_int]

theorem abs_two_mul_le {b k : Int} (h : |b| ≤ k) : |2 * b| ≤ 2 * k := by
  rw [abs_mul, abs_two]; linarith

section
variable (H : BinHyp E cfg c a P Q vec res m n B) (hk : c.adc.kind = .inf) (hR : RoomF res m n B)
  (hW : ∀ i j, i < m → j < n → |W i j| ≤ 1)
include H hk hR hW

theorem inf_bnn1 (hx : ∀ j, j < n → IsBin (vec.get j))
    (h : ∀ i j, i < m → j < n → P i j - Q i j = W i j)
    (hs : ∀ i, i < m → c.gd.sumW.get i = ∑ j ∈ range n, W i j) :
    ∃ a', aMvmBnnI E cfg c a res vec m n l
      = .ok (a', res.over m fun i => res.get i + ∑ j ∈ range n, W i j * vec.get j) := by
  have key := fun i hi => sum_bnn1 (fun j hj => h i j hi hj) hx
  have hb := H.B8
  have b1 : ∀ i, i < m → |∑ j ∈ range n, (P i j - Q i j) * ((vec.get j + 1) / 2)| ≤ n := fun i hi =>
    abs_sum_prod (fun j hj => by rw [h i j hi hj]; exact hW i j hi hj)
      fun j hj => by rcases hx j hj with e | e <;> rw [e] <;> norm_num
  have b2 : ∀ i, i < m → |c.gd.sumW.get i| ≤ n := fun i hi => by
    rw [hs i hi]; exact abs_sum_tern fun j hj => hW i j hi hj
  have b3 : ∀ i, i < m → |∑ j ∈ range n, W i j * vec.get j| ≤ n := fun i hi =>
    abs_sum_prod (fun j hj => hW i j hi hj) fun j hj => (hx j hj).tern.abs
  obtain ⟨a', e⟩ := H.bnn1 (l := l) hx (β := fun i => 2 * ∑ j ∈ range n, (P i j - Q i j) * ((vec.get j + 1) / 2))
    (fun i hi => conv_inf_int H.F hk (by have := b1 i hi; omega)
      (by have := abs_two_mul_le (b1 i hi); omega))
    (fun i hi => by have := abs_two_mul_le (b1 i hi); have := b2 i hi; have := hR.f i hi; omega)
    (fun i hi => by rw [hs i hi, key i hi]; exact final_in (hR.i i hi) (b3 i hi))
  refine ⟨a', ?_⟩
  rw [e]
  congr 2
  exact over_congr fun i hi => by rw [hs i hi, key i hi]

theorem inf_bnn2 (hx : ∀ j, j < n → IsBin (vec.get j))
    (h : ∀ i j, i < m → j < n → P i j - Q i j = W i j)
    (hs : ∀ i, i < m → c.gd.sumW.get i = ∑ j ∈ range n, W i j) :
    ∃ a', aMvmBnnII E cfg c a res vec m n l
      = .ok (a', res.over m fun i => res.get i + ∑ j ∈ range n, W i j * vec.get j) := by
  have key := fun i hi => sum_bnn2 (fun j hj => h i j hi hj) hx
  have hb := H.B8
  have b1 : ∀ i, i < m → |∑ j ∈ range n, (Q i j - P i j) * ((vec.get j - 1).tdiv (-2))| ≤ n := fun i hi =>
    abs_sum_prod (fun j hj => by rw [← neg_sub, h i j hi hj, abs_neg]; exact hW i j hi hj)
      fun j hj => by rcases hx j hj with e | e <;> rw [e] <;> norm_num
  have b2 : ∀ i, i < m → |c.gd.sumW.get i| ≤ n := fun i hi => by
    rw [hs i hi]; exact abs_sum_tern fun j hj => hW i j hi hj
  have b3 : ∀ i, i < m → |∑ j ∈ range n, W i j * vec.get j| ≤ n := fun i hi =>
    abs_sum_prod (fun j hj => hW i j hi hj) fun j hj => (hx j hj).tern.abs
  obtain ⟨a', e⟩ := H.bnn2 (l := l) hx
    (β := fun i => 2 * ∑ j ∈ range n, (Q i j - P i j) * ((vec.get j - 1).tdiv (-2)))
    (fun i hi => conv_inf_int H.F hk (by have := b1 i hi; omega)
      (by have := abs_two_mul_le (b1 i hi); omega))
    (fun i hi => by have := abs_two_mul_le (b1 i hi); have := b2 i hi; have := hR.f i hi; omega)
    (fun i hi => by rw [hs i hi, key i hi]; exact final_in (hR.i i hi) (b3 i hi))
  refine ⟨a', ?_⟩
  rw [e]
  congr 2
  exact over_congr fun i hi => by rw [hs i hi, key i hi]

omit hk hR hW in
/-- Bounds of the counts and partial sums. -/
theorem pm_bounds : (∀ i, i < m → |∑ j ∈ range n, P i j * up (vec.get j)| ≤ n) ∧
    (∀ i, i < m → |∑ j ∈ range n, P i j * dn (vec.get j)| ≤ n) ∧
    (∀ i, i < m → |∑ j ∈ range n, Q i j * up (vec.get j)| ≤ n) ∧
    (∀ i, i < m → |∑ j ∈ range n, Q i j * dn (vec.get j)| ≤ n) :=
  ⟨fun i hi => abs_sum_prod (fun j hj => H.p1 i j hi hj) fun _ _ => ite_abs,
    fun i hi => abs_sum_prod (fun j hj => H.p1 i j hi hj) fun _ _ => ite_abs,
    fun i hi => abs_sum_prod (fun j hj => H.q1 i j hi hj) fun _ _ => ite_abs,
    fun i hi => abs_sum_prod (fun j hj => H.q1 i j hi hj) fun _ _ => ite_abs⟩

omit hR hW in
theorem inf_bnn34 (hx : ∀ j, j < n → IsBin (vec.get j)) :
    Bnn34 E cfg c a vec (plusOf a.vdP n vec) (minusOf a.vdM n vec) m n l
      (cfg.hrs / (2 * (cfg.lrs - cfg.hrs))) (∑ j ∈ range n, vec.get j)
      (fun _ => 2 * ∑ j ∈ range n, 2 * dn (vec.get j))
      (fun i => 2 * ∑ j ∈ range n, P i j * up (vec.get j))
      (fun i => 2 * ∑ j ∈ range n, P i j * dn (vec.get j)) := by
  obtain ⟨b1, b2, -, -⟩ := pm_bounds H
  have hb := H.B8
  have ud := sum_up_dn (n := n) fun j hj => (hx j hj).tern
  obtain ⟨u0, d0, ud1⟩ := sum_up_le (x := vec.get) (n := n)
  have e : 2 * (∑ j ∈ range n, 2 * up (vec.get j) + 2 * -(∑ j ∈ range n, vec.get j))
      = 2 * ∑ j ∈ range n, 2 * dn (vec.get j) := by
    rw [← ud, ← mul_sum, ← mul_sum]; ring
  refine H.bnn34 hx (fun i hi => ?_) fun i hi => ?_
  · rw [conv_inf H.F hk ?_ ?_ ?_ ?_, e]
    · rw [← ud, ← mul_sum, abs_le]; constructor <;> omega
    · have := b1 i hi; omega
    · rw [e, ← mul_sum, abs_le]; constructor <;> omega
    · have := abs_two_mul_le (b1 i hi); omega
  · rw [conv_inf0 H.F hk ?_ ?_ ?_ ?_]
    · rw [← mul_sum, abs_le]; constructor <;> omega
    · have := b2 i hi; omega
    · rw [← mul_sum, abs_le]; constructor <;> omega
    · have := abs_two_mul_le (b2 i hi); omega

theorem inf_bnn3 (hx : ∀ j, j < n → IsBin (vec.get j)) (h : ∀ i j, i < m → j < n → 2 * P i j - 1 = W i j) :
    ∃ a', aMvmBnnIII E cfg c a res vec m n l
      = .ok (a', res.over m fun i => res.get i + ∑ j ∈ range n, W i j * vec.get j) := by
  have key := fun i hi => sum_bnn3 (fun j hj => h i j hi hj) hx
  obtain ⟨b1, b2, -, -⟩ := pm_bounds H
  have b3 : ∀ i, i < m → |∑ j ∈ range n, W i j * vec.get j| ≤ n := fun i hi =>
    abs_sum_prod (fun j hj => hW i j hi hj) fun j hj => (hx j hj).tern.abs
  have b4 := BinHyp.abs_sum_vec fun j hj => (hx j hj).tern
  obtain ⟨a', e⟩ := aMvmBnnIII_val H.par H.prof H.F.out (inf_bnn34 (l := l) H hk hx) H.res
    (fun i hi => by
      have := abs_two_mul_le (b1 i hi); have := abs_two_mul_le (b2 i hi); have := hR.f i hi; omega)
    (fun i hi => by rw [key i hi]; exact final_in (hR.i i hi) (b3 i hi))
  refine ⟨a', ?_⟩
  rw [e]
  congr 2
  exact over_congr fun i hi => by rw [key i hi]

theorem inf_bnn4 (hx : ∀ j, j < n → IsBin (vec.get j)) (h : ∀ i j, i < m → j < n → 1 - 2 * P i j = W i j) :
    ∃ a', aMvmBnnIV E cfg c a res vec m n l
      = .ok (a', res.over m fun i => res.get i + ∑ j ∈ range n, W i j * vec.get j) := by
  have key := fun i hi => sum_bnn4 (fun j hj => h i j hi hj) hx
  obtain ⟨b1, b2, -, -⟩ := pm_bounds H
  have b3 : ∀ i, i < m → |∑ j ∈ range n, W i j * vec.get j| ≤ n := fun i hi =>
    abs_sum_prod (fun j hj => hW i j hi hj) fun j hj => (hx j hj).tern.abs
  have b4 := BinHyp.abs_sum_vec fun j hj => (hx j hj).tern
  obtain ⟨a', e⟩ := aMvmBnnIV_val H.par H.prof H.F.out (inf_bnn34 (l := l) H hk hx) H.res
    (fun i hi => by
      have := abs_two_mul_le (b1 i hi); have := abs_two_mul_le (b2 i hi); have := hR.f i hi; omega)
    (fun i hi => by rw [key i hi]; exact final_in (hR.i i hi) (b3 i hi))
  refine ⟨a', ?_⟩
  rw [e]
  congr 2
  exact over_congr fun i hi => by rw [key i hi]

theorem inf_bnn5 (hx : ∀ j, j < n → IsBin (vec.get j)) (h : ∀ i j, i < m → j < n → 2 * P i j - 1 = W i j)
    (h' : ∀ i j, i < m → j < n → 2 * Q i j - 1 = -W i j) :
    ∃ a', aMvmBnnV E cfg c a res vec m n l
      = .ok (a', res.over m fun i => res.get i + ∑ j ∈ range n, W i j * vec.get j) := by
  have key := fun i hi => sum_bnn5 (fun j hj => h i j hi hj) (fun j hj => h' i j hi hj) hx
  obtain ⟨b1, -, -, b2⟩ := pm_bounds H
  have hb := H.B8
  have b0 : ∀ i, i < m → |∑ j ∈ range n, (P i j * up (vec.get j) + Q i j * dn (vec.get j))| ≤ 2 * n :=
    fun i hi => by
      rw [sum_add_distrib]
      have := abs_add_le (∑ j ∈ range n, P i j * up (vec.get j)) (∑ j ∈ range n, Q i j * dn (vec.get j))
      have := b1 i hi
      have := b2 i hi
      omega
  have b3 : ∀ i, i < m → |∑ j ∈ range n, W i j * vec.get j| ≤ n := fun i hi =>
    abs_sum_prod (fun j hj => hW i j hi hj) fun j hj => (hx j hj).tern.abs
  have e0 : ∑ j ∈ range n, (2 * up (vec.get j) + 2 * dn (vec.get j)) + 2 * -(n : Int) = 0 := by
    rw [sum_add_distrib, ← mul_sum, ← mul_sum, ← sum_one hx]; ring
  obtain ⟨a', e⟩ := H.bnn5 (l := l) hx
    (β := fun i => 2 * ∑ j ∈ range n, (P i j * up (vec.get j) + Q i j * dn (vec.get j)))
    (fun i hi => by
      rw [conv_inf H.F hk (by rw [e0]; simp; omega) (by have := b0 i hi; omega) (by rw [e0]; simp; omega)
        (by have := abs_two_mul_le (b0 i hi); omega), e0, lin_out])
    (fun i hi => by have := abs_two_mul_le (b0 i hi); have := hR.f i hi; omega)
    (fun i hi => by rw [key i hi]; exact final_in (hR.i i hi) (b3 i hi))
  refine ⟨a', ?_⟩
  rw [e]
  congr 2
  exact over_congr fun i hi => by rw [key i hi]

theorem inf_bnn6 (hx : ∀ j, j < n → IsBin (vec.get j)) (h : ∀ i j, i < m → j < n → P i j - Q i j = W i j) :
    ∃ a', aMvmBnnVI E cfg c a res vec m n l
      = .ok (a', res.over m fun i => res.get i + ∑ j ∈ range n, W i j * vec.get j) := by
  have key := fun i hi => sum_quad (fun j hj => h i j hi hj) fun j hj => (hx j hj).tern
  have hb := H.B8
  have b3 : ∀ i, i < m → |∑ j ∈ range n, W i j * vec.get j| ≤ n := fun i hi =>
    abs_sum_prod (fun j hj => hW i j hi hj) fun j hj => (hx j hj).tern.abs
  refine H.bnn6 (l := l) hx (fun i hi => ?_) (fun i hi => ?_) fun i hi => final_in (hR.i i hi) (b3 i hi)
  · have := b3 i hi
    rw [key i hi, conv_inf_int H.F hk (by omega) (by rw [one_mul]; omega), one_mul]
  · have := b3 i hi; have := hR.f i hi; omega

theorem inf_tnn1 (hx : ∀ j, j < n → IsTern (vec.get j)) (h : ∀ i j, i < m → j < n → P i j - Q i j = W i j) :
    ∃ a', aMvmTnnI E cfg c a res vec m n l
      = .ok (a', res.over m fun i => res.get i + ∑ j ∈ range n, W i j * vec.get j) := by
  have key := fun i hi => sum_quad (fun j hj => h i j hi hj) hx
  have hb := H.B8
  have b3 : ∀ i, i < m → |∑ j ∈ range n, W i j * vec.get j| ≤ n := fun i hi =>
    abs_sum_prod (fun j hj => hW i j hi hj) fun j hj => (hx j hj).abs
  refine H.tnn1 (l := l) hx (fun i hi => ?_) (fun i hi => ?_) fun i hi => final_in (hR.i i hi) (b3 i hi)
  · have := b3 i hi
    rw [key i hi, conv_inf_int H.F hk (by omega) (by rw [one_mul]; omega), one_mul]
  · have := b3 i hi; have := hR.f i hi; omega

theorem inf_tnn2 (hx : ∀ j, j < n → IsTern (vec.get j)) (h : ∀ i j, i < m → j < n → P i j - Q i j = W i j) :
    ∃ a', aMvmTnnII E cfg c a res vec m n l
      = .ok (a', res.over m fun i => res.get i + ∑ j ∈ range n, W i j * vec.get j) := by
  have key := fun i hi => sum_tnn2 (fun j hj => h i j hi hj) hx
  have hb := H.B8
  have hpq : ∀ i j, i < m → j < n → |P i j - Q i j| ≤ 1 := fun i j hi hj => by
    rw [h i j hi hj]; exact hW i j hi hj
  have b1 : ∀ i, i < m → |∑ j ∈ range n, (P i j - Q i j) * (if vec.get j ≠ 0 then 1 else 0)| ≤ n := fun i hi =>
    abs_sum_prod (fun j hj => hpq i j hi hj) fun j hj => ite_abs
  have b2 : ∀ i, i < m → |∑ j ∈ range n, (P i j - Q i j) * dn (vec.get j)| ≤ n := fun i hi =>
    abs_sum_prod (fun j hj => hpq i j hi hj) fun j hj => ite_abs
  have b3 : ∀ i, i < m → |∑ j ∈ range n, W i j * vec.get j| ≤ n := fun i hi =>
    abs_sum_prod (fun j hj => hW i j hi hj) fun j hj => (hx j hj).abs
  have T := H.tnn23 (l := l) (f := fun j => if vec.get j ≠ 0 then 1 else 0) (g := fun j => dn (vec.get j))
    (fun j _ => ite_abs) (fun j _ => ite_abs)
    (β := fun i => ∑ j ∈ range n, (P i j - Q i j) * (if vec.get j ≠ 0 then 1 else 0))
    (γ := fun i => 2 * ∑ j ∈ range n, (P i j - Q i j) * dn (vec.get j))
    (fun i hi => by
      have := b1 i hi
      rw [conv_inf_int H.F hk (by omega) (by rw [one_mul]; omega), one_mul])
    (fun i hi => conv_inf_int H.F hk (by have := b2 i hi; omega)
      (by have := abs_two_mul_le (b2 i hi); omega))
  obtain ⟨a', e⟩ := aMvmTnnII_val H.par H.prof H.F.out (encNonzero_ok H.vec H.vdP)
    (encNegOne_ok H.vec (by exact H.vdP)) T H.res
    (fun i hi => by have := b1 i hi; have := abs_two_mul_le (b2 i hi); have := hR.f i hi; omega)
    (fun i hi => ⟨final_in (hR.i i hi) (b1 i hi), by
      rw [add_sub_assoc, key i hi]; exact final_in (hR.i i hi) (b3 i hi)⟩)
  refine ⟨a', ?_⟩
  rw [e]
  congr 2
  exact over_congr fun i hi => by rw [add_sub_assoc, key i hi]

theorem inf_tnn3 (hx : ∀ j, j < n → IsTern (vec.get j)) (h : ∀ i j, i < m → j < n → P i j - Q i j = W i j)
    (hs : ∀ i, i < m → c.gd.sumW.get i = ∑ j ∈ range n, W i j) :
    ∃ a', aMvmTnnIII E cfg c a res vec m n l
      = .ok (a', res.over m fun i => res.get i + ∑ j ∈ range n, W i j * vec.get j) := by
  have key := fun i hi => sum_tnn3 (fun j hj => h i j hi hj) hx
  have hb := H.B8
  have hpq : ∀ i j, i < m → j < n → |P i j - Q i j| ≤ 1 := fun i j hi hj => by
    rw [h i j hi hj]; exact hW i j hi hj
  have v1 : ∀ j, j < n → |(vec.get j + 1) % 2| ≤ 1 := fun j hj => by
    rcases hx j hj with e | e | e <;> rw [e] <;> norm_num
  have v2 : ∀ j, j < n → |(vec.get j + 1) / 2 % 2| ≤ 1 := fun j hj => by
    rcases hx j hj with e | e | e <;> rw [e] <;> norm_num
  have b1 : ∀ i, i < m → |∑ j ∈ range n, (P i j - Q i j) * ((vec.get j + 1) % 2)| ≤ n := fun i hi =>
    abs_sum_prod (fun j hj => hpq i j hi hj) v1
  have b2 : ∀ i, i < m → |∑ j ∈ range n, (P i j - Q i j) * ((vec.get j + 1) / 2 % 2)| ≤ n := fun i hi =>
    abs_sum_prod (fun j hj => hpq i j hi hj) v2
  have b3 : ∀ i, i < m → |∑ j ∈ range n, W i j * vec.get j| ≤ n := fun i hi =>
    abs_sum_prod (fun j hj => hW i j hi hj) fun j hj => (hx j hj).abs
  have T := H.tnn23 (l := l) (f := fun j => (vec.get j + 1) % 2) (g := fun j => (vec.get j + 1) / 2 % 2)
    v1 v2 (β := fun i => ∑ j ∈ range n, (P i j - Q i j) * ((vec.get j + 1) % 2))
    (γ := fun i => 2 * ∑ j ∈ range n, (P i j - Q i j) * ((vec.get j + 1) / 2 % 2))
    (fun i hi => by
      have := b1 i hi
      rw [conv_inf_int H.F hk (by omega) (by rw [one_mul]; omega), one_mul])
    (fun i hi => conv_inf_int H.F hk (by have := b2 i hi; omega)
      (by have := abs_two_mul_le (b2 i hi); omega))
  have key' : ∀ i, i < m → res.get i + (∑ j ∈ range n, (P i j - Q i j) * ((vec.get j + 1) % 2))
      + (2 * ∑ j ∈ range n, (P i j - Q i j) * ((vec.get j + 1) / 2 % 2)) - c.gd.sumW.get i
      = res.get i + ∑ j ∈ range n, W i j * vec.get j := fun i hi => by
    rw [← key i hi, hs i hi]; ring
  obtain ⟨a', e⟩ := aMvmTnnIII_val H.par H.prof H.F.out (encBit0_ok H.vec H.vdP fun j hj => (hx j hj).in1)
    (encBit1_ok H.vec (by exact H.vdP) fun j hj => (hx j hj).in1) T H.res H.sw
    (fun i hi => by have := b1 i hi; have := abs_two_mul_le (b2 i hi); have := hR.f i hi; omega)
    (fun i hi => ⟨final_in (hR.i i hi) (b1 i hi), by
      have := b1 i hi; have := abs_two_mul_le (b2 i hi); have := hR.i i hi
      have h1 := abs_add_le (res.get i + ∑ j ∈ range n, (P i j - Q i j) * ((vec.get j + 1) % 2))
        (2 * ∑ j ∈ range n, (P i j - Q i j) * ((vec.get j + 1) / 2 % 2))
      have h2 := abs_add_le (res.get i) (∑ j ∈ range n, (P i j - Q i j) * ((vec.get j + 1) % 2))
      exact inI32_of_abs (by omega), by
      rw [key' i hi]; exact final_in (hR.i i hi) (b3 i hi)⟩)
  refine ⟨a', ?_⟩
  rw [e]
  congr 2
  exact over_congr fun i hi => key' i hi

theorem inf_tnn4 (hsp : cfg.split = [1, 1]) (hx : ∀ j, j < n → IsTern (vec.get j))
    (h : ∀ i j, i < m → j < n → P i j - 2 * Q i j = W i j) :
    ∃ a', aMvmTnnIV E cfg c a res vec m n l
      = .ok (a', res.over m fun i => res.get i + ∑ j ∈ range n, W i j * vec.get j) := by
  have key := fun i hi => sum_tnn4 (fun j hj => h i j hi hj) hx
  obtain ⟨b1, b2, b4, b5⟩ := pm_bounds H
  have hb := H.B8
  have b3 : ∀ i, i < m → |∑ j ∈ range n, W i j * vec.get j| ≤ n := fun i hi =>
    abs_sum_prod (fun j hj => hW i j hi hj) fun j hj => (hx j hj).abs
  have b6 := BinHyp.abs_sum_vec hx
  have ud := sum_up_dn hx
  obtain ⟨u0, d0, ud1⟩ := sum_up_le (x := vec.get) (n := n)
  have hsum := abs_le.1 b6
  obtain ⟨s, hs⟩ : ∃ s, s = ∑ j ∈ range n, vec.get j := ⟨_, rfl⟩
  obtain ⟨U, hU⟩ : ∃ s, s = ∑ j ∈ range n, up (vec.get j) := ⟨_, rfl⟩
  obtain ⟨D, hD⟩ : ∃ s, s = ∑ j ∈ range n, dn (vec.get j) := ⟨_, rfl⟩
  rw [← hs] at hsum b6
  rw [← hU, ← hD, ← hs] at ud
  rw [← hU] at u0 ud1
  rw [← hD] at d0 ud1
  have T : Tnn45 E cfg c a vec (plusOf a.vdP n vec) (minusOf a.vdM n vec) m n l
      (cfg.hrs / (2 * (cfg.lrs - cfg.hrs))) (((1 : Int) : K) / (cfg.lrs - cfg.hrs))
      (((2 : Int) : K) / (cfg.lrs - cfg.hrs)) (Acs.cur cfg.hrs (cfg.lrs - cfg.hrs) s 0)
      (Acs.cur cfg.hrs (cfg.lrs - cfg.hrs) (-s) 0) s
      (fun _ => 1 * (2 * U + s)) (fun _ => 1 * (2 * D + -s)) (fun _ => 2 * (2 * U)) (fun _ => 2 * (2 * D))
      (fun i => 1 * ∑ j ∈ range n, P i j * up (vec.get j)) (fun i => 1 * ∑ j ∈ range n, P i j * dn (vec.get j))
      (fun i => 2 * ∑ j ∈ range n, Q i j * up (vec.get j)) (fun i => 2 * ∑ j ∈ range n, Q i j * dn (vec.get j))
      B := by
    constructor
    · rw [hs]; exact inpSum_ok H.vec H.n31 fun j hj => (hx j hj).in32
    · exact encTern_ok H.vec H.vdP H.vdM hx
    · rw [H.iMM]; exact H.F.sc1
    · rw [H.iMM]; exact H.F.sc2
    · exact H.tmp
    · exact H.tmpFp
    · refine H.tcP (f := fun j => up (vec.get j)) (fun j => ite_abs) H.vdP fun i hi => ?_
      rw [← mul_sum, ← hU]
      refine conv_inf H.F hk ?_ ?_ ?_ ?_
      · rw [abs_le]; constructor <;> omega
      · have := b1 i hi; omega
      · rw [abs_le]; constructor <;> omega
      · rw [one_mul]; have := b1 i hi; omega
    · refine H.tcP (f := fun j => dn (vec.get j)) (fun j => ite_abs) H.vdM fun i hi => ?_
      rw [← mul_sum, ← hD]
      refine conv_inf H.F hk ?_ ?_ ?_ ?_
      · rw [abs_le]; constructor <;> omega
      · have := b2 i hi; omega
      · rw [abs_le]; constructor <;> omega
      · rw [one_mul]; have := b2 i hi; omega
    · refine H.tcM (f := fun j => up (vec.get j)) (fun j => ite_abs) H.vdP fun i hi => ?_
      rw [← mul_sum, ← hU]
      refine conv_inf0 H.F hk ?_ ?_ ?_ ?_
      · rw [abs_le]; constructor <;> omega
      · have := b4 i hi; omega
      · rw [abs_le]; constructor <;> omega
      · have := abs_two_mul_le (b4 i hi); omega
    · refine H.tcM (f := fun j => dn (vec.get j)) (fun j => ite_abs) H.vdM fun i hi => ?_
      rw [← mul_sum, ← hD]
      refine conv_inf0 H.F hk ?_ ?_ ?_ ?_
      · rw [abs_le]; constructor <;> omega
      · have := b5 i hi; omega
      · rw [abs_le]; constructor <;> omega
      · have := abs_two_mul_le (b5 i hi); omega
    · intro i hi
      have h1 := abs_le.2 (⟨by omega, by omega⟩ : -(3 * (n : Int)) ≤ 1 * (2 * U + s) ∧ 1 * (2 * U + s) ≤ 3 * n)
      have h2 := abs_le.2 (⟨by omega, by omega⟩ : -(3 * (n : Int)) ≤ 1 * (2 * D + -s) ∧ 1 * (2 * D + -s) ≤ 3 * n)
      have h3 := abs_le.2 (⟨by omega, by omega⟩ : -(4 * (n : Int)) ≤ 2 * (2 * U) ∧ 2 * (2 * U) ≤ 4 * n)
      have h4 := abs_le.2 (⟨by omega, by omega⟩ : -(4 * (n : Int)) ≤ 2 * (2 * D) ∧ 2 * (2 * D) ≤ 4 * n)
      omega
    · intro i hi
      simp only [one_mul]
      have := b1 i hi; have := b2 i hi
      have := abs_two_mul_le (b4 i hi); have := abs_two_mul_le (b5 i hi)
      omega
  obtain ⟨a', e⟩ := aMvmTnnIV_val (res := res) H.par H.prof H.F.out hsp T
    (by rw [H.F.offs (abs_le.2 ⟨by omega, by omega⟩), H.F.half (abs_le.2 ⟨by omega, by omega⟩)])
    (by
      rw [H.F.offs (abs_le.2 ⟨by omega, by omega⟩), cur_neg, neg_zero,
        show -(2 * s) = 2 * -s by ring, H.F.half (abs_le.2 ⟨by omega, by omega⟩)])
    H.res (fun i hi => by omega)
    (fun i hi => by
      rw [one_mul, one_mul, key i hi]
      have := b3 i hi; have := hR.f i hi; omega)
    (fun i hi => by rw [one_mul, one_mul, key i hi]; exact final_in (hR.i i hi) (b3 i hi))
  refine ⟨a', ?_⟩
  rw [e]
  congr 2
  exact over_congr fun i hi => by rw [one_mul, one_mul, key i hi]

theorem inf_tnn5 (hsp : cfg.split = [1, 1]) (hx : ∀ j, j < n → IsTern (vec.get j))
    (h : ∀ i j, i < m → j < n → P i j + 2 * Q i j = W i j + 1) :
    ∃ a', aMvmTnnV E cfg c a res vec m n l
      = .ok (a', res.over m fun i => res.get i + ∑ j ∈ range n, W i j * vec.get j) := by
  have key := fun i hi => sum_tnn5 (fun j hj => h i j hi hj) hx
  obtain ⟨b1, b2, b4, b5⟩ := pm_bounds H
  have hb := H.B8
  have b3 : ∀ i, i < m → |∑ j ∈ range n, W i j * vec.get j| ≤ n := fun i hi =>
    abs_sum_prod (fun j hj => hW i j hi hj) fun j hj => (hx j hj).abs
  have b6 := BinHyp.abs_sum_vec hx
  have ud := sum_up_dn hx
  obtain ⟨u0, d0, ud1⟩ := sum_up_le (x := vec.get) (n := n)
  have hsum := abs_le.1 b6
  have hn31 := H.n31
  obtain ⟨s, hs⟩ : ∃ s, s = ∑ j ∈ range n, vec.get j := ⟨_, rfl⟩
  obtain ⟨U, hU⟩ : ∃ s, s = ∑ j ∈ range n, up (vec.get j) := ⟨_, rfl⟩
  obtain ⟨D, hD⟩ : ∃ s, s = ∑ j ∈ range n, dn (vec.get j) := ⟨_, rfl⟩
  rw [← hs] at hsum b6
  simp only [← hs] at key
  rw [← hU, ← hD, ← hs] at ud
  rw [← hU] at u0 ud1
  rw [← hD] at d0 ud1
  have T : Tnn45 E cfg c a vec (plusOf a.vdP n vec) (minusOf a.vdM n vec) m n l
      (cfg.hrs / (2 * (cfg.lrs - cfg.hrs))) (((1 : Int) : K) / (cfg.lrs - cfg.hrs))
      (((2 : Int) : K) / (cfg.lrs - cfg.hrs)) 0 (E.fmul (E.ofInt (3 * s)) cfg.hrs) s
      (fun _ => 1 * (2 * U)) (fun _ => 1 * (2 * D + 2 * (3 * s))) (fun _ => 2 * (2 * U)) (fun _ => 2 * (2 * D))
      (fun i => 1 * ∑ j ∈ range n, P i j * up (vec.get j)) (fun i => 1 * ∑ j ∈ range n, P i j * dn (vec.get j))
      (fun i => 2 * ∑ j ∈ range n, Q i j * up (vec.get j)) (fun i => 2 * ∑ j ∈ range n, Q i j * dn (vec.get j))
      B := by
    constructor
    · rw [hs]; exact inpSum_ok H.vec H.n31 fun j hj => (hx j hj).in32
    · exact encTern_ok H.vec H.vdP H.vdM hx
    · rw [H.iMM]; exact H.F.sc1
    · rw [H.iMM]; exact H.F.sc2
    · exact H.tmp
    · exact H.tmpFp
    · refine H.tcP (f := fun j => up (vec.get j)) (fun j => ite_abs) H.vdP fun i hi => ?_
      rw [← mul_sum, ← hU]
      refine conv_inf0 H.F hk ?_ ?_ ?_ ?_
      · rw [abs_le]; constructor <;> omega
      · have := b1 i hi; omega
      · rw [abs_le]; constructor <;> omega
      · rw [one_mul]; have := b1 i hi; omega
    · refine H.tcP (f := fun j => dn (vec.get j)) (fun j => ite_abs) H.vdM fun i hi => ?_
      rw [← mul_sum, ← hD, H.F.offs (abs_le.2 ⟨by omega, by omega⟩)]
      refine conv_inf H.F hk ?_ ?_ ?_ ?_
      · rw [abs_le]; constructor <;> omega
      · have := b2 i hi; omega
      · rw [abs_le]; constructor <;> omega
      · rw [one_mul]; have := b2 i hi; omega
    · refine H.tcM (f := fun j => up (vec.get j)) (fun j => ite_abs) H.vdP fun i hi => ?_
      rw [← mul_sum, ← hU]
      refine conv_inf0 H.F hk ?_ ?_ ?_ ?_
      · rw [abs_le]; constructor <;> omega
      · have := b4 i hi; omega
      · rw [abs_le]; constructor <;> omega
      · have := abs_two_mul_le (b4 i hi); omega
    · refine H.tcM (f := fun j => dn (vec.get j)) (fun j => ite_abs) H.vdM fun i hi => ?_
      rw [← mul_sum, ← hD]
      refine conv_inf0 H.F hk ?_ ?_ ?_ ?_
      · rw [abs_le]; constructor <;> omega
      · have := b5 i hi; omega
      · rw [abs_le]; constructor <;> omega
      · have := abs_two_mul_le (b5 i hi); omega
    · intro i hi
      have h1 := abs_le.2 (⟨by omega, by omega⟩ : -(2 * (n : Int)) ≤ 1 * (2 * U) ∧ 1 * (2 * U) ≤ 2 * n)
      have h2 := abs_le.2 (⟨by omega, by omega⟩ : -(6 * (n : Int)) ≤ 1 * (2 * D + 2 * (3 * s)) ∧
        1 * (2 * D + 2 * (3 * s)) ≤ 6 * n)
      have h3 := abs_le.2 (⟨by omega, by omega⟩ : -(4 * (n : Int)) ≤ 2 * (2 * U) ∧ 2 * (2 * U) ≤ 4 * n)
      have h4 := abs_le.2 (⟨by omega, by omega⟩ : -(4 * (n : Int)) ≤ 2 * (2 * D) ∧ 2 * (2 * D) ≤ 4 * n)
      omega
    · intro i hi
      simp only [one_mul]
      have := b1 i hi; have := b2 i hi
      have := abs_two_mul_le (b4 i hi); have := abs_two_mul_le (b5 i hi)
      omega
  have key' : ∀ i, i < m → ∑ j ∈ range n, P i j * up (vec.get j) - ∑ j ∈ range n, P i j * dn (vec.get j)
      + 2 * ∑ j ∈ range n, Q i j * up (vec.get j) - 2 * ∑ j ∈ range n, Q i j * dn (vec.get j)
      = ∑ j ∈ range n, W i j * vec.get j + s := fun i hi => by rw [← key i hi]; ring
  obtain ⟨a', e⟩ := aMvmTnnV_val (res := res) H.par H.prof H.F.out hsp T
    (i64_ok ⟨by omega, by omega⟩) H.res (fun i hi => by omega)
    (fun i hi => by
      rw [one_mul, one_mul, key' i hi]
      have := b3 i hi; have := hR.f i hi
      have := abs_add_le (∑ j ∈ range n, W i j * vec.get j) s
      omega)
    (fun i hi => by
      rw [one_mul, one_mul, key' i hi]
      have := b3 i hi; have := hR.i i hi
      have := abs_add_le (∑ j ∈ range n, W i j * vec.get j) s
      have := abs_add_le (res.get i) (∑ j ∈ range n, W i j * vec.get j + s)
      refine ⟨inI32_of_abs (by omega), ?_⟩
      rw [← add_assoc, add_sub_cancel_right]
      exact final_in (hR.i i hi) (b3 i hi))
  refine ⟨a', ?_⟩
  rw [e]
  congr 2
  exact over_congr fun i hi => by
    rw [one_mul, one_mul, key' i hi, ← add_assoc, add_sub_cancel_right]

end

end

end Acs
