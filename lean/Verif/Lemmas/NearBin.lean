import Verif.Lemmas.Near
import Mathlib.Algebra.BigOperators.Field

/-!
# Error bounds for deviating cell currents

The cell currents of a binary or ternary mapping differ by at most `ε` from their nominal values.  Every
multiplication is, before truncation, `(Σ p g + q g' - HRS Σ (g + g')) / (LRS - HRS)` plus an integer,
for integer coefficients `g`, `g'`; so it is off by at most `κ n ε / |LRS - HRS|`, with
`κ = max (|g| + |g'|)`.
-/

set_option linter.unusedSectionVars false

namespace Acs

open Finset Spec

section
variable {K : Type} [Field K] [LinearOrder K] [IsStrictOrderedRing K] [FloorRing K]
variable {E : Env K} {cfg : Cfg K} {c : Core K} {a : Aux K}
variable {vec res v : Vec Int} {m n : Nat} {l : String} {ε δ d h : K}
variable {P Q W : Nat → Nat → Int}

/-- Sum of currents on an exact machine. -/
theorem accExact (hE : ExactArith E) {term : Nat → Nat → C K} {tmp : Vec K} {f : Nat → Nat → K}
    (hm : m ≤ tmp.size) (ht : ∀ i j, i < m → j < n → term i j = .ok (f i j)) :
    accG (faddC E) m n term (tmp.fill 0) = .ok ((tmp.fill 0).over m fun i => ∑ j ∈ range n, f i j) := by
  refine accG_ok (fun i k => ∑ j ∈ range k, f i j) hm ?_ ?_
  · intro t ht'
    rw [Vec.fill_get (by omega), sum_range_zero]
  · intro t k ht' hk
    rw [ht t k ht' hk, ok_bind]
    unfold faddC Env.fadd
    rw [hE.f32, sum_range_succ]

/-- A row of deviating currents with integer coefficients. -/
theorem dev_row {p q : Nat → K} {P Q g g' : Nat → Int} {κ : Nat} (hd : d ≠ 0) (h0 : 0 ≤ ε)
    (hp : ∀ j, j < n → |p j - (h + P j * d)| ≤ ε) (hq : ∀ j, j < n → |q j - (h + Q j * d)| ≤ ε)
    (hg : ∀ j, j < n → |g j| + |g' j| ≤ κ) {y : K} {S o : Int}
    (hy : y = ∑ j ∈ range n, (p j * g j + q j * g' j - h * (g j + g' j)) / d + o)
    (hS : S = ∑ j ∈ range n, (P j * g j + Q j * g' j) + o) : |y - S| ≤ κ * n * ε / |d| := by
  have e : y - S = (∑ j ∈ range n, ((p j - (h + P j * d)) * g j + (q j - (h + Q j * d)) * g' j)) / d := by
    rw [hy, hS, sum_div]
    push_cast
    rw [add_sub_add_right_eq_sub, ← sum_sub_distrib]
    refine sum_congr rfl fun j _ => ?_
    field_simp
    ring
  rw [e, abs_div]
  refine div_le_div_of_nonneg_right ?_ (abs_nonneg d)
  refine (abs_sum_le_sum_abs _ _).trans ?_
  have : ∑ j ∈ range n, |(p j - (h + P j * d)) * g j + (q j - (h + Q j * d)) * g' j| ≤ ∑ j ∈ range n, κ * ε := by
    refine sum_le_sum fun j hj => ?_
    have hj' := mem_range.1 hj
    have h1 : ((|g j| + |g' j| : Int) : K) ≤ ((κ : Int) : K) := Int.cast_le.2 (hg j hj')
    push_cast at h1
    have h2 := mul_le_mul_of_nonneg_right (hp j hj') (abs_nonneg (g j : K))
    have h3 := mul_le_mul_of_nonneg_right (hq j hj') (abs_nonneg (g' j : K))
    have h4 := mul_le_mul_of_nonneg_left h1 h0
    have h5 := abs_add_le ((p j - (h + P j * d)) * g j) ((q j - (h + Q j * d)) * g' j)
    rw [abs_mul, abs_mul] at h5
    linarith
  rw [sum_const, card_range, nsmul_eq_mul] at this
  linarith

/-- Cell currents at most `ε` away from those of the states `P`, `Q`. -/
structure CellDev (E : Env K) (cfg : Cfg K) (c : Core K) (a : Aux K) (P Q W : Nat → Nat → Int) (vec res : Vec Int)
    (m n : Nat) (ε : K) : Prop where
  ex : ExactArith E
  ne : cfg.lrs - cfg.hrs ≠ 0
  par : cfg.parasitics = false
  eps : 0 ≤ ε
  p : ∀ i j, i < m → j < n → |c.ia.p.get i j - (cfg.hrs + P i j * (cfg.lrs - cfg.hrs))| ≤ ε
  q : ∀ i j, i < m → j < n → |c.ia.m.get i j - (cfg.hrs + Q i j * (cfg.lrs - cfg.hrs))| ≤ ε
  w1 : ∀ i j, i < m → j < n → |W i j| ≤ 1
  pr : m ≤ c.ia.p.rows
  pc : n ≤ c.ia.p.cols
  mr : m ≤ c.ia.m.rows
  mc : n ≤ c.ia.m.cols
  sw : m ≤ c.gd.sumW.size
  vdP : n ≤ a.vdP.size
  vdM : n ≤ a.vdM.size
  tmp : m ≤ a.tmp.size
  tmpP : m ≤ a.tmpP.size
  tmpM : m ≤ a.tmpM.size
  tmpFp : m ≤ a.tmpFp.size
  vec : n ≤ vec.size
  res : m ≤ res.size
  n31 : n ≤ 2147483647

/-- Deviating cells and an ideal converter. -/
structure DevHyp (E : Env K) (cfg : Cfg K) (c : Core K) (a : Aux K) (P Q W : Nat → Nat → Int) (vec res : Vec Int)
    (m n : Nat) (ε : K) : Prop extends CellDev E cfg c a P Q W vec res m n ε where
  inf : InfHyp E cfg c

/-- Room for a result that is off by up to `g n ε / |d|` and two truncations. -/
def DevRoom (d ε : K) (g : Nat) (res : Vec Int) (m n : Nat) : Prop :=
  ∀ i, i < m → ((|res.get i| + 3 * n : Int) : K) + g * n * ε / |d| + 2 ≤ 2147483647

/-- The result of a multiplication is less than `e` away from the exact one. -/
def NearBy (o : C (Aux K × Vec Int)) (res vec : Vec Int) (W : Nat → Nat → Int) (m n : Nat) (e : K) : Prop :=
  ∃ a' f, o = .ok (a', res.over m f) ∧
    ∀ i, i < m → |(f i : K) - ((res.get i + ∑ j ∈ range n, W i j * vec.get j : Int) : K)| < e

/-- One truncation. -/
theorem near_one {r S : Int} {y : K} (h : |y - S| ≤ δ) :
    |(truncZ ((r : K) + y) : K) - ((r + S : Int) : K)| < δ + 1 :=
  truncZ_lt (by push_cast; rw [add_sub_add_left_eq_sub]; exact h)

theorem near_in {z r S b : Int} (h : |(z : K) - ((r + S : Int) : K)| < δ) (hS : |S| ≤ b)
    (hr : ((|r| + b : Int) : K) + δ ≤ 2147483647) : InI32 z := by
  refine inI32_near h ?_
  have h1 : ((|r + S| : Int) : K) ≤ ((|r| + b : Int) : K) := Int.cast_le.2 (by
    have := abs_add_le r S; omega)
  rw [← Int.cast_abs]
  linarith

namespace CellDev
variable (H : CellDev E cfg c a P Q W vec res m n ε)
include H

theorem dev {i : Nat} (hi : i < m) {g g' : Nat → Int} {κ : Nat} (hg : ∀ j, j < n → |g j| + |g' j| ≤ κ)
    {y : K} {S o : Int}
    (hy : y = ∑ j ∈ range n, (c.ia.p.get i j * g j + c.ia.m.get i j * g' j - cfg.hrs * (g j + g' j))
      / (cfg.lrs - cfg.hrs) + o)
    (hS : S = ∑ j ∈ range n, (P i j * g j + Q i j * g' j) + o) :
    |y - S| ≤ κ * n * ε / |cfg.lrs - cfg.hrs| :=
  dev_row H.ne H.eps (fun j hj => H.p i j hi hj) (fun j hj => H.q i j hi hj) hg hy hS

theorem absPr (hx : ∀ j, j < n → IsTern (vec.get j)) {i : Nat} (hi : i < m) :
    |∑ j ∈ range n, W i j * vec.get j| ≤ n :=
  abs_sum_prod (fun j hj => H.w1 i j hi hj) fun j hj => (hx j hj).abs

/-- Wrap up for the mappings with one truncation at the end. -/
theorem one {o : C (Aux K × Vec Int)} {g : Nat} (hx : ∀ j, j < n → IsTern (vec.get j))
    (hR : DevRoom (cfg.lrs - cfg.hrs) ε g res m n) {y : Nat → K}
    (hy : ∀ i, i < m → |y i - ((∑ j ∈ range n, W i j * vec.get j : Int) : K)| ≤ g * n * ε / |cfg.lrs - cfg.hrs|)
    (ho : (∀ i, i < m → InI32 (truncZ ((res.get i : K) + y i))) →
      ∃ a', o = .ok (a', res.over m fun i => truncZ ((res.get i : K) + y i))) :
    NearBy o res vec W m n (g * n * ε / |cfg.lrs - cfg.hrs| + 1) := by
  have k1 := fun i hi => near_one (r := res.get i) (hy i hi)
  obtain ⟨a', e⟩ := ho fun i hi => near_in (k1 i hi) (H.absPr hx hi) (by
    have h1 := hR i hi
    have h2 : (0 : K) ≤ n := Nat.cast_nonneg n
    push_cast at h1 ⊢
    linarith)
  exact ⟨a', _, e, k1⟩

theorem cp {u : Vec Int} {f : Nat → Int} {tmp : Vec K} (hu : n ≤ u.size) (ht : m ≤ tmp.size) :
    accG (faddC E) m n (iaTerm E c.ia.p (u.over n f)) (tmp.fill 0)
      = .ok ((tmp.fill 0).over m fun i => ∑ j ∈ range n, c.ia.p.get i j * f j) := by
  have hp := H.pr; have hp' := H.pc
  refine accExact H.ex ht fun i j hi hj => ?_
  unfold iaTerm Env.fmul Env.ofInt
  rw [Mat.rd_ok (by omega) (by omega), ok_bind, over_rd hu hj, ok_bind, H.ex.f32, H.ex.f32]

theorem cm {u : Vec Int} {f : Nat → Int} {tmp : Vec K} (hu : n ≤ u.size) (ht : m ≤ tmp.size) :
    accG (faddC E) m n (iaTerm E c.ia.m (u.over n f)) (tmp.fill 0)
      = .ok ((tmp.fill 0).over m fun i => ∑ j ∈ range n, c.ia.m.get i j * f j) := by
  have hp := H.mr; have hp' := H.mc
  refine accExact H.ex ht fun i j hi hj => ?_
  unfold iaTerm Env.fmul Env.ofInt
  rw [Mat.rd_ok (by omega) (by omega), ok_bind, over_rd hu hj, ok_bind, H.ex.f32, H.ex.f32]

theorem cDiff {u : Vec Int} {f : Nat → Int} {tmp : Vec K} (hu : n ≤ u.size) (ht : m ≤ tmp.size) :
    accG (faddC E) m n (iaDiffTerm E c.ia (u.over n f)) (tmp.fill 0)
      = .ok ((tmp.fill 0).over m fun i => ∑ j ∈ range n, (c.ia.p.get i j - c.ia.m.get i j) * f j) := by
  have hp := H.pr; have hp' := H.pc; have hq := H.mr; have hq' := H.mc
  refine accExact H.ex ht fun i j hi hj => ?_
  unfold iaDiffTerm Env.fmul Env.fsub Env.ofInt
  rw [Mat.rd_ok (by omega) (by omega), ok_bind, Mat.rd_ok (by omega) (by omega), ok_bind, over_rd hu hj, ok_bind,
    H.ex.f32, H.ex.f32, H.ex.f32]

theorem cDiffNeg {u : Vec Int} {f : Nat → Int} {tmp : Vec K} (hu : n ≤ u.size) (ht : m ≤ tmp.size) :
    accG (faddC E) m n (iaDiffTermNeg E c.ia (u.over n f)) (tmp.fill 0)
      = .ok ((tmp.fill 0).over m fun i => ∑ j ∈ range n, (c.ia.m.get i j - c.ia.p.get i j) * f j) := by
  have hp := H.pr; have hp' := H.pc; have hq := H.mr; have hq' := H.mc
  refine accExact H.ex ht fun i j hi hj => ?_
  unfold iaDiffTermNeg Env.fmul Env.fsub Env.ofInt
  rw [Mat.rd_ok (by omega) (by omega), ok_bind, Mat.rd_ok (by omega) (by omega), ok_bind, over_rd hu hj, ok_bind,
    H.ex.f32, H.ex.f32, H.ex.f32]

theorem c5 {u u' : Vec Int} {f f' : Nat → Int} {tmp : Vec K} (hu : n ≤ u.size) (hu' : n ≤ u'.size)
    (ht : m ≤ tmp.size) :
    accG (faddC E) m n (iaBnn5Term E c.ia (u.over n f) (u'.over n f')) (tmp.fill 0)
      = .ok ((tmp.fill 0).over m fun i => ∑ j ∈ range n, (c.ia.p.get i j * f j + c.ia.m.get i j * f' j)) := by
  have hp := H.pr; have hp' := H.pc; have hq := H.mr; have hq' := H.mc
  refine accExact H.ex ht fun i j hi hj => ?_
  unfold iaBnn5Term Env.fmul Env.fadd Env.ofInt
  rw [Mat.rd_ok (by omega) (by omega), ok_bind, over_rd hu hj, ok_bind, Mat.rd_ok (by omega) (by omega), ok_bind,
    over_rd hu' hj, ok_bind]
  simp only [H.ex.f32]

theorem cQuad {u u' : Vec Int} {f f' : Nat → Int} {tmp : Vec K} (hu : n ≤ u.size) (hu' : n ≤ u'.size)
    (ht : m ≤ tmp.size) :
    accG (faddC E) m n (iaQuadTerm E c.ia (u.over n f) (u'.over n f')) (tmp.fill 0)
      = .ok ((tmp.fill 0).over m fun i => ∑ j ∈ range n, (c.ia.p.get i j - c.ia.m.get i j) * (f j - f' j)) := by
  have hp := H.pr; have hp' := H.pc; have hq := H.mr; have hq' := H.mc
  refine accExact H.ex ht fun i j hi hj => ?_
  unfold iaQuadTerm Env.fmul Env.fadd Env.fsub Env.ofInt
  rw [Mat.rd_ok (by omega) (by omega), ok_bind, Mat.rd_ok (by omega) (by omega), ok_bind, over_rd hu hj, ok_bind,
    over_rd hu' hj, ok_bind]
  simp only [H.ex.f32]
  congr 1
  ring

/-- The column currents are the accumulated ones. -/
theorem cols {term : Nat → Nat → C K} {vp : Vec Int} {vm : Option (Vec Int)} {tmp : Vec K} {t : Vec K}
    (h : accG (faddC E) m n term tmp = .ok t) : colCurrents E cfg c term vp vm tmp m n = .ok t := by
  rw [colCurrents_ideal H.par, h]

theorem neg_sum (hx : ∀ j, j < n → IsTern (vec.get j)) :
    negI (∑ j ∈ range n, vec.get j) = .ok (-∑ j ∈ range n, vec.get j) := by
  have h1 := BinHyp.abs_sum_vec hx
  have := H.n31
  refine negI_ok (inI32_of_abs ?_)
  rw [abs_neg]
  omega

end CellDev

namespace DevHyp
variable (H : DevHyp E cfg c a P Q W vec res m n ε)
include H

theorem bnn1 (hx : ∀ j, j < n → IsBin (vec.get j)) (hW : ∀ i j, i < m → j < n → P i j - Q i j = W i j)
    (hs : ∀ i, i < m → c.gd.sumW.get i = ∑ j ∈ range n, W i j)
    (hR : DevRoom (cfg.lrs - cfg.hrs) ε 4 res m n) :
    NearBy (aMvmBnnI E cfg c a res vec m n l) res vec W m n (4 * n * ε / |cfg.lrs - cfg.hrs| + 1) := by
  have key := fun i hi => sum_bnn1 (fun j hj => hW i j hi hj) hx
  refine mod_cast H.one (fun j hj => (hx j hj).tern) hR (y := fun i =>
    (∑ j ∈ range n, (c.ia.p.get i j - c.ia.m.get i j) * (((vec.get j + 1) / 2 : Int) : K))
      * (2 / (cfg.lrs - cfg.hrs)) - c.gd.sumW.get i) (fun i hi => ?_)
    fun hI => H.inf.bnn1 (encBnn1_ok H.vec H.vdP fun j hj => (hx j hj).tern.in1)
      (H.cols (H.cDiff H.vdP H.tmp)) H.tmp H.res H.sw (fun i hi => by rw [Vec.over_lt hi]) hI
  refine H.dev hi (g := fun j => 2 * ((vec.get j + 1) / 2)) (g' := fun j => -(2 * ((vec.get j + 1) / 2)))
    (o := -c.gd.sumW.get i) (fun j hj => ?_) ?_ ?_
  · rcases hx j hj with e | e <;> rw [e] <;> norm_num
  · rw [sum_mul, sub_eq_add_neg]
    push_cast
    congr 1
    refine sum_congr rfl fun j _ => ?_
    ring
  · rw [← key i hi, hs i hi, mul_sum, sub_eq_add_neg]
    congr 1
    exact sum_congr rfl fun j _ => by ring

theorem bnn2 (hx : ∀ j, j < n → IsBin (vec.get j)) (hW : ∀ i j, i < m → j < n → P i j - Q i j = W i j)
    (hs : ∀ i, i < m → c.gd.sumW.get i = ∑ j ∈ range n, W i j)
    (hR : DevRoom (cfg.lrs - cfg.hrs) ε 4 res m n) :
    NearBy (aMvmBnnII E cfg c a res vec m n l) res vec W m n (4 * n * ε / |cfg.lrs - cfg.hrs| + 1) := by
  have key := fun i hi => sum_bnn2 (fun j hj => hW i j hi hj) hx
  refine mod_cast H.one (fun j hj => (hx j hj).tern) hR (y := fun i =>
    (∑ j ∈ range n, (c.ia.m.get i j - c.ia.p.get i j) * (((vec.get j - 1).tdiv (-2) : Int) : K))
      * (2 / (cfg.lrs - cfg.hrs)) + c.gd.sumW.get i) (fun i hi => ?_)
    fun hI => H.inf.bnn2 (encBnn2_ok H.vec H.vdP fun j hj => (hx j hj).tern.in1')
      (H.cols (H.cDiffNeg H.vdP H.tmp)) H.tmp H.res H.sw (fun i hi => by rw [Vec.over_lt hi]) hI
  refine H.dev hi (g := fun j => -(2 * (vec.get j - 1).tdiv (-2))) (g' := fun j => 2 * (vec.get j - 1).tdiv (-2))
    (o := c.gd.sumW.get i) (fun j hj => ?_) ?_ ?_
  · rcases hx j hj with e | e <;> rw [e] <;> norm_num
  · rw [sum_mul]
    push_cast
    congr 1
    refine sum_congr rfl fun j _ => ?_
    ring
  · rw [← key i hi, hs i hi, mul_sum]
    congr 1
    exact sum_congr rfl fun j _ => by ring

omit H in
/-- The input halves, as numbers of the field. -/
theorem up_dn_cast {x : Int} (h : IsTern x) : ((up x : Int) : K) - ((dn x : Int) : K) = x := by
  rw [← Int.cast_sub, up_dn h]

theorem bnn34 (hx : ∀ j, j < n → IsBin (vec.get j)) {i : Nat} (hi : i < m) {y : K} {S o s : Int}
    (hs : |s| ≤ 2)
    (hy : y = s * ((∑ j ∈ range n, c.ia.p.get i j * ((up (vec.get j) : Int) : K)
        - ((∑ j ∈ range n, vec.get j : Int) : K) * cfg.hrs)
      - ∑ j ∈ range n, c.ia.p.get i j * ((dn (vec.get j) : Int) : K)) / (cfg.lrs - cfg.hrs) + o)
    (hS : S = ∑ j ∈ range n, s * (P i j * up (vec.get j)) - ∑ j ∈ range n, s * (P i j * dn (vec.get j)) + o) :
    |y - S| ≤ (2 : Nat) * n * ε / |cfg.lrs - cfg.hrs| := by
  refine H.dev hi (g := fun j => s * vec.get j) (g' := fun _ => 0) (o := o) (fun j hj => ?_) ?_ ?_
  · have := (hx j hj).tern.abs
    rw [abs_zero, add_zero, abs_mul]
    have := mul_le_mul hs this (abs_nonneg _) (by norm_num)
    simpa using this
  · rw [hy, Int.cast_sum]
    congr 1
    rw [sum_mul, ← sum_sub_distrib, ← sum_sub_distrib, mul_sum, sum_div]
    refine sum_congr rfl fun j hj => ?_
    rw [Int.cast_mul, Int.cast_zero, ← up_dn_cast (K := K) (hx j (mem_range.1 hj)).tern]
    ring
  · rw [hS, ← sum_sub_distrib]
    congr 1
    refine sum_congr rfl fun j hj => ?_
    have := up_dn (hx j (mem_range.1 hj)).tern
    linear_combination s * P i j * this

theorem bnn3 (hx : ∀ j, j < n → IsBin (vec.get j)) (hW : ∀ i j, i < m → j < n → 2 * P i j - 1 = W i j)
    (hR : DevRoom (cfg.lrs - cfg.hrs) ε 2 res m n) :
    NearBy (aMvmBnnIII E cfg c a res vec m n l) res vec W m n (2 * n * ε / |cfg.lrs - cfg.hrs| + 1) := by
  have key := fun i hi => sum_bnn3 (fun j hj => hW i j hi hj) hx
  refine mod_cast H.one (fun j hj => (hx j hj).tern) hR (y := fun i =>
    (∑ j ∈ range n, c.ia.p.get i j * ((up (vec.get j) : Int) : K) - ((∑ j ∈ range n, vec.get j : Int) : K) * cfg.hrs)
      * (2 / (cfg.lrs - cfg.hrs)) - (∑ j ∈ range n, c.ia.p.get i j * ((dn (vec.get j) : Int) : K))
      * (2 / (cfg.lrs - cfg.hrs)) - ((∑ j ∈ range n, vec.get j : Int) : K)) (fun i hi => ?_)
    fun hI => H.inf.bnn3 (encPMSum_ok H.vec H.vdP H.vdM H.n31 hx) (H.cols (H.cp H.vdP H.tmpP))
      (H.cols (H.cp H.vdM H.tmpM)) (H.neg_sum fun j hj => (hx j hj).tern) H.tmpP H.tmpM H.res
      (fun i hi => by rw [Vec.over_lt hi, Vec.over_lt hi]) hI
  refine H.bnn34 hx hi (s := 2) (o := -∑ j ∈ range n, vec.get j) (by norm_num) (by push_cast; ring) ?_
  rw [← key i hi, mul_sum, mul_sum]
  ring

theorem bnn4 (hx : ∀ j, j < n → IsBin (vec.get j)) (hW : ∀ i j, i < m → j < n → 1 - 2 * P i j = W i j)
    (hR : DevRoom (cfg.lrs - cfg.hrs) ε 2 res m n) :
    NearBy (aMvmBnnIV E cfg c a res vec m n l) res vec W m n (2 * n * ε / |cfg.lrs - cfg.hrs| + 1) := by
  have key := fun i hi => sum_bnn4 (fun j hj => hW i j hi hj) hx
  refine mod_cast H.one (fun j hj => (hx j hj).tern) hR (y := fun i =>
    (∑ j ∈ range n, c.ia.p.get i j * ((dn (vec.get j) : Int) : K)) * (2 / (cfg.lrs - cfg.hrs))
    - (∑ j ∈ range n, c.ia.p.get i j * ((up (vec.get j) : Int) : K)
      - ((∑ j ∈ range n, vec.get j : Int) : K) * cfg.hrs)
      * (2 / (cfg.lrs - cfg.hrs)) + ((∑ j ∈ range n, vec.get j : Int) : K)) (fun i hi => ?_)
    fun hI => H.inf.bnn4 (encPMSum_ok H.vec H.vdP H.vdM H.n31 hx) (H.cols (H.cp H.vdP H.tmpP))
      (H.cols (H.cp H.vdM H.tmpM)) (H.neg_sum fun j hj => (hx j hj).tern) H.tmpP H.tmpM H.res
      (fun i hi => by rw [Vec.over_lt hi, Vec.over_lt hi]) hI
  refine H.bnn34 hx hi (s := -2) (o := ∑ j ∈ range n, vec.get j) (by norm_num) (by push_cast; ring) ?_
  rw [← key i hi, ← mul_sum, ← mul_sum]
  ring

theorem bnn5 (hx : ∀ j, j < n → IsBin (vec.get j)) (hW : ∀ i j, i < m → j < n → 2 * P i j - 1 = W i j)
    (hW' : ∀ i j, i < m → j < n → 2 * Q i j - 1 = -W i j) (hR : DevRoom (cfg.lrs - cfg.hrs) ε 2 res m n) :
    NearBy (aMvmBnnV E cfg c a res vec m n l) res vec W m n (2 * n * ε / |cfg.lrs - cfg.hrs| + 1) := by
  have key := fun i hi => sum_bnn5 (fun j hj => hW i j hi hj) (fun j hj => hW' i j hi hj) hx
  have h1 : (n : Int) = ∑ j ∈ range n, (up (vec.get j) + dn (vec.get j)) := by
    rw [sum_add_distrib, sum_one hx]
  refine mod_cast H.one (fun j hj => (hx j hj).tern) hR (y := fun i =>
    (∑ j ∈ range n, (c.ia.p.get i j * ((up (vec.get j) : Int) : K) + c.ia.m.get i j * ((dn (vec.get j) : Int) : K))
      - n * cfg.hrs) * (2 / (cfg.lrs - cfg.hrs)) - n) (fun i hi => ?_)
    fun hI => H.inf.bnn5 (encPM_ok H.vec H.vdP H.vdM hx) (H.cols (H.c5 H.vdP H.vdM H.tmp))
      (negI_ok (by have := H.n31; constructor <;> omega)) H.tmp H.res (fun i hi => by rw [Vec.over_lt hi]) hI
  refine H.dev hi (g := fun j => 2 * up (vec.get j)) (g' := fun j => 2 * dn (vec.get j)) (o := -(n : Int))
    (fun j hj => ?_) ?_ ?_
  · rcases hx j hj with e | e <;> rw [e] <;> norm_num [up, dn]
  · have h2 : ((n : Nat) : K) = ∑ j ∈ range n, (((up (vec.get j) : Int) : K) + ((dn (vec.get j) : Int) : K)) := by
      rw [← Int.cast_natCast, h1]; push_cast; rfl
    push_cast
    rw [sub_eq_add_neg]
    congr 1
    conv_lhs => rw [h2]
    rw [sum_mul, ← sum_sub_distrib, sum_mul]
    refine sum_congr rfl fun j _ => ?_
    push_cast
    ring
  · rw [← key i hi, mul_sum, sub_eq_add_neg]
    congr 1
    exact sum_congr rfl fun j _ => by ring

theorem quad (hx : ∀ j, j < n → IsTern (vec.get j)) (hW : ∀ i j, i < m → j < n → P i j - Q i j = W i j)
    {i : Nat} (hi : i < m) :
    |(∑ j ∈ range n, (c.ia.p.get i j - c.ia.m.get i j) * (((up (vec.get j) : Int) : K) - ((dn (vec.get j) : Int) : K)))
      * (1 / (cfg.lrs - cfg.hrs)) - ((∑ j ∈ range n, W i j * vec.get j : Int) : K)|
      ≤ (2 : Nat) * n * ε / |cfg.lrs - cfg.hrs| := by
  refine H.dev hi (g := fun j => vec.get j) (g' := fun j => -vec.get j) (o := 0) (fun j hj => ?_) ?_ ?_
  · rcases hx j hj with e | e | e <;> rw [e] <;> norm_num
  · rw [sum_mul, Int.cast_zero, add_zero]
    refine sum_congr rfl fun j hj => ?_
    rw [up_dn_cast (hx j (mem_range.1 hj))]
    push_cast
    ring
  · rw [add_zero]
    refine sum_congr rfl fun j hj => ?_
    rw [← hW i j hi (mem_range.1 hj)]
    ring

theorem bnn6 (hx : ∀ j, j < n → IsBin (vec.get j)) (hW : ∀ i j, i < m → j < n → P i j - Q i j = W i j)
    (hR : DevRoom (cfg.lrs - cfg.hrs) ε 2 res m n) :
    NearBy (aMvmBnnVI E cfg c a res vec m n l) res vec W m n (2 * n * ε / |cfg.lrs - cfg.hrs| + 1) :=
  mod_cast H.one (fun j hj => (hx j hj).tern) hR (fun i hi => H.quad (fun j hj => (hx j hj).tern) hW hi)
    fun hI => H.inf.bnn6 (encPM_ok H.vec H.vdP H.vdM hx) (H.cols (H.cQuad H.vdP H.vdM H.tmp)) H.tmp H.res
      (fun i hi => by rw [Vec.over_lt hi]) hI

theorem tnn1 (hx : ∀ j, j < n → IsTern (vec.get j)) (hW : ∀ i j, i < m → j < n → P i j - Q i j = W i j)
    (hR : DevRoom (cfg.lrs - cfg.hrs) ε 2 res m n) :
    NearBy (aMvmTnnI E cfg c a res vec m n l) res vec W m n (2 * n * ε / |cfg.lrs - cfg.hrs| + 1) :=
  mod_cast H.one hx hR (fun i hi => H.quad hx hW hi)
    fun hI => H.inf.tnn1 (encTern_ok H.vec H.vdP H.vdM hx) (H.cols (H.cQuad H.vdP H.vdM H.tmp)) H.tmp H.res
      (fun i hi => by rw [Vec.over_lt hi]) hI

/-- A row of current differences with one scale. -/
theorem diffs {i : Nat} (hi : i < m) {f : Nat → Int} {s : Int} {κ : Nat} (hf : ∀ j, j < n → 2 * |s * f j| ≤ κ) :
    |(∑ j ∈ range n, (c.ia.p.get i j - c.ia.m.get i j) * (f j : K)) * (s / (cfg.lrs - cfg.hrs))
      - ((∑ j ∈ range n, (P i j - Q i j) * (s * f j) : Int) : K)| ≤ κ * n * ε / |cfg.lrs - cfg.hrs| := by
  refine H.dev hi (g := fun j => s * f j) (g' := fun j => -(s * f j)) (o := 0) (fun j hj => ?_) ?_ ?_
  · have := hf j hj
    rw [abs_neg]
    omega
  · rw [sum_mul, Int.cast_zero, add_zero]
    refine sum_congr rfl fun j _ => ?_
    push_cast
    ring
  · rw [add_zero]
    exact sum_congr rfl fun j _ => by ring

/-- Two rows of current differences with scales 1 and `s`. -/
theorem diffs2 {i : Nat} (hi : i < m) {f f' : Nat → Int} {s : Int} {κ : Nat}
    (hf : ∀ j, j < n → 2 * |f j + s * f' j| ≤ κ) :
    |(∑ j ∈ range n, (c.ia.p.get i j - c.ia.m.get i j) * (f j : K)) * (1 / (cfg.lrs - cfg.hrs))
      + (∑ j ∈ range n, (c.ia.p.get i j - c.ia.m.get i j) * (f' j : K)) * (s / (cfg.lrs - cfg.hrs))
      - ((∑ j ∈ range n, (P i j - Q i j) * (f j + s * f' j) : Int) : K)| ≤ κ * n * ε / |cfg.lrs - cfg.hrs| := by
  refine H.dev hi (g := fun j => f j + s * f' j) (g' := fun j => -(f j + s * f' j)) (o := 0) (fun j hj => ?_) ?_ ?_
  · have := hf j hj
    rw [abs_neg]
    omega
  · rw [sum_mul, sum_mul, ← sum_add_distrib, Int.cast_zero, add_zero]
    refine sum_congr rfl fun j _ => ?_
    push_cast
    ring
  · rw [add_zero]
    exact sum_congr rfl fun j _ => by ring

omit H in
/-- Two truncations in a row. -/
theorem near_two {r S : Int} {y y' : K} {k k' : Int} (hk : k = truncZ ((r : K) + y)) (hk' : k' = truncZ ((k : K) + y'))
    (h : |y + y' - S| ≤ δ) : |(k' : K) - ((r + S : Int) : K)| < δ + 2 := by
  have h1 := truncZ_near ((r : K) + y)
  have h2 := truncZ_near ((k : K) + y')
  rw [← hk] at h1
  rw [← hk'] at h2
  have e : (k' : K) - ((r + S : Int) : K) = ((k' : K) - (k + y')) + ((k : K) - (r + y)) + (y + y' - S) := by
    push_cast; ring
  rw [e]
  have h3 := abs_add_le (((k' : K) - (k + y')) + ((k : K) - (r + y))) (y + y' - S)
  have h4 := abs_add_le ((k' : K) - (k + y')) ((k : K) - (r + y))
  linarith

theorem eps_mono {g g' : Nat} (h : g ≤ g') :
    (g : K) * n * ε / |cfg.lrs - cfg.hrs| ≤ g' * n * ε / |cfg.lrs - cfg.hrs| := by
  have h1 : (g : K) ≤ g' := Nat.cast_le.2 h
  have h2 : (0 : K) ≤ n := Nat.cast_nonneg n
  have h3 := H.eps
  gcongr

theorem absPQ (hW : ∀ i j, i < m → j < n → P i j - Q i j = W i j) {i : Nat} (hi : i < m) {f : Nat → Int} {κ : Nat}
    (hf : ∀ j, j < n → |f j| ≤ κ) : |∑ j ∈ range n, (P i j - Q i j) * f j| ≤ κ * n := by
  refine (abs_sum_le_sum_abs _ _).trans ?_
  have : ∑ j ∈ range n, |(P i j - Q i j) * f j| ≤ ∑ _j ∈ range n, (κ : Int) := by
    refine sum_le_sum fun j hj => ?_
    have h1 := H.w1 i j hi (mem_range.1 hj)
    have h2 := hf j (mem_range.1 hj)
    rw [abs_mul, hW i j hi (mem_range.1 hj)]
    nlinarith [abs_nonneg (W i j), abs_nonneg (f j)]
  rw [sum_const, card_range, nsmul_eq_mul, mul_comm] at this
  exact this

/-- Wrap up for TNN_II. -/
theorem two {o : C (Aux K × Vec Int)} (hx : ∀ j, j < n → IsTern (vec.get j))
    (hR : DevRoom (cfg.lrs - cfg.hrs) ε 2 res m n) {y y' : Nat → K} {S : Nat → Int} (hS : ∀ i, i < m → |S i| ≤ 1 * n)
    (hy : ∀ i, i < m → |y i - S i| ≤ (2 : Nat) * n * ε / |cfg.lrs - cfg.hrs|)
    (hy' : ∀ i, i < m → |y i + -y' i - ((∑ j ∈ range n, W i j * vec.get j : Int) : K)|
      ≤ (2 : Nat) * n * ε / |cfg.lrs - cfg.hrs|)
    (ho : ∀ k : Nat → Int, (∀ i, k i = truncZ ((res.get i : K) + y i)) →
      (∀ i, i < m → InI32 (k i) ∧ InI32 (truncZ ((k i : K) - y' i))) →
      ∃ a', o = .ok (a', res.over m fun i => truncZ ((k i : K) - y' i))) :
    NearBy o res vec W m n (2 * n * ε / |cfg.lrs - cfg.hrs| + 2) := by
  obtain ⟨k, hk⟩ : ∃ k : Nat → Int, ∀ i, k i = truncZ ((res.get i : K) + y i) := ⟨_, fun _ => rfl⟩
  have k1 : ∀ i, i < m → |(k i : K) - ((res.get i + S i : Int) : K)|
      < (2 : Nat) * n * ε / |cfg.lrs - cfg.hrs| + 1 := fun i hi => by
    rw [hk]
    exact near_one (hy i hi)
  have k2 : ∀ i, i < m → |(truncZ ((k i : K) - y' i) : K) - ((res.get i + ∑ j ∈ range n, W i j * vec.get j : Int) : K)|
      < (2 : Nat) * n * ε / |cfg.lrs - cfg.hrs| + 2 := fun i hi =>
    near_two (hk i) (y' := -y' i) (by rw [← sub_eq_add_neg]) (hy' i hi)
  obtain ⟨a', e⟩ := ho k hk fun i hi => by
    have h1 := hR i hi
    have h2 : (0 : K) ≤ n := Nat.cast_nonneg n
    refine ⟨near_in (k1 i hi) (hS i hi) ?_, near_in (k2 i hi) (H.absPr hx hi) ?_⟩
    · push_cast at h1 ⊢
      linarith
    · push_cast at h1 ⊢
      linarith
  refine ⟨a', _, e, fun i hi => ?_⟩
  have := k2 i hi
  rw [Nat.cast_ofNat] at this
  exact this

omit H in
theorem nz_small {x : Int} (h : IsTern x) : 2 * |1 * (if x ≠ 0 then 1 else 0 : Int)| ≤ (2 : Nat) ∧
    2 * |(if x ≠ 0 then 1 else 0) + -2 * dn x| ≤ (2 : Nat) ∧ |1 * (if x ≠ 0 then 1 else 0 : Int)| ≤ (1 : Nat) := by
  rcases h with e | e | e <;> rw [e] <;> decide

theorem tnn2 (hx : ∀ j, j < n → IsTern (vec.get j)) (hW : ∀ i j, i < m → j < n → P i j - Q i j = W i j)
    (hR : DevRoom (cfg.lrs - cfg.hrs) ε 2 res m n) :
    NearBy (aMvmTnnII E cfg c a res vec m n l) res vec W m n (2 * n * ε / |cfg.lrs - cfg.hrs| + 2) := by
  refine H.two hx hR (y := fun i => (∑ j ∈ range n, (c.ia.p.get i j - c.ia.m.get i j) *
      (((if vec.get j ≠ 0 then 1 else 0 : Int)) : K)) * (1 / (cfg.lrs - cfg.hrs)))
    (y' := fun i => (∑ j ∈ range n, (c.ia.p.get i j - c.ia.m.get i j) *
      ((dn (vec.get j) : Int) : K)) * (2 / (cfg.lrs - cfg.hrs)))
    (S := fun i => ∑ j ∈ range n, (P i j - Q i j) * (1 * (if vec.get j ≠ 0 then 1 else 0 : Int)))
    (fun i hi => H.absPQ hW hi fun j hj => (nz_small (hx j hj)).2.2) (fun i hi => ?_) (fun i hi => ?_) fun k hk hI =>
    H.inf.tnn2 (l := l) (encNonzero_ok H.vec H.vdP) (encNegOne_ok H.vec (by exact H.vdP))
      (H.cols (H.cDiff H.vdP H.tmp)) (H.cols (H.cDiff (by exact H.vdP) (by exact H.tmp))) H.tmp H.tmp H.res
      (fun i hi => by rw [Vec.over_lt hi]) (fun i hi => by rw [Vec.over_lt hi]) (fun i _ => hk i) hI
  · have := H.diffs hi (s := 1) fun j hj => (nz_small (hx j hj)).1
    rw [Int.cast_one] at this
    exact this
  · have := H.diffs2 hi (s := -2) fun j hj => (nz_small (hx j hj)).2.1
    have e : ∑ j ∈ range n, (P i j - Q i j) * ((if vec.get j ≠ 0 then 1 else 0) + -2 * dn (vec.get j))
        = ∑ j ∈ range n, W i j * vec.get j := sum_congr rfl fun j hj => by
      rw [← id_tnn2 (hW i j hi (mem_range.1 hj)) (hx j (mem_range.1 hj))]; ring
    rw [e, show ((-2 : Int) : K) / (cfg.lrs - cfg.hrs) = -(2 / (cfg.lrs - cfg.hrs)) by push_cast; ring, mul_neg] at this
    exact this

/-- Wrap up for TNN_III. -/
theorem three {o : C (Aux K × Vec Int)} (hx : ∀ j, j < n → IsTern (vec.get j))
    (hR : DevRoom (cfg.lrs - cfg.hrs) ε 4 res m n) {y y' : Nat → K} {S S' : Nat → Int}
    (hS : ∀ i, i < m → |S i| ≤ 1 * n) (hS' : ∀ i, i < m → |S' i| ≤ 2 * n)
    (hy : ∀ i, i < m → |y i - S i| ≤ (2 : Nat) * n * ε / |cfg.lrs - cfg.hrs|)
    (hy' : ∀ i, i < m → |y i + y' i - S' i| ≤ (4 : Nat) * n * ε / |cfg.lrs - cfg.hrs|)
    (hp : ∀ i, i < m → S' i - c.gd.sumW.get i = ∑ j ∈ range n, W i j * vec.get j)
    (ho : ∀ k k' : Nat → Int, (∀ i, k i = truncZ ((res.get i : K) + y i)) →
      (∀ i, k' i = truncZ ((k i : K) + y' i)) →
      (∀ i, i < m → InI32 (k i) ∧ InI32 (k' i) ∧ InI32 (k' i - c.gd.sumW.get i)) →
      ∃ a', o = .ok (a', res.over m fun i => k' i - c.gd.sumW.get i)) :
    NearBy o res vec W m n (4 * n * ε / |cfg.lrs - cfg.hrs| + 2) := by
  obtain ⟨k, hk⟩ : ∃ k : Nat → Int, ∀ i, k i = truncZ ((res.get i : K) + y i) := ⟨_, fun _ => rfl⟩
  obtain ⟨k', hk'⟩ : ∃ k' : Nat → Int, ∀ i, k' i = truncZ ((k i : K) + y' i) := ⟨_, fun _ => rfl⟩
  have k1 : ∀ i, i < m → |(k i : K) - ((res.get i + S i : Int) : K)|
      < (2 : Nat) * n * ε / |cfg.lrs - cfg.hrs| + 1 := fun i hi => by
    rw [hk]
    exact near_one (hy i hi)
  have k2 : ∀ i, i < m → |(k' i : K) - ((res.get i + S' i : Int) : K)|
      < (4 : Nat) * n * ε / |cfg.lrs - cfg.hrs| + 2 := fun i hi => near_two (hk i) (hk' i) (hy' i hi)
  have k3 : ∀ i, i < m → |((k' i - c.gd.sumW.get i : Int) : K)
      - ((res.get i + ∑ j ∈ range n, W i j * vec.get j : Int) : K)|
      < (4 : Nat) * n * ε / |cfg.lrs - cfg.hrs| + 2 := fun i hi => by
    rw [← hp i hi, show ((k' i - c.gd.sumW.get i : Int) : K) - ((res.get i + (S' i - c.gd.sumW.get i) : Int) : K)
      = (k' i : K) - ((res.get i + S' i : Int) : K) by push_cast; ring]
    exact k2 i hi
  have hm := H.eps_mono (show 2 ≤ 4 by norm_num)
  obtain ⟨a', e⟩ := ho k k' hk hk' fun i hi => by
    have h1 := hR i hi
    have h2 : (0 : K) ≤ n := Nat.cast_nonneg n
    refine ⟨near_in (k1 i hi) (hS i hi) ?_, near_in (k2 i hi) (hS' i hi) ?_, near_in (k3 i hi) (H.absPr hx hi) ?_⟩
    all_goals
      push_cast at h1 hm ⊢
      linarith
  refine ⟨a', _, e, fun i hi => ?_⟩
  have := k3 i hi
  rw [Nat.cast_ofNat] at this
  exact this

omit H in
theorem bits_small {x : Int} (h : IsTern x) : 2 * |1 * ((x + 1) % 2)| ≤ (2 : Nat) ∧
    2 * |(x + 1) % 2 + 2 * ((x + 1) / 2 % 2)| ≤ (4 : Nat) ∧ |1 * ((x + 1) % 2)| ≤ (1 : Nat) ∧
    |(x + 1) % 2 + 2 * ((x + 1) / 2 % 2)| ≤ (2 : Nat) := by
  rcases h with e | e | e <;> rw [e] <;> decide

theorem tnn3 (hx : ∀ j, j < n → IsTern (vec.get j)) (hW : ∀ i j, i < m → j < n → P i j - Q i j = W i j)
    (hs : ∀ i, i < m → c.gd.sumW.get i = ∑ j ∈ range n, W i j)
    (hR : DevRoom (cfg.lrs - cfg.hrs) ε 4 res m n) :
    NearBy (aMvmTnnIII E cfg c a res vec m n l) res vec W m n (4 * n * ε / |cfg.lrs - cfg.hrs| + 2) := by
  refine H.three hx hR (y := fun i => (∑ j ∈ range n, (c.ia.p.get i j - c.ia.m.get i j) *
      (((vec.get j + 1) % 2 : Int) : K)) * (1 / (cfg.lrs - cfg.hrs)))
    (y' := fun i => (∑ j ∈ range n, (c.ia.p.get i j - c.ia.m.get i j) *
      (((vec.get j + 1) / 2 % 2 : Int) : K)) * (2 / (cfg.lrs - cfg.hrs)))
    (S := fun i => ∑ j ∈ range n, (P i j - Q i j) * (1 * ((vec.get j + 1) % 2)))
    (S' := fun i => ∑ j ∈ range n, (P i j - Q i j) * ((vec.get j + 1) % 2 + 2 * ((vec.get j + 1) / 2 % 2)))
    (fun i hi => H.absPQ hW hi fun j hj => (bits_small (hx j hj)).2.2.1)
    (fun i hi => H.absPQ hW hi fun j hj => (bits_small (hx j hj)).2.2.2) (fun i hi => ?_) (fun i hi => ?_)
    (fun i hi => ?_) fun k k' hk hk' hI =>
    H.inf.tnn3 (l := l) (encBit0_ok H.vec H.vdP fun j hj => (hx j hj).in1)
      (encBit1_ok H.vec (by exact H.vdP) fun j hj => (hx j hj).in1)
      (H.cols (H.cDiff H.vdP H.tmp)) (H.cols (H.cDiff (by exact H.vdP) (by exact H.tmp))) H.tmp H.tmp H.res H.sw
      (fun i hi => by rw [Vec.over_lt hi]) (fun i hi => by rw [Vec.over_lt hi]) (fun i _ => hk i) (fun i _ => hk' i) hI
  · have := H.diffs hi (s := 1) fun j hj => (bits_small (hx j hj)).1
    rw [Int.cast_one] at this
    exact this
  · have := H.diffs2 hi (s := 2) fun j hj => (bits_small (hx j hj)).2.1
    rw [Int.cast_ofNat] at this
    exact this
  · rw [← sum_tnn3 (fun j hj => hW i j hi hj) hx, hs i hi, mul_sum, ← sum_add_distrib]
    congr 1
    exact sum_congr rfl fun j _ => by ring

theorem stepP {u : Vec Int} {f : Nat → Int} (hu : n ≤ u.size) :
    H.inf.StepSum c.ia.p (u.over n f) m n fun i => ∑ j ∈ range n, c.ia.p.get i j * (f j : K) :=
  fun _ ht => H.cp hu ht

theorem stepM {u : Vec Int} {f : Nat → Int} (hu : n ≤ u.size) :
    H.inf.StepSum c.ia.m (u.over n f) m n fun i => ∑ j ∈ range n, c.ia.m.get i j * (f j : K) :=
  fun _ ht => H.cm hu ht

theorem four (hx : ∀ j, j < n → IsTern (vec.get j)) {i : Nat} (hi : i < m) {y : K} {S s : Int} (hs : |s| ≤ 2)
    (hy : y = ((∑ j ∈ range n, c.ia.p.get i j * ((up (vec.get j) : Int) : K))
        - (∑ j ∈ range n, c.ia.p.get i j * ((dn (vec.get j) : Int) : K))
        + s * (∑ j ∈ range n, c.ia.m.get i j * ((up (vec.get j) : Int) : K))
        - s * (∑ j ∈ range n, c.ia.m.get i j * ((dn (vec.get j) : Int) : K))
        - (1 + s) * ((∑ j ∈ range n, vec.get j : Int) : K) * cfg.hrs) / (cfg.lrs - cfg.hrs))
    (hS : S = ∑ j ∈ range n, (P i j + s * Q i j) * vec.get j) :
    |y - S| ≤ (3 : Nat) * n * ε / |cfg.lrs - cfg.hrs| := by
  refine H.dev hi (g := fun j => vec.get j) (g' := fun j => s * vec.get j) (o := 0) (fun j hj => ?_) ?_ ?_
  · have h1 := (hx j hj).abs
    rw [abs_mul]
    have := mul_le_mul hs h1 (abs_nonneg _) (by norm_num)
    push_cast
    omega
  · rw [hy, Int.cast_sum, Int.cast_zero, add_zero, ← sum_div]
    congr 1
    rw [mul_sum, mul_sum, mul_sum, sum_mul, ← sum_sub_distrib, ← sum_add_distrib, ← sum_sub_distrib, ← sum_sub_distrib]
    refine sum_congr rfl fun j hj => ?_
    rw [Int.cast_mul, ← up_dn_cast (K := K) (hx j (mem_range.1 hj))]
    ring
  · rw [hS, add_zero]
    exact sum_congr rfl fun j _ => by ring

theorem tnn4 (hsp : cfg.split = [1, 1]) (hx : ∀ j, j < n → IsTern (vec.get j))
    (hW : ∀ i j, i < m → j < n → P i j - 2 * Q i j = W i j) (hR : DevRoom (cfg.lrs - cfg.hrs) ε 3 res m n) :
    NearBy (aMvmTnnIV E cfg c a res vec m n l) res vec W m n (3 * n * ε / |cfg.lrs - cfg.hrs| + 1) := by
  refine mod_cast H.one hx hR (fun i hi => ?_) fun hI =>
    H.inf.tnn4 H.par hsp (inpSum_ok H.vec H.n31 fun j hj => (hx j hj).in32) (encTern_ok H.vec H.vdP H.vdM hx)
      (H.stepP H.vdP) (H.stepP H.vdM) (H.stepM H.vdP) (H.stepM H.vdM) H.tmp H.tmpFp H.res (fun i _ => rfl) hI
  refine H.four hx hi (s := -2) (by norm_num) ?_ (sum_congr rfl fun j hj => by
    rw [← hW i j hi (mem_range.1 hj)]; ring)
  push_cast
  ring

/-- Wrap up for TNN_V. -/
theorem oneMinus {o : C (Aux K × Vec Int)} {s : Int} (hx : ∀ j, j < n → IsTern (vec.get j))
    (hR : DevRoom (cfg.lrs - cfg.hrs) ε 3 res m n) {y : Nat → K} {S : Nat → Int} (hs : |s| ≤ n)
    (hy : ∀ i, i < m → |y i - S i| ≤ (3 : Nat) * n * ε / |cfg.lrs - cfg.hrs|)
    (hp : ∀ i, i < m → S i - s = ∑ j ∈ range n, W i j * vec.get j)
    (ho : ∀ k : Nat → Int, (∀ i, k i = truncZ ((res.get i : K) + y i)) →
      (∀ i, i < m → InI32 (k i) ∧ InI32 (k i - s)) → ∃ a', o = .ok (a', res.over m fun i => k i - s)) :
    NearBy o res vec W m n (3 * n * ε / |cfg.lrs - cfg.hrs| + 1) := by
  obtain ⟨k, hk⟩ : ∃ k : Nat → Int, ∀ i, k i = truncZ ((res.get i : K) + y i) := ⟨_, fun _ => rfl⟩
  have k1 : ∀ i, i < m → |(k i : K) - ((res.get i + S i : Int) : K)|
      < (3 : Nat) * n * ε / |cfg.lrs - cfg.hrs| + 1 := fun i hi => by
    rw [hk]
    exact near_one (hy i hi)
  have k3 : ∀ i, i < m → |((k i - s : Int) : K) - ((res.get i + ∑ j ∈ range n, W i j * vec.get j : Int) : K)|
      < (3 : Nat) * n * ε / |cfg.lrs - cfg.hrs| + 1 := fun i hi => by
    rw [← hp i hi, show ((k i - s : Int) : K) - ((res.get i + (S i - s) : Int) : K)
      = (k i : K) - ((res.get i + S i : Int) : K) by push_cast; ring]
    exact k1 i hi
  have hS : ∀ i, i < m → |S i| ≤ 2 * n := fun i hi => by
    have h1 := H.absPr hx hi
    rw [← hp i hi] at h1
    have h2 := abs_add_le (S i - s) s
    rw [sub_add_cancel] at h2
    omega
  obtain ⟨a', e⟩ := ho k hk fun i hi => by
    have h1 := hR i hi
    have h2 : (0 : K) ≤ n := Nat.cast_nonneg n
    refine ⟨near_in (k1 i hi) (hS i hi) ?_, near_in (k3 i hi) (H.absPr hx hi) ?_⟩
    all_goals
      push_cast at h1 ⊢
      linarith
  refine ⟨a', _, e, fun i hi => ?_⟩
  have := k3 i hi
  rw [Nat.cast_ofNat] at this
  exact this

theorem tnn5 (hsp : cfg.split = [1, 1]) (hx : ∀ j, j < n → IsTern (vec.get j))
    (hW : ∀ i j, i < m → j < n → P i j + 2 * Q i j = W i j + 1) (hR : DevRoom (cfg.lrs - cfg.hrs) ε 3 res m n) :
    NearBy (aMvmTnnV E cfg c a res vec m n l) res vec W m n (3 * n * ε / |cfg.lrs - cfg.hrs| + 1) := by
  have hs := BinHyp.abs_sum_vec hx
  refine H.oneMinus hx hR (S := fun i => ∑ j ∈ range n, (P i j + 2 * Q i j) * vec.get j) hs
    (y := fun i => (∑ j ∈ range n, c.ia.p.get i j * ((up (vec.get j) : Int) : K)) * (1 / (cfg.lrs - cfg.hrs))
      - ((∑ j ∈ range n, c.ia.p.get i j * ((dn (vec.get j) : Int) : K))
        + 3 * ((∑ j ∈ range n, vec.get j : Int) : K) * cfg.hrs) * (1 / (cfg.lrs - cfg.hrs))
      + (∑ j ∈ range n, c.ia.m.get i j * ((up (vec.get j) : Int) : K)) * (2 / (cfg.lrs - cfg.hrs))
      - (∑ j ∈ range n, c.ia.m.get i j * ((dn (vec.get j) : Int) : K)) * (2 / (cfg.lrs - cfg.hrs)))
    (fun i hi => ?_) (fun i hi => ?_) fun k hk hI =>
    H.inf.tnn5 H.par hsp (inpSum_ok H.vec H.n31 fun j hj => (hx j hj).in32)
      (i64_ok (by have := H.n31; have := abs_le.1 hs; constructor <;> omega)) (encTern_ok H.vec H.vdP H.vdM hx)
      (H.stepP H.vdP) (H.stepP H.vdM) (H.stepM H.vdP) (H.stepM H.vdM) H.tmp H.tmpFp H.res (fun i _ => rfl)
      (fun i _ => hk i) hI
  · refine H.four hx hi (s := 2) (by norm_num) ?_ rfl
    rw [Int.cast_ofNat]
    ring
  · rw [← sum_sub_distrib]
    refine sum_congr rfl fun j hj => ?_
    rw [hW i j hi (mem_range.1 hj)]
    ring

end DevHyp

end

end Acs
