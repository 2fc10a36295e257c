import Verif.Lemmas.AMvmExact

/-!
# The analog multiplications with a real converter

If every column current lies in the range of the converter, the result differs from the exact product
by at most the sum of the conversion errors.
-/

set_option linter.unusedSectionVars false

namespace Acs

open Finset Spec

section
variable {K : Type} [Field K] [LinearOrder K] [IsStrictOrderedRing K] [FloorRing K]
variable {E : Env K} {cfg : Cfg K} {c : Core K} {a : Aux K}
variable {mat vec res v w : Vec Int} {m n : Nat} {l : String} {z sc off h d lo hi : K} {B T : Int}
variable {P Q W : Nat → Nat → Int}

/-- The converted value of the current `x`. -/
def adcOut (cfg : Cfg K) (lo hi sc x : K) : Int :=
  roundAway ((levelOf cfg lo hi x * adcStep cfg lo hi + lo) * sc)

/-- Error of one conversion with scale `s / (LRS - HRS)`. -/
def convErr (cfg : Cfg K) (lo hi : K) (s : Int) : K :=
  |(s : K) / (cfg.lrs - cfg.hrs)| * (adcStep cfg lo hi / 2) + 1 / 2

theorem adcOut_near (h : AdcOk cfg l lo hi) {x : K} (h1 : lo ≤ x) (h2 : x ≤ hi) (s : Int) :
    |(adcOut cfg lo hi ((s : K) / (cfg.lrs - cfg.hrs)) x : K) - x * ((s : K) / (cfg.lrs - cfg.hrs))|
      ≤ convErr cfg lo hi s := by
  unfold adcOut convErr
  generalize (s : K) / (cfg.lrs - cfg.hrs) = sc
  have e1 := roundAway_near ((levelOf cfg lo hi x * adcStep cfg lo hi + lo) * sc)
  have e2 := level_near h h1 h2
  have e3 : |(levelOf cfg lo hi x * adcStep cfg lo hi + lo) * sc - x * sc|
      ≤ |sc| * (adcStep cfg lo hi / 2) := by
    rw [← sub_mul, abs_mul, mul_comm]
    exact mul_le_mul_of_nonneg_left e2 (abs_nonneg sc)
  have e4 := abs_add_le ((roundAway ((levelOf cfg lo hi x * adcStep cfg lo hi + lo) * sc) : K)
    - (levelOf cfg lo hi x * adcStep cfg lo hi + lo) * sc)
    ((levelOf cfg lo hi x * adcStep cfg lo hi + lo) * sc - x * sc)
  rw [sub_add_sub_cancel] at e4
  linarith

/-- Largest absolute value of a converted number. -/
def zOf (cfg : Cfg K) (lo hi : K) (s : Int) : Int :=
  ⌊max |lo| |hi| * |(s : K) / (cfg.lrs - cfg.hrs)| + 1 / 2⌋

theorem adcOut_z (h : AdcOk cfg l lo hi) (s : Int) (x : K) :
    |adcOut cfg lo hi ((s : K) / (cfg.lrs - cfg.hrs)) x| ≤ zOf cfg lo hi s := by
  unfold zOf adcOut
  rw [Int.le_floor]
  obtain ⟨h1, h2⟩ := level_range h x
  generalize levelOf cfg lo hi x * adcStep cfg lo hi + lo = y at h1 h2 ⊢
  generalize (s : K) / (cfg.lrs - cfg.hrs) = sc
  have e1 := roundAway_near (y * sc)
  have e2 : |y * sc| ≤ max |lo| |hi| * |sc| := by
    rw [abs_mul]
    exact mul_le_mul_of_nonneg_right (abs_le_max_abs_abs h1 h2) (abs_nonneg sc)
  have e3 := abs_add_le ((roundAway (y * sc) : K) - y * sc) (y * sc)
  rw [sub_add_cancel] at e3
  push_cast
  linarith

/-- Error of a conversion whose scaled current is an integer: none if the scaled half step is below one
half. -/
def intErr (cfg : Cfg K) (lo hi : K) (s : Int) : K :=
  if |(s : K) / (cfg.lrs - cfg.hrs)| * (adcStep cfg lo hi / 2) < 1 / 2 then 0 else convErr cfg lo hi s

theorem adcOut_int (h : AdcOk cfg l lo hi) {x : K} (h1 : lo ≤ x) (h2 : x ≤ hi) {s t : Int}
    (ht : x * ((s : K) / (cfg.lrs - cfg.hrs)) = t) :
    |(adcOut cfg lo hi ((s : K) / (cfg.lrs - cfg.hrs)) x : K) - t| ≤ intErr cfg lo hi s := by
  unfold intErr
  split
  · next hs =>
    unfold adcOut
    rw [roundAway_of_near (z := t) ?_, sub_self, abs_zero]
    refine lt_of_le_of_lt ?_ hs
    rw [← ht, ← sub_mul, abs_mul, mul_comm]
    exact mul_le_mul_of_nonneg_left (level_near h h1 h2) (abs_nonneg _)
  · rw [← ht]; exact adcOut_near h h1 h2 s

/-- A real converter; the result buffer has room for `T`. -/
structure AdcHyp (E : Env K) (cfg : Cfg K) (c : Core K) (l : String) (lo hi : K) (res : Vec Int) (m n : Nat)
    (B T : Int) : Prop where
  ex : ExactArith E
  built : mkAdc cfg = .ok c.adc
  ok : AdcOk cfg l lo hi
  room : ∀ i, i < m → |res.get i| + T + 3 * n ≤ 2147483647
  roomB : ∀ i, i < m → |res.get i| + T + 3 * n ≤ B

namespace AdcHyp
variable (A : AdcHyp E cfg c l lo hi res m n B T)
include A

theorem conv (x sc off : K) : conv1 E cfg c.adc x sc off l = .ok (adcOut cfg lo hi sc (x + off) : K) :=
  conv1_exact A.ex A.built A.ok x sc off

theorem conv0 (x sc : K) : conv1 E cfg c.adc x sc 0 l = .ok (adcOut cfg lo hi sc x : K) := by
  rw [A.conv, add_zero]

theorem convL (x sc off z : K) :
    conv1 E cfg c.adc x sc off l = .ok (lin z 0 (adcOut cfg lo hi sc (x + off))) := by
  rw [A.conv, lin_int]

theorem convL0 (x sc z : K) : conv1 E cfg c.adc x sc 0 l = .ok (lin z 0 (adcOut cfg lo hi sc x)) := by
  rw [A.conv0, lin_int]

theorem near (hd : cfg.lrs - cfg.hrs ≠ 0) {b s : Int} (h1 : lo ≤ cur cfg.hrs (cfg.lrs - cfg.hrs) 0 b)
    (h2 : cur cfg.hrs (cfg.lrs - cfg.hrs) 0 b ≤ hi) :
    |(adcOut cfg lo hi ((s : K) / (cfg.lrs - cfg.hrs)) (cur cfg.hrs (cfg.lrs - cfg.hrs) 0 b) : K)
      - ((s * b : Int) : K)| ≤ intErr cfg lo hi s :=
  adcOut_int A.ok h1 h2 (by rw [cur_scale hd, lin_out])

theorem nearL (hd : cfg.lrs - cfg.hrs ≠ 0) {a b s : Int} (h1 : lo ≤ cur cfg.hrs (cfg.lrs - cfg.hrs) a b)
    (h2 : cur cfg.hrs (cfg.lrs - cfg.hrs) a b ≤ hi) :
    |(adcOut cfg lo hi ((s : K) / (cfg.lrs - cfg.hrs)) (cur cfg.hrs (cfg.lrs - cfg.hrs) a b) : K)
      - lin (cfg.hrs / (2 * (cfg.lrs - cfg.hrs))) (s * a) (s * b)| ≤ convErr cfg lo hi s := by
  have := adcOut_near A.ok h1 h2 s
  rw [cur_scale hd] at this
  exact this

end AdcHyp

/-- The current lies in the range. -/
def InR (cfg : Cfg K) (lo hi : K) (a b : Int) : Prop :=
  lo ≤ cur cfg.hrs (cfg.lrs - cfg.hrs) a b ∧ cur cfg.hrs (cfg.lrs - cfg.hrs) a b ≤ hi

namespace AdcHyp
variable (A : AdcHyp E cfg c l lo hi res m n B T) (hd : cfg.lrs - cfg.hrs ≠ 0)
include A hd

/-- Converted values of currents whose HRS part is cancelled by the offset. -/
theorem ints' {s : Int} {a b : Nat → Int} (o : Int) (h0 : ∀ i, i < m → a i + o = 0)
    (hr : ∀ i, i < m → InR cfg lo hi 0 (b i)) :
    ∃ β : Nat → Int, (∀ i, i < m → conv1 E cfg c.adc (cur cfg.hrs (cfg.lrs - cfg.hrs) (a i) (b i))
        ((s : K) / (cfg.lrs - cfg.hrs)) (cur cfg.hrs (cfg.lrs - cfg.hrs) o 0) l = .ok (β i : K)) ∧
      (∀ i, i < m → |β i| ≤ zOf cfg lo hi s) ∧
      ∀ i, i < m → |(β i : K) - ((s * b i : Int) : K)| ≤ intErr cfg lo hi s := by
  refine ⟨fun i => adcOut cfg lo hi ((s : K) / (cfg.lrs - cfg.hrs)) (cur cfg.hrs (cfg.lrs - cfg.hrs) 0 (b i)),
    fun i hi => ?_, fun i hi => adcOut_z A.ok s _, fun i hi => A.near hd (hr i hi).1 (hr i hi).2⟩
  rw [A.conv, cur_add, h0 i hi, add_zero]

/-- Converted values of currents without HRS part. -/
theorem ints {s : Int} {b : Nat → Int} (hr : ∀ i, i < m → InR cfg lo hi 0 (b i)) :
    ∃ β : Nat → Int, (∀ i, i < m → conv1 E cfg c.adc (cur cfg.hrs (cfg.lrs - cfg.hrs) 0 (b i))
        ((s : K) / (cfg.lrs - cfg.hrs)) 0 l = .ok (β i : K)) ∧ (∀ i, i < m → |β i| ≤ zOf cfg lo hi s) ∧
      ∀ i, i < m → |(β i : K) - ((s * b i : Int) : K)| ≤ intErr cfg lo hi s := by
  have := A.ints' hd (s := s) (a := fun _ => 0) (b := b) 0 (fun _ _ => rfl) hr
  simpa only [cur_zero] using this

/-- Converted values of any currents. -/
theorem lins {s : Int} (z : K) {a b : Nat → Int} (o : Int)
    (hr : ∀ i, i < m → InR cfg lo hi (a i + o) (b i)) :
    ∃ β : Nat → Int, (∀ i, i < m → conv1 E cfg c.adc (cur cfg.hrs (cfg.lrs - cfg.hrs) (a i) (b i))
        ((s : K) / (cfg.lrs - cfg.hrs)) (cur cfg.hrs (cfg.lrs - cfg.hrs) o 0) l = .ok (lin z 0 (β i))) ∧
      (∀ i, i < m → |β i| ≤ zOf cfg lo hi s) ∧
      ∀ i, i < m → |(β i : K) - lin (cfg.hrs / (2 * (cfg.lrs - cfg.hrs))) (s * (a i + o)) (s * b i)|
        ≤ convErr cfg lo hi s := by
  refine ⟨fun i => adcOut cfg lo hi ((s : K) / (cfg.lrs - cfg.hrs))
    (cur cfg.hrs (cfg.lrs - cfg.hrs) (a i + o) (b i)), fun i hi => ?_, fun i hi => adcOut_z A.ok s _,
    fun i hi => A.nearL hd (hr i hi).1 (hr i hi).2⟩
  rw [A.convL _ _ _ z, cur_add, add_zero]

theorem lins0 {s : Int} (z : K) {a b : Nat → Int}
    (hr : ∀ i, i < m → InR cfg lo hi (a i) (b i)) :
    ∃ β : Nat → Int, (∀ i, i < m → conv1 E cfg c.adc (cur cfg.hrs (cfg.lrs - cfg.hrs) (a i) (b i))
        ((s : K) / (cfg.lrs - cfg.hrs)) 0 l = .ok (lin z 0 (β i))) ∧
      (∀ i, i < m → |β i| ≤ zOf cfg lo hi s) ∧
      ∀ i, i < m → |(β i : K) - lin (cfg.hrs / (2 * (cfg.lrs - cfg.hrs))) (s * a i) (s * b i)|
        ≤ convErr cfg lo hi s := by
  have := A.lins hd z (s := s) (a := a) (b := b) 0 (by simpa using hr)
  simpa only [cur_zero, add_zero] using this

end AdcHyp

/-- The result is within `e` of the exact product. -/
def Within (r : C (Aux K × Vec Int)) (W : Nat → Nat → Int) (vec res : Vec Int) (m n : Nat) (e : K) : Prop :=
  ∃ a' f, r = .ok (a', res.over m f) ∧
    ∀ i, i < m → |(f i : K) - ((res.get i + ∑ j ∈ range n, W i j * vec.get j : Int) : K)| ≤ e

theorem abs_add_sub_le {r x y : Int} : |r + (x - y)| ≤ |r| + |x| + |y| := by
  have := abs_add_le r (x - y); have := abs_sub x y; omega
theorem abs_add_add_le {r x y : Int} : |r + (x + y)| ≤ |r| + |x| + |y| := by
  have := abs_add_le r (x + y); have := abs_add_le x y; omega

/-- Two errors. -/
theorem err_two {x y u v e f : K} {t t' : K} (h1 : |x - u| ≤ e) (h2 : |y - v| ≤ f)
    (h : t - t' = (x - u) + (y - v) ∨ t - t' = (x - u) - (y - v) ∨ t - t' = (y - v) - (x - u)) :
    |t - t'| ≤ e + f := by
  rcases h with h | h | h <;> rw [h]
  · have := abs_add_le (x - u) (y - v); linarith
  · have := abs_sub (x - u) (y - v); linarith
  · have := abs_sub (y - v) (x - u); linarith

/-- Four errors. -/
theorem err_four {x1 x2 x3 x4 e f t t' : K} (h1 : |x1| ≤ e) (h2 : |x2| ≤ e) (h3 : |x3| ≤ f) (h4 : |x4| ≤ f)
    (h : t - t' = x1 - x2 - x3 + x4 ∨ t - t' = x1 - x2 + x3 - x4) : |t - t'| ≤ 2 * e + 2 * f := by
  have e1 := abs_le.1 h1
  have e2 := abs_le.1 h2
  have e3 := abs_le.1 h3
  have e4 := abs_le.1 h4
  rw [abs_le]
  rcases h with h | h <;> rw [h] <;> constructor <;> linarith

section
variable (H : BinHyp E cfg c a P Q vec res m n B) (A : AdcHyp E cfg c l lo hi res m n B T)
  (hW : ∀ i j, i < m → j < n → |W i j| ≤ 1)
include H A

include hW in
theorem adc_bnn1 (hT : zOf cfg lo hi 2 ≤ T) (hx : ∀ j, j < n → IsBin (vec.get j))
    (h : ∀ i j, i < m → j < n → P i j - Q i j = W i j)
    (hs : ∀ i, i < m → c.gd.sumW.get i = ∑ j ∈ range n, W i j)
    (hr : ∀ i, i < m → InR cfg lo hi 0 (∑ j ∈ range n, (P i j - Q i j) * ((vec.get j + 1) / 2))) :
    Within (aMvmBnnI E cfg c a res vec m n l) W vec res m n (intErr cfg lo hi 2) := by
  have key := fun i hi => sum_bnn1 (fun j hj => h i j hi hj) hx
  have b2 : ∀ i, i < m → |c.gd.sumW.get i| ≤ n := fun i hi => by
    rw [hs i hi]; exact abs_sum_tern fun j hj => hW i j hi hj
  obtain ⟨β, h1, h2, h3⟩ := A.ints H.F.ne (s := 2) hr
  have bb : ∀ i, i < m → |res.get i| + |β i| + |c.gd.sumW.get i| ≤ |res.get i| + T + 3 * n := fun i hi => by
    have := h2 i hi; have := b2 i hi; have := abs_nonneg (β i); omega
  obtain ⟨a', e⟩ := H.bnn1 (l := l) hx h1 (fun i hi => (bb i hi).trans (A.roomB i hi))
    (fun i hi => inI32_of_abs (abs_add_sub_le.trans ((bb i hi).trans (A.room i hi))))
  refine ⟨a', _, e, fun i hi => ?_⟩
  refine le_trans (le_of_eq ?_) (h3 i hi)
  congr 1
  rw [← key i hi, hs i hi]
  push_cast
  ring

include hW in
theorem adc_bnn2 (hT : zOf cfg lo hi 2 ≤ T) (hx : ∀ j, j < n → IsBin (vec.get j))
    (h : ∀ i j, i < m → j < n → P i j - Q i j = W i j)
    (hs : ∀ i, i < m → c.gd.sumW.get i = ∑ j ∈ range n, W i j)
    (hr : ∀ i, i < m → InR cfg lo hi 0 (∑ j ∈ range n, (Q i j - P i j) * ((vec.get j - 1).tdiv (-2)))) :
    Within (aMvmBnnII E cfg c a res vec m n l) W vec res m n (intErr cfg lo hi 2) := by
  have key := fun i hi => sum_bnn2 (fun j hj => h i j hi hj) hx
  have b2 : ∀ i, i < m → |c.gd.sumW.get i| ≤ n := fun i hi => by
    rw [hs i hi]; exact abs_sum_tern fun j hj => hW i j hi hj
  obtain ⟨β, h1, h2, h3⟩ := A.ints H.F.ne (s := 2) hr
  have bb : ∀ i, i < m → |res.get i| + |β i| + |c.gd.sumW.get i| ≤ |res.get i| + T + 3 * n := fun i hi => by
    have := h2 i hi; have := b2 i hi; have := abs_nonneg (β i); omega
  obtain ⟨a', e⟩ := H.bnn2 (l := l) hx h1 (fun i hi => (bb i hi).trans (A.roomB i hi))
    (fun i hi => inI32_of_abs (abs_add_add_le.trans ((bb i hi).trans (A.room i hi))))
  refine ⟨a', _, e, fun i hi => ?_⟩
  refine le_trans (le_of_eq ?_) (h3 i hi)
  congr 1
  rw [← key i hi, hs i hi]
  push_cast
  ring

/-- The conversions of BNN_III and BNN_IV. -/
theorem adc_bnn34 (hx : ∀ j, j < n → IsBin (vec.get j))
    (hr : ∀ i, i < m → InR cfg lo hi (∑ j ∈ range n, 2 * up (vec.get j) + 2 * -(∑ j ∈ range n, vec.get j))
      (∑ j ∈ range n, P i j * up (vec.get j)))
    (hr' : ∀ i, i < m → InR cfg lo hi (∑ j ∈ range n, 2 * dn (vec.get j))
      (∑ j ∈ range n, P i j * dn (vec.get j))) :
    ∃ β γ : Nat → Int, Bnn34 E cfg c a vec (plusOf a.vdP n vec) (minusOf a.vdM n vec) m n l 0
        (∑ j ∈ range n, vec.get j) (fun _ => 0) β γ ∧
      (∀ i, i < m → |β i| ≤ zOf cfg lo hi 2 ∧ |γ i| ≤ zOf cfg lo hi 2) ∧
      (∀ i, i < m → |((β i - γ i : Int) : K) - ((2 * (∑ j ∈ range n, P i j * up (vec.get j))
        - 2 * (∑ j ∈ range n, P i j * dn (vec.get j)) : Int) : K)| ≤ 2 * convErr cfg lo hi 2) := by
  obtain ⟨β, h1, h2, h3⟩ := A.lins H.F.ne (s := 2) 0 (a := fun _ => _) _ hr
  obtain ⟨γ, k1, k2, k3⟩ := A.lins0 H.F.ne (s := 2) 0 (a := fun _ => _) hr'
  refine ⟨β, γ, H.bnn34 hx h1 k1, fun i hi => ⟨h2 i hi, k2 i hi⟩, fun i hi => ?_⟩
  rw [two_mul (convErr cfg lo _ 2)]
  refine err_two (h3 i hi) (k3 i hi) (Or.inr (Or.inl ?_))
  have e : ∑ j ∈ range n, 2 * up (vec.get j) + 2 * -(∑ j ∈ range n, vec.get j)
      = ∑ j ∈ range n, 2 * dn (vec.get j) := by
    rw [← sum_up_dn fun j hj => (hx j hj).tern, ← mul_sum, ← mul_sum]; ring
  rw [e]
  unfold lin
  push_cast
  ring

theorem adc_bnn3 (hT : 2 * zOf cfg lo hi 2 ≤ T) (hx : ∀ j, j < n → IsBin (vec.get j)) (h : ∀ i j, i < m → j < n → 2 * P i j - 1 = W i j)
    (hr : ∀ i, i < m → InR cfg lo hi (∑ j ∈ range n, 2 * up (vec.get j) + 2 * -(∑ j ∈ range n, vec.get j))
      (∑ j ∈ range n, P i j * up (vec.get j)))
    (hr' : ∀ i, i < m → InR cfg lo hi (∑ j ∈ range n, 2 * dn (vec.get j))
      (∑ j ∈ range n, P i j * dn (vec.get j))) :
    Within (aMvmBnnIII E cfg c a res vec m n l) W vec res m n (2 * convErr cfg lo hi 2) := by
  have key := fun i hi => sum_bnn3 (fun j hj => h i j hi hj) hx
  have b4 := BinHyp.abs_sum_vec fun j hj => (hx j hj).tern
  obtain ⟨β, γ, h1, h2, h3⟩ := adc_bnn34 H A hx hr hr'
  obtain ⟨a', e⟩ := aMvmBnnIII_val H.par H.prof (OutOk.exact A.ex 0 B) h1 H.res
    (fun i hi => by
      have := h2 i hi; have := A.roomB i hi; have := abs_nonneg (β i); omega)
    (fun i hi => by
      have := h2 i hi; have := A.room i hi; have := abs_nonneg (β i)
      have := abs_add_sub_le (r := res.get i) (x := β i - γ i) (y := ∑ j ∈ range n, vec.get j)
      have := abs_sub (β i) (γ i)
      exact inI32_of_abs (by omega))
  refine ⟨a', _, e, fun i hi => ?_⟩
  refine le_trans (le_of_eq ?_) (h3 i hi)
  congr 1
  rw [← key i hi]
  push_cast
  ring

theorem adc_bnn4 (hT : 2 * zOf cfg lo hi 2 ≤ T) (hx : ∀ j, j < n → IsBin (vec.get j)) (h : ∀ i j, i < m → j < n → 1 - 2 * P i j = W i j)
    (hr : ∀ i, i < m → InR cfg lo hi (∑ j ∈ range n, 2 * up (vec.get j) + 2 * -(∑ j ∈ range n, vec.get j))
      (∑ j ∈ range n, P i j * up (vec.get j)))
    (hr' : ∀ i, i < m → InR cfg lo hi (∑ j ∈ range n, 2 * dn (vec.get j))
      (∑ j ∈ range n, P i j * dn (vec.get j))) :
    Within (aMvmBnnIV E cfg c a res vec m n l) W vec res m n (2 * convErr cfg lo hi 2) := by
  have key := fun i hi => sum_bnn4 (fun j hj => h i j hi hj) hx
  have b4 := BinHyp.abs_sum_vec fun j hj => (hx j hj).tern
  obtain ⟨β, γ, h1, h2, h3⟩ := adc_bnn34 H A hx hr hr'
  obtain ⟨a', e⟩ := aMvmBnnIV_val H.par H.prof (OutOk.exact A.ex 0 B) h1 H.res
    (fun i hi => by
      have := h2 i hi; have := A.roomB i hi; have := abs_nonneg (β i); omega)
    (fun i hi => by
      have := h2 i hi; have := A.room i hi; have := abs_nonneg (β i)
      have := abs_add_add_le (r := res.get i) (x := γ i - β i) (y := ∑ j ∈ range n, vec.get j)
      have := abs_sub (γ i) (β i)
      exact inI32_of_abs (by omega))
  refine ⟨a', _, e, fun i hi => ?_⟩
  refine le_trans (le_of_eq ?_) (h3 i hi)
  rw [← key i hi, abs_sub_comm]
  congr 1
  push_cast
  ring

theorem adc_bnn5 (hT : zOf cfg lo hi 2 ≤ T) (hx : ∀ j, j < n → IsBin (vec.get j)) (h : ∀ i j, i < m → j < n → 2 * P i j - 1 = W i j)
    (h' : ∀ i j, i < m → j < n → 2 * Q i j - 1 = -W i j)
    (hr : ∀ i, i < m → InR cfg lo hi 0 (∑ j ∈ range n, (P i j * up (vec.get j) + Q i j * dn (vec.get j)))) :
    Within (aMvmBnnV E cfg c a res vec m n l) W vec res m n (intErr cfg lo hi 2) := by
  have key := fun i hi => sum_bnn5 (fun j hj => h i j hi hj) (fun j hj => h' i j hi hj) hx
  have e0 : ∑ j ∈ range n, (2 * up (vec.get j) + 2 * dn (vec.get j)) + 2 * -(n : Int) = 0 := by
    rw [sum_add_distrib, ← mul_sum, ← mul_sum, ← sum_one hx]; ring
  obtain ⟨β, h1, h2, h3⟩ := A.ints' H.F.ne (s := 2)
    (a := fun _ => ∑ j ∈ range n, (2 * up (vec.get j) + 2 * dn (vec.get j))) (2 * -(n : Int)) (fun _ _ => e0) hr
  obtain ⟨a', e⟩ := H.bnn5 (l := l) hx (β := β) h1
    (fun i hi => by have := h2 i hi; have := A.roomB i hi; have := abs_nonneg (β i); omega)
    (fun i hi => by
      have := h2 i hi; have := A.room i hi; have := abs_nonneg (β i)
      have := abs_add_sub_le (r := res.get i) (x := β i) (y := n)
      rw [Nat.abs_cast] at this
      exact inI32_of_abs (by omega))
  refine ⟨a', _, e, fun i hi => ?_⟩
  refine le_trans (le_of_eq ?_) (h3 i hi)
  congr 1
  rw [← key i hi]
  push_cast
  ring

theorem adc_quad (hT : zOf cfg lo hi 1 ≤ T) (hx : ∀ j, j < n → IsTern (vec.get j)) (h : ∀ i j, i < m → j < n → P i j - Q i j = W i j)
    (hr : ∀ i, i < m → InR cfg lo hi 0 (∑ j ∈ range n, (P i j - Q i j) * (up (vec.get j) - dn (vec.get j)))) :
    ∃ β : Nat → Int, (∀ i, i < m → conv1 E cfg c.adc (Acs.cur cfg.hrs (cfg.lrs - cfg.hrs) 0
        (∑ j ∈ range n, (P i j - Q i j) * (up (vec.get j) - dn (vec.get j))))
        (((1 : Int) : K) / (cfg.lrs - cfg.hrs)) 0 l = .ok (β i : K)) ∧
      (∀ i, i < m → |res.get i| + |β i| ≤ B) ∧ (∀ i, i < m → InI32 (res.get i + β i)) ∧
      ∀ i, i < m → |((res.get i + β i : Int) : K) - ((res.get i + ∑ j ∈ range n, W i j * vec.get j : Int) : K)|
        ≤ intErr cfg lo hi 1 := by
  obtain ⟨β, h1, h2, h3⟩ := A.ints H.F.ne (s := 1) hr
  refine ⟨β, h1, fun i hi => ?_, fun i hi => ?_, fun i hi => ?_⟩
  · have := h2 i hi; have := A.roomB i hi; have := abs_nonneg (β i); omega
  · have := h2 i hi; have := A.room i hi; have := abs_nonneg (β i); have := abs_add_le (res.get i) (β i)
    exact inI32_of_abs (by omega)
  · refine le_trans (le_of_eq ?_) (h3 i hi)
    congr 1
    rw [← sum_quad (fun j hj => h i j hi hj) hx]
    push_cast
    ring

theorem adc_bnn6 (hT : zOf cfg lo hi 1 ≤ T) (hx : ∀ j, j < n → IsBin (vec.get j)) (h : ∀ i j, i < m → j < n → P i j - Q i j = W i j)
    (hr : ∀ i, i < m → InR cfg lo hi 0 (∑ j ∈ range n, (P i j - Q i j) * (up (vec.get j) - dn (vec.get j)))) :
    Within (aMvmBnnVI E cfg c a res vec m n l) W vec res m n (intErr cfg lo hi 1) := by
  obtain ⟨β, h1, h2, h3, h4⟩ := adc_quad H A hT (fun j hj => (hx j hj).tern) h hr
  obtain ⟨a', e⟩ := H.bnn6 hx h1 h2 h3
  exact ⟨a', _, e, h4⟩

theorem adc_tnn1 (hT : zOf cfg lo hi 1 ≤ T) (hx : ∀ j, j < n → IsTern (vec.get j)) (h : ∀ i j, i < m → j < n → P i j - Q i j = W i j)
    (hr : ∀ i, i < m → InR cfg lo hi 0 (∑ j ∈ range n, (P i j - Q i j) * (up (vec.get j) - dn (vec.get j)))) :
    Within (aMvmTnnI E cfg c a res vec m n l) W vec res m n (intErr cfg lo hi 1) := by
  obtain ⟨β, h1, h2, h3, h4⟩ := adc_quad H A hT hx h hr
  obtain ⟨a', e⟩ := H.tnn1 hx h1 h2 h3
  exact ⟨a', _, e, h4⟩

theorem adc_tnn2 (hT : zOf cfg lo hi 1 + zOf cfg lo hi 2 ≤ T) (hx : ∀ j, j < n → IsTern (vec.get j)) (h : ∀ i j, i < m → j < n → P i j - Q i j = W i j)
    (hr : ∀ i, i < m → InR cfg lo hi 0 (∑ j ∈ range n, (P i j - Q i j) * (if vec.get j ≠ 0 then 1 else 0)))
    (hr' : ∀ i, i < m → InR cfg lo hi 0 (∑ j ∈ range n, (P i j - Q i j) * dn (vec.get j))) :
    Within (aMvmTnnII E cfg c a res vec m n l) W vec res m n (intErr cfg lo hi 1 + intErr cfg lo hi 2) := by
  have key := fun i hi => sum_tnn2 (fun j hj => h i j hi hj) hx
  obtain ⟨β, h1, h2, h3⟩ := A.ints H.F.ne (s := 1) hr
  obtain ⟨γ, k1, k2, k3⟩ := A.ints H.F.ne (s := 2) hr'
  have T := H.tnn23 (l := l) (f := fun j => if vec.get j ≠ 0 then 1 else 0) (g := fun j => dn (vec.get j))
    (fun j _ => ite_abs) (fun j _ => ite_abs) h1 k1
  obtain ⟨a', e⟩ := aMvmTnnII_val H.par H.prof H.F.out (encNonzero_ok H.vec H.vdP)
    (encNegOne_ok H.vec (by exact H.vdP)) T H.res
    (fun i hi => by
      have := h2 i hi; have := k2 i hi; have := A.roomB i hi; have := abs_nonneg (β i); omega)
    (fun i hi => by
      have := h2 i hi; have := k2 i hi; have := A.room i hi; have := abs_nonneg (β i); have := abs_nonneg (γ i)
      have := abs_add_le (res.get i) (β i)
      have := abs_sub (res.get i + β i) (γ i)
      exact ⟨inI32_of_abs (by omega), inI32_of_abs (by omega)⟩)
  refine ⟨a', _, e, fun i hi => ?_⟩
  refine err_two (h3 i hi) (k3 i hi) (Or.inr (Or.inl ?_))
  rw [← key i hi]
  push_cast
  ring

include hW in
theorem adc_tnn3 (hT : zOf cfg lo hi 1 + zOf cfg lo hi 2 ≤ T) (hx : ∀ j, j < n → IsTern (vec.get j)) (h : ∀ i j, i < m → j < n → P i j - Q i j = W i j)
    (hs : ∀ i, i < m → c.gd.sumW.get i = ∑ j ∈ range n, W i j)
    (hr : ∀ i, i < m → InR cfg lo hi 0 (∑ j ∈ range n, (P i j - Q i j) * ((vec.get j + 1) % 2)))
    (hr' : ∀ i, i < m → InR cfg lo hi 0 (∑ j ∈ range n, (P i j - Q i j) * ((vec.get j + 1) / 2 % 2))) :
    Within (aMvmTnnIII E cfg c a res vec m n l) W vec res m n (intErr cfg lo hi 1 + intErr cfg lo hi 2) := by
  have key := fun i hi => sum_tnn3 (fun j hj => h i j hi hj) hx
  have v1 : ∀ j, j < n → |(vec.get j + 1) % 2| ≤ 1 := fun j hj => by
    rcases hx j hj with e | e | e <;> rw [e] <;> norm_num
  have v2 : ∀ j, j < n → |(vec.get j + 1) / 2 % 2| ≤ 1 := fun j hj => by
    rcases hx j hj with e | e | e <;> rw [e] <;> norm_num
  have b2 : ∀ i, i < m → |c.gd.sumW.get i| ≤ n := fun i hi => by
    rw [hs i hi]; exact abs_sum_tern fun j hj => hW i j hi hj
  obtain ⟨β, h1, h2, h3⟩ := A.ints H.F.ne (s := 1) hr
  obtain ⟨γ, k1, k2, k3⟩ := A.ints H.F.ne (s := 2) hr'
  have T := H.tnn23 (l := l) v1 v2 h1 k1
  obtain ⟨a', e⟩ := aMvmTnnIII_val H.par H.prof H.F.out (encBit0_ok H.vec H.vdP fun j hj => (hx j hj).in1)
    (encBit1_ok H.vec (by exact H.vdP) fun j hj => (hx j hj).in1) T H.res H.sw
    (fun i hi => by
      have := h2 i hi; have := k2 i hi; have := A.roomB i hi; have := abs_nonneg (β i); omega)
    (fun i hi => by
      have := h2 i hi; have := k2 i hi; have := A.room i hi; have := abs_nonneg (β i); have := abs_nonneg (γ i)
      have := abs_add_le (res.get i) (β i)
      have := abs_add_le (res.get i + β i) (γ i)
      have := abs_sub (res.get i + β i + γ i) (c.gd.sumW.get i)
      have := b2 i hi
      exact ⟨inI32_of_abs (by omega), inI32_of_abs (by omega), inI32_of_abs (by omega)⟩)
  refine ⟨a', _, e, fun i hi => ?_⟩
  refine err_two (h3 i hi) (k3 i hi) (Or.inl ?_)
  rw [← key i hi, hs i hi]
  push_cast
  ring

theorem adc_tnn4 (hT : 2 * zOf cfg lo hi 1 + 2 * zOf cfg lo hi 2 ≤ T) (hsp : cfg.split = [1, 1]) (hx : ∀ j, j < n → IsTern (vec.get j))
    (h : ∀ i j, i < m → j < n → P i j - 2 * Q i j = W i j)
    (hr1 : ∀ i, i < m → InR cfg lo hi (∑ j ∈ range n, 2 * up (vec.get j) + ∑ j ∈ range n, vec.get j)
      (∑ j ∈ range n, P i j * up (vec.get j)))
    (hr2 : ∀ i, i < m → InR cfg lo hi (∑ j ∈ range n, 2 * dn (vec.get j) + -(∑ j ∈ range n, vec.get j))
      (∑ j ∈ range n, P i j * dn (vec.get j)))
    (hr3 : ∀ i, i < m → InR cfg lo hi (∑ j ∈ range n, 2 * up (vec.get j))
      (∑ j ∈ range n, Q i j * up (vec.get j)))
    (hr4 : ∀ i, i < m → InR cfg lo hi (∑ j ∈ range n, 2 * dn (vec.get j))
      (∑ j ∈ range n, Q i j * dn (vec.get j))) :
    Within (aMvmTnnIV E cfg c a res vec m n l) W vec res m n
      (2 * convErr cfg lo hi 1 + 2 * convErr cfg lo hi 2) := by
  have key := fun i hi => sum_tnn4 (fun j hj => h i j hi hj) hx
  have hb := H.B8
  have b6 := abs_le.1 (BinHyp.abs_sum_vec hx)
  obtain ⟨β, h1, h2, h3⟩ := A.lins H.F.ne (s := 1) 0 (a := fun _ => _) _ hr1
  obtain ⟨γ, k1, k2, k3⟩ := A.lins H.F.ne (s := 1) 0 (a := fun _ => _) _ hr2
  obtain ⟨β', h1', h2', h3'⟩ := A.lins0 H.F.ne (s := 2) 0 (a := fun _ => _) hr3
  obtain ⟨γ', k1', k2', k3'⟩ := A.lins0 H.F.ne (s := 2) 0 (a := fun _ => _) hr4
  have ud := sum_up_dn hx
  obtain ⟨s, hs⟩ : ∃ s, s = ∑ j ∈ range n, vec.get j := ⟨_, rfl⟩
  rw [← hs] at b6 ud
  have bb : ∀ i, i < m → |β i| + |γ i| + |β' i| + |γ' i| ≤ T := fun i hi => by
    have := h2 i hi; have := k2 i hi; have := h2' i hi; have := k2' i hi; omega
  have T : Tnn45 E cfg c a vec (plusOf a.vdP n vec) (minusOf a.vdM n vec) m n l 0
      (((1 : Int) : K) / (cfg.lrs - cfg.hrs))
      (((2 : Int) : K) / (cfg.lrs - cfg.hrs)) (Acs.cur cfg.hrs (cfg.lrs - cfg.hrs) s 0)
      (Acs.cur cfg.hrs (cfg.lrs - cfg.hrs) (-s) 0) s (fun _ => 0) (fun _ => 0) (fun _ => 0) (fun _ => 0)
      β γ β' γ' B := by
    constructor
    · rw [hs]; exact inpSum_ok H.vec H.n31 fun j hj => (hx j hj).in32
    · exact encTern_ok H.vec H.vdP H.vdM hx
    · rw [H.iMM]; exact H.F.sc1
    · rw [H.iMM]; exact H.F.sc2
    · exact H.tmp
    · exact H.tmpFp
    · refine H.tcP (f := fun j => up (vec.get j)) (fun j => ite_abs) H.vdP fun i hi => ?_
      rw [hs]; exact h1 i hi
    · refine H.tcP (f := fun j => dn (vec.get j)) (fun j => ite_abs) H.vdM fun i hi => ?_
      rw [hs]; exact k1 i hi
    · exact H.tcM (f := fun j => up (vec.get j)) (fun j => ite_abs) H.vdP h1'
    · exact H.tcM (f := fun j => dn (vec.get j)) (fun j => ite_abs) H.vdM k1'
    · intro i hi
      simp only [abs_zero]
      omega
    · intro i hi
      have := bb i hi; have := A.roomB i hi; have := abs_nonneg (res.get i); omega
  have bs : ∀ i, |β i - γ i - β' i + γ' i| ≤ |β i| + |γ i| + |β' i| + |γ' i| := fun i => (abs4 le_rfl).2.2.2.1
  obtain ⟨a', e⟩ := aMvmTnnIV_val (res := res) H.par H.prof (OutOk.exact A.ex 0 B) hsp T
    (by rw [H.F.offs (abs_le.2 ⟨by omega, by omega⟩), H.F.half (abs_le.2 ⟨by omega, by omega⟩)])
    (by
      rw [H.F.offs (abs_le.2 ⟨by omega, by omega⟩), cur_neg, neg_zero,
        show -(2 * s) = 2 * -s by ring, H.F.half (abs_le.2 ⟨by omega, by omega⟩)])
    H.res (fun i hi => by simp)
    (fun i hi => by have := bb i hi; have := bs i; have := A.roomB i hi; omega)
    (fun i hi => by
      have := bb i hi; have := bs i; have := A.room i hi
      have := abs_add_le (res.get i) (β i - γ i - β' i + γ' i)
      exact inI32_of_abs (by omega))
  refine ⟨a', _, e, fun i hi => ?_⟩
  refine err_four (h3 i hi) (k3 i hi) (h3' i hi) (k3' i hi) (Or.inl ?_)
  rw [← key i hi]
  have e1 : (s : K) = ((∑ j ∈ range n, up (vec.get j) - ∑ j ∈ range n, dn (vec.get j) : Int) : K) := by
    rw [ud]
  simp only [← hs, ← mul_sum]
  unfold lin
  push_cast at e1 ⊢
  rw [e1]
  ring

theorem adc_tnn5 (hT : 2 * zOf cfg lo hi 1 + 2 * zOf cfg lo hi 2 ≤ T) (hsp : cfg.split = [1, 1]) (hx : ∀ j, j < n → IsTern (vec.get j))
    (h : ∀ i j, i < m → j < n → P i j + 2 * Q i j = W i j + 1)
    (hr1 : ∀ i, i < m → InR cfg lo hi (∑ j ∈ range n, 2 * up (vec.get j))
      (∑ j ∈ range n, P i j * up (vec.get j)))
    (hr2 : ∀ i, i < m → InR cfg lo hi (∑ j ∈ range n, 2 * dn (vec.get j) + 2 * (3 * ∑ j ∈ range n, vec.get j))
      (∑ j ∈ range n, P i j * dn (vec.get j)))
    (hr3 : ∀ i, i < m → InR cfg lo hi (∑ j ∈ range n, 2 * up (vec.get j))
      (∑ j ∈ range n, Q i j * up (vec.get j)))
    (hr4 : ∀ i, i < m → InR cfg lo hi (∑ j ∈ range n, 2 * dn (vec.get j))
      (∑ j ∈ range n, Q i j * dn (vec.get j))) :
    Within (aMvmTnnV E cfg c a res vec m n l) W vec res m n
      (2 * convErr cfg lo hi 1 + 2 * convErr cfg lo hi 2) := by
  have key := fun i hi => sum_tnn5 (fun j hj => h i j hi hj) hx
  have hb := H.B8
  have hn31 := H.n31
  have b6 := abs_le.1 (BinHyp.abs_sum_vec hx)
  obtain ⟨β, h1, h2, h3⟩ := A.lins0 H.F.ne (s := 1) 0 (a := fun _ => _) hr1
  obtain ⟨γ, k1, k2, k3⟩ := A.lins H.F.ne (s := 1) 0 (a := fun _ => _) _ hr2
  obtain ⟨β', h1', h2', h3'⟩ := A.lins0 H.F.ne (s := 2) 0 (a := fun _ => _) hr3
  obtain ⟨γ', k1', k2', k3'⟩ := A.lins0 H.F.ne (s := 2) 0 (a := fun _ => _) hr4
  have ud := sum_up_dn hx
  obtain ⟨s, hs⟩ : ∃ s, s = ∑ j ∈ range n, vec.get j := ⟨_, rfl⟩
  rw [← hs] at b6 ud
  have bb : ∀ i, i < m → |β i| + |γ i| + |β' i| + |γ' i| ≤ T := fun i hi => by
    have := h2 i hi; have := k2 i hi; have := h2' i hi; have := k2' i hi; omega
  have T : Tnn45 E cfg c a vec (plusOf a.vdP n vec) (minusOf a.vdM n vec) m n l 0
      (((1 : Int) : K) / (cfg.lrs - cfg.hrs))
      (((2 : Int) : K) / (cfg.lrs - cfg.hrs)) 0 (E.fmul (E.ofInt (3 * s)) cfg.hrs) s
      (fun _ => 0) (fun _ => 0) (fun _ => 0) (fun _ => 0) β γ β' γ' B := by
    constructor
    · rw [hs]; exact inpSum_ok H.vec H.n31 fun j hj => (hx j hj).in32
    · exact encTern_ok H.vec H.vdP H.vdM hx
    · rw [H.iMM]; exact H.F.sc1
    · rw [H.iMM]; exact H.F.sc2
    · exact H.tmp
    · exact H.tmpFp
    · exact H.tcP (f := fun j => up (vec.get j)) (fun j => ite_abs) H.vdP h1
    · refine H.tcP (f := fun j => dn (vec.get j)) (fun j => ite_abs) H.vdM fun i hi => ?_
      rw [H.F.offs (abs_le.2 ⟨by omega, by omega⟩), hs]; exact k1 i hi
    · exact H.tcM (f := fun j => up (vec.get j)) (fun j => ite_abs) H.vdP h1'
    · exact H.tcM (f := fun j => dn (vec.get j)) (fun j => ite_abs) H.vdM k1'
    · intro i hi
      simp only [abs_zero]
      omega
    · intro i hi
      have := bb i hi; have := A.roomB i hi; have := abs_nonneg (res.get i); omega
  have bs : ∀ i, |β i - γ i + β' i - γ' i| ≤ |β i| + |γ i| + |β' i| + |γ' i| := fun i => (abs4 le_rfl).2.2.2.2
  obtain ⟨a', e⟩ := aMvmTnnV_val (res := res) H.par H.prof (OutOk.exact A.ex 0 B) hsp T
    (i64_ok ⟨by omega, by omega⟩) H.res (fun i hi => by simp)
    (fun i hi => by have := bb i hi; have := bs i; have := A.roomB i hi; omega)
    (fun i hi => by
      have := bb i hi; have := bs i; have := A.room i hi
      have := abs_add_le (res.get i) (β i - γ i + β' i - γ' i)
      have h6 := abs_sub (res.get i + (β i - γ i + β' i - γ' i)) s
      have h7 := abs_le.2 b6
      exact ⟨inI32_of_abs (by omega), inI32_of_abs (by omega)⟩)
  refine ⟨a', _, e, fun i hi => ?_⟩
  refine err_four (h3 i hi) (k3 i hi) (h3' i hi) (k3' i hi) (Or.inr ?_)
  rw [← key i hi]
  have e1 : (s : K) = ((∑ j ∈ range n, up (vec.get j) - ∑ j ∈ range n, dn (vec.get j) : Int) : K) := by
    rw [ud]
  simp only [← hs, ← mul_sum]
  unfold lin
  push_cast at e1 ⊢
  rw [e1]
  ring

end

end

end Acs
