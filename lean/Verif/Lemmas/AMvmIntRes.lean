import Verif.Lemmas.AMvmInt
import Verif.Lemmas.XDigital

/-!
# Results of the analog multiplications of the integer mappings

The exact product plus the errors of the conversions; exact with the ideal converter.
-/

set_option linter.unusedSectionVars false

namespace Acs

open Finset Spec

section
variable {K : Type} [Field K] [LinearOrder K] [IsStrictOrderedRing K] [FloorRing K]
variable {E : Env K} {cfg : Cfg K} {c : Core K} {a : Aux K}
variable {mat vec res : Vec Int} {m n N : Nat} {l : String} {B T : Int} {st : Nat → K} {sg lo hi : K}
variable {D W : Nat → Nat → Int} {v : Nat → Int} {sh : Nat → Nat} {S : Nat}

/-- The number a conversion should give: bit `b` of the inputs against slice `s` of row `i`. -/
def tgt (sh : Nat → Nat) (S : Nat) (D : Nat → Nat → Int) (v : Nat → Int) (n b i s : Nat) : Int :=
  2 ^ (sh s + b) * ∑ j ∈ range n, D (i * S + s) j * bitOf (v j) b

theorem tgt_row (h : Enc S sh D W m n) {i : Nat} (hi : i < m) (b : Nat) :
    ∑ s ∈ range S, tgt sh S D v n b i s = ∑ j ∈ range n, W i j * (bitOf (v j) b * 2 ^ b) := by
  have := h.row (fun j => bitOf (v j) b * 2 ^ b) hi
  rw [← this]
  refine sum_congr rfl fun s _ => ?_
  unfold tgt
  rw [mul_sum, sum_mul]
  refine sum_congr rfl fun j _ => ?_
  rw [pow_add]; ring

theorem tgt_rowAbs (h : Enc S sh D W m n) {i : Nat} (hi : i < m) (b : Nat) :
    ∑ s ∈ range S, |tgt sh S D v n b i s| ≤ ∑ j ∈ range n, |W i j| * (bitOf (v j) b * 2 ^ b) := by
  have := h.rowAbs (fun j => bitOf (v j) b * 2 ^ b) hi
  refine le_trans (le_of_eq ?_) (this.trans (le_of_eq ?_))
  · refine sum_congr rfl fun s _ => ?_
    congr 1
    unfold tgt
    rw [mul_sum, sum_mul]
    refine sum_congr rfl fun j _ => ?_
    rw [pow_add]; ring
  · refine sum_congr rfl fun j _ => ?_
    rw [abs_mul, bitOf_abs, abs_of_pos (show (0 : Int) < 2 ^ b by positivity)]

theorem tgt_sum (h : Enc S sh D W m n) {i : Nat} (hi : i < m) (N : Nat) :
    ∑ b ∈ range N, ∑ s ∈ range S, tgt sh S D v n b i s = ∑ j ∈ range n, W i j * (v j % 2 ^ N) := by
  rw [sum_congr rfl fun b _ => tgt_row h hi b, sum_comm]
  refine sum_congr rfl fun j _ => ?_
  rw [← mul_sum, bitOf_sum]

theorem tgt_abs (h : Enc S sh D W m n) {i : Nat} (hi : i < m) (N : Nat) :
    ∑ b ∈ range N, ∑ s ∈ range S, |tgt sh S D v n b i s| ≤ ∑ j ∈ range n, |W i j| * (v j % 2 ^ N) := by
  refine (sum_le_sum fun b _ => tgt_rowAbs h hi b).trans (le_of_eq ?_)
  rw [sum_comm]
  refine sum_congr rfl fun j _ => ?_
  rw [← mul_sum, bitOf_sum]

theorem tgt_le (h : Enc S sh D W m n) {b i s : Nat} (hi : i < m) (hb : b < N) (hs : s < S) :
    |tgt sh S D v n b i s| ≤ ∑ j ∈ range n, |W i j| * (v j % 2 ^ N) := by
  refine le_trans ?_ (tgt_abs h hi N)
  have h1 := single_le_sum (s := range N) (f := fun b => ∑ s ∈ range S, |tgt sh S D v n b i s|)
    (fun _ _ => sum_nonneg fun _ _ => abs_nonneg _) (mem_range.2 hb)
  have h2 := single_le_sum (s := range S) (f := fun s => |tgt sh S D v n b i s|)
    (fun _ _ => abs_nonneg _) (mem_range.2 hs)
  exact h2.trans h1

/-- Sums of products with bounded factors. -/
theorem sum_abs_mul_le {x : Nat → Int} {A : Int} {p : Nat} (hW : ∀ j, j < n → |W p j| ≤ A) {C : Int}
    (hx : ∀ j, j < n → 0 ≤ x j ∧ x j ≤ C) (hA : 0 ≤ A) : ∑ j ∈ range n, |W p j| * x j ≤ n * (A * C) := by
  have : ∀ j ∈ range n, |W p j| * x j ≤ A * C := fun j hj =>
    mul_le_mul (hW j (mem_range.1 hj)) (hx j (mem_range.1 hj)).2 (hx j (mem_range.1 hj)).1 hA
  refine (sum_le_sum this).trans (le_of_eq ?_)
  rw [sum_const, card_range, nsmul_eq_mul]

namespace IntHyp
variable (H : IntHyp E cfg c a st m n B) (X : Diff E cfg c st D m n B) (h : Enc cfg.S c.shift.get D W m n)
  (hv : n ≤ vec.size) (hr : m ≤ res.size)
include H X h hv hr

theorem resIV {β : Nat → Nat → Nat → Int} (hN' : cfg.iBit ≤ 32)
    (hx : ∀ j, j < n → 0 ≤ vec.get j ∧ vec.get j < 2 ^ cfg.iBit)
    (h1 : Bits E cfg c st D vec.get 1 m n cfg.iBit l β)
    (hB : ∀ i, i < m → |res.get i| + ∑ b ∈ range cfg.iBit, ∑ s ∈ range cfg.S, |β b i s| ≤ B)
    (hI : ∀ i, i < m → |res.get i| + ∑ b ∈ range cfg.iBit, ∑ s ∈ range cfg.S, |β b i s| ≤ 2147483647) :
    ∃ a', aMvmIntIV E cfg c a res vec m n l = .ok (a', res.over m fun i =>
      res.get i + ∑ j ∈ range n, W i j * vec.get j
        + ∑ b ∈ range cfg.iBit, ∑ s ∈ range cfg.S, (β b i s - tgt c.shift.get cfg.S D vec.get n b i s)) := by
  obtain ⟨a', e⟩ := H.intIV X hv hr hN' h1 hB hI
  refine ⟨a', e.trans (congrArg _ (congrArg _ (over_congr fun i hi => ?_)))⟩
  have k := tgt_sum (v := vec.get) h hi cfg.iBit
  have k' : ∑ j ∈ range n, W i j * (vec.get j % 2 ^ cfg.iBit) = ∑ j ∈ range n, W i j * vec.get j :=
    sum_congr rfl fun j hj => by
      rw [Int.emod_eq_of_lt (hx j (mem_range.1 hj)).1 (hx j (mem_range.1 hj)).2]
  rw [k'] at k
  simp only [sum_sub_distrib]
  rw [k]; ring

theorem resI {β γ : Nat → Nat → Nat → Int} (hN : 1 ≤ cfg.iBit) (hN' : cfg.iBit ≤ 31)
    (hx : ∀ j, j < n → -2 ^ (cfg.iBit - 1) ≤ vec.get j ∧ vec.get j < 2 ^ (cfg.iBit - 1))
    (h1 : Bits E cfg c st D (fun j => if 0 ≤ vec.get j then vec.get j else 0) 1 m n (cfg.iBit - 1) l β)
    (h2 : Bits E cfg c st D (fun j => if 0 ≤ vec.get j then 0 else -vec.get j) (-1) m n cfg.iBit l γ)
    (hB : ∀ i, i < m → |res.get i| + ∑ b ∈ range (cfg.iBit - 1), ∑ s ∈ range cfg.S, |β b i s|
      + ∑ b ∈ range cfg.iBit, ∑ s ∈ range cfg.S, |γ b i s| ≤ B)
    (hI : ∀ i, i < m → |res.get i| + ∑ b ∈ range (cfg.iBit - 1), ∑ s ∈ range cfg.S, |β b i s|
      + ∑ b ∈ range cfg.iBit, ∑ s ∈ range cfg.S, |γ b i s| ≤ 2147483647) :
    ∃ a', aMvmIntI E cfg c a res vec m n l = .ok (a', res.over m fun i =>
      res.get i + ∑ j ∈ range n, W i j * vec.get j
        + (∑ b ∈ range (cfg.iBit - 1), ∑ s ∈ range cfg.S,
            (β b i s - tgt c.shift.get cfg.S D (fun j => if 0 ≤ vec.get j then vec.get j else 0) n b i s)
          + ∑ b ∈ range cfg.iBit, ∑ s ∈ range cfg.S,
            (γ b i s - -tgt c.shift.get cfg.S D (fun j => if 0 ≤ vec.get j then 0 else -vec.get j) n b i s))) := by
  have hp : (2 : Int) ^ cfg.iBit = 2 * 2 ^ (cfg.iBit - 1) := by rw [← pow_succ']; congr 1; omega
  have hp2 : (0 : Int) < 2 ^ (cfg.iBit - 1) := by positivity
  have hp3 : (2 : Int) ^ (cfg.iBit - 1) ≤ 1073741824 :=
    (pow_le_pow_right₀ (by norm_num) (show cfg.iBit - 1 ≤ 30 by omega)).trans_eq (by norm_num)
  obtain ⟨a', e⟩ := H.intI X hv hr hN (by omega) (fun j hj => by
    have := hx j hj; constructor <;> omega) h1 h2 hB hI
  refine ⟨a', e.trans (congrArg _ (congrArg _ (over_congr fun i hi => ?_)))⟩
  have k1 := tgt_sum (v := fun j => if 0 ≤ vec.get j then vec.get j else 0) h hi (cfg.iBit - 1)
  have k2 := tgt_sum (v := fun j => if 0 ≤ vec.get j then 0 else -vec.get j) h hi cfg.iBit
  simp only [sum_sub_distrib, sum_neg_distrib]
  rw [k1, k2]
  have key : ∑ j ∈ range n, W i j * vec.get j
      = ∑ j ∈ range n, W i j * ((if 0 ≤ vec.get j then vec.get j else 0) % 2 ^ (cfg.iBit - 1))
        - ∑ j ∈ range n, W i j * ((if 0 ≤ vec.get j then 0 else -vec.get j) % 2 ^ cfg.iBit) := by
    rw [← sum_sub_distrib]
    refine sum_congr rfl fun j hj => ?_
    have := hx j (mem_range.1 hj)
    rw [Int.emod_eq_of_lt (by split <;> omega) (by split <;> omega),
      Int.emod_eq_of_lt (by split <;> omega) (by split <;> omega)]
    split <;> ring
  rw [key]; ring

theorem resII {β : Nat → Nat → Nat → Int} (hs : E.strict = false) (hN : 1 ≤ cfg.iBit) (hN' : cfg.iBit ≤ 31)
    (hsum : ∀ i, i < m → c.gd.sumW.get i = ∑ j ∈ range n, W i j)
    (hx : ∀ j, j < n → -2 ^ (cfg.iBit - 1) ≤ vec.get j ∧ vec.get j < 2 ^ (cfg.iBit - 1))
    (h1 : Bits E cfg c st D (fun j => 2 ^ (cfg.iBit - 1) + vec.get j) 1 m n (cfg.iBit + 1) l β)
    (hB : ∀ i, i < m → |res.get i| + ∑ b ∈ range (cfg.iBit + 1), ∑ s ∈ range cfg.S, |β b i s| ≤ B)
    (hI : ∀ i, i < m → |res.get i| + ∑ b ∈ range (cfg.iBit + 1), ∑ s ∈ range cfg.S, |β b i s| ≤ 2147483647)
    (hS : ∀ i, i < m → InI32 ((∑ j ∈ range n, W i j) * 2 ^ (cfg.iBit - 1)))
    (hR : ∀ i, i < m → InI32 (res.get i + ∑ b ∈ range (cfg.iBit + 1), ∑ s ∈ range cfg.S, β b i s
        - (∑ j ∈ range n, W i j) * 2 ^ (cfg.iBit - 1))) :
    ∃ a', aMvmIntII E cfg c a res vec m n l = .ok (a', res.over m fun i =>
      res.get i + ∑ j ∈ range n, W i j * vec.get j
        + ∑ b ∈ range (cfg.iBit + 1), ∑ s ∈ range cfg.S,
          (β b i s - tgt c.shift.get cfg.S D (fun j => 2 ^ (cfg.iBit - 1) + vec.get j) n b i s)) := by
  have hp : (2 : Int) ^ cfg.iBit = 2 * 2 ^ (cfg.iBit - 1) := by rw [← pow_succ']; congr 1; omega
  have hp' : (2 : Int) ^ (cfg.iBit + 1) = 4 * 2 ^ (cfg.iBit - 1) := by rw [pow_succ, hp]; ring
  have hp2 : (0 : Int) < 2 ^ (cfg.iBit - 1) := by positivity
  have hp3 : (2 : Int) ^ (cfg.iBit - 1) ≤ 1073741824 :=
    (pow_le_pow_right₀ (by norm_num) (show cfg.iBit - 1 ≤ 30 by omega)).trans_eq (by norm_num)
  have key : ∀ i, i < m → res.get i + ∑ b ∈ range (cfg.iBit + 1), ∑ s ∈ range cfg.S, β b i s
        - c.gd.sumW.get i * 2 ^ (cfg.iBit - 1) = res.get i + ∑ j ∈ range n, W i j * vec.get j
        + ∑ b ∈ range (cfg.iBit + 1), ∑ s ∈ range cfg.S,
          (β b i s - tgt c.shift.get cfg.S D (fun j => 2 ^ (cfg.iBit - 1) + vec.get j) n b i s) := by
    intro i hi
    have k := tgt_sum (v := fun j => 2 ^ (cfg.iBit - 1) + vec.get j) h hi (cfg.iBit + 1)
    simp only [sum_sub_distrib]
    rw [k, hsum i hi]
    have : ∑ j ∈ range n, W i j * ((2 ^ (cfg.iBit - 1) + vec.get j) % 2 ^ (cfg.iBit + 1))
        = (∑ j ∈ range n, W i j) * 2 ^ (cfg.iBit - 1) + ∑ j ∈ range n, W i j * vec.get j := by
      rw [sum_mul, ← sum_add_distrib]
      refine sum_congr rfl fun j hj => ?_
      have := hx j (mem_range.1 hj)
      rw [Int.emod_eq_of_lt (by omega) (by omega)]; ring
    rw [this]; ring
  obtain ⟨a', e⟩ := H.intII X hv hr hs hN hN' (fun j hj => by
      have := hx j hj; constructor <;> omega) h1 hB hI
    (fun i hi => by rw [hsum i hi]; exact hS i hi) (fun i hi => by rw [hsum i hi]; exact hR i hi)
  exact ⟨a', e.trans (congrArg _ (congrArg _ (over_congr fun i hi => key i hi)))⟩

theorem resIII {β : Nat → Nat → Nat → Int} (hN : 1 ≤ cfg.iBit) (hN' : cfg.iBit ≤ 32)
    (hx : ∀ j, j < n → -2 ^ (cfg.iBit - 1) ≤ vec.get j ∧ vec.get j < 2 ^ (cfg.iBit - 1))
    (h1 : Bits E cfg c st D vec.get 1 m n cfg.iBit l β)
    (hB : ∀ i, i < m → |res.get i| + ∑ b ∈ range cfg.iBit, ∑ s ∈ range cfg.S, |β b i s| ≤ B)
    (hI : ∀ i, i < m → |res.get i| + ∑ b ∈ range cfg.iBit, ∑ s ∈ range cfg.S, |β b i s| ≤ 2147483647) :
    ∃ a', aMvmIntIII E cfg c a res vec m n l = .ok (a', res.over m fun i =>
      res.get i + ∑ j ∈ range n, W i j * vec.get j
        + (∑ b ∈ range (cfg.iBit - 1), ∑ s ∈ range cfg.S, (β b i s - tgt c.shift.get cfg.S D vec.get n b i s)
          - ∑ s ∈ range cfg.S, (β (cfg.iBit - 1) i s - tgt c.shift.get cfg.S D vec.get n (cfg.iBit - 1) i s))) := by
  obtain ⟨a', e⟩ := H.intIII X hv hr hN hN' h1 hB hI
  refine ⟨a', e.trans (congrArg _ (congrArg _ (over_congr fun i hi => ?_)))⟩
  have k1 := tgt_sum (v := vec.get) h hi (cfg.iBit - 1)
  have k2 := tgt_row (v := vec.get) h hi (cfg.iBit - 1)
  simp only [sum_sub_distrib]
  rw [k1, k2]
  have key : ∑ j ∈ range n, W i j * vec.get j
      = ∑ j ∈ range n, W i j * (vec.get j % 2 ^ (cfg.iBit - 1))
        - ∑ j ∈ range n, W i j * (bitOf (vec.get j) (cfg.iBit - 1) * 2 ^ (cfg.iBit - 1)) := by
    rw [← sum_sub_distrib]
    refine sum_congr rfl fun j hj => ?_
    have := hx j (mem_range.1 hj)
    have := tc_split this.1 this.2
    unfold bitOf
    rw [← mul_sub, this]
  rw [key]; ring

/-! ## Ideal converter -/

variable (hk : c.adc.kind = .inf)
include hk

omit hv hr in
theorem infBits {sgI : Int} (hsg : sgI = 1 ∨ sgI = -1)
    (hB : ∀ i, i < m → ∑ j ∈ range n, |W i j| * (v j % 2 ^ N) ≤ B) :
    Bits E cfg c st D v sgI m n N l fun b i s => sgI * tgt c.shift.get cfg.S D v n b i s := by
  constructor
  intro b i s hb hi hs
  have hlt := blk_lt hi hs
  have b1 : |∑ j ∈ range n, D (i * cfg.S + s) j * bitOf (v j) b| ≤ B := by
    refine (abs_sum_le_sum_abs _ _).trans ((sum_le_sum fun j _ => ?_).trans (X.le _ hlt))
    rw [abs_mul]
    exact mul_le_of_le_one_right (abs_nonneg _) (bitOf_le _ _)
  have b2 := (tgt_le (v := v) h hi hb hs).trans (hB i hi)
  have b3 : |sgI * tgt c.shift.get cfg.S D v n b i s| ≤ B := by
    rw [abs_mul]
    rcases hsg with e | e <;> rw [e] <;> simpa using b2
  unfold conv1
  rw [hk]
  unfold Env.fmul Env.fadd
  rw [add_zero, H.F.cur s hs _ b1]
  have hne := H.F.ne s hs
  have e : ((∑ j ∈ range n, D (i * cfg.S + s) j * bitOf (v j) b : Int) : K) * st s
      * ((sgI : K) * (2 ^ (c.shift.get s + b) / st s))
      = ((sgI * tgt c.shift.get cfg.S D v n b i s : Int) : K) := by
    unfold tgt
    push_cast
    field_simp
  rw [e, H.F.int _ b3]

variable (hW : ∀ i j, i < m → j < n → |W i j| ≤ 2 ^ cfg.wBit)
  (hB : ∀ i, i < m → |res.get i| + n * 2 ^ (cfg.wBit + cfg.iBit) ≤ B)
  (hI : ∀ i, i < m → |res.get i| + n * 2 ^ (cfg.wBit + cfg.iBit) ≤ 2147483647)
include hW hB hI

theorem infIV (hN' : cfg.iBit ≤ 32) (hx : ∀ j, j < n → 0 ≤ vec.get j ∧ vec.get j < 2 ^ cfg.iBit) :
    ∃ a', aMvmIntIV E cfg c a res vec m n l = .ok (a', res.over m fun i =>
      res.get i + ∑ j ∈ range n, W i j * vec.get j) := by
  have bnd : ∀ i, i < m → ∑ j ∈ range n, |W i j| * (vec.get j % 2 ^ cfg.iBit) ≤ n * 2 ^ (cfg.wBit + cfg.iBit) := by
    intro i hi
    rw [pow_add]
    exact sum_abs_mul_le (fun j hj => hW i j hi hj) (fun j hj =>
      ⟨Int.emod_nonneg _ (by positivity), (Int.emod_lt_of_pos _ (by positivity)).le⟩) (by positivity)
  have hb := H.infBits X h hk (v := vec.get) (N := cfg.iBit) (l := l) (Or.inl rfl)
    (fun i hi => by have := bnd i hi; have := hB i hi; have := abs_nonneg (res.get i); linarith)
  simp only [Int.cast_one, one_mul] at hb
  obtain ⟨a', e⟩ := H.resIV X h hv hr hN' hx hb
    (fun i hi => by have := tgt_abs (v := vec.get) h hi cfg.iBit; have := bnd i hi; have := hB i hi; linarith)
    (fun i hi => by have := tgt_abs (v := vec.get) h hi cfg.iBit; have := bnd i hi; have := hI i hi; linarith)
  refine ⟨a', e.trans (congrArg _ (congrArg _ (over_congr fun i hi => ?_)))⟩
  simp

theorem infIII (hN : 1 ≤ cfg.iBit) (hN' : cfg.iBit ≤ 32)
    (hx : ∀ j, j < n → -2 ^ (cfg.iBit - 1) ≤ vec.get j ∧ vec.get j < 2 ^ (cfg.iBit - 1)) :
    ∃ a', aMvmIntIII E cfg c a res vec m n l = .ok (a', res.over m fun i =>
      res.get i + ∑ j ∈ range n, W i j * vec.get j) := by
  have bnd : ∀ i, i < m → ∑ j ∈ range n, |W i j| * (vec.get j % 2 ^ cfg.iBit) ≤ n * 2 ^ (cfg.wBit + cfg.iBit) := by
    intro i hi
    rw [pow_add]
    exact sum_abs_mul_le (fun j hj => hW i j hi hj) (fun j hj =>
      ⟨Int.emod_nonneg _ (by positivity), (Int.emod_lt_of_pos _ (by positivity)).le⟩) (by positivity)
  have hb := H.infBits X h hk (v := vec.get) (N := cfg.iBit) (l := l) (Or.inl rfl)
    (fun i hi => by have := bnd i hi; have := hB i hi; have := abs_nonneg (res.get i); linarith)
  simp only [Int.cast_one, one_mul] at hb
  obtain ⟨a', e⟩ := H.resIII X h hv hr hN hN' hx hb
    (fun i hi => by have := tgt_abs (v := vec.get) h hi cfg.iBit; have := bnd i hi; have := hB i hi; linarith)
    (fun i hi => by have := tgt_abs (v := vec.get) h hi cfg.iBit; have := bnd i hi; have := hI i hi; linarith)
  refine ⟨a', e.trans (congrArg _ (congrArg _ (over_congr fun i hi => ?_)))⟩
  simp

theorem infI (hN : 1 ≤ cfg.iBit) (hN' : cfg.iBit ≤ 31)
    (hx : ∀ j, j < n → -2 ^ (cfg.iBit - 1) ≤ vec.get j ∧ vec.get j < 2 ^ (cfg.iBit - 1)) :
    ∃ a', aMvmIntI E cfg c a res vec m n l = .ok (a', res.over m fun i =>
      res.get i + ∑ j ∈ range n, W i j * vec.get j) := by
  have hp : (2 : Int) ^ cfg.iBit = 2 * 2 ^ (cfg.iBit - 1) := by rw [← pow_succ']; congr 1; omega
  have hp2 : (0 : Int) < 2 ^ (cfg.iBit - 1) := by positivity
  have bnd : ∀ (u : Nat → Int) (k : Nat), (∀ j, j < n → 0 ≤ u j ∧ u j ≤ 2 ^ (cfg.iBit - 1) ∧ u j < 2 ^ k) → ∀ i, i < m →
      2 * (∑ j ∈ range n, |W i j| * (u j % 2 ^ k)) ≤ (n : Int) * 2 ^ (cfg.wBit + cfg.iBit) := by
    intro u k hu i hi
    rw [pow_add, hp]
    have : ∑ j ∈ range n, |W i j| * (u j % 2 ^ k) ≤ n * (2 ^ cfg.wBit * 2 ^ (cfg.iBit - 1)) :=
      sum_abs_mul_le (fun j hj => hW i j hi hj) (fun j hj => by
        have := hu j hj
        rw [Int.emod_eq_of_lt this.1 this.2.2]; exact ⟨this.1, this.2.1⟩) (by positivity)
    linarith
  have b1 := bnd (fun j => if 0 ≤ vec.get j then vec.get j else 0) (cfg.iBit - 1) (fun j hj => by
    have := hx j hj; split <;> refine ⟨?_, ?_, ?_⟩ <;> omega)
  have b2 := bnd (fun j => if 0 ≤ vec.get j then 0 else -vec.get j) cfg.iBit (fun j hj => by
    have := hx j hj; split <;> refine ⟨?_, ?_, ?_⟩ <;> omega)
  have n0 : ∀ i, i < m → 0 ≤ ∑ j ∈ range n, |W i j| * ((if 0 ≤ vec.get j then vec.get j else 0) % 2 ^ (cfg.iBit - 1)) :=
    fun i _ => sum_nonneg fun j _ => mul_nonneg (abs_nonneg _) (Int.emod_nonneg _ (by positivity))
  have n1 : ∀ i, i < m → 0 ≤ ∑ j ∈ range n, |W i j| * ((if 0 ≤ vec.get j then 0 else -vec.get j) % 2 ^ cfg.iBit) :=
    fun i _ => sum_nonneg fun j _ => mul_nonneg (abs_nonneg _) (Int.emod_nonneg _ (by positivity))
  have hb := H.infBits X h hk (v := fun j => if 0 ≤ vec.get j then vec.get j else 0) (N := cfg.iBit - 1) (l := l)
    (Or.inl rfl)
    (fun i hi => by have := b1 i hi; have := n0 i hi; have := hB i hi; have := abs_nonneg (res.get i); linarith)
  have hb' := H.infBits X h hk (v := fun j => if 0 ≤ vec.get j then 0 else -vec.get j) (N := cfg.iBit) (l := l)
    (Or.inr rfl)
    (fun i hi => by have := b2 i hi; have := n1 i hi; have := hB i hi; have := abs_nonneg (res.get i); linarith)
  simp only [Int.cast_one, one_mul] at hb
  simp only [Int.cast_neg, Int.cast_one, neg_mul, one_mul] at hb'
  obtain ⟨a', e⟩ := H.resI X h hv hr hN hN' hx hb hb'
    (fun i hi => by
      have := tgt_abs (v := fun j => if 0 ≤ vec.get j then vec.get j else 0) h hi (cfg.iBit - 1)
      have := tgt_abs (v := fun j => if 0 ≤ vec.get j then 0 else -vec.get j) h hi cfg.iBit
      simp only [abs_neg]
      have := b1 i hi; have := b2 i hi; have := hB i hi; linarith)
    (fun i hi => by
      have := tgt_abs (v := fun j => if 0 ≤ vec.get j then vec.get j else 0) h hi (cfg.iBit - 1)
      have := tgt_abs (v := fun j => if 0 ≤ vec.get j then 0 else -vec.get j) h hi cfg.iBit
      simp only [abs_neg]
      have := b1 i hi; have := b2 i hi; have := hI i hi; linarith)
  refine ⟨a', e.trans (congrArg _ (congrArg _ (over_congr fun i hi => ?_)))⟩
  simp

theorem infII (hs : E.strict = false) (hN : 1 ≤ cfg.iBit) (hN' : cfg.iBit ≤ 31)
    (hsum : ∀ i, i < m → c.gd.sumW.get i = ∑ j ∈ range n, W i j)
    (hx : ∀ j, j < n → -2 ^ (cfg.iBit - 1) ≤ vec.get j ∧ vec.get j < 2 ^ (cfg.iBit - 1)) :
    ∃ a', aMvmIntII E cfg c a res vec m n l = .ok (a', res.over m fun i =>
      res.get i + ∑ j ∈ range n, W i j * vec.get j) := by
  have hp : (2 : Int) ^ cfg.iBit = 2 * 2 ^ (cfg.iBit - 1) := by rw [← pow_succ']; congr 1; omega
  have hp' : (2 : Int) ^ (cfg.iBit + 1) = 4 * 2 ^ (cfg.iBit - 1) := by rw [pow_succ, hp]; ring
  have hp2 : (0 : Int) < 2 ^ (cfg.iBit - 1) := by positivity
  have em : ∀ j, j < n → (2 ^ (cfg.iBit - 1) + vec.get j) % 2 ^ (cfg.iBit + 1) = 2 ^ (cfg.iBit - 1) + vec.get j :=
    fun j hj => by have := hx j hj; exact Int.emod_eq_of_lt (by omega) (by omega)
  have bnd : ∀ i, i < m → ∑ j ∈ range n, |W i j| * ((2 ^ (cfg.iBit - 1) + vec.get j) % 2 ^ (cfg.iBit + 1))
      ≤ n * 2 ^ (cfg.wBit + cfg.iBit) := by
    intro i hi
    rw [pow_add 2 cfg.wBit]
    refine sum_abs_mul_le (fun j hj => hW i j hi hj) (fun j hj => ?_) (by positivity)
    · have := hx j hj
      rw [em j hj]; constructor <;> omega
  have hb := H.infBits X h hk (v := fun j => 2 ^ (cfg.iBit - 1) + vec.get j) (N := cfg.iBit + 1) (l := l) (Or.inl rfl)
    (fun i hi => by have := bnd i hi; have := hB i hi; have := abs_nonneg (res.get i); linarith)
  simp only [Int.cast_one, one_mul] at hb
  obtain ⟨a', e⟩ := H.resII X h hv hr hs hN hN' hsum hx hb
    (fun i hi => by
      have := tgt_abs (v := fun j => 2 ^ (cfg.iBit - 1) + vec.get j) h hi (cfg.iBit + 1)
      have := bnd i hi; have := hB i hi; linarith)
    (fun i hi => by
      have := tgt_abs (v := fun j => 2 ^ (cfg.iBit - 1) + vec.get j) h hi (cfg.iBit + 1)
      have := bnd i hi; have := hI i hi; linarith)
    (fun i hi => by
      apply inI32_of_abs
      rw [abs_mul, abs_of_pos hp2]
      have e1 : |∑ j ∈ range n, W i j| ≤ n * 2 ^ cfg.wBit :=
        (abs_sum_le_sum_abs _ _).trans (sum_abs_le fun j hj => hW i j hi hj)
      have e2 := hI i hi
      rw [pow_add, hp] at e2
      have e3 := mul_le_mul_of_nonneg_right e1 hp2.le
      have e4 := abs_nonneg (res.get i)
      have e5 : 0 ≤ (n : Int) * 2 ^ cfg.wBit * 2 ^ (cfg.iBit - 1) := by positivity
      linarith)
    (fun i hi => by
      rw [tgt_sum (v := fun j => 2 ^ (cfg.iBit - 1) + vec.get j) h hi (cfg.iBit + 1)]
      have : ∑ j ∈ range n, W i j * ((2 ^ (cfg.iBit - 1) + vec.get j) % 2 ^ (cfg.iBit + 1))
          = (∑ j ∈ range n, W i j) * 2 ^ (cfg.iBit - 1) + ∑ j ∈ range n, W i j * vec.get j := by
        rw [sum_mul, ← sum_add_distrib]
        refine sum_congr rfl fun j hj => ?_
        rw [em j (mem_range.1 hj)]; ring
      rw [this]
      apply inI32_of_abs
      have e1 : |∑ j ∈ range n, W i j * vec.get j| ≤ n * (2 ^ cfg.wBit * 2 ^ (cfg.iBit - 1)) := by
        refine (abs_sum_le_sum_abs _ _).trans ?_
        simp only [abs_mul]
        refine sum_abs_mul_le (fun j hj => hW i j hi hj) (fun j hj => ⟨abs_nonneg _, ?_⟩) (by positivity)
        have := hx j hj
        rw [abs_le]; constructor <;> omega
      have e2 := hI i hi
      rw [pow_add, hp] at e2
      have e3 := abs_add_le (res.get i) (∑ j ∈ range n, W i j * vec.get j)
      have e4 : 0 ≤ (n : Int) * (2 ^ cfg.wBit * 2 ^ (cfg.iBit - 1)) := by positivity
      rw [show res.get i + ((∑ j ∈ range n, W i j) * 2 ^ (cfg.iBit - 1) + ∑ j ∈ range n, W i j * vec.get j)
        - (∑ j ∈ range n, W i j) * 2 ^ (cfg.iBit - 1) = res.get i + ∑ j ∈ range n, W i j * vec.get j by ring]
      linarith)
  refine ⟨a', e.trans (congrArg _ (congrArg _ (over_congr fun i hi => ?_)))⟩
  simp

end IntHyp

end

end Acs
