import Mathlib.Algebra.BigOperators.Field
import Verif.Lemmas.IntMod
import Verif.Lemmas.RefineA

/-! # Analog integer multiplications of inputs of any size, with an ideal converter -/

set_option linter.unusedSectionVars false

namespace Acs

open Finset Spec

section
variable {K : Type} [Field K] [LinearOrder K] [IsStrictOrderedRing K] [FloorRing K]
variable {E : Env K} {cfg : Cfg K} {c : Core K} {a : Aux K} {st : Nat → K} {D W : Nat → Nat → Int}
variable {mat vec res v w : Vec Int} {m n N : Nat} {l : String} {B : Int}

theorem emod_bnd (x : Int) (k : Nat) : 0 ≤ x % 2 ^ k ∧ x % 2 ^ k ≤ 2 ^ k :=
  ⟨Int.emod_nonneg _ (by positivity), (Int.emod_lt_of_pos _ (by positivity)).le⟩

namespace IntHyp

section
variable (H : IntHyp E cfg c a st m n B) (X : Diff E cfg c st D m n B) (h : Enc cfg.S c.shift.get D W m n)
  (hv : n ≤ vec.size) (hr : m ≤ res.size) (hk : c.adc.kind = .inf)
  (hW : ∀ i j, i < m → j < n → |W i j| ≤ 2 ^ cfg.wBit)
  (hB : ∀ i, i < m → |res.get i| + n * 2 ^ (cfg.wBit + cfg.iBit + 1) ≤ B)
  (hI : ∀ i, i < m → |res.get i| + n * 2 ^ (cfg.wBit + cfg.iBit + 1) ≤ 2147483647)
include H X h hk hW hB

/-- The bits of numbers of up to `N` bits. -/
theorem anyBits (u : Nat → Int) {sgI : Int} (hsg : sgI = 1 ∨ sgI = -1) (hN : N ≤ cfg.iBit + 1) :
    (∀ i, i < m → ∑ b ∈ range N, ∑ s ∈ range cfg.S, |tgt c.shift.get cfg.S D u n b i s| ≤ n * (2 ^ cfg.wBit * 2 ^ N)) ∧
    Bits E cfg c st D u sgI m n N l fun b i s => sgI * tgt c.shift.get cfg.S D u n b i s := by
  have bnd : ∀ i, i < m → ∑ j ∈ range n, |W i j| * (u j % 2 ^ N) ≤ n * (2 ^ cfg.wBit * 2 ^ N) := fun i hi =>
    sum_abs_mul_le (fun j hj => hW i j hi hj) (fun j _ => emod_bnd _ _) (by positivity)
  refine ⟨fun i hi => (tgt_abs (v := u) h hi N).trans (bnd i hi),
    H.infBits X h hk hsg fun i hi => (bnd i hi).trans ?_⟩
  have h1 := hB i hi
  have h2 := abs_nonneg (res.get i)
  have h3 : (2 : Int) ^ cfg.wBit * 2 ^ N ≤ 2 ^ (cfg.wBit + cfg.iBit + 1) := by
    rw [← pow_add]; exact pow_le_pow_right₀ (by norm_num) (by omega)
  have h4 := mul_le_mul_of_nonneg_left h3 (show (0 : Int) ≤ n by omega)
  linarith

omit H X h hk hW in
theorem room_le {p : Nat} (hp : p ≤ cfg.wBit + cfg.iBit + 1) {i : Nat} (hi : i < m) {z : Int}
    (hz : z ≤ n * 2 ^ p) : |res.get i| + z ≤ B := by
  have h1 := hB i hi
  have h3 : (2 : Int) ^ p ≤ 2 ^ (cfg.wBit + cfg.iBit + 1) := pow_le_pow_right₀ (by norm_num) hp
  have h4 := mul_le_mul_of_nonneg_left h3 (show (0 : Int) ≤ n by omega)
  linarith

include hv hr hI

theorem anyIV (hN' : cfg.iBit ≤ 32) :
    ∃ a', aMvmIntIV E cfg c a res vec m n l = .ok (a', res.over m fun i =>
      res.get i + ∑ j ∈ range n, W i j * (vec.get j % 2 ^ cfg.iBit)) := by
  obtain ⟨b1, b2⟩ := H.anyBits X h hk hW hB (l := l) vec.get (N := cfg.iBit) (Or.inl rfl) (by omega)
  simp only [Int.cast_one, one_mul] at b2
  simp only [← pow_add] at b1
  obtain ⟨a', e⟩ := H.intIV X hv hr hN' b2 (fun i hi => room_le hB (by omega) hi (b1 i hi))
    (fun i hi => room_le hI (by omega) hi (b1 i hi))
  exact ⟨a', e.trans (congrArg _ (congrArg _ (over_congr fun i hi => by rw [tgt_sum h hi])))⟩

theorem anyIII (hN : 1 ≤ cfg.iBit) (hN' : cfg.iBit ≤ 32) :
    ∃ a', aMvmIntIII E cfg c a res vec m n l = .ok (a', res.over m fun i =>
      res.get i + ∑ j ∈ range n, W i j * ((vec.get j + 2 ^ (cfg.iBit - 1)) % 2 ^ cfg.iBit - 2 ^ (cfg.iBit - 1))) := by
  obtain ⟨b1, b2⟩ := H.anyBits X h hk hW hB (l := l) vec.get (N := cfg.iBit) (Or.inl rfl) (by omega)
  simp only [Int.cast_one, one_mul] at b2
  simp only [← pow_add] at b1
  obtain ⟨a', e⟩ := H.intIII X hv hr hN hN' b2 (fun i hi => room_le hB (by omega) hi (b1 i hi))
    (fun i hi => room_le hI (by omega) hi (b1 i hi))
  refine ⟨a', e.trans (congrArg _ (congrArg _ (over_congr fun i hi => ?_)))⟩
  rw [tgt_sum h hi, tgt_row h hi, add_sub_assoc, ← sum_sub_distrib]
  congr 1
  refine sum_congr rfl fun j _ => ?_
  have hp : (2 : Int) ^ cfg.iBit = 2 ^ (cfg.iBit - 1) + 2 ^ (cfg.iBit - 1) := by
    rw [← two_mul, ← pow_succ']; congr 1; omega
  rw [← mul_sub, hp, ← twos_complement _ (by positivity)]
  rfl

theorem anyI (hN : 1 ≤ cfg.iBit) (hN' : cfg.iBit ≤ 32) (hx : ∀ j, j < n → InI32 (-vec.get j)) :
    ∃ a', aMvmIntI E cfg c a res vec m n l = .ok (a', res.over m fun i =>
      res.get i + ∑ j ∈ range n, W i j *
        (if 0 ≤ vec.get j then vec.get j % 2 ^ (cfg.iBit - 1) else -(-vec.get j % 2 ^ cfg.iBit))) := by
  obtain ⟨b1, b2⟩ := H.anyBits X h hk hW hB (l := l) (fun j => if 0 ≤ vec.get j then vec.get j else 0)
    (N := cfg.iBit - 1) (Or.inl rfl) (by omega)
  obtain ⟨b3, b4⟩ := H.anyBits X h hk hW hB (l := l) (fun j => if 0 ≤ vec.get j then 0 else -vec.get j)
    (N := cfg.iBit) (Or.inr rfl) (by omega)
  simp only [Int.cast_one, one_mul] at b2
  simp only [Int.cast_neg, Int.cast_one, neg_mul, one_mul] at b4
  have hp : (2 : Int) ^ cfg.iBit = 2 * 2 ^ (cfg.iBit - 1) := by rw [← pow_succ']; congr 1; omega
  have hsum : ∀ i, i < m → ∑ b ∈ range (cfg.iBit - 1), ∑ s ∈ range cfg.S,
        |tgt c.shift.get cfg.S D (fun j => if 0 ≤ vec.get j then vec.get j else 0) n b i s|
      + ∑ b ∈ range cfg.iBit, ∑ s ∈ range cfg.S,
        |-tgt c.shift.get cfg.S D (fun j => if 0 ≤ vec.get j then 0 else -vec.get j) n b i s|
      ≤ n * 2 ^ (cfg.wBit + cfg.iBit + 1) := fun i hi => by
    have h1 := b1 i hi
    have h2 := b3 i hi
    simp only [abs_neg]
    have e : (2 : Int) ^ (cfg.wBit + cfg.iBit + 1) = 2 ^ cfg.wBit * (4 * 2 ^ (cfg.iBit - 1)) := by
      rw [pow_succ, pow_add, hp]; ring
    rw [hp] at h2
    rw [e]
    have : (0 : Int) ≤ n * (2 ^ cfg.wBit * 2 ^ (cfg.iBit - 1)) := by positivity
    linarith
  obtain ⟨a', e⟩ := H.intI X hv hr hN hN' hx b2 b4
    (fun i hi => by have := hsum i hi; have := hB i hi; linarith)
    (fun i hi => by have := hsum i hi; have := hI i hi; linarith)
  refine ⟨a', e.trans (congrArg _ (congrArg _ (over_congr fun i hi => ?_)))⟩
  simp only [sum_neg_distrib]
  rw [tgt_sum h hi, tgt_sum h hi, add_assoc, ← sum_neg_distrib, ← sum_add_distrib]
  congr 1
  refine sum_congr rfl fun j _ => ?_
  split <;> simp

theorem anyII (hs : E.strict = false) (hN : 1 ≤ cfg.iBit) (hN' : cfg.iBit ≤ 31)
    (hsum : ∀ i, i < m → c.gd.sumW.get i = ∑ j ∈ range n, W i j)
    (hx : ∀ j, j < n → InI32 (2 ^ (cfg.iBit - 1) + vec.get j)) :
    ∃ a', aMvmIntII E cfg c a res vec m n l = .ok (a', res.over m fun i =>
      res.get i + ∑ j ∈ range n, W i j * ((vec.get j + 2 ^ (cfg.iBit - 1)) % 2 ^ (cfg.iBit + 1) - 2 ^ (cfg.iBit - 1))) := by
  obtain ⟨b1, b2⟩ := H.anyBits X h hk hW hB (l := l) (fun j => 2 ^ (cfg.iBit - 1) + vec.get j)
    (N := cfg.iBit + 1) (Or.inl rfl) le_rfl
  simp only [Int.cast_one, one_mul] at b2
  simp only [← pow_add] at b1
  have hp : (2 : Int) ^ cfg.iBit = 2 * 2 ^ (cfg.iBit - 1) := by rw [← pow_succ']; congr 1; omega
  have hp2 : (0 : Int) < 2 ^ (cfg.iBit - 1) := by positivity
  have key : ∀ i, i < m → res.get i + ∑ b ∈ range (cfg.iBit + 1), ∑ s ∈ range cfg.S,
        tgt c.shift.get cfg.S D (fun j => 2 ^ (cfg.iBit - 1) + vec.get j) n b i s - c.gd.sumW.get i * 2 ^ (cfg.iBit - 1)
      = res.get i + ∑ j ∈ range n, W i j *
        ((vec.get j + 2 ^ (cfg.iBit - 1)) % 2 ^ (cfg.iBit + 1) - 2 ^ (cfg.iBit - 1)) := fun i hi => by
    rw [tgt_sum h hi, hsum i hi, add_sub_assoc, sum_mul, ← sum_sub_distrib]
    congr 1
    exact sum_congr rfl fun j _ => by rw [add_comm (vec.get j), mul_sub]
  obtain ⟨a', e⟩ := H.intII X hv hr hs hN hN' hx b2 (fun i hi => room_le hB (by omega) hi (b1 i hi))
    (fun i hi => room_le hI (by omega) hi (b1 i hi))
    (fun i hi => by
      apply inI32_of_abs
      rw [hsum i hi, abs_mul, abs_of_pos hp2]
      have e1 : |∑ j ∈ range n, W i j| ≤ n * 2 ^ cfg.wBit :=
        (abs_sum_le_sum_abs _ _).trans (sum_abs_le fun j hj => hW i j hi hj)
      have e3 := mul_le_mul_of_nonneg_right e1 hp2.le
      rw [mul_assoc, ← pow_add] at e3
      have := room_le hI (by omega) hi e3
      have := abs_nonneg (res.get i)
      linarith)
    (fun i hi => by
      rw [key i hi]
      apply inI32_of_abs
      have e1 : |∑ j ∈ range n, W i j *
          ((vec.get j + 2 ^ (cfg.iBit - 1)) % 2 ^ (cfg.iBit + 1) - 2 ^ (cfg.iBit - 1))|
          ≤ n * (2 ^ cfg.wBit * 2 ^ (cfg.iBit + 1)) := by
        refine (abs_sum_le_sum_abs _ _).trans ?_
        simp only [abs_mul]
        refine sum_abs_mul_le (fun j hj => hW i j hi hj) (fun j hj => ⟨abs_nonneg _, ?_⟩) (by positivity)
        have h1 := emod_bnd (vec.get j + 2 ^ (cfg.iBit - 1)) (cfg.iBit + 1)
        have h2 : (2 : Int) ^ (cfg.iBit + 1) = 4 * 2 ^ (cfg.iBit - 1) := by rw [pow_succ, hp]; ring
        rw [abs_le]
        constructor <;> linarith [h1.1, h1.2]
      rw [← pow_add] at e1
      have e2 := room_le hI (by omega) hi e1
      exact (abs_add_le _ _).trans e2)
  exact ⟨a', e.trans (congrArg _ (congrArg _ (over_congr fun i hi => key i hi)))⟩

end

/-! ### The offset mapping -/

section
variable (H : IntHyp E cfg c a st m n B) (hE : ExactArith E) (hS : StepOk cfg st)
  (h : Enc cfg.S c.shift.get D (fun i j => W i j + 2 ^ (cfg.wBit - 1)) m n)
  (hp : ∀ t j, t < m * cfg.S → j < n → c.ia.p.get t j = cfg.hrs + (D t j : K) * st (t % cfg.S))
  (hδ : c.delta = some (∑ s ∈ range cfg.S, 2 ^ c.shift.get s * (cfg.hrs / st s)))
include H hE hS h hp hδ

theorem sumAnyV {i : Nat} (hi : i < m) :
    ∑ b ∈ range cfg.iBit, ∑ s ∈ range cfg.S,
        (∑ j ∈ range n, c.ia.p.get (i * cfg.S + s) j * (bitOf (vec.get j) b : K)) * (2 ^ (c.shift.get s + b) / st s)
      - ((∑ j ∈ range n, vec.get j : Int) : K)
        * (∑ s ∈ range cfg.S, 2 ^ c.shift.get s * (cfg.hrs / st s) + 2 ^ (cfg.wBit - 1))
      = ((∑ j ∈ range n, W i j * (vec.get j % 2 ^ cfg.iBit) : Int) : K)
        + (∑ s ∈ range cfg.S, 2 ^ c.shift.get s * (cfg.hrs / st s) + 2 ^ (cfg.wBit - 1))
          * ((∑ j ∈ range n, (vec.get j % 2 ^ cfg.iBit - vec.get j) : Int) : K) := by
  have e1 : ∀ b ∈ range cfg.iBit, ∀ s ∈ range cfg.S,
      (∑ j ∈ range n, c.ia.p.get (i * cfg.S + s) j * (bitOf (vec.get j) b : K)) * (2 ^ (c.shift.get s + b) / st s)
      = (tgt c.shift.get cfg.S D vec.get n b i s : K)
        + (2 ^ c.shift.get s * (cfg.hrs / st s)) * ((∑ j ∈ range n, bitOf (vec.get j) b * 2 ^ b : Int) : K) := by
    intro b _ s hs
    have hs' := mem_range.1 hs
    have hne := hS.st_ne hs'
    unfold tgt
    push_cast
    rw [mul_sum, mul_sum, sum_mul, ← sum_add_distrib]
    refine sum_congr rfl fun j hj => ?_
    rw [hp _ _ (blk_lt hi hs') (mem_range.1 hj), blk_mod hs', pow_add]
    field_simp
    ring
  rw [sum_congr rfl fun b hb => sum_congr rfl fun s hs => e1 b hb s hs]
  simp only [sum_add_distrib]
  have k1 := tgt_sum (v := vec.get) h hi cfg.iBit
  have k1' : ∑ b ∈ range cfg.iBit, ∑ s ∈ range cfg.S, (tgt c.shift.get cfg.S D vec.get n b i s : K)
      = ((∑ j ∈ range n, (W i j + 2 ^ (cfg.wBit - 1)) * (vec.get j % 2 ^ cfg.iBit) : Int) : K) := by
    rw [← k1]; push_cast; rfl
  have k2 : ∑ b ∈ range cfg.iBit, ∑ j ∈ range n, bitOf (vec.get j) b * 2 ^ b
      = ∑ j ∈ range n, vec.get j % 2 ^ cfg.iBit := by
    rw [sum_comm]
    exact sum_congr rfl fun j hj => by rw [bitOf_sum]
  have k2' : ∑ b ∈ range cfg.iBit, ∑ s ∈ range cfg.S, (2 ^ c.shift.get s * (cfg.hrs / st s))
        * ((∑ j ∈ range n, bitOf (vec.get j) b * 2 ^ b : Int) : K)
      = (∑ s ∈ range cfg.S, 2 ^ c.shift.get s * (cfg.hrs / st s))
        * ((∑ j ∈ range n, vec.get j % 2 ^ cfg.iBit : Int) : K) := by
    rw [← k2]
    push_cast
    rw [mul_sum]
    refine sum_congr rfl fun b _ => ?_
    rw [sum_mul]
  rw [k1', k2']
  have k3 : ((∑ j ∈ range n, (W i j + 2 ^ (cfg.wBit - 1)) * (vec.get j % 2 ^ cfg.iBit) : Int) : K)
      = ((∑ j ∈ range n, W i j * (vec.get j % 2 ^ cfg.iBit) : Int) : K)
        + 2 ^ (cfg.wBit - 1) * ((∑ j ∈ range n, vec.get j % 2 ^ cfg.iBit : Int) : K) := by
    rw [sum_congr rfl fun j _ => add_mul _ _ _, sum_add_distrib, ← mul_sum]
    push_cast; rfl
  rw [k3, sum_sub_distrib]
  push_cast
  ring

theorem anyV (hv : n ≤ vec.size) (hr : m ≤ res.size) (hw1 : 1 ≤ cfg.wBit) (hw31 : cfg.wBit ≤ 31)
    (hi31 : cfg.iBit ≤ 31) (hn : n ≤ 2147483647) (hx : ∀ j, j < n → InI32 (vec.get j)) (hk : c.adc.kind = .inf)
    (hI : ∀ i, i < m → |res.get i| + |roundAway (((∑ j ∈ range n, W i j * (vec.get j % 2 ^ cfg.iBit) : Int) : K)
        + (∑ s ∈ range cfg.S, 2 ^ c.shift.get s * (cfg.hrs / st s) + 2 ^ (cfg.wBit - 1))
          * ((∑ j ∈ range n, (vec.get j % 2 ^ cfg.iBit - vec.get j) : Int) : K))| ≤ 2147483647) :
    ∃ a', aMvmIntV E cfg c a res vec m n l = .ok (a', res.over m fun i => res.get i +
      roundAway (((∑ j ∈ range n, W i j * (vec.get j % 2 ^ cfg.iBit) : Int) : K)
        + (∑ s ∈ range cfg.S, 2 ^ c.shift.get s * (cfg.hrs / st s) + 2 ^ (cfg.wBit - 1))
          * ((∑ j ∈ range n, (vec.get j % 2 ^ cfg.iBit - vec.get j) : Int) : K))) := by
  obtain ⟨a', e⟩ := H.intV hE (l := l) hδ hv hr hw1 hw31 (by omega) hn hx
    (κ := fun b i s => (∑ j ∈ range n, c.ia.p.get (i * cfg.S + s) j * (bitOf (vec.get j) b : K))
      * (2 ^ (c.shift.get s + b) / st s))
    (fun b i s hb hi hs => by
      unfold conv1
      rw [hk]
      unfold Env.fmul Env.fadd
      rw [hE.f32, hE.f32, add_zero])
    (fun i hi => by rw [H.sumAnyV hE hS h hp hδ hi]; exact hI i hi)
  exact ⟨a', e.trans (congrArg _ (congrArg _ (over_congr fun i hi => by rw [H.sumAnyV hE hS h hp hδ hi])))⟩

end

end IntHyp

/-! ### Crossbars -/

theorem zero_legal (hi : cfg.mode.isInt = true) : LegalX cfg 0 := by
  unfold LegalX
  cases hm : cfg.mode <;> simp only [hm] at hi ⊢ <;> first
    | exact absurd hi (by decide)
    | exact ⟨by simp, by positivity⟩

variable {x : Xbar K} {h : List Op}

/-- The slices add up to the largest number of `W_BIT` bits. -/
theorem delta_sum (hI : IntOk cfg) (hc : CoreShape E cfg c) :
    ∑ s ∈ range cfg.S, (2 : K) ^ c.shift.get s * (2 ^ cfg.split.getD s 0 - 1) = 2 ^ cfg.wBit - 1 := by
  have h1 := bits_sum cfg.split (-1)
  have h2 : ∀ k, (-1 : Int) % 2 ^ k = 2 ^ k - 1 := fun k => by
    have : (0 : Int) < 2 ^ k := by positivity
    rw [← Int.add_emod_right, Int.emod_eq_of_lt (by omega) (by omega)]
    ring
  have h3 : ∀ a b, bits (-1) a b = 2 ^ b - 1 := fun a b => by
    unfold bits
    rw [show (-1 : Int) / 2 ^ a = -1 by
      rw [Int.ediv_eq_iff_of_pos (by positivity)]
      have : (0 : Int) < 2 ^ a := by positivity
      constructor <;> omega, h2]
  simp only [h3, h2, hI.sum] at h1
  have h4 := congrArg (Int.cast : Int → K) h1
  push_cast at h4
  rw [← h4]
  exact sum_congr rfl fun s _ => by rw [hI.shift hc]; ring

theorem aMvm_any (hE : ExactArith E) (hfam : cfg.mode.family = .int) (hm : cfg.mode ≠ .iUintWOffs) (hok : CfgOk cfg)
    (hid : Ideal cfg) (hinf : cfg.adcType = .inf) (hgcc : cfg.mode = .iOffsWDiff → E.strict = false)
    (hr : Runs E cfg h x) (hd : Accepted cfg m n) (hl : Legal cfg (lastWrite h) m n)
    (hs : cfg.mode = .iOffsWDiff → WidthIs n h) (hv : n ≤ vec.size) (hres : m ≤ res.size)
    (hx : ∀ j, j < n → Codes cfg (vec.get j))
    (hroom : ∀ i, i < m → |res.get i| + n * 2 ^ (cfg.wBit + cfg.iBit + 1) ≤ 2147483647) :
    ∃ a', aMvm E cfg x.mapper.core x.mapper.aux res vec m n l = .ok (a', res.over m fun i =>
      res.get i + ∑ j ∈ range n, val (lastWrite h) i j * readX cfg (vec.get j)) := by
  have hi : cfg.mode.isInt = true := by simp [Mode.isInt, hfam]
  have A : AHyp E cfg x (lastWrite h) res (Vec.mk n fun _ => 0) m n :=
    aHyp hE hok hid hr hl hd (fun hk i _ => by
      have hmd : cfg.mode = .iOffsWDiff := by
        cases hmd : cfg.mode <;> simp_all [keepsRowSums, Mode.family]
      exact runs_sums hr (by rw [hmd]; rfl) (hs hmd) i) le_rfl hres (fun _ _ => zero_legal hi)
  obtain ⟨F, hst⟩ := A.exactI hE hi 2147483647
  have H := A.intHyp hi F hst
  have hk : x.mapper.core.adc.kind = .inf := by rw [adc_kind A.shape.core.adc, hinf]
  obtain ⟨henc, hW⟩ := A.encD hi hm
  have X := A.diff' hi hm F (by norm_num) fun h0 => by
    have h1 := hroom 0 h0
    have h2 := abs_nonneg (res.get 0)
    rw [pow_succ] at h1
    have : (0 : Int) ≤ n * 2 ^ (cfg.wBit + cfg.iBit) := by positivity
    linarith
  have hsum := A.sums
  have hI' := intOk A.ok hi
  have i1 := hI'.i1
  have i31 := hI'.i31
  unfold Codes at hx
  unfold aMvm readX
  rw [A.shape.core.mode]
  cases hmd : cfg.mode <;> simp only [hmd, Mode.family, reduceCtorEq] at hx hsum hm hgcc hfam ⊢
  case iDiffWDiff1 => exact H.anyI X henc hv hres hk hW hroom hroom i1 (by omega) fun j hj => (hx j hj).2
  case iDiffWDiff2 => exact H.anyI X henc hv hres hk hW hroom hroom i1 (by omega) fun j hj => (hx j hj).2
  case iOffsWDiff =>
    exact H.anyII X henc hv hres hk hW hroom hroom (hgcc trivial) i1 i31 (hsum trivial) fun j hj => (hx j hj).2
  case iTcWDiff => exact H.anyIII X henc hv hres hk hW hroom hroom i1 (by omega)
  case iUintWDiff => exact H.anyIV X henc hv hres hk hW hroom hroom (by omega)
  case iUintWOffs => exact absurd rfl hm

theorem aMvm_anyV (hE : ExactArith E) (hm : cfg.mode = .iUintWOffs) (hok : CfgOk cfg)
    (hid : Ideal cfg) (hinf : cfg.adcType = .inf)
    (hr : Runs E cfg h x) (hd : Accepted cfg m n) (hl : Legal cfg (lastWrite h) m n)
    (hv : n ≤ vec.size) (hres : m ≤ res.size) (hx : ∀ j, j < n → InI32 (vec.get j))
    (hroom : ∀ i, i < m → ((|res.get i| + n * 2 ^ (cfg.wBit + cfg.iBit) : Int) : K) + |lostOffset cfg vec.get n|
      ≤ 2147483646) :
    ∃ a', ∃ r : Nat → Int, aMvm E cfg x.mapper.core x.mapper.aux res vec m n l = .ok (a', res.over m fun i => res.get i + r i) ∧
      ∀ i, i < m → |(r i : K) - (((∑ j ∈ range n, val (lastWrite h) i j * readX cfg (vec.get j) : Int) : K)
        + lostOffset cfg vec.get n)| ≤ 1 / 2 := by
  have hi : cfg.mode.isInt = true := by rw [hm]; rfl
  have A : AHyp E cfg x (lastWrite h) res (Vec.mk n fun _ => 0) m n :=
    aHyp hE hok hid hr hl hd (fun hk => by rw [hm] at hk; exact hk.elim) le_rfl hres (fun _ _ => zero_legal hi)
  have hI' := intOk hok hi
  obtain ⟨F, hst⟩ := A.exactI hE hi 0
  have H := A.intHyp hi F hst
  have hk : x.mapper.core.adc.kind = .inf := by rw [adc_kind A.shape.core.adc, hinf]
  obtain ⟨henc, hW⟩ := A.encO hm
  have hlost : (∑ s ∈ range cfg.S, 2 ^ x.mapper.core.shift.get s *
      (cfg.hrs / ((cfg.lrs - cfg.hrs) / (2 ^ cfg.split.getD s 0 - 1))) + 2 ^ (cfg.wBit - 1))
        * ((∑ j ∈ range n, (vec.get j % 2 ^ cfg.iBit - vec.get j) : Int) : K) = lostOffset cfg vec.get n := by
    unfold lostOffset
    have e : ∀ j, readX cfg (vec.get j) = vec.get j % 2 ^ cfg.iBit := fun j => by simp only [readX, hm]
    simp only [e]
    congr 2
    rw [← delta_sum (K := K) hI' A.shape.core, sum_mul, Finset.sum_div]
    refine sum_congr rfl fun s hs => ?_
    have h1 := (A.stepOk hi).mask (mem_range.1 hs)
    have h2 := A.id.d
    field_simp
  have hb : ∀ i, i < m → |∑ j ∈ range n, val (lastWrite h) i j * (vec.get j % 2 ^ cfg.iBit)|
      ≤ n * 2 ^ (cfg.wBit + cfg.iBit) := fun i hi => by
    rw [pow_add]
    refine (abs_sum_le_sum_abs _ _).trans ?_
    simp only [abs_mul]
    refine sum_abs_mul_le (fun j hj => hW i j hi hj) (fun j hj => ⟨abs_nonneg _, ?_⟩) (by positivity)
    rw [abs_of_nonneg (emod_bnd _ _).1]; exact (emod_bnd _ _).2
  obtain ⟨a', e⟩ := H.anyV hE (l := l) (vec := vec) (res := res) (A.stepOk hi) henc (A.curO hm) (A.delta hE hm) hv hres hI'.w1 hI'.w31 hI'.i31
    hd.2.2 hx hk (fun i hi => by
      rw [hlost]
      have h1 := roundAway_near (((∑ j ∈ range n, val (lastWrite h) i j * (vec.get j % 2 ^ cfg.iBit) : Int) : K)
        + lostOffset cfg vec.get n)
      have h2 := hroom i hi
      have h3 : ((|∑ j ∈ range n, val (lastWrite h) i j * (vec.get j % 2 ^ cfg.iBit)| : Int) : K)
        ≤ ((n * 2 ^ (cfg.wBit + cfg.iBit) : Int) : K) := Int.cast_le.2 (hb i hi)
      rw [Int.cast_abs] at h3
      set u : K := ((∑ j ∈ range n, val (lastWrite h) i j * (vec.get j % 2 ^ cfg.iBit) : Int) : K)
      set o : K := lostOffset cfg vec.get n
      have h4 := abs_add_le u o
      have h5 := abs_sub_abs_le_abs_sub ((roundAway (u + o) : Int) : K) (u + o)
      have h6 : ((|res.get i| + |roundAway (u + o)| : Int) : K) ≤ ((2147483647 : Int) : K) := by
        push_cast at h2 ⊢
        push_cast at h3
        linarith
      exact Int.cast_le.1 h6)
  simp only [hlost] at e
  refine ⟨a', fun i => roundAway (((∑ j ∈ range n, val (lastWrite h) i j * (vec.get j % 2 ^ cfg.iBit) : Int) : K)
    + lostOffset cfg vec.get n), ?_, fun i hi => ?_⟩
  · unfold aMvm
    rw [A.shape.core.mode]
    simp only [hm]
    exact e
  · simp only [readX, hm]
    exact roundAway_near _

theorem readX_le (cfg : Cfg K) (hi : cfg.mode.family = .int) (i1 : 1 ≤ cfg.iBit) (x : Int) :
    |readX cfg x| ≤ 2 ^ (cfg.iBit + 1) := by
  have hp : (2 : Int) ^ cfg.iBit = 2 * 2 ^ (cfg.iBit - 1) := by rw [← pow_succ']; congr 1; omega
  have hp' : (2 : Int) ^ (cfg.iBit + 1) = 4 * 2 ^ (cfg.iBit - 1) := by rw [pow_succ, hp]; ring
  have hp2 : (0 : Int) < 2 ^ (cfg.iBit - 1) := by positivity
  have e : ∀ (y : Int) (k : Nat), 0 ≤ y % 2 ^ k ∧ y % 2 ^ k ≤ 2 ^ k := fun y k => emod_bnd y k
  have e1 := e x (cfg.iBit - 1)
  have e2 := e (-x) cfg.iBit
  have e3 := e (x + 2 ^ (cfg.iBit - 1)) (cfg.iBit + 1)
  have e4 := e (x + 2 ^ (cfg.iBit - 1)) cfg.iBit
  have e5 := e x cfg.iBit
  rw [abs_le]
  unfold readX
  cases hm : cfg.mode <;> simp only [hm, Mode.family, reduceCtorEq] at hi ⊢ <;>
    (try split) <;> constructor <;> linarith [e1.1, e1.2, e2.1, e2.2, e3.1, e3.2, e4.1, e4.2, e5.1, e5.2]

end

end Acs
