import Verif.Lemmas.AMvmAdc

/-!
# Analog multiplications of the integer mappings

The inputs are processed bit by bit; every bit and every slice of the weights gives one conversion.
-/

set_option linter.unusedSectionVars false

namespace Acs

open Finset Spec

section
variable {K : Type} [Field K] [LinearOrder K] [IsStrictOrderedRing K] [FloorRing K]
variable {E : Env K} {cfg : Cfg K} {c : Core K} {a : Aux K}
variable {mat vec res v w : Vec Int} {m n N : Nat} {l : String} {B : Int} {st : Nat → K} {sg : K}

/-- Bit `b` of an integer. -/
def bitOf (x : Int) (b : Nat) : Int := x / 2 ^ b % 2

theorem bitOf_bool (x : Int) (b : Nat) : bitOf x b = 0 ∨ bitOf x b = 1 := by
  unfold bitOf; omega

theorem bitOf_abs (x : Int) (b : Nat) : |bitOf x b| = bitOf x b := by
  rcases bitOf_bool x b with h | h <;> rw [h] <;> rfl

theorem bitOf_le (x : Int) (b : Nat) : |bitOf x b| ≤ 1 := by
  rcases bitOf_bool x b with h | h <;> rw [h] <;> decide

theorem bitOf_sum (x : Int) (k : Nat) : ∑ b ∈ range k, bitOf x b * 2 ^ b = x % 2 ^ k := by
  induction k with
  | zero => simp [Int.emod_one]
  | succ k ih =>
    rw [sum_range_succ, ih]
    have := emod_split x 1 k
    rw [pow_one, Nat.add_comm 1 k] at this
    unfold bitOf
    omega

theorem sliceVd_ok {sl : Vec Int} {b : Nat} (hv : n ≤ v.size) (hs : n ≤ sl.size) (hb : b < 32) :
    sliceVd v sl n b = .ok (sl.over n fun j => bitOf (v.get j) b) := by
  unfold sliceVd
  refine setG_ok _ hs fun j hj => ?_
  rw [Vec.rd_ok (by omega), ok_bind, shrI_ok hb, ok_bind, and32_one]
  rfl

/-- The rounding keeps the numbers an integer mapping meets; `st s` is the current per state in
slice `s`. -/
structure FaithI (E : Env K) (st : Nat → K) (S : Nat) (B : Int) : Prop where
  ne : ∀ s, s < S → st s ≠ 0
  int : ∀ b : Int, |b| ≤ B → E.f32 (b : K) = b
  cur : ∀ s, s < S → ∀ g : Int, |g| ≤ B → E.f32 (g * st s) = g * st s
  sc : ∀ s, s < S → ∀ k, k < 64 → E.f32 (E.f64 (2 ^ k / st s)) = 2 ^ k / st s
  scN : ∀ s, s < S → ∀ k, k < 64 → E.f32 (E.f64 (-(2 ^ k / st s))) = -(2 ^ k / st s)

theorem FaithI.exact (hE : ExactArith E) {S : Nat} (h : ∀ s, s < S → st s ≠ 0) : FaithI E st S B :=
  ⟨h, fun _ _ => hE.f32 _, fun _ _ _ _ => hE.f32 _, fun _ _ _ _ => by rw [hE.f64, hE.f32],
    fun _ _ _ _ => by rw [hE.f64, hE.f32]⟩

theorem FaithI.out {S : Nat} (h : FaithI E st S B) : OutOk E 0 B := fun a b _ hb => by
  unfold lin; rw [mul_zero, zero_add]; exact h.int b hb

/-- A crossbar of an integer mapping: the difference of the two currents of a cell pair is `D` times
the current per state. -/
structure IntHyp (E : Env K) (cfg : Cfg K) (c : Core K) (a : Aux K) (st : Nat → K) (m n : Nat) (B : Int) :
    Prop where
  par : cfg.parasitics = false
  F : FaithI E st cfg.S B
  shs : c.shift.size = cfg.S
  sh : ∀ s, s < cfg.S → c.shift.get s < 32
  sts : c.iStep.size = cfg.S
  st : ∀ s, s < cfg.S → c.iStep.get s = some (st s)
  pr : m * cfg.S ≤ c.ia.p.rows
  pc : n ≤ c.ia.p.cols
  mr : m * cfg.S ≤ c.ia.m.rows
  mc : n ≤ c.ia.m.cols
  sw : m ≤ c.gd.sumW.size
  vdP : n ≤ a.vdP.size
  vdM : n ≤ a.vdM.size
  vdS : n ≤ a.vdSlice.size
  tmpFp : m * cfg.S ≤ a.tmpFp.size
  resFp : m ≤ a.resFp.size

namespace IntHyp
variable {D W : Nat → Nat → Int} (H : IntHyp E cfg c a st m n B)
include H

theorem scale {s b : Nat} (hs : s < cfg.S) (hb : b < 32) (hsg : sg = 1 ∨ sg = -1) :
    adcScale E (c.shift.get s) b (sg * st s) = .ok (sg * (2 ^ (c.shift.get s + b) / st s)) := by
  have h1 := H.sh s hs
  have h2 := H.F.ne s hs
  unfold adcScale
  rw [if_neg (by omega)]
  rcases hsg with e | e <;> rw [e]
  · rw [one_mul, if_neg h2, H.F.sc s hs _ (by omega), one_mul]
  · rw [neg_one_mul, if_neg (by simpa using h2), neg_one_mul, div_neg, H.F.scN s hs _ (by omega)]

/-- Column currents. -/
theorem cols {f : Nat → Int} {sl : Vec Int} {t0 : Vec K} (hsl : n ≤ sl.size) (ht : m * cfg.S ≤ t0.size)
    (hd : ∀ t j, t < m * cfg.S → j < n →
      E.fsub (c.ia.p.get t j) (c.ia.m.get t j) = (D t j : K) * st (t % cfg.S))
    (hf : ∀ j, j < n → |f j| ≤ 1) (hB1 : 1 ≤ B)
    (hB : ∀ t, t < m * cfg.S → ∑ j ∈ range n, |D t j * f j| ≤ B) :
    intCurrents E cfg c (iaDiffTerm E c.ia (sl.over n f)) (sl.over n f) (t0.fill 0) m n
      = .ok ((t0.fill 0).over (m * cfg.S) fun t => ((∑ j ∈ range n, D t j * f j : Int) : K) * st (t % cfg.S)) := by
  unfold intCurrents
  rw [H.par, if_neg (by simp)]
  have hp := H.pr; have hq := H.mr; have hp' := H.pc; have hq' := H.mc
  refine accG_ok (fun t k => ((∑ j ∈ range k, D t j * f j : Int) : K) * st (t % cfg.S)) ht ?_ ?_
  · intro t ht'
    rw [Vec.fill_get (by omega)]; simp
  · intro t k ht' hk
    have hS : t % cfg.S < cfg.S := Nat.mod_lt _ (by
      rcases Nat.eq_zero_or_pos cfg.S with h0 | h0
      · rw [h0] at ht'; omega
      · exact h0)
    have hb : ∀ k, k ≤ n → ∑ j ∈ range k, |D t j * f j| ≤ B := fun k hk =>
      (sum_le_sum_of_subset_of_nonneg (range_mono hk) fun _ _ _ => abs_nonneg _).trans (hB t ht')
    have h1 : |D t k * f k| ≤ B :=
      (single_le_sum (f := fun j => |D t j * f j|) (fun _ _ => abs_nonneg _) (mem_range.2 hk)).trans (hB t ht')
    have h2 : |∑ j ∈ range (k + 1), D t j * f j| ≤ B := (abs_sum_le_sum_abs _ _).trans (hb _ hk)
    unfold iaDiffTerm faddC
    rw [Mat.rd_ok (by omega) (by omega), ok_bind, Mat.rd_ok (by omega) (by omega), ok_bind,
      over_rd hsl hk, ok_bind, ok_bind, hd t k ht' hk]
    unfold Env.fadd Env.fmul Env.ofInt
    rw [H.F.int _ ((hf k hk).trans hB1),
      show (D t k : K) * st (t % cfg.S) * (f k : K) = ((D t k * f k : Int) : K) * st (t % cfg.S) by
        push_cast; ring,
      H.F.cur _ hS _ h1, ← add_mul, ← Int.cast_add, ← sum_range_succ, H.F.cur _ hS _ h2]

/-- Accumulation of one bit. -/
theorem acc {op : Int → K → C Int} {sgn : Int} (hop : (op = E.iaddf ∧ sgn = 1) ∨ (op = E.isubf ∧ sgn = -1))
    {b : Nat} {t : Vec K} {g : Nat → Int} {β : Nat → Nat → Int} (hb : b < 32)
    (hsg : sg = 1 ∨ sg = -1) (ht : m * cfg.S ≤ t.size)
    (hg : ∀ k, k < m * cfg.S → t.get k = (g k : K) * st (k % cfg.S))
    (hr : m ≤ res.size)
    (hc : ∀ i s, i < m → s < cfg.S → conv1 E cfg c.adc ((g (i * cfg.S + s) : K) * st s)
      (sg * (2 ^ (c.shift.get s + b) / st s)) 0 l = .ok (β i s : K))
    (hB : ∀ i, i < m → |res.get i| + ∑ s ∈ range cfg.S, |β i s| ≤ B)
    (hI : ∀ i, i < m → |res.get i| + ∑ s ∈ range cfg.S, |β i s| ≤ 2147483647) :
    accG op m cfg.S (intConv E cfg c t sg b l) res
      = .ok (res.over m fun i => res.get i + sgn * ∑ s ∈ range cfg.S, β i s) := by
  refine accG_ok (fun i k => res.get i + sgn * ∑ s ∈ range k, β i s) hr (fun i _ => by simp) ?_
  intro i k hi hk
  have hlt := blk_lt hi hk
  have bnd : ∀ k, k ≤ cfg.S → |res.get i + sgn * ∑ s ∈ range k, β i s|
      ≤ |res.get i| + ∑ s ∈ range cfg.S, |β i s| := fun k hk => by
    have h1 : |∑ s ∈ range k, β i s| ≤ ∑ s ∈ range cfg.S, |β i s| := (abs_sum_le_sum_abs _ _).trans
      (sum_le_sum_of_subset_of_nonneg (range_mono hk) fun _ _ _ => abs_nonneg _)
    have h2 := abs_add_le (res.get i) (sgn * ∑ s ∈ range k, β i s)
    have h3 : |sgn| = 1 := by rcases hop with ⟨_, e⟩ | ⟨_, e⟩ <;> rw [e] <;> rfl
    rw [abs_mul, h3, one_mul] at h2
    omega
  have e1 := bnd k hk.le
  have e2 := bnd (k + 1) hk
  have e3 := hB i hi
  have e4 := hI i hi
  have hshs := H.shs; have hsts := H.sts
  unfold intConv
  rw [Vec.rd_ok (by omega), ok_bind, Vec.rd_ok (by omega), ok_bind, Vec.rd_ok (by omega), ok_bind, H.st k hk]
  simp only [useField]
  rw [ok_bind, H.scale hk hb hsg, ok_bind, hg _ hlt, blk_mod hk, hc i k hi hk, ok_bind]
  rcases hop with ⟨ho, hs⟩ | ⟨ho, hs⟩ <;> rw [ho, hs] <;> rw [hs, sum_range_succ] at e2 <;> rw [hs] at e1
  · have e : res.get i + 1 * (∑ s ∈ range k, β i s + β i k) = res.get i + 1 * ∑ s ∈ range k, β i s + β i k := by
      ring
    rw [H.F.out.iaddf (by omega) (by rw [← e]; omega) (inI32_of_abs (by rw [← e]; omega)), sum_range_succ, e]
  · have e : res.get i + -1 * (∑ s ∈ range k, β i s + β i k) = res.get i + -1 * ∑ s ∈ range k, β i s - β i k := by
      ring
    rw [H.F.out.isubf (by omega) (by rw [← e]; omega) (inI32_of_abs (by rw [← e]; omega)), sum_range_succ, e]

omit H in
theorem fill_of_over {t : Vec K} {T : Nat} {f : Nat → K} (h : T ≤ t.size) :
    ((t.fill 0).over T f).fill 0 = t.fill 0 := by
  refine Vec.ext' (by rfl) fun k => ?_
  simp only [Vec.over, Vec.fill]
  by_cases hk : k < t.size
  · simp [hk]
  · simp [hk, show ¬ k < T by omega]

/-- All bits of an input vector. -/
theorem bitsLoop {sl : Vec Int} {t0 : Vec K} {β : Nat → Nat → Nat → Int} (hN : N ≤ 32)
    (hv : n ≤ v.size) (hsl : n ≤ sl.size) (ht : m * cfg.S ≤ t0.size) (hr : m ≤ res.size)
    (hd : ∀ t j, t < m * cfg.S → j < n →
      E.fsub (c.ia.p.get t j) (c.ia.m.get t j) = (D t j : K) * st (t % cfg.S))
    (hsg : sg = 1 ∨ sg = -1) (hB1 : 1 ≤ B)
    (hD : ∀ t, t < m * cfg.S → ∑ j ∈ range n, |D t j| ≤ B)
    (hc : ∀ b i s, b < N → i < m → s < cfg.S →
      conv1 E cfg c.adc (((∑ j ∈ range n, D (i * cfg.S + s) j * bitOf (v.get j) b : Int) : K) * st s)
        (sg * (2 ^ (c.shift.get s + b) / st s)) 0 l = .ok (β b i s : K))
    (hB : ∀ i, i < m → |res.get i| + ∑ b ∈ range N, ∑ s ∈ range cfg.S, |β b i s| ≤ B)
    (hI : ∀ i, i < m → |res.get i| + ∑ b ∈ range N, ∑ s ∈ range cfg.S, |β b i s| ≤ 2147483647) :
    ∃ sl', loop N (intBit E cfg c v sg m n l) (sl, t0.fill 0, res)
      = .ok (sl', t0.fill 0, res.over m fun i => res.get i + ∑ b ∈ range N, ∑ s ∈ range cfg.S, β b i s) ∧
      n ≤ sl'.size := by
  have key : Sat (fun _ => False) (loop N (intBit E cfg c v sg m n l) (sl, t0.fill 0, res))
      fun r => n ≤ r.1.size ∧ r.2.1 = t0.fill 0 ∧
        r.2.2 = res.over m fun i => res.get i + ∑ b ∈ range N, ∑ s ∈ range cfg.S, β b i s := by
    refine Sat.loopI (P := fun k (r : Vec Int × Vec K × Vec Int) => n ≤ r.1.size ∧ r.2.1 = t0.fill 0 ∧
        r.2.2 = res.over m fun i => res.get i + ∑ b ∈ range k, ∑ s ∈ range cfg.S, β b i s) ?_ ?_
    · refine ⟨hsl, rfl, ?_⟩
      refine Vec.ext' (by rfl) fun k => ?_
      simp [Vec.over]
    · rintro b hb ⟨s1, s2, s3⟩ ⟨h1, h2, h3⟩
      dsimp only at h1 h2 h3
      subst h2 h3
      have bnd : ∀ i, i < m → |res.get i + ∑ b' ∈ range b, ∑ s ∈ range cfg.S, β b' i s|
          + ∑ s ∈ range cfg.S, |β b i s| ≤ |res.get i| + ∑ b ∈ range N, ∑ s ∈ range cfg.S, |β b i s| := by
        intro i hi
        have e1 := abs_add_le (res.get i) (∑ b' ∈ range b, ∑ s ∈ range cfg.S, β b' i s)
        have e2 : |∑ b' ∈ range b, ∑ s ∈ range cfg.S, β b' i s|
            ≤ ∑ b' ∈ range b, ∑ s ∈ range cfg.S, |β b' i s| :=
          (abs_sum_le_sum_abs _ _).trans (sum_le_sum fun _ _ => abs_sum_le_sum_abs _ _)
        have e3 : ∑ b' ∈ range (b + 1), ∑ s ∈ range cfg.S, |β b' i s|
            ≤ ∑ b ∈ range N, ∑ s ∈ range cfg.S, |β b i s| :=
          sum_le_sum_of_subset_of_nonneg (range_mono hb) fun _ _ _ => sum_nonneg fun _ _ => abs_nonneg _
        rw [sum_range_succ] at e3
        omega
      unfold intBit
      dsimp only
      rw [sliceVd_ok hv h1 (by omega), ok_bind,
        H.cols (f := fun j => bitOf (v.get j) b) h1 ht hd (fun j _ => bitOf_le _ _) hB1 (fun t ht' => by
          refine (sum_le_sum fun j _ => ?_).trans (hD t ht')
          rw [abs_mul]
          exact mul_le_of_le_one_right (abs_nonneg _) (bitOf_le _ _)), ok_bind,
        H.acc (Or.inl ⟨rfl, rfl⟩) (by omega) hsg (g := fun t => ∑ j ∈ range n, D t j * bitOf (v.get j) b)
          (t := (t0.fill 0).over (m * cfg.S) _) (res := res.over m _) ht (fun k hk => Vec.over_lt hk) hr
          (fun i s hi hs => hc b i s hb hi hs)
          (fun i hi => by rw [Vec.over_lt hi]; exact (bnd i hi).trans (hB i hi))
          (fun i hi => by rw [Vec.over_lt hi]; exact (bnd i hi).trans (hI i hi)), ok_bind]
      refine ⟨h1, fill_of_over ht, ?_⟩
      dsimp only
      rw [over_set]
      refine Vec.ext' (by rfl) fun k => ?_
      simp only [Vec.over]
      split
      · next hk => rw [sum_range_succ, one_mul, add_assoc]
      · rfl
  rcases key.elim with ⟨⟨s1, s2, s3⟩, h1, h2, h3, h4⟩ | ⟨e, _, h⟩
  · dsimp only at h2 h3 h4
    subst h3 h4
    exact ⟨s1, h1, h2⟩
  · exact h.elim

omit H in
theorem encCopy_ok {vp : Vec Int} (hv : n ≤ vec.size) (hp : n ≤ vp.size) :
    encCopy n vec vp = .ok (vp.over n vec.get) := by
  unfold encCopy
  exact setG_ok _ hp fun j hj => Vec.rd_ok (by omega)

/-- Hypotheses on the converted values `β` of the bits of `v`. -/
structure Bits (E : Env K) (cfg : Cfg K) (c : Core K) (st : Nat → K) (D : Nat → Nat → Int) (v : Nat → Int) (sg : K)
    (m n N : Nat) (l : String) (β : Nat → Nat → Nat → Int) : Prop where
  conv : ∀ b i s, b < N → i < m → s < cfg.S →
      conv1 E cfg c.adc (((∑ j ∈ range n, D (i * cfg.S + s) j * bitOf (v j) b : Int) : K) * st s)
        (sg * (2 ^ (c.shift.get s + b) / st s)) 0 l = .ok (β b i s : K)

omit H in
theorem Bits.over {v : Vec Int} {f : Nat → Int} {β : Nat → Nat → Nat → Int}
    (h : Bits E cfg c st D f sg m n N l β) :
    Bits E cfg c st D (v.over n f).get sg m n N l β where
  conv b i s hb hi hs := by
    rw [← h.conv b i s hb hi hs, sum_congr rfl fun j hj => by rw [Vec.over_lt (mem_range.1 hj)]]

/-- What the cells must provide. -/
structure Diff (E : Env K) (cfg : Cfg K) (c : Core K) (st : Nat → K) (D : Nat → Nat → Int) (m n : Nat) (B : Int) :
    Prop where
  diff : ∀ t j, t < m * cfg.S → j < n →
      E.fsub (c.ia.p.get t j) (c.ia.m.get t j) = (D t j : K) * st (t % cfg.S)
  one : 1 ≤ B
  le : ∀ t, t < m * cfg.S → ∑ j ∈ range n, |D t j| ≤ B

variable (X : Diff E cfg c st D m n B) (hv : n ≤ vec.size) (hr : m ≤ res.size)
include X hv hr

theorem intI {β γ : Nat → Nat → Nat → Int} (hN : 1 ≤ cfg.iBit) (hN' : cfg.iBit ≤ 32)
    (hx : ∀ j, j < n → InI32 (-vec.get j))
    (h1 : Bits E cfg c st D (fun j => if 0 ≤ vec.get j then vec.get j else 0) 1 m n (cfg.iBit - 1) l β)
    (h2 : Bits E cfg c st D (fun j => if 0 ≤ vec.get j then 0 else -vec.get j) (-1) m n cfg.iBit l γ)
    (hB : ∀ i, i < m → |res.get i| + ∑ b ∈ range (cfg.iBit - 1), ∑ s ∈ range cfg.S, |β b i s|
      + ∑ b ∈ range cfg.iBit, ∑ s ∈ range cfg.S, |γ b i s| ≤ B)
    (hI : ∀ i, i < m → |res.get i| + ∑ b ∈ range (cfg.iBit - 1), ∑ s ∈ range cfg.S, |β b i s|
      + ∑ b ∈ range cfg.iBit, ∑ s ∈ range cfg.S, |γ b i s| ≤ 2147483647) :
    ∃ a', aMvmIntI E cfg c a res vec m n l = .ok (a', res.over m fun i =>
      res.get i + ∑ b ∈ range (cfg.iBit - 1), ∑ s ∈ range cfg.S, β b i s
        + ∑ b ∈ range cfg.iBit, ∑ s ∈ range cfg.S, γ b i s) := by
  unfold aMvmIntI
  rw [encSigned_ok hv H.vdP H.vdM hx, ok_bind, u32sub_one hN]
  have n2 : ∀ i, 0 ≤ ∑ b ∈ range cfg.iBit, ∑ s ∈ range cfg.S, |γ b i s| := fun i =>
    sum_nonneg fun _ _ => sum_nonneg fun _ _ => abs_nonneg _
  obtain ⟨sl, e, hsl⟩ := H.bitsLoop (sl := a.vdSlice) (v := a.vdP.over n _) (res := res) (l := l) (sg := 1)
    (by omega) H.vdP H.vdS H.tmpFp hr X.diff (Or.inl rfl) X.one X.le h1.over.conv
    (fun i hi => by have := hB i hi; have := n2 i; omega) (fun i hi => by have := hI i hi; have := n2 i; omega)
  rw [e, ok_bind]
  have key : ∀ i, i < m → |(res.over m fun i => res.get i + ∑ b ∈ range (cfg.iBit - 1), ∑ s ∈ range cfg.S, β b i s).get i|
      + ∑ b ∈ range cfg.iBit, ∑ s ∈ range cfg.S, |γ b i s|
      ≤ |res.get i| + ∑ b ∈ range (cfg.iBit - 1), ∑ s ∈ range cfg.S, |β b i s|
      + ∑ b ∈ range cfg.iBit, ∑ s ∈ range cfg.S, |γ b i s| := fun i hi => by
    rw [Vec.over_lt hi]
    have e1 := abs_add_le (res.get i) (∑ b ∈ range (cfg.iBit - 1), ∑ s ∈ range cfg.S, β b i s)
    have e2 : |∑ b ∈ range (cfg.iBit - 1), ∑ s ∈ range cfg.S, β b i s|
        ≤ ∑ b ∈ range (cfg.iBit - 1), ∑ s ∈ range cfg.S, |β b i s| :=
      (abs_sum_le_sum_abs _ _).trans (sum_le_sum fun _ _ => abs_sum_le_sum_abs _ _)
    omega
  obtain ⟨sl', e', -⟩ := H.bitsLoop (sl := sl) (v := a.vdM.over n _) (res := res.over m _) (l := l) (sg := -1)
    hN' H.vdM hsl H.tmpFp hr X.diff (Or.inr rfl) X.one X.le h2.over.conv
    (fun i hi => (key i hi).trans (hB i hi)) (fun i hi => (key i hi).trans (hI i hi))
  rw [e', ok_bind, over_set]
  refine ⟨_, congrArg _ (congrArg _ ?_)⟩
  refine Vec.ext' (by rfl) fun k => ?_
  simp only [Vec.over]
  split
  · rfl
  · rfl

theorem intIV {β : Nat → Nat → Nat → Int} (hN' : cfg.iBit ≤ 32)
    (h1 : Bits E cfg c st D vec.get 1 m n cfg.iBit l β)
    (hB : ∀ i, i < m → |res.get i| + ∑ b ∈ range cfg.iBit, ∑ s ∈ range cfg.S, |β b i s| ≤ B)
    (hI : ∀ i, i < m → |res.get i| + ∑ b ∈ range cfg.iBit, ∑ s ∈ range cfg.S, |β b i s| ≤ 2147483647) :
    ∃ a', aMvmIntIV E cfg c a res vec m n l = .ok (a', res.over m fun i =>
      res.get i + ∑ b ∈ range cfg.iBit, ∑ s ∈ range cfg.S, β b i s) := by
  unfold aMvmIntIV
  rw [encCopy_ok hv H.vdP, ok_bind]
  obtain ⟨sl, e, hsl⟩ := H.bitsLoop (sl := a.vdSlice) (v := a.vdP.over n _) (res := res) (l := l) (sg := 1)
    hN' H.vdP H.vdS H.tmpFp hr X.diff (Or.inl rfl) X.one X.le h1.over.conv hB hI
  rw [e, ok_bind]
  exact ⟨_, rfl⟩

theorem intII {β : Nat → Nat → Nat → Int} (hs : E.strict = false) (hN : 1 ≤ cfg.iBit) (hN' : cfg.iBit ≤ 31)
    (hx : ∀ j, j < n → InI32 (2 ^ (cfg.iBit - 1) + vec.get j))
    (h1 : Bits E cfg c st D (fun j => 2 ^ (cfg.iBit - 1) + vec.get j) 1 m n (cfg.iBit + 1) l β)
    (hB : ∀ i, i < m → |res.get i| + ∑ b ∈ range (cfg.iBit + 1), ∑ s ∈ range cfg.S, |β b i s| ≤ B)
    (hI : ∀ i, i < m → |res.get i| + ∑ b ∈ range (cfg.iBit + 1), ∑ s ∈ range cfg.S, |β b i s| ≤ 2147483647)
    (hS : ∀ i, i < m → InI32 (c.gd.sumW.get i * 2 ^ (cfg.iBit - 1)))
    (hR : ∀ i, i < m → InI32 (res.get i + ∑ b ∈ range (cfg.iBit + 1), ∑ s ∈ range cfg.S, β b i s
        - c.gd.sumW.get i * 2 ^ (cfg.iBit - 1))) :
    ∃ a', aMvmIntII E cfg c a res vec m n l = .ok (a', res.over m fun i =>
      res.get i + ∑ b ∈ range (cfg.iBit + 1), ∑ s ∈ range cfg.S, β b i s
        - c.gd.sumW.get i * 2 ^ (cfg.iBit - 1)) := by
  unfold aMvmIntII
  rw [encOffs_ok hN hN' hv H.vdP hx, ok_bind, show u32succ cfg.iBit = cfg.iBit + 1 by unfold u32succ; omega]
  obtain ⟨sl, e, hsl⟩ := H.bitsLoop (sl := a.vdSlice) (v := a.vdP.over n _) (res := res) (l := l) (sg := 1)
    (by omega) H.vdP H.vdS H.tmpFp hr X.diff (Or.inl rfl) X.one X.le h1.over.conv hB hI
  rw [e, ok_bind]
  have hsw := H.sw
  dsimp only
  rw [rowLoop_ok (v := res.over m _) (fun i => res.get i + ∑ b ∈ range (cfg.iBit + 1), ∑ s ∈ range cfg.S, β b i s
        - c.gd.sumW.get i * 2 ^ (cfg.iBit - 1)), ok_bind]
  · exact ⟨_, congrArg _ (congrArg _ over_set)⟩
  · intro i hi r hrs hri
    rw [Vec.over_lt hi] at hri
    unfold sumShift
    rw [Vec.rd_ok (by omega), ok_bind, u32sub_one hN,
      shlI_ok (by omega) (hS i hi) (by simp [hs]), ok_bind]
    refine updAt_set (by rw [hrs]; simp only [Vec.over]; omega) ?_
    rw [hri, subI_ok (hR i hi)]

theorem intIII {β : Nat → Nat → Nat → Int} (hN : 1 ≤ cfg.iBit) (hN' : cfg.iBit ≤ 32)
    (h1 : Bits E cfg c st D vec.get 1 m n cfg.iBit l β)
    (hB : ∀ i, i < m → |res.get i| + ∑ b ∈ range cfg.iBit, ∑ s ∈ range cfg.S, |β b i s| ≤ B)
    (hI : ∀ i, i < m → |res.get i| + ∑ b ∈ range cfg.iBit, ∑ s ∈ range cfg.S, |β b i s| ≤ 2147483647) :
    ∃ a', aMvmIntIII E cfg c a res vec m n l = .ok (a', res.over m fun i =>
      res.get i + ∑ b ∈ range (cfg.iBit - 1), ∑ s ∈ range cfg.S, β b i s
        - ∑ s ∈ range cfg.S, β (cfg.iBit - 1) i s) := by
  unfold aMvmIntIII
  rw [encCopy_ok hv H.vdP, ok_bind, u32sub_one hN]
  have key : ∀ i, |res.get i| + ∑ b ∈ range cfg.iBit, ∑ s ∈ range cfg.S, |β b i s|
      = |res.get i| + ∑ b ∈ range (cfg.iBit - 1), ∑ s ∈ range cfg.S, |β b i s|
        + ∑ s ∈ range cfg.S, |β (cfg.iBit - 1) i s| := fun i => by
    obtain ⟨k, hk⟩ : ∃ k, cfg.iBit = k + 1 := ⟨cfg.iBit - 1, by omega⟩
    rw [hk, sum_range_succ, Nat.add_sub_cancel, add_assoc]
  have n2 : ∀ i, 0 ≤ ∑ s ∈ range cfg.S, |β (cfg.iBit - 1) i s| := fun i => sum_nonneg fun _ _ => abs_nonneg _
  have hconv := h1.over (v := a.vdP)
  obtain ⟨sl, e, hsl⟩ := H.bitsLoop (N := cfg.iBit - 1) (sl := a.vdSlice) (v := a.vdP.over n _) (res := res) (l := l)
    (sg := 1) (by omega) H.vdP H.vdS H.tmpFp hr X.diff (Or.inl rfl) X.one X.le
    (fun b i s hb => hconv.conv b i s (by omega))
    (fun i hi => by have := hB i hi; rw [key] at this; have := n2 i; omega)
    (fun i hi => by have := hI i hi; rw [key] at this; have := n2 i; omega)
  rw [e, ok_bind]
  dsimp only
  have bnd : ∀ i, i < m → |(res.over m fun i => res.get i + ∑ b ∈ range (cfg.iBit - 1), ∑ s ∈ range cfg.S, β b i s).get i|
      + ∑ s ∈ range cfg.S, |β (cfg.iBit - 1) i s| ≤ |res.get i| + ∑ b ∈ range cfg.iBit, ∑ s ∈ range cfg.S, |β b i s| := by
    intro i hi
    rw [Vec.over_lt hi, key]
    have e1 := abs_add_le (res.get i) (∑ b ∈ range (cfg.iBit - 1), ∑ s ∈ range cfg.S, β b i s)
    have e2 : |∑ b ∈ range (cfg.iBit - 1), ∑ s ∈ range cfg.S, β b i s|
        ≤ ∑ b ∈ range (cfg.iBit - 1), ∑ s ∈ range cfg.S, |β b i s| :=
      (abs_sum_le_sum_abs _ _).trans (sum_le_sum fun _ _ => abs_sum_le_sum_abs _ _)
    omega
  rw [sliceVd_ok (by exact H.vdP) hsl (by omega), ok_bind,
    H.cols (f := fun j => bitOf ((a.vdP.over n vec.get).get j) (cfg.iBit - 1)) hsl H.tmpFp X.diff
      (fun j _ => bitOf_le _ _) X.one (fun t ht' => by
        refine (sum_le_sum fun j _ => ?_).trans (X.le t ht')
        rw [abs_mul]
        exact mul_le_of_le_one_right (abs_nonneg _) (bitOf_le _ _)), ok_bind,
    H.acc (Or.inr ⟨rfl, rfl⟩) (by omega) (Or.inl rfl)
      (g := fun t => ∑ j ∈ range n, D t j * bitOf ((a.vdP.over n vec.get).get j) (cfg.iBit - 1))
      (t := (a.tmpFp.fill 0).over (m * cfg.S) _) (res := res.over m _) H.tmpFp (fun k hk => Vec.over_lt hk) hr
      (fun i s hi hs => hconv.conv _ i s (by omega) hi hs)
      (fun i hi => (bnd i hi).trans (hB i hi)) (fun i hi => (bnd i hi).trans (hI i hi)), ok_bind, over_set]
  refine ⟨_, congrArg _ (congrArg _ ?_)⟩
  refine Vec.ext' (by rfl) fun k => ?_
  simp only [Vec.over]
  split
  · ring
  · rfl

end IntHyp

namespace IntHyp
variable (H : IntHyp E cfg c a st m n B) (hE : ExactArith E)
include H hE

theorem colsV {f : Nat → Int} {sl : Vec Int} {t0 : Vec K} (hsl : n ≤ sl.size) (ht : m * cfg.S ≤ t0.size) :
    intCurrents E cfg c (iaTerm E c.ia.p (sl.over n f)) (sl.over n f) (t0.fill 0) m n
      = .ok ((t0.fill 0).over (m * cfg.S) fun t => ∑ j ∈ range n, c.ia.p.get t j * (f j : K)) := by
  unfold intCurrents
  rw [H.par, if_neg (by simp)]
  have hp := H.pr; have hp' := H.pc
  refine accG_ok (fun t k => ∑ j ∈ range k, c.ia.p.get t j * (f j : K)) ht ?_ ?_
  · intro t ht'
    rw [Vec.fill_get (by omega)]; simp
  · intro t k ht' hk
    unfold iaTerm faddC
    rw [Mat.rd_ok (by omega) (by omega), ok_bind, over_rd hsl hk, ok_bind, ok_bind]
    unfold Env.fadd Env.fmul Env.ofInt
    rw [hE.f32, hE.f32, hE.f32, sum_range_succ]

theorem accV {b : Nat} {t : Vec K} {rf : Vec K} {κ : Nat → Nat → K} (hb : b < 32) (ht : m * cfg.S ≤ t.size)
    (hr : m ≤ rf.size)
    (hc : ∀ i s, i < m → s < cfg.S → conv1 E cfg c.adc (t.get (i * cfg.S + s))
      (2 ^ (c.shift.get s + b) / st s) 0 l = .ok (κ i s)) :
    accG (faddC E) m cfg.S (intConv E cfg c t 1 b l) rf
      = .ok (rf.over m fun i => rf.get i + ∑ s ∈ range cfg.S, κ i s) := by
  refine accG_ok (fun i k => rf.get i + ∑ s ∈ range k, κ i s) hr (fun i _ => by simp) ?_
  intro i k hi hk
  have hlt := blk_lt hi hk
  have hshs := H.shs; have hsts := H.sts
  unfold intConv faddC
  rw [Vec.rd_ok (by omega), ok_bind, Vec.rd_ok (by omega), ok_bind, Vec.rd_ok (by omega), ok_bind, H.st k hk]
  simp only [useField]
  rw [ok_bind, H.scale hk hb (Or.inl rfl), ok_bind, one_mul, hc i k hi hk, ok_bind]
  unfold Env.fadd
  rw [hE.f32, sum_range_succ, add_assoc]

theorem bitsLoopV {sl : Vec Int} {t0 rf : Vec K} {κ : Nat → Nat → Nat → K} (hN : N ≤ 32)
    (hv : n ≤ v.size) (hsl : n ≤ sl.size) (ht : m * cfg.S ≤ t0.size) (hr : m ≤ rf.size)
    (hc : ∀ b i s, b < N → i < m → s < cfg.S →
      conv1 E cfg c.adc (∑ j ∈ range n, c.ia.p.get (i * cfg.S + s) j * (bitOf (v.get j) b : K))
        (2 ^ (c.shift.get s + b) / st s) 0 l = .ok (κ b i s)) :
    ∃ sl', loop N (intBitV E cfg c v m n l) (sl, t0.fill 0, rf)
      = .ok (sl', t0.fill 0, rf.over m fun i => rf.get i + ∑ b ∈ range N, ∑ s ∈ range cfg.S, κ b i s) := by
  have key : Sat (fun _ => False) (loop N (intBitV E cfg c v m n l) (sl, t0.fill 0, rf))
      fun r => n ≤ r.1.size ∧ r.2.1 = t0.fill 0 ∧
        r.2.2 = rf.over m fun i => rf.get i + ∑ b ∈ range N, ∑ s ∈ range cfg.S, κ b i s := by
    refine Sat.loopI (P := fun k (r : Vec Int × Vec K × Vec K) => n ≤ r.1.size ∧ r.2.1 = t0.fill 0 ∧
        r.2.2 = rf.over m fun i => rf.get i + ∑ b ∈ range k, ∑ s ∈ range cfg.S, κ b i s) ?_ ?_
    · refine ⟨hsl, rfl, ?_⟩
      refine Vec.ext' (by rfl) fun k => ?_
      simp [Vec.over]
    · rintro b hb ⟨s1, s2, s3⟩ ⟨h1, h2, h3⟩
      dsimp only at h1 h2 h3
      subst h2 h3
      unfold intBitV
      dsimp only
      rw [sliceVd_ok hv h1 (by omega), ok_bind, H.colsV hE h1 ht, ok_bind,
        H.accV hE (κ := κ b) (by omega) (t := (t0.fill 0).over (m * cfg.S) _) (rf := rf.over m _) ht hr
          (fun i s hi hs => by rw [Vec.over_lt (blk_lt hi hs)]; exact hc b i s hb hi hs), ok_bind]
      refine ⟨h1, fill_of_over ht, ?_⟩
      dsimp only
      rw [over_set]
      refine Vec.ext' (by rfl) fun k => ?_
      simp only [Vec.over]
      split
      · next hk => rw [sum_range_succ, add_assoc]
      · rfl
  rcases key.elim with ⟨⟨s1, s2, s3⟩, h1, h2, h3, h4⟩ | ⟨e, _, h⟩
  · dsimp only at h2 h3 h4
    subst h3 h4
    exact ⟨s1, h1⟩
  · exact h.elim

/-- `MapperIntV`. -/
theorem intV {κ : Nat → Nat → Nat → K} {δ : K} (hδ : c.delta = some δ) (hv : n ≤ vec.size) (hr : m ≤ res.size)
    (hW : 1 ≤ cfg.wBit) (hW' : cfg.wBit ≤ 31) (hN' : cfg.iBit ≤ 32) (hn : n ≤ 2147483647)
    (hx : ∀ j, j < n → InI32 (vec.get j))
    (h1 : ∀ b i s, b < cfg.iBit → i < m → s < cfg.S →
      conv1 E cfg c.adc (∑ j ∈ range n, c.ia.p.get (i * cfg.S + s) j * (bitOf (vec.get j) b : K))
        (2 ^ (c.shift.get s + b) / st s) 0 l = .ok (κ b i s))
    (hI : ∀ i, i < m → |res.get i| + |roundAway (∑ b ∈ range cfg.iBit, ∑ s ∈ range cfg.S, κ b i s
        - ((∑ j ∈ range n, vec.get j : Int) : K) * (δ + 2 ^ (cfg.wBit - 1)))| ≤ 2147483647) :
    ∃ a', aMvmIntV E cfg c a res vec m n l = .ok (a', res.over m fun i => res.get i +
      roundAway (∑ b ∈ range cfg.iBit, ∑ s ∈ range cfg.S, κ b i s
        - ((∑ j ∈ range n, vec.get j : Int) : K) * (δ + 2 ^ (cfg.wBit - 1)))) := by
  unfold aMvmIntV
  rw [encCopy_ok hv H.vdP, ok_bind, inpSum_ok hv hn hx, ok_bind]
  obtain ⟨sl, e⟩ := H.bitsLoopV hE (l := l) (sl := a.vdSlice) (v := a.vdP.over n vec.get) (rf := a.resFp.fill 0)
    (N := cfg.iBit) (t0 := a.tmpFp) (κ := κ) hN' H.vdP H.vdS H.tmpFp H.resFp (fun b i s hb hi hs => by
      rw [← h1 b i s hb hi hs, sum_congr rfl fun j hj => by rw [Vec.over_lt (mem_range.1 hj)]])
  rw [e, ok_bind]
  dsimp only
  set y : Nat → K := fun i => ∑ b ∈ range cfg.iBit, ∑ s ∈ range cfg.S, κ b i s
        - ((∑ j ∈ range n, vec.get j : Int) : K) * (δ + 2 ^ (cfg.wBit - 1)) with hy
  have hrf := H.resFp
  have key : Sat (fun _ => False) (loop m (fun i (st : Vec K × Vec Int) => do
    let d ← useField c.delta
    let o ← shlI E.strict 1 (u32sub cfg.wBit 1)
    let f ← updAt st.1 i (fun x => .ok (E.fsub x (E.fmul (E.ofInt (∑ j ∈ range n, vec.get j)) (E.fadd d (E.ofInt o)))))
    let y ← f.rd i
    let z ← toI32 ((roundAway y : Int) : K)
    let res ← updAt st.2 i (fun x => addI x z)
    .ok (f, res)) ((a.resFp.fill 0).over m fun i => (a.resFp.fill 0).get i + ∑ b ∈ range cfg.iBit, ∑ s ∈ range cfg.S, κ b i s, res))
      fun r => r.1.size = a.resFp.size ∧ (∀ i, i < m → m ≤ i → r.1.get i = ∑ b ∈ range cfg.iBit, ∑ s ∈ range cfg.S, κ b i s) ∧
        r.2 = res.over m fun i => res.get i + roundAway (y i) := by
    refine Sat.loopI (P := fun k (r : Vec K × Vec Int) => r.1.size = a.resFp.size ∧
        (∀ i, i < m → k ≤ i → r.1.get i = ∑ b ∈ range cfg.iBit, ∑ s ∈ range cfg.S, κ b i s) ∧
        r.2 = res.over k fun i => res.get i + roundAway (y i)) ?_ ?_
    · refine ⟨rfl, fun i hi _ => ?_, ?_⟩
      · rw [Vec.over_lt hi, Vec.fill_get (by omega), zero_add]
      · rw [Vec.over_zero]
    · rintro i hi ⟨s1, s2⟩ ⟨h1, h2, h3⟩
      dsimp only at h1 h2 h3 ⊢
      subst h3
      rw [hδ]
      simp only [useField]
      rw [ok_bind, u32sub_one hW, shl_one (by omega), ok_bind]
      unfold Env.fsub Env.fmul Env.fadd Env.ofInt
      simp only [hE.f32]
      rw [updAt_set (x := y i) (by omega) (by
        rw [h2 i hi le_rfl, hy]; push_cast; rfl), ok_bind, Vec.rd_ok (by rw [Vec.set_size]; omega), ok_bind, Vec.set_get]
      have hb := hI i hi
      have n0 := abs_nonneg (res.get i)
      rw [toI32_int (inI32_of_abs (by rw [hy]; dsimp only; linarith)), ok_bind,
        updAt_set (x := res.get i + roundAway (y i)) (by simp only [Vec.over]; omega) (by
          rw [Vec.over_ge le_rfl, addI_ok (inI32_of_abs (by
            have := abs_add_le (res.get i) (roundAway (y i))
            rw [hy] at this ⊢; dsimp only at this ⊢; linarith))]), ok_bind]
      refine ⟨by simpa using h1, fun k hk hk' => ?_, ?_⟩
      · dsimp only
        rw [← h2 k hk (by omega)]
        simp only [Vec.set]
        rw [if_neg (by omega)]
      · dsimp only
        refine Vec.ext' (by rfl) fun k => ?_
        simp only [Vec.set, Vec.over]
        rcases lt_trichotomy k i with h | h | h
        · rw [if_neg (by omega), if_pos h, if_pos (by omega)]
        · subst h; rw [if_pos rfl, if_pos (by omega)]
        · rw [if_neg (by omega), if_neg (by omega), if_neg (by omega)]
  rcases key.elim with ⟨⟨s1, s2⟩, h1, h2, h3, h4⟩ | ⟨e, _, h⟩
  · rw [h1, ok_bind]
    dsimp only at h4
    exact ⟨_, by rw [h4]⟩
  · exact h.elim

end IntHyp

end

end Acs
