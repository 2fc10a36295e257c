import Verif.Lemmas.FlIntXbar

/-!
# Results of integer mappings in floating point
-/

set_option linter.unusedSectionVars false

namespace Acs

open Finset Spec

section
variable {K : Type} [Field K] [LinearOrder K] [IsStrictOrderedRing K] [FloorRing K]
variable {E : Env K} {cfg : Cfg K} {x : Xbar K} {L : Nat → Nat → Option Int} {q : Prec K}
variable {mat vec res : Vec Int} {m n : Nat} {l : String} {A lo hi ε δ θ : K} {e f : K → K}

/-- The largest states of the slices add up to the largest weight. -/
theorem slices_top (l : List Nat) (k : Nat) :
    ∑ s ∈ range k, (2 : Int) ^ shiftOf l s * (2 ^ l.getD s 0 - 1) = 2 ^ l.sum - 2 ^ (l.drop k).sum := by
  induction k with
  | zero => simp
  | succ k ih =>
    rw [sum_range_succ, ih]
    have e1 : (l.drop k).sum = l.getD k 0 + (l.drop (k + 1)).sum := by
      by_cases h : k < l.length
      · rw [List.drop_eq_getElem_cons h, List.sum_cons, List.getD_eq_getElem _ _ h]
      · rw [List.drop_of_length_le (by omega), List.drop_of_length_le (by omega), List.getD_eq_default _ _ (by omega)]
        rfl
    rw [e1, pow_add]
    unfold shiftOf
    ring

theorem slices_top_all (l : List Nat) :
    ∑ s ∈ range l.length, (2 : Int) ^ shiftOf l s * (2 ^ l.getD s 0 - 1) = 2 ^ l.sum - 1 := by
  rw [slices_top, List.drop_length]
  simp

/-- Currents of the offset mapping add up to the product and an offset. -/
theorem sum_offs {c : Core K} {st : Nat → K} {D W : Nat → Nat → Int} {P : Nat → Nat → K} {o : Int} {I : Nat}
    (hne : ∀ s, s < cfg.S → st s ≠ 0)
    (h : Enc cfg.S c.shift.get D (fun i j => W i j + o) m n) {i : Nat} (hi : i < m)
    (hp : ∀ s j, s < cfg.S → j < n → P s j = cfg.hrs + (D (i * cfg.S + s) j : K) * st s)
    (hx : ∀ j, j < n → 0 ≤ vec.get j ∧ vec.get j < 2 ^ I) :
    ∑ b ∈ range I, ∑ s ∈ range cfg.S,
        (∑ j ∈ range n, P s j * (bitOf (vec.get j) b : K)) * (2 ^ (c.shift.get s + b) / st s)
      - ((∑ j ∈ range n, vec.get j : Int) : K) * (∑ s ∈ range cfg.S, 2 ^ c.shift.get s * (cfg.hrs / st s) + o)
      = ((∑ j ∈ range n, W i j * vec.get j : Int) : K) := by
  have e1 : ∀ b ∈ range I, ∀ s ∈ range cfg.S,
      (∑ j ∈ range n, P s j * (bitOf (vec.get j) b : K)) * (2 ^ (c.shift.get s + b) / st s)
      = (tgt c.shift.get cfg.S D vec.get n b i s : K)
        + (2 ^ c.shift.get s * (cfg.hrs / st s)) * ((∑ j ∈ range n, bitOf (vec.get j) b * 2 ^ b : Int) : K) := by
    intro b _ s hs
    have hs' := mem_range.1 hs
    have hne := hne s hs'
    unfold tgt
    push_cast
    rw [mul_sum, mul_sum, sum_mul, ← sum_add_distrib]
    refine sum_congr rfl fun j hj => ?_
    rw [hp _ _ hs' (mem_range.1 hj), pow_add]
    field_simp
    ring
  rw [sum_congr rfl fun b hb => sum_congr rfl fun s hs => e1 b hb s hs]
  simp only [sum_add_distrib]
  have em : ∀ j ∈ range n, vec.get j % 2 ^ I = vec.get j := fun j hj =>
    Int.emod_eq_of_lt (hx j (mem_range.1 hj)).1 (hx j (mem_range.1 hj)).2
  have k1 := tgt_sum (v := vec.get) h hi I
  rw [sum_congr (s₁ := range n) rfl fun j hj => by rw [em j hj]] at k1
  have k1' : ∑ b ∈ range I, ∑ s ∈ range cfg.S, (tgt c.shift.get cfg.S D vec.get n b i s : K)
      = ((∑ j ∈ range n, (W i j + o) * vec.get j : Int) : K) := by
    rw [← k1]; push_cast; rfl
  have k2 : ∑ b ∈ range I, ∑ j ∈ range n, bitOf (vec.get j) b * 2 ^ b = ∑ j ∈ range n, vec.get j := by
    rw [sum_comm]
    exact sum_congr rfl fun j hj => by rw [bitOf_sum, em j hj]
  have k2' : ∑ b ∈ range I, ∑ s ∈ range cfg.S, (2 ^ c.shift.get s * (cfg.hrs / st s))
        * ((∑ j ∈ range n, bitOf (vec.get j) b * 2 ^ b : Int) : K)
      = (∑ s ∈ range cfg.S, 2 ^ c.shift.get s * (cfg.hrs / st s)) * ((∑ j ∈ range n, vec.get j : Int) : K) := by
    rw [← k2]
    push_cast
    rw [mul_sum]
    refine sum_congr rfl fun b _ => ?_
    rw [sum_mul]
  rw [k1', k2']
  have k3 : ((∑ j ∈ range n, (W i j + o) * vec.get j : Int) : K)
      = ((∑ j ∈ range n, W i j * vec.get j : Int) : K) + o * ((∑ j ∈ range n, vec.get j : Int) : K) := by
    rw [sum_congr rfl fun j _ => add_mul _ _ _, sum_add_distrib, ← mul_sum]
    push_cast; rfl
  rw [k3]
  ring

/-- The size of a sum of products. -/
theorem prod_abs {W : Nat → Int} {B C : Int} (hB : 0 ≤ B) (hW : ∀ j, j < n → |W j| ≤ B) (hx : ∀ j, j < n → |vec.get j| ≤ C) :
    |∑ j ∈ range n, W j * vec.get j| ≤ n * (B * C) := by
  refine (abs_sum_le_sum_abs _ _).trans ((sum_le_sum (g := fun _ => B * C) fun j hj => ?_).trans_eq ?_)
  · rw [abs_mul]
    exact mul_le_mul (hW j (mem_range.1 hj)) (hx j (mem_range.1 hj)) (abs_nonneg _) hB
  · simp

/-- The subtraction of the offset. -/
theorem offsOut_near (hq : Rounds E q) (hw : cfg.wBit ≤ 24) {S : Int} (hS : |S| ≤ n * 2 ^ cfg.iBit)
    (hn : (n : Int) * 2 ^ cfg.iBit ≤ 2 ^ 24) {d y : K}
    (hd : |d - weightOffset cfg| ≤ q.θ * (|weightOffset cfg| + 1)) (hy : |y| ≤ A) :
    |offsOut E d cfg.wBit S y - (y - S * (weightOffset cfg + 2 ^ (cfg.wBit - 1)))| ≤ offsetRound cfg q A n := by
  have hu := hq.pos
  have e1 : E.ofInt S = (S : K) := hq.int _ (hS.trans hn)
  have hp : (0 : K) < 2 ^ (cfg.wBit - 1) := by positivity
  have e2 : E.ofInt (2 ^ (cfg.wBit - 1)) = (2 : K) ^ (cfg.wBit - 1) := by
    have := hq.int (2 ^ (cfg.wBit - 1)) (by
      rw [abs_of_nonneg (by positivity)]
      exact pow_le_pow_right₀ (by norm_num) (by omega))
    unfold Env.ofInt
    rw [this]
    push_cast
    rfl
  have hS' : |(S : K)| ≤ inputMax cfg n := by
    unfold inputMax
    rw [← Int.cast_abs]
    have : ((|S| : Int) : K) ≤ ((n * 2 ^ cfg.iBit : Int) : K) := Int.cast_le.2 hS
    push_cast at this ⊢
    exact this
  unfold offsOut
  rw [e1, e2]
  -- the offset of a weight
  have k1 : |E.fadd d (2 ^ (cfg.wBit - 1)) - (weightOffset cfg + 2 ^ (cfg.wBit - 1))| ≤ offsetError cfg q := by
    have h1 : |d + 2 ^ (cfg.wBit - 1)| ≤ |weightOffset cfg| + q.θ * (|weightOffset cfg| + 1) + 2 ^ (cfg.wBit - 1) := by
      have h1 := abs_add_le d (2 ^ (cfg.wBit - 1))
      have h2 := near_size hd le_rfl
      rw [abs_of_pos hp] at h1
      linarith
    have h2 := hq.err (d + 2 ^ (cfg.wBit - 1))
    have h3 : |d + 2 ^ (cfg.wBit - 1) - (weightOffset cfg + 2 ^ (cfg.wBit - 1))| ≤ q.θ * (|weightOffset cfg| + 1) := by
      rw [add_sub_add_right_eq_sub]; exact hd
    have h4 := near_trans h2 h3
    have h5 := mul_le_mul_of_nonneg_left h1 hu
    unfold Env.fadd
    refine h4.trans ?_
    unfold offsetError
    linarith
  generalize E.fadd d (2 ^ (cfg.wBit - 1)) = d' at k1 ⊢
  have k2 : |d'| ≤ |weightOffset cfg| + 2 ^ (cfg.wBit - 1) + offsetError cfg q := by
    refine near_size k1 ((abs_add_le _ _).trans ?_)
    rw [abs_of_pos hp]
  have hD := (abs_nonneg _).trans k2
  have hI := (abs_nonneg _).trans hS'
  have k3 : |(S : K) * d'| ≤ offsetMax cfg q n := by
    rw [abs_mul]
    unfold offsetMax
    exact mul_le_mul hS' k2 (abs_nonneg _) hI
  have k4 : |(S : K) * d' - S * (weightOffset cfg + 2 ^ (cfg.wBit - 1))| ≤ inputMax cfg n * offsetError cfg q := by
    rw [← mul_sub, abs_mul]
    exact mul_le_mul hS' k1 (abs_nonneg _) hI
  have k5 : |E.fmul S d' - S * d'| ≤ q.u * offsetMax cfg q n + q.η := by
    have := hq.err (S * d')
    have := mul_le_mul_of_nonneg_left k3 hu
    unfold Env.fmul
    linarith
  have k6 := near_size k5 k3
  generalize E.fmul S d' = p at k5 k6 ⊢
  have k7 : |E.fsub y p - (y - p)| ≤ q.u * (A + (offsetMax cfg q n + (q.u * offsetMax cfg q n + q.η))) + q.η := by
    have h1 := hq.err (y - p)
    have h2 := mul_le_mul_of_nonneg_left ((abs_sub y p).trans (add_le_add hy k6)) hu
    unfold Env.fsub
    linarith
  have k8 : |y - p - (y - S * (weightOffset cfg + 2 ^ (cfg.wBit - 1)))| ≤ (q.u * offsetMax cfg q n + q.η)
      + inputMax cfg n * offsetError cfg q := by
    rw [sub_sub_sub_cancel_left, abs_sub_comm]
    exact near_trans k5 k4
  refine (near_trans k7 k8).trans (le_of_eq ?_)
  unfold offsetRound
  ring

/-- The factor of slice `s` and bit `b`. -/
def factor (cfg : Cfg K) (sg : K) (b s : Nat) : K :=
  sg * (2 ^ (shiftOf cfg.split s + b) * (2 ^ cfg.split.getD s 0 - 1)) / (cfg.lrs - cfg.hrs)

/-- The conversions of pairs of columns. -/
def pairs (cfg : Cfg K) (W : Nat → Nat → Int) (vec : Vec Int) (n i : Nat) (sg : K) (v : Int → Int) (N : Nat) : List (K × K) :=
  (List.range N).flatMap fun b => (List.range cfg.split.length).map fun s =>
    (∑ j ∈ range n, (nominal cfg (i * cfg.split.length + s) (encP cfg (W i j) s)
      - nominal cfg (i * cfg.split.length + s) (encM cfg (W i j) s)) * (bits (v (vec.get j)) b 1 : K), factor cfg sg b s)

theorem pairs_sum (W : Nat → Nat → Int) (vec : Vec Int) (n i : Nat) (sg : K) (v : Int → Int) (N : Nat) (g : K → K) :
    ((pairs cfg W vec n i sg v N).map fun c => g c.2).sum = ∑ b ∈ range N, ∑ s ∈ range cfg.S, g (factor cfg sg b s) := by
  unfold pairs
  rw [slices_sum]
  rfl

namespace IHyp
variable {pr : Bool} (H : IHyp E cfg pr x L res vec m n (sliceDev cfg ε q n))
include H

theorem theta (hsc : IntScale E cfg q) : 0 ≤ q.θ := by
  have h1 := hsc.step 0 (cfgOk_S_pos H.base.ok)
  have h2 := (abs_nonneg _).trans h1
  exact nonneg_of_mul_nonneg_left h2 (abs_pos.2 H.base.id.d)

/-- The offset of a weight, as computed. -/
theorem delta (hq : Rounds E q) (hsc : IntScale E cfg q) (hm : cfg.mode = .iUintWOffs) :
    x.mapper.core.delta = some (E.fmul (E.f32 (cfg.hrs / E.fsub cfg.lrs cfg.hrs)) (2 ^ cfg.wBit - 1)) := by
  have hi := H.int
  have hI := intOk H.base.ok hi
  have hc := H.base.shape.core
  have hsh : ∀ s, x.mapper.core.shift.get s = shiftOf cfg.split s := fun s =>
    hI.shift H.base.shape.core s
  have hw : (2 : Int) ^ cfg.wBit ≤ 2 ^ 24 := pow_le_pow_right₀ (by norm_num) hsc.width
  have part : ∀ k, 0 ≤ ∑ s ∈ range k, (2 : Int) ^ shiftOf cfg.split s * (2 ^ cfg.split.getD s 0 - 1) ∧
      ∑ s ∈ range k, (2 : Int) ^ shiftOf cfg.split s * (2 ^ cfg.split.getD s 0 - 1) < 2 ^ 24 := fun k => by
    refine ⟨sum_nonneg fun s _ => mul_nonneg (by positivity) ?_, ?_⟩
    · have : (1 : Int) ≤ 2 ^ cfg.split.getD s 0 := one_le_pow₀ (by norm_num)
      omega
    · rw [slices_top, hI.sum]
      have : (0 : Int) < 2 ^ (cfg.split.drop k).sum := by positivity
      omega
  have one : ∀ s, 0 ≤ (2 : Int) ^ shiftOf cfg.split s * (2 ^ cfg.split.getD s 0 - 1) ∧
      (2 : Int) ^ shiftOf cfg.split s * (2 ^ cfg.split.getD s 0 - 1) < 2 ^ 24 := fun s => by
    have h1 := part s
    have h2 := part (s + 1)
    rw [sum_range_succ] at h2
    have : (1 : Int) ≤ 2 ^ cfg.split.getD s 0 := one_le_pow₀ (by norm_num)
    have h3 : 0 ≤ (2 : Int) ^ shiftOf cfg.split s * (2 ^ cfg.split.getD s 0 - 1) :=
      mul_nonneg (by positivity) (by omega)
    omega
  have h1 := hc.delta
  unfold optDelta at h1
  rw [if_pos hm, H.base.id.analog] at h1
  simp only [Bool.false_and, Bool.false_eq_true, if_false] at h1
  unfold deltaOf at h1
  rw [loop_ok (fun k => ((∑ s ∈ range k, 2 ^ shiftOf cfg.split s * (2 ^ cfg.split.getD s 0 - 1) : Int) : K))
    (by simp)] at h1
  · rw [ok_bind, ok_inj] at h1
    change _ = x.mapper.core.delta at h1
    rw [← h1, hc.iMM, H.base.id.analog, if_neg (by decide)]
    unfold fieldDiv
    rw [if_neg hsc.window, Option.map_some]
    change some (E.fmul _ ((∑ s ∈ range cfg.split.length, _ : Int) : K)) = _
    rw [slices_top_all, hI.sum]
    push_cast
    rfl
  · intro s hs
    have h2 := hI.sp' s hs
    have h4 := shiftOf_add_le cfg.split s
    have h5 := hI.sum
    have h6 := hI.w31
    have h7 := H.base.slice hi hs
    have h8 : shiftOf cfg.split s ≤ 30 := by omega
    have e0 : (nomX cfg x).mapper.core.shift.get s = shiftOf cfg.split s := hsh s
    rw [Vec.rd_ok (by rw [hc.shift_size]; exact hs), ok_bind, e0, shl_one h8, ok_bind, maskOf_ok h2, ok_bind,
      mulI_ok, ok_bind]
    · unfold Env.fadd
      have o := one s
      rw [show E.ofInt (2 ^ shiftOf cfg.split s * (2 ^ cfg.split.getD s 0 - 1))
          = ((2 ^ shiftOf cfg.split s * (2 ^ cfg.split.getD s 0 - 1) : Int) : K) from
        hq.int _ (by rw [abs_of_nonneg o.1]; exact o.2.le), ← Int.cast_add, ← sum_range_succ,
        hq.int _ (by rw [abs_of_nonneg (part _).1]; exact (part _).2.le)]
    · have o := one s
      constructor
      · linarith [o.1]
      · have := o.2
        norm_num at this ⊢
        omega

/-- The converter and the range of currents. -/
theorem pick (hq : Rounds E q) (hsc : IntScale E cfg q) (h : IntRounds cfg l lo hi ε q A (val L) res vec m n) :
    ∃ lo' hi' e f, ConvI E cfg x.mapper.core.adc l lo' hi' (sliceDev cfg ε q n) q.θ A e f ∧
      (cfg.mode ≠ .iUintWOffs → e = stepError cfg lo hi ε q A n) ∧
      (cfg.mode = .iUintWOffs → (fun s => f s + (q.u * A + q.η)) = stepError cfg lo hi ε q A n) ∧
      ((cfg.adcType = .inf ∧ lo' = -sliceMax cfg ε n ∧ hi' = sliceMax cfg ε n) ∨
        (cfg.adcType ≠ .inf ∧ lo' = lo ∧ hi' = hi)) := by
  have hθ := H.theta hsc
  have hk : x.mapper.core.adc.kind = cfg.adcType := adc_kind H.base.shape.core.adc
  by_cases ht : cfg.adcType = .inf
  · refine ⟨_, _, _, _, convI_inf hq hθ (hk.trans ht) h.pos h.big, fun hm => ?_, fun hm => ?_, Or.inl ⟨ht, rfl, rfl⟩⟩
    · funext s
      unfold stepError
      cases hmd : cfg.mode <;> rw [ht]
      exact absurd hmd hm
    · funext s
      unfold stepError
      simp only [hm, ht]
  · obtain ⟨h1, h2, _⟩ := h.real ht
    refine ⟨_, _, _, _, convI_real hq hθ hsc.th H.base.shape.core.adc h.big h1 h2, fun hm => ?_, fun hm => ?_,
      Or.inr ⟨ht, rfl, rfl⟩⟩
    · funext s
      unfold stepError
      cases hmd : cfg.mode <;> cases hta : cfg.adcType <;> first
        | rfl
        | exact absurd hta ht
        | exact absurd hmd hm
    · funext s
      unfold stepError
      rw [hm]
      cases hta : cfg.adcType <;> first
        | rfl
        | exact absurd hta ht

/-- Conversions of pairs of columns, with the errors of the specification. -/
theorem diffs (hm : cfg.mode ≠ .iUintWOffs) {col : (Nat → Int) → Nat → K} (hn : DiffNear cfg L m n (sliceDev cfg ε q n) col)
    (hq : Rounds E q) (hsc : IntScale E cfg q) (h0 : 0 ≤ ε)
    (h : IntRounds cfg l lo hi ε q A (val L) res vec m n) {v' : Nat → Int} {N : Nat} (hN : N ≤ 32)
    {sg : Int} (hsg : sg = 1 ∨ sg = -1) (v : Int → Int) (hv : ∀ j, v (vec.get j) = v' j)
    (hr : cfg.adcType ≠ .inf → ∀ i, i < m → ∀ c ∈ pairs cfg (val L) vec n i sg v N, lo ≤ c.1 ∧ c.1 ≤ hi) :
    ConvBits E (cfg.wires pr) x.mapper.core col (stateStep E cfg) A (Int.cast : Int → K) E.iaddf v' (sg : K) m N l
        (fun b i s => sg * tgtK K x.mapper.core cfg x.mapper.core.D v' n b i s)
        (fun b s => stepError cfg lo hi ε q A n (factor cfg sg b s)) ∧
      ConvBits E (cfg.wires pr) x.mapper.core col (stateStep E cfg) A (Int.cast : Int → K) E.isubf v' (sg : K) m N l
        (fun b i s => -(sg * tgtK K x.mapper.core cfg x.mapper.core.D v' n b i s))
        (fun b s => stepError cfg lo hi ε q A n (factor cfg sg b s)) := by
  obtain ⟨lo', hi', e, f, hC, he, _, hT⟩ := H.pick hq hsc h
  rw [← he hm]
  refine H.convD hq hsc hn hC hN hsg fun i hi b s hb hs => ?_
  rcases hT with ⟨_, rfl, rfl⟩ | ⟨ht, rfl, rfl⟩
  · exact H.diff_range h0 hi hs v' b
  · have h1 := slices_mem (hr ht i hi) hb hs
    simp only [bits_one, hv] at h1
    exact h1

theorem diffsP (hm : cfg.mode ≠ .iUintWOffs) {col : (Nat → Int) → Nat → K} (hn : DiffNear cfg L m n (sliceDev cfg ε q n) col)
    (hq : Rounds E q) (hsc : IntScale E cfg q) (h0 : 0 ≤ ε)
    (h : IntRounds cfg l lo hi ε q A (val L) res vec m n) {v' : Nat → Int} {N : Nat} (hN : N ≤ 32)
    (v : Int → Int) (hv : ∀ j, v (vec.get j) = v' j)
    (hr : cfg.adcType ≠ .inf → ∀ i, i < m → ∀ c ∈ pairs cfg (val L) vec n i 1 v N, lo ≤ c.1 ∧ c.1 ≤ hi) :
    ConvBits E (cfg.wires pr) x.mapper.core col (stateStep E cfg) A (Int.cast : Int → K) E.iaddf v' 1 m N l
        (tgtK K x.mapper.core cfg x.mapper.core.D v' n) (fun b s => stepError cfg lo hi ε q A n (factor cfg 1 b s)) ∧
      ConvBits E (cfg.wires pr) x.mapper.core col (stateStep E cfg) A (Int.cast : Int → K) E.isubf v' 1 m N l
        (fun b i s => -tgtK K x.mapper.core cfg x.mapper.core.D v' n b i s)
        (fun b s => stepError cfg lo hi ε q A n (factor cfg 1 b s)) := by
  have h1 := H.diffs hm hn hq hsc h0 h hN (sg := 1) (Or.inl rfl) v hv (by rw [Int.cast_one]; exact hr)
  simp only [Int.cast_one, one_mul] at h1
  exact h1

theorem diffsM (hm : cfg.mode ≠ .iUintWOffs) {col : (Nat → Int) → Nat → K} (hn : DiffNear cfg L m n (sliceDev cfg ε q n) col)
    (hq : Rounds E q) (hsc : IntScale E cfg q) (h0 : 0 ≤ ε)
    (h : IntRounds cfg l lo hi ε q A (val L) res vec m n) {v' : Nat → Int} {N : Nat} (hN : N ≤ 32)
    (v : Int → Int) (hv : ∀ j, v (vec.get j) = v' j)
    (hr : cfg.adcType ≠ .inf → ∀ i, i < m → ∀ c ∈ pairs cfg (val L) vec n i (-1) v N, lo ≤ c.1 ∧ c.1 ≤ hi) :
    ConvBits E (cfg.wires pr) x.mapper.core col (stateStep E cfg) A (Int.cast : Int → K) E.iaddf v' (-1) m N l
        (fun b i s => -tgtK K x.mapper.core cfg x.mapper.core.D v' n b i s)
        (fun b s => stepError cfg lo hi ε q A n (factor cfg (-1) b s)) := by
  have h1 := H.diffs hm hn hq hsc h0 h hN (sg := -1) (Or.inr rfl) v hv (by rw [Int.cast_neg, Int.cast_one]; exact hr)
  simp only [Int.cast_neg, Int.cast_one, neg_mul, one_mul] at h1
  exact h1.1

/-- The room that pairs of columns need. -/
theorem room_eq {v' : Nat → Int} {N : Nat} {sg : K} (hsg : sg = 1 ∨ sg = -1) (v : Int → Int)
    (hv : ∀ j, v (vec.get j) = v' j) {i : Nat} (hi : i < m) (g : K → K) :
    ((pairs cfg (val L) vec n i sg v N).map fun c => |c.1 * c.2| + g c.2).sum
      = ∑ b ∈ range N, ∑ s ∈ range cfg.S,
        (|tgtK K x.mapper.core cfg x.mapper.core.D v' n b i s| + g (factor cfg sg b s)) := by
  unfold pairs
  rw [slices_sum]
  refine sum_congr rfl fun b _ => sum_congr rfl fun s hs => ?_
  simp only [bits_one, hv]
  congr 1
  have hs' := mem_range.1 hs
  unfold factor
  rcases hsg with rfl | rfl
  · have := H.diff_val hi hs' v' b 1
    rw [Int.cast_one, one_mul (tgt _ _ _ _ _ _ _ _)] at this
    rw [this]; rfl
  · have := H.diff_val hi hs' v' b (-1)
    rw [Int.cast_neg, Int.cast_one, neg_one_mul (tgt _ _ _ _ _ _ _ _), Int.cast_neg] at this
    rw [this, abs_neg]; rfl

/-- From one error for all rows to the error of each row. -/
theorem adds {r : C (Aux K × Vec Int)} {e : Nat → K} {z : K} (h : Within r (val L) vec res m n z)
    (he : ∀ i, i < m → e i = z) :
    ∃ a' r', r = .ok (a', r') ∧ AddsUpTo e r' res (val L) vec m n := by
  obtain ⟨a', f, e1, e2⟩ := h
  refine ⟨a', _, e1, rfl, fun i hi => ?_, fun i hi => Vec.over_ge hi⟩
  rw [Vec.over_lt hi, he i hi]
  exact e2 i hi

/-- Mappings with a pair of cells per slice. -/
theorem roundedD (hm : cfg.mode ≠ .iUintWOffs) (hgcc : cfg.mode = .iOffsWDiff → E.strict = false)
    (hq : Rounds E q) (hsc : IntScale E cfg q) (h0 : 0 ≤ ε) (h : IntRounds cfg l lo hi ε q A (val L) res vec m n) :
    ∃ a' r, aMvm E (cfg.wires pr) x.mapper.core x.mapper.aux res vec m n l = .ok (a', r) ∧
      AddsUpTo (intError cfg lo hi ε q A (val L) vec n) r res (val L) vec m n := by
  have hi' := H.int
  have HS := H.shape hq hsc
  obtain ⟨col, hD, hn⟩ := H.diff hm
  obtain ⟨henc0, hW⟩ := H.base.encD hi' hm
  have henc : Enc cfg.S x.mapper.core.shift.get x.mapper.core.D (val L) m n := henc0
  have hx := H.base.hx
  have hs := H.base.sums
  have hI' := intOk H.base.ok hi'
  have i1 := hI'.i1
  have i31 := hI'.i31
  have i32 : cfg.iBit ≤ 32 := by omega
  have hp : peak cfg n = n * 2 ^ (cfg.wBit + cfg.iBit) := by
    unfold peak
    cases hmd : cfg.mode <;> simp only [hmd] at hi' ⊢ <;> exact absurd hi' (by decide)
  have hroom := h.room
  have hint := h.int
  have hr := fun ht => (h.real ht).2.2
  rw [hp] at hint
  unfold LegalVec LegalX at hx
  unfold aMvm
  rw [show x.mapper.core.mode = cfg.mode from H.base.shape.core.mode]
  have sm : ∀ y : Int, max y 0 = if 0 ≤ y then y else 0 := fun y => by split <;> omega
  have sn : ∀ y : Int, max (-y) 0 = if 0 ≤ y then 0 else -y := fun y => by split <;> omega
  have sp : ∀ (sg : K) (v : Int → Int) (N : Nat) (i : Nat),
      ((pairs cfg (val L) vec n i sg v N).map fun c => stepError cfg lo hi ε q A n c.2).sum
        = ∑ b ∈ range N, ∑ s ∈ range cfg.S, stepError cfg lo hi ε q A n (factor cfg sg b s) := fun sg v N i =>
    pairs_sum _ _ _ _ _ _ _ _
  have key : ∀ (cs : Nat → List (K × K)), (∀ i, conversions cfg (val L) vec n i = cs i) →
      (cfg.adcType ≠ .inf → ∀ i, i < m → ∀ c ∈ cs i, lo ≤ c.1 ∧ c.1 ≤ hi) ∧
      (∀ i, i < m → |(res.get i : K)| + ((cs i).map fun c => |c.1 * c.2| + stepError cfg lo hi ε q A n c.2).sum ≤ A) ∧
      (∀ i, i < m → intError cfg lo hi ε q A (val L) vec n i = ((cs i).map fun c => stepError cfg lo hi ε q A n c.2).sum) ∧
      ∀ i, i < m → ((|res.get i| + n * 2 ^ (cfg.wBit + cfg.iBit) : Int) : K)
        + ((cs i).map fun c => stepError cfg lo hi ε q A n c.2).sum ≤ 2147483647 := fun cs hcs => by
    have e3 : ∀ i, i < m → intError cfg lo hi ε q A (val L) vec n i
        = ((cs i).map fun c => stepError cfg lo hi ε q A n c.2).sum := fun i _ => by
      unfold intError
      simp only [if_neg hm, hcs]
    refine ⟨fun ht i hi c hc => hr ht i hi c (by rw [hcs]; exact hc), fun i hi => ?_, e3, fun i hi => ?_⟩
    · have := hroom i hi
      rwa [hcs] at this
    · have := hint i hi
      rwa [e3 i hi] at this
  have tI : (cfg.mode = .iDiffWDiff1 ∨ cfg.mode = .iDiffWDiff2) →
      (∀ j, j < n → -2 ^ (cfg.iBit - 1) ≤ vec.get j ∧ vec.get j < 2 ^ (cfg.iBit - 1)) →
      ∃ a' r, aMvmIntI E (cfg.wires pr) x.mapper.core x.mapper.aux res vec m n l = .ok (a', r) ∧
        AddsUpTo (intError cfg lo hi ε q A (val L) vec n) r res (val L) vec m n := fun hmd hx => by
    obtain ⟨k1, k2, k3, _⟩ := key (fun i => pairs cfg (val L) vec n i 1 (fun y => max y 0) (cfg.iBit - 1)
      ++ pairs cfg (val L) vec n i (-1) (fun y => max (-y) 0) cfg.iBit) fun i => by
        unfold conversions
        rcases hmd with e | e <;> rw [e] <;> rfl
    simp only [List.map_append, List.sum_append, List.forall_mem_append, sp] at k1 k2 k3
    refine H.adds (HS.flI henc H.base.hv H.base.hr hD i1 i31 hx
      (H.diffsP hm hn hq hsc h0 h (by omega) (fun y => max y 0) (fun j => sm _) fun ht i hi => (k1 ht i hi).1).1
      (H.diffsM hm hn hq hsc h0 h (by omega) (fun y => max (-y) 0) (fun j => sn _) fun ht i hi => (k1 ht i hi).2)
      fun i hi => ?_) k3
    have := k2 i hi
    rwa [H.room_eq (Or.inl rfl) _ (fun j => sm _) hi, H.room_eq (Or.inr rfl) _ (fun j => sn _) hi] at this
  cases hmd : cfg.mode <;> simp only [hmd] at hx hs hm hgcc ⊢
  case iDiffWDiff1 => exact tI (Or.inl hmd) hx
  case iDiffWDiff2 => exact tI (Or.inr hmd) hx
  case iOffsWDiff =>
    have hm' : cfg.mode ≠ .iUintWOffs := by rw [hmd]; decide
    obtain ⟨k1, k2, k3, k4⟩ := key (fun i => pairs cfg (val L) vec n i 1 (fun y => y + 2 ^ (cfg.iBit - 1)) (cfg.iBit + 1))
      fun i => by unfold conversions; rw [hmd]; rfl
    simp only [sp] at k3 k4
    refine H.adds (HS.flII henc H.base.hv H.base.hr hD (hgcc trivial) i1 i31 hW (hs trivial) hx
      (H.diffsP hm' hn hq hsc h0 h (by omega) (fun y => y + 2 ^ (cfg.iBit - 1)) (fun j => add_comm _ _) k1).1
      (fun i hi => ?_) k4) k3
    have := k2 i hi
    rwa [H.room_eq (Or.inl rfl) (fun y => y + 2 ^ (cfg.iBit - 1)) (fun j => add_comm _ _) hi] at this
  case iTcWDiff =>
    have hm' : cfg.mode ≠ .iUintWOffs := by rw [hmd]; decide
    obtain ⟨k1, k2, k3, k4⟩ := key (fun i => pairs cfg (val L) vec n i 1 _root_.id cfg.iBit)
      fun i => by unfold conversions; rw [hmd]; rfl
    simp only [sp] at k3 k4
    have d := H.diffsP hm' hn hq hsc h0 h (v' := vec.get) (by omega) _root_.id (fun j => rfl) k1
    refine H.adds (HS.flIII henc H.base.hv H.base.hr hD i1 i32 hx d.1 d.2 fun i hi => ?_) k3
    have := k2 i hi
    rwa [H.room_eq (Or.inl rfl) _root_.id (fun j => rfl) hi] at this
  case iUintWDiff =>
    have hm' : cfg.mode ≠ .iUintWOffs := by rw [hmd]; decide
    obtain ⟨k1, k2, k3, k4⟩ := key (fun i => pairs cfg (val L) vec n i 1 _root_.id cfg.iBit)
      fun i => by unfold conversions; rw [hmd]; rfl
    simp only [sp] at k3 k4
    have d := H.diffsP hm' hn hq hsc h0 h (v' := vec.get) (by omega) _root_.id (fun j => rfl) k1
    refine H.adds (HS.flIV henc H.base.hv H.base.hr hD i32 hx d.1 fun i hi => ?_) k3
    have := k2 i hi
    rwa [H.room_eq (Or.inl rfl) _root_.id (fun j => rfl) hi] at this
  case iUintWOffs => exact absurd rfl hm
  all_goals (rw [hmd] at hi'; exact absurd hi' (by decide))

/-- The offset mapping. -/
theorem roundedO (hm : cfg.mode = .iUintWOffs) (hq : Rounds E q) (hsc : IntScale E cfg q) (h0 : 0 ≤ ε)
    (h : IntRounds cfg l lo hi ε q A (val L) res vec m n) :
    ∃ a' r, aMvm E (cfg.wires pr) x.mapper.core x.mapper.aux res vec m n l = .ok (a', r) ∧
      AddsUpTo (intError cfg lo hi ε q A (val L) vec n) r res (val L) vec m n := by
  have HS := H.shape hq hsc
  obtain ⟨col, hD, hn⟩ := H.one hm
  obtain ⟨henc0, hW⟩ := H.base.encO hm
  have henc : Enc cfg.S x.mapper.core.shift.get x.mapper.core.gd.p.get (fun i j => val L i j + 2 ^ (cfg.wBit - 1)) m n := henc0
  have hx := H.base.hx
  have hI' := intOk H.base.ok H.int
  have i31 := hI'.i31
  have i32 : cfg.iBit ≤ 32 := by omega
  have hd := H.base.id.d
  have hp : peak cfg n = n * 2 ^ (cfg.wBit + cfg.iBit) := by unfold peak; simp only [hm]
  have hroom := h.room
  have hint := h.int
  have hr := fun ht => (h.real ht).2.2
  rw [hp] at hint
  unfold LegalVec LegalX at hx
  simp only [hm] at hx
  have hx32 : ∀ j, j < n → InI32 (vec.get j) := fun j hj => by
    have h1 := hx j hj
    have h2 : (2 : Int) ^ cfg.iBit ≤ 2 ^ 31 := pow_le_pow_right₀ (by norm_num) i31
    constructor <;> omega
  set T : Nat → Nat → Nat → K := fun b i s =>
    ∑ j ∈ range n, nominal cfg (i * cfg.split.length + s) (encP cfg (val L i j) s) * (bitOf (vec.get j) b : K) with hT
  have hcs : ∀ i, conversions cfg (val L) vec n i
      = (List.range cfg.iBit).flatMap fun b => (List.range cfg.split.length).map fun s => (T b i s, factor cfg 1 b s) :=
    fun i => by
      unfold conversions
      simp only [hm, bits_one, id_eq]
      rfl
  have hstep : ∀ i, ((conversions cfg (val L) vec n i).map fun c => stepError cfg lo hi ε q A n c.2).sum
      = ∑ b ∈ range cfg.iBit, ∑ s ∈ range cfg.S, stepError cfg lo hi ε q A n (factor cfg 1 b s) := fun i => by
    rw [hcs, slices_sum]
    rfl
  have hrm : ∀ i, i < m → |(res.get i : K)| + ∑ b ∈ range cfg.iBit, ∑ s ∈ range cfg.S,
      (|T b i s * factor cfg 1 b s| + stepError cfg lo hi ε q A n (factor cfg 1 b s)) ≤ A := fun i hi => by
    have := hroom i hi
    rw [hcs, slices_sum] at this
    exact this
  have hbits : ConvBits E (cfg.wires pr) x.mapper.core col (stateStep E cfg) A (fun y : K => y) (faddC E)
      vec.get 1 m cfg.iBit l (fun b i s => T b i s * factor cfg 1 b s)
      (fun b s => stepError cfg lo hi ε q A n (factor cfg 1 b s)) := by
    obtain ⟨lo', hi', e, f, hC, _, hf, hR⟩ := H.pick hq hsc h
    rw [← hf hm]
    refine H.convO hq hsc hn h.pos hC (by omega) fun i hi b s hb hs => ?_
    rcases hR with ⟨_, rfl, rfl⟩ | ⟨ht, rfl, rfl⟩
    · exact H.one_range h0 hi hs vec.get b
    · have h1 := hr ht i hi
      rw [hcs] at h1
      exact slices_mem h1 hb hs
  have hdel := H.delta hq hsc hm
  have hoff := hsc.offset
  set d := E.fmul (E.f32 (cfg.hrs / E.fsub cfg.lrs cfg.hrs)) (2 ^ cfg.wBit - 1) with hdd
  -- the exact value
  have hval : ∀ i, i < m → ∑ b ∈ range cfg.iBit, ∑ s ∈ range cfg.S, T b i s * factor cfg 1 b s
      - ((∑ j ∈ range n, vec.get j : Int) : K) * (weightOffset cfg + 2 ^ (cfg.wBit - 1))
      = ((∑ j ∈ range n, val L i j * vec.get j : Int) : K) := fun i hi => by
    have hne : ∀ s, s < cfg.S → (cfg.lrs - cfg.hrs) / sliceTop cfg s ≠ 0 := fun s hs =>
      div_ne_zero hd (lt_of_lt_of_le one_pos (H.spos hs)).ne'
    have hsh : ∀ s, x.mapper.core.shift.get s = shiftOf cfg.split s := fun s => hI'.shift H.base.shape.core s
    have k := sum_offs (c := x.mapper.core) (P := fun s j => nominal cfg (i * cfg.split.length + s) (encP cfg (val L i j) s))
      hne henc hi (fun s j hs hj => by
        have hs' : (i * cfg.split.length + s) % cfg.S = s := blk_mod hs
        rw [← H.base.gdPs H.int hi hs hj, nominal_int H.int, hs']
        unfold sliceTop
        rfl) hx
    rw [← k]
    congr 1
    · refine sum_congr rfl fun b _ => sum_congr rfl fun s hs => ?_
      have hp := (lt_of_lt_of_le one_pos (H.spos (mem_range.1 hs))).ne'
      rw [hsh]
      congr 1
      unfold factor
      change 1 * (2 ^ (shiftOf cfg.split s + b) * sliceTop cfg s) / _ = _
      field_simp
    · congr 1
      push_cast
      congr 1
      have k2 := slices_top_all cfg.split
      rw [hI'.sum] at k2
      have k3 : ∑ s ∈ range cfg.split.length, (2 : K) ^ shiftOf cfg.split s * (2 ^ cfg.split.getD s 0 - 1)
          = 2 ^ cfg.wBit - 1 := by exact_mod_cast congrArg (Int.cast : Int → K) k2
      unfold weightOffset
      rw [← k3, mul_sum]
      refine sum_congr rfl fun s hs => ?_
      have hp := (lt_of_lt_of_le one_pos (H.spos (mem_range.1 hs))).ne'
      rw [hsh]
      change cfg.hrs / (cfg.lrs - cfg.hrs) * (2 ^ shiftOf cfg.split s * sliceTop cfg s) = _
      field_simp
  have hS : |∑ j ∈ range n, vec.get j| ≤ n * 2 ^ cfg.iBit := by
    have := prod_abs (vec := vec) (n := n) (W := fun _ => 1) (B := 1) (C := 2 ^ cfg.iBit) (by norm_num)
      (fun _ _ => by simp) fun j hj => by
        have := hx j hj
        rw [abs_of_nonneg this.1]
        exact this.2.le
    simpa using this
  -- the computed value
  have hnear : ∀ i, i < m → ∀ y : K, |y - ∑ b ∈ range cfg.iBit, ∑ s ∈ range cfg.S, T b i s * factor cfg 1 b s|
      ≤ ∑ b ∈ range cfg.iBit, ∑ s ∈ range cfg.S, stepError cfg lo hi ε q A n (factor cfg 1 b s) →
      |(roundAway (offsOut E d cfg.wBit (∑ j ∈ range n, vec.get j) y) : K)
        - ((∑ j ∈ range n, val L i j * vec.get j : Int) : K)| ≤ intError cfg lo hi ε q A (val L) vec n i := by
    intro i hi' y hy
    have hyA : |y| ≤ A := by
      have k1 : |∑ b ∈ range cfg.iBit, ∑ s ∈ range cfg.S, T b i s * factor cfg 1 b s|
          ≤ ∑ b ∈ range cfg.iBit, ∑ s ∈ range cfg.S, |T b i s * factor cfg 1 b s| :=
        (abs_sum_le_sum_abs _ _).trans (sum_le_sum fun _ _ => abs_sum_le_sum_abs _ _)
      have k2 := near_size hy k1
      have k3 := hrm i hi'
      simp only [sum_add_distrib] at k3
      have := abs_nonneg (res.get i : K)
      linarith
    have k1 := offsOut_near hq hsc.width hS (h.input hm) hoff hyA
    have k2 : |y - ((∑ j ∈ range n, vec.get j : Int) : K) * (weightOffset cfg + 2 ^ (cfg.wBit - 1))
        - ((∑ j ∈ range n, val L i j * vec.get j : Int) : K)|
        ≤ ∑ b ∈ range cfg.iBit, ∑ s ∈ range cfg.S, stepError cfg lo hi ε q A n (factor cfg 1 b s) := by
      rw [← hval i hi', sub_sub_sub_cancel_right]
      exact hy
    have k3 := absorb_round (near_trans k1 k2)
    unfold intError
    simp only [if_pos hm, hstep]
    rwa [add_comm (offsetRound _ _ _ _)] at k3
  obtain ⟨a', f, e1, e2⟩ := HS.flV (l := l) H.base.hv H.base.hr hD hdel hI'.w1 hI'.w31 i32 H.base.dims.2.2 hx32 hbits
    (fun i hi => (le_add_of_nonneg_left (abs_nonneg (res.get i : K))).trans (hrm i hi)) fun i hi y hy => by
        have k1 := hnear i hi y hy
        have k2 : |∑ j ∈ range n, val L i j * vec.get j| ≤ n * (2 ^ cfg.wBit * 2 ^ cfg.iBit) :=
          prod_abs (W := val L i) (by positivity) (fun j hj => hW i j hi hj) fun j hj => by
            have := hx j hj
            rw [abs_of_nonneg this.1]
            exact this.2.le
        rw [← pow_add] at k2
        have k2' : |((∑ j ∈ range n, val L i j * vec.get j : Int) : K)| ≤ ((n * 2 ^ (cfg.wBit + cfg.iBit) : Int) : K) := by
          rw [← Int.cast_abs]; exact Int.cast_le.2 k2
        have k3 := near_size k1 k2'
        have k4 := hint i hi
        generalize roundAway (offsOut E d cfg.wBit (∑ j ∈ range n, vec.get j) y) = r at k3 ⊢
        have k5 : ((|res.get i| + |r| : Int) : K) ≤ ((2147483647 : Int) : K) := by
          rw [Int.cast_add] at k4 ⊢
          rw [Int.cast_abs (a := r)]
          push_cast at k3 k4 ⊢
          linarith
        exact Int.cast_le.1 k5
  unfold aMvm
  rw [show x.mapper.core.mode = cfg.mode from H.base.shape.core.mode]
  simp only [hm]
  refine ⟨a', _, e1, rfl, fun i hi => ?_, fun i hi => Vec.over_ge hi⟩
  rw [Vec.over_lt hi]
  have := hnear i hi (f i) (e2 i hi)
  unfold prod
  rw [Int.cast_add, Int.cast_add, add_sub_add_left_eq_sub]
  exact this

/-- All integer mappings. -/
theorem rounded (hgcc : cfg.mode = .iOffsWDiff → E.strict = false) (hq : Rounds E q) (hsc : IntScale E cfg q) (h0 : 0 ≤ ε)
    (h : IntRounds cfg l lo hi ε q A (val L) res vec m n) :
    ∃ a' r, aMvm E (cfg.wires pr) x.mapper.core x.mapper.aux res vec m n l = .ok (a', r) ∧
      AddsUpTo (intError cfg lo hi ε q A (val L) vec n) r res (val L) vec m n := by
  by_cases hm : cfg.mode = .iUintWOffs
  · exact H.roundedO hm hq hsc h0 h
  · exact H.roundedD hm hgcc hq hsc h0 h

end IHyp

end

end Acs
