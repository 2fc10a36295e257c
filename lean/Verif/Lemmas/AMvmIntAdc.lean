import Verif.Lemmas.AMvmIntRes

/-!
# Integer mappings with a real converter, and the offset mapping
-/

set_option linter.unusedSectionVars false

namespace Acs

open Finset Spec

section
variable {K : Type} [Field K] [LinearOrder K] [IsStrictOrderedRing K] [FloorRing K]
variable {E : Env K} {cfg : Cfg K} {c : Core K} {a : Aux K}
variable {mat vec res : Vec Int} {m n N : Nat} {l : String} {B T : Int} {st : Nat → K} {sg lo hi : K}
variable {D W : Nat → Nat → Int} {v : Nat → Int}

/-- Scale of the conversion of slice `s` and bit `b`, times the current difference. -/
def scI (cfg : Cfg K) (c : Core K) (s b : Nat) : Int := 2 ^ (c.shift.get s + b) * (2 ^ cfg.split.getD s 0 - 1)

theorem intErr_neg (cfg : Cfg K) (lo hi : K) (s : Int) : intErr cfg lo hi (-s) = intErr cfg lo hi s := by
  unfold intErr convErr
  push_cast
  rw [neg_div, abs_neg]

theorem zOf_neg (cfg : Cfg K) (lo hi : K) (s : Int) : zOf cfg lo hi (-s) = zOf cfg lo hi s := by
  unfold zOf
  push_cast
  rw [neg_div, abs_neg]

/-- Sum of the errors of `N` bits. -/
def errI (cfg : Cfg K) (c : Core K) (lo hi : K) (N : Nat) : K :=
  ∑ b ∈ range N, ∑ s ∈ range cfg.S, intErr cfg lo hi (scI cfg c s b)

/-- Sum of the largest converted values of `N` bits. -/
def zI (cfg : Cfg K) (c : Core K) (lo hi : K) (N : Nat) : Int :=
  ∑ b ∈ range N, ∑ s ∈ range cfg.S, zOf cfg lo hi (scI cfg c s b)

/-- The current per state is that of the configuration. -/
structure StepOk (cfg : Cfg K) (st : Nat → K) : Prop where
  ne : cfg.lrs - cfg.hrs ≠ 0
  pos : ∀ s, s < cfg.S → 1 ≤ cfg.split.getD s 0
  st : ∀ s, s < cfg.S → st s = (cfg.lrs - cfg.hrs) / (2 ^ cfg.split.getD s 0 - 1)

theorem StepOk.mask (h : StepOk cfg st) {s : Nat} (hs : s < cfg.S) :
    ((2 : K) ^ cfg.split.getD s 0 - 1) ≠ 0 := by
  have h1 : (2 : K) ^ 1 ≤ 2 ^ cfg.split.getD s 0 := pow_le_pow_right₀ (by norm_num) (h.pos s hs)
  have : (0 : K) < 2 ^ cfg.split.getD s 0 - 1 := by linarith
  exact this.ne'

theorem StepOk.scale (h : StepOk cfg st) {s b : Nat} (hs : s < cfg.S) :
    (2 : K) ^ (c.shift.get s + b) / st s = (scI cfg c s b : K) / (cfg.lrs - cfg.hrs) := by
  have h1 := h.mask hs
  have h2 := h.ne
  rw [h.st s hs]
  unfold scI
  push_cast
  field_simp

theorem StepOk.st_ne (h : StepOk cfg st) {s : Nat} (hs : s < cfg.S) : st s ≠ 0 := by
  rw [h.st s hs]
  exact div_ne_zero h.ne (h.mask hs)

theorem abs_sum2_le {f : Nat → Nat → K} {g : Nat → Nat → K} {N S : Nat}
    (h : ∀ b s, b < N → s < S → |f b s| ≤ g b s) :
    |∑ b ∈ range N, ∑ s ∈ range S, f b s| ≤ ∑ b ∈ range N, ∑ s ∈ range S, g b s :=
  (abs_sum_le_sum_abs _ _).trans (sum_le_sum fun b hb => (abs_sum_le_sum_abs _ _).trans
    (sum_le_sum fun s hs => h b s (mem_range.1 hb) (mem_range.1 hs)))

/-- The bits are converted with the errors of the converter. -/
structure AdcBits (E : Env K) (cfg : Cfg K) (c : Core K) (st : Nat → K) (D : Nat → Nat → Int) (v : Nat → Int)
    (sgI : Int) (m n N : Nat) (l : String) (lo hi : K) (β : Nat → Nat → Nat → Int) : Prop where
  bits : IntHyp.Bits E cfg c st D v sgI m n N l β
  z : ∀ i, i < m → ∑ b ∈ range N, ∑ s ∈ range cfg.S, |β b i s| ≤ zI cfg c lo hi N
  err : ∀ b i s, b < N → i < m → s < cfg.S →
    |((β b i s - sgI * tgt c.shift.get cfg.S D v n b i s : Int) : K)| ≤ intErr cfg lo hi (scI cfg c s b)

theorem AdcBits.near {sgI : Int} {β : Nat → Nat → Nat → Int} (h : AdcBits E cfg c st D v sgI m n N l lo hi β)
    {i : Nat} (hi' : i < m) :
    |((∑ b ∈ range N, ∑ s ∈ range cfg.S, (β b i s - sgI * tgt c.shift.get cfg.S D v n b i s) : Int) : K)|
      ≤ errI cfg c lo hi N := by
  push_cast
  refine abs_sum2_le fun b s hb hs => ?_
  have := h.err b i s hb hi' hs
  push_cast at this
  exact this

theorem adcBits (hE : ExactArith E) (hb : mkAdc cfg = .ok c.adc) (hA : AdcOk cfg l lo hi) (hS : StepOk cfg st)
    {sgI : Int} (hsg : sgI = 1 ∨ sgI = -1)
    (hr : ∀ b i s, b < N → i < m → s < cfg.S →
      lo ≤ ((∑ j ∈ range n, D (i * cfg.S + s) j * bitOf (v j) b : Int) : K) * st s ∧
      ((∑ j ∈ range n, D (i * cfg.S + s) j * bitOf (v j) b : Int) : K) * st s ≤ hi) :
    ∃ β, AdcBits E cfg c st D v sgI m n N l lo hi β := by
  have hsc : ∀ s b, s < cfg.S → (sgI : K) * (2 ^ (c.shift.get s + b) / st s)
      = ((sgI * scI cfg c s b : Int) : K) / (cfg.lrs - cfg.hrs) := fun s b hs => by
    rw [hS.scale hs]; push_cast; ring
  have hneg : ∀ s b, intErr cfg lo hi (sgI * scI cfg c s b) = intErr cfg lo hi (scI cfg c s b) := fun s b => by
    rcases hsg with e | e <;> rw [e]
    · rw [one_mul]
    · rw [neg_one_mul, intErr_neg]
  have hneg' : ∀ s b, zOf cfg lo hi (sgI * scI cfg c s b) = zOf cfg lo hi (scI cfg c s b) := fun s b => by
    rcases hsg with e | e <;> rw [e]
    · rw [one_mul]
    · rw [neg_one_mul, zOf_neg]
  refine ⟨fun b i s => adcOut cfg lo hi (((sgI * scI cfg c s b : Int) : K) / (cfg.lrs - cfg.hrs))
    (((∑ j ∈ range n, D (i * cfg.S + s) j * bitOf (v j) b : Int) : K) * st s), ⟨fun b i s hb' hi hs => ?_⟩,
    fun i hi => ?_, fun b i s hb' hi' hs => ?_⟩
  · rw [hsc s b hs, conv1_exact hE hb hA, add_zero]; rfl
  · refine sum_le_sum fun b _ => sum_le_sum fun s _ => ?_
    rw [← hneg']
    exact adcOut_z hA _ _
  · rw [← hneg]
    push_cast
    have h1 := hr b i s hb' hi' hs
    have key := adcOut_int hA h1.1 h1.2 (s := sgI * scI cfg c s b)
      (t := sgI * tgt c.shift.get cfg.S D v n b i s) (by
        rw [← hsc s b hs]
        have := hS.st_ne hs
        unfold tgt
        push_cast
        field_simp)
    push_cast at key
    exact key

/-- A real converter for an integer mapping. -/
structure AdcHypI (E : Env K) (cfg : Cfg K) (c : Core K) (st : Nat → K) (l : String) (lo hi : K) (res : Vec Int)
    (m n : Nat) (B T : Int) : Prop where
  ex : ExactArith E
  built : mkAdc cfg = .ok c.adc
  ok : AdcOk cfg l lo hi
  step : StepOk cfg st
  big : 2147483647 ≤ B
  room : ∀ i, i < m → |res.get i| + T + n * 2 ^ (cfg.wBit + cfg.iBit) ≤ 2147483647

/-- All currents of the bits of `v` are in the range. -/
def InRI (cfg : Cfg K) (st : Nat → K) (D : Nat → Nat → Int) (v : Nat → Int) (m n N : Nat) (lo hi : K) : Prop :=
  ∀ b i s, b < N → i < m → s < cfg.S →
      lo ≤ ((∑ j ∈ range n, D (i * cfg.S + s) j * bitOf (v j) b : Int) : K) * st s ∧
      ((∑ j ∈ range n, D (i * cfg.S + s) j * bitOf (v j) b : Int) : K) * st s ≤ hi

namespace IntHyp
variable (H : IntHyp E cfg c a st m n B) (X : Diff E cfg c st D m n B) (h : Enc cfg.S c.shift.get D W m n)
  (hv : n ≤ vec.size) (hr : m ≤ res.size) (A : AdcHypI E cfg c st l lo hi res m n B T)
include H X h hv hr A

theorem adcIV (hT : zI cfg c lo hi cfg.iBit ≤ T) (hN' : cfg.iBit ≤ 32)
    (hx : ∀ j, j < n → 0 ≤ vec.get j ∧ vec.get j < 2 ^ cfg.iBit)
    (hR : InRI cfg st D vec.get m n cfg.iBit lo hi) :
    Within (aMvmIntIV E cfg c a res vec m n l) W vec res m n (errI cfg c lo hi cfg.iBit) := by
  obtain ⟨β, hβ⟩ := adcBits A.ex A.built A.ok A.step (sgI := 1) (Or.inl rfl) hR
  have hP : (0 : Int) ≤ n * 2 ^ (cfg.wBit + cfg.iBit) := by positivity
  have hb := hβ.bits
  rw [Int.cast_one] at hb
  obtain ⟨a', e⟩ := H.resIV X h hv hr hN' hx hb
    (fun i hi => by have := hβ.z i hi; have := A.room i hi; have := A.big; linarith)
    (fun i hi => by have := hβ.z i hi; have := A.room i hi; linarith)
  refine ⟨a', _, e, fun i hi => ?_⟩
  have := hβ.near hi
  simp only [one_mul] at this
  refine le_trans (le_of_eq ?_) this
  congr 1
  push_cast
  ring

theorem adcIII (hT : zI cfg c lo hi cfg.iBit ≤ T) (hN : 1 ≤ cfg.iBit) (hN' : cfg.iBit ≤ 32)
    (hx : ∀ j, j < n → -2 ^ (cfg.iBit - 1) ≤ vec.get j ∧ vec.get j < 2 ^ (cfg.iBit - 1))
    (hR : InRI cfg st D vec.get m n cfg.iBit lo hi) :
    Within (aMvmIntIII E cfg c a res vec m n l) W vec res m n (errI cfg c lo hi cfg.iBit) := by
  obtain ⟨β, hβ⟩ := adcBits A.ex A.built A.ok A.step (sgI := 1) (Or.inl rfl) hR
  have hP : (0 : Int) ≤ n * 2 ^ (cfg.wBit + cfg.iBit) := by positivity
  have hb := hβ.bits
  rw [Int.cast_one] at hb
  obtain ⟨a', e⟩ := H.resIII X h hv hr hN hN' hx hb
    (fun i hi => by have := hβ.z i hi; have := A.room i hi; have := A.big; linarith)
    (fun i hi => by have := hβ.z i hi; have := A.room i hi; linarith)
  refine ⟨a', _, e, fun i hi' => ?_⟩
  have e1 := abs_sum2_le (N := cfg.iBit - 1) (S := cfg.S)
    (f := fun b s => ((β b i s - tgt c.shift.get cfg.S D vec.get n b i s : Int) : K))
    (g := fun b s => intErr cfg lo hi (scI cfg c s b)) fun b s hb hs => by
      have := hβ.err b i s (by omega) hi' hs
      rwa [one_mul] at this
  have e2 : |∑ s ∈ range cfg.S, ((β (cfg.iBit - 1) i s - tgt c.shift.get cfg.S D vec.get n (cfg.iBit - 1) i s : Int) : K)|
      ≤ ∑ s ∈ range cfg.S, intErr cfg lo hi (scI cfg c s (cfg.iBit - 1)) :=
    (abs_sum_le_sum_abs _ _).trans (sum_le_sum fun s hs => by
      have := hβ.err (cfg.iBit - 1) i s (by omega) hi' (mem_range.1 hs)
      rwa [one_mul] at this)
  have e3 := abs_sub (∑ b ∈ range (cfg.iBit - 1), ∑ s ∈ range cfg.S,
      ((β b i s - tgt c.shift.get cfg.S D vec.get n b i s : Int) : K))
    (∑ s ∈ range cfg.S, ((β (cfg.iBit - 1) i s - tgt c.shift.get cfg.S D vec.get n (cfg.iBit - 1) i s : Int) : K))
  have e4 : errI cfg c lo hi cfg.iBit = ∑ b ∈ range (cfg.iBit - 1), ∑ s ∈ range cfg.S, intErr cfg lo hi (scI cfg c s b)
      + ∑ s ∈ range cfg.S, intErr cfg lo hi (scI cfg c s (cfg.iBit - 1)) := by
    unfold errI
    obtain ⟨k, hk⟩ : ∃ k, cfg.iBit = k + 1 := ⟨cfg.iBit - 1, by omega⟩
    rw [hk, sum_range_succ, Nat.add_sub_cancel]
  rw [e4]
  refine le_trans (le_of_eq ?_) (e3.trans (add_le_add e1 e2))
  congr 1
  push_cast
  ring

theorem adcI (hT : zI cfg c lo hi (cfg.iBit - 1) + zI cfg c lo hi cfg.iBit ≤ T) (hN : 1 ≤ cfg.iBit)
    (hN' : cfg.iBit ≤ 31)
    (hx : ∀ j, j < n → -2 ^ (cfg.iBit - 1) ≤ vec.get j ∧ vec.get j < 2 ^ (cfg.iBit - 1))
    (hR : InRI cfg st D (fun j => if 0 ≤ vec.get j then vec.get j else 0) m n (cfg.iBit - 1) lo hi)
    (hR' : InRI cfg st D (fun j => if 0 ≤ vec.get j then 0 else -vec.get j) m n cfg.iBit lo hi) :
    Within (aMvmIntI E cfg c a res vec m n l) W vec res m n
      (errI cfg c lo hi (cfg.iBit - 1) + errI cfg c lo hi cfg.iBit) := by
  obtain ⟨β, hβ⟩ := adcBits A.ex A.built A.ok A.step (sgI := 1) (Or.inl rfl) hR
  obtain ⟨γ, hγ⟩ := adcBits A.ex A.built A.ok A.step (sgI := -1) (Or.inr rfl) hR'
  have hP : (0 : Int) ≤ n * 2 ^ (cfg.wBit + cfg.iBit) := by positivity
  have hb := hβ.bits
  have hb' := hγ.bits
  rw [Int.cast_one] at hb
  rw [Int.cast_neg, Int.cast_one] at hb'
  obtain ⟨a', e⟩ := H.resI X h hv hr hN hN' hx hb hb'
    (fun i hi => by have := hβ.z i hi; have := hγ.z i hi; have := A.room i hi; have := A.big; linarith)
    (fun i hi => by have := hβ.z i hi; have := hγ.z i hi; have := A.room i hi; linarith)
  refine ⟨a', _, e, fun i hi => ?_⟩
  have e1 := hβ.near hi
  have e2 := hγ.near hi
  simp only [one_mul] at e1
  simp only [neg_one_mul] at e2
  refine le_trans (le_of_eq ?_) ((abs_add_le _ _).trans (add_le_add e1 e2))
  congr 1
  push_cast
  ring

theorem adcII (hT : zI cfg c lo hi (cfg.iBit + 1) ≤ T) (hs : E.strict = false) (hN : 1 ≤ cfg.iBit)
    (hN' : cfg.iBit ≤ 31) (hW : ∀ i j, i < m → j < n → |W i j| ≤ 2 ^ cfg.wBit)
    (hsum : ∀ i, i < m → c.gd.sumW.get i = ∑ j ∈ range n, W i j)
    (hx : ∀ j, j < n → -2 ^ (cfg.iBit - 1) ≤ vec.get j ∧ vec.get j < 2 ^ (cfg.iBit - 1))
    (hR : InRI cfg st D (fun j => 2 ^ (cfg.iBit - 1) + vec.get j) m n (cfg.iBit + 1) lo hi) :
    Within (aMvmIntII E cfg c a res vec m n l) W vec res m n (errI cfg c lo hi (cfg.iBit + 1)) := by
  obtain ⟨β, hβ⟩ := adcBits A.ex A.built A.ok A.step (sgI := 1) (Or.inl rfl) hR
  have hP : (0 : Int) ≤ n * 2 ^ (cfg.wBit + cfg.iBit) := by positivity
  have hp : (2 : Int) ^ cfg.iBit = 2 * 2 ^ (cfg.iBit - 1) := by rw [← pow_succ']; congr 1; omega
  have hp2 : (0 : Int) < 2 ^ (cfg.iBit - 1) := by positivity
  have hb := hβ.bits
  rw [Int.cast_one] at hb
  have hz : ∀ i, i < m → 0 ≤ T := fun i hi => by
    have h1 := hβ.z i hi
    have : (0 : Int) ≤ ∑ b ∈ range (cfg.iBit + 1), ∑ s ∈ range cfg.S, |β b i s| :=
      sum_nonneg fun _ _ => sum_nonneg fun _ _ => abs_nonneg _
    linarith
  have hsw : ∀ i, i < m → |(∑ j ∈ range n, W i j) * 2 ^ (cfg.iBit - 1)| ≤ n * 2 ^ (cfg.wBit + cfg.iBit) := by
    intro i hi
    rw [abs_mul, abs_of_pos hp2, pow_add, hp]
    have e1 : |∑ j ∈ range n, W i j| ≤ n * 2 ^ cfg.wBit :=
      (abs_sum_le_sum_abs _ _).trans (sum_abs_le fun j hj => hW i j hi hj)
    have e3 := mul_le_mul_of_nonneg_right e1 hp2.le
    have e5 : 0 ≤ (n : Int) * 2 ^ cfg.wBit * 2 ^ (cfg.iBit - 1) := by positivity
    linarith
  obtain ⟨a', e⟩ := H.resII X h hv hr hs hN hN' hsum hx hb
    (fun i hi => by have := hβ.z i hi; have := A.room i hi; have := A.big; linarith)
    (fun i hi => by have := hβ.z i hi; have := A.room i hi; linarith)
    (fun i hi => inI32_of_abs (by
      have := hsw i hi; have := A.room i hi; have := hz i hi; have := abs_nonneg (res.get i); linarith))
    (fun i hi => inI32_of_abs (by
      have h1 := hβ.z i hi; have h2 := A.room i hi; have h3 := hsw i hi
      have e1 := abs_sub (res.get i + ∑ b ∈ range (cfg.iBit + 1), ∑ s ∈ range cfg.S, β b i s)
        ((∑ j ∈ range n, W i j) * 2 ^ (cfg.iBit - 1))
      have e2 := abs_add_le (res.get i) (∑ b ∈ range (cfg.iBit + 1), ∑ s ∈ range cfg.S, β b i s)
      have e3 : |∑ b ∈ range (cfg.iBit + 1), ∑ s ∈ range cfg.S, β b i s|
        ≤ ∑ b ∈ range (cfg.iBit + 1), ∑ s ∈ range cfg.S, |β b i s| :=
        (abs_sum_le_sum_abs _ _).trans (sum_le_sum fun _ _ => abs_sum_le_sum_abs _ _)
      linarith))
  refine ⟨a', _, e, fun i hi => ?_⟩
  have := hβ.near hi
  simp only [one_mul] at this
  refine le_trans (le_of_eq ?_) this
  congr 1
  push_cast
  ring

end IntHyp

/-! ## The offset mapping -/

namespace IntHyp
variable (H : IntHyp E cfg c a st m n B) (hE : ExactArith E) (hS : StepOk cfg st)
  (h : Enc cfg.S c.shift.get D (fun i j => W i j + 2 ^ (cfg.wBit - 1)) m n)
  (hp : ∀ t j, t < m * cfg.S → j < n → c.ia.p.get t j = cfg.hrs + (D t j : K) * st (t % cfg.S))
  (hδ : c.delta = some (∑ s ∈ range cfg.S, 2 ^ c.shift.get s * (cfg.hrs / st s)))
include H hE hS h hp hδ

/-- The converted values of the offset mapping add up to the product. -/
theorem sumV {i : Nat} (hi : i < m) (hx : ∀ j, j < n → 0 ≤ vec.get j ∧ vec.get j < 2 ^ cfg.iBit) :
    ∑ b ∈ range cfg.iBit, ∑ s ∈ range cfg.S,
        (∑ j ∈ range n, c.ia.p.get (i * cfg.S + s) j * (bitOf (vec.get j) b : K)) * (2 ^ (c.shift.get s + b) / st s)
      - ((∑ j ∈ range n, vec.get j : Int) : K)
        * (∑ s ∈ range cfg.S, 2 ^ c.shift.get s * (cfg.hrs / st s) + 2 ^ (cfg.wBit - 1))
      = ((∑ j ∈ range n, W i j * vec.get j : Int) : K) := by
  have e1 : ∀ b ∈ range cfg.iBit, ∀ s ∈ range cfg.S,
      (∑ j ∈ range n, c.ia.p.get (i * cfg.S + s) j * (bitOf (vec.get j) b : K)) * (2 ^ (c.shift.get s + b) / st s)
      = (tgt c.shift.get cfg.S D vec.get n b i s : K)
        + (2 ^ c.shift.get s * (cfg.hrs / st s)) * ((∑ j ∈ range n, bitOf (vec.get j) b * 2 ^ b : Int) : K) := by
    intro b _ s hs
    have hs' := mem_range.1 hs
    have hne := hS.st_ne hs'
    unfold tgt
    push_cast
    rw [mul_sum, mul_sum, sum_mul, ← sum_add_distrib]
    refine sum_congr rfl fun j hj => ?_
    rw [hp _ _ (blk_lt hi hs') (mem_range.1 hj), blk_mod hs', pow_add]
    field_simp
    ring
  rw [sum_congr rfl fun b hb => sum_congr rfl fun s hs => e1 b hb s hs]
  simp only [sum_add_distrib]
  have em : ∀ j ∈ range n, vec.get j % 2 ^ cfg.iBit = vec.get j := fun j hj =>
    Int.emod_eq_of_lt (hx j (mem_range.1 hj)).1 (hx j (mem_range.1 hj)).2
  have k1 := tgt_sum (v := vec.get) h hi cfg.iBit
  rw [sum_congr (s₁ := range n) rfl fun j hj => by rw [em j hj]] at k1
  have k1' : ∑ b ∈ range cfg.iBit, ∑ s ∈ range cfg.S, (tgt c.shift.get cfg.S D vec.get n b i s : K)
      = ((∑ j ∈ range n, (W i j + 2 ^ (cfg.wBit - 1)) * vec.get j : Int) : K) := by
    rw [← k1]; push_cast; rfl
  have k2 : ∑ b ∈ range cfg.iBit, ∑ j ∈ range n, bitOf (vec.get j) b * 2 ^ b = ∑ j ∈ range n, vec.get j := by
    rw [sum_comm]
    exact sum_congr rfl fun j hj => by rw [bitOf_sum, em j hj]
  have k2' : ∑ b ∈ range cfg.iBit, ∑ s ∈ range cfg.S, (2 ^ c.shift.get s * (cfg.hrs / st s))
        * ((∑ j ∈ range n, bitOf (vec.get j) b * 2 ^ b : Int) : K)
      = (∑ s ∈ range cfg.S, 2 ^ c.shift.get s * (cfg.hrs / st s)) * ((∑ j ∈ range n, vec.get j : Int) : K) := by
    rw [← k2]
    push_cast
    rw [mul_sum]
    refine sum_congr rfl fun b _ => ?_
    rw [sum_mul]
  rw [k1', k2']
  have k3 : ((∑ j ∈ range n, (W i j + 2 ^ (cfg.wBit - 1)) * vec.get j : Int) : K)
      = ((∑ j ∈ range n, W i j * vec.get j : Int) : K) + 2 ^ (cfg.wBit - 1) * ((∑ j ∈ range n, vec.get j : Int) : K) := by
    rw [sum_congr rfl fun j _ => add_mul _ _ _, sum_add_distrib, ← mul_sum]
    push_cast; rfl
  rw [k3]
  ring

variable (hv : n ≤ vec.size) (hr : m ≤ res.size) (hw1 : 1 ≤ cfg.wBit) (hw31 : cfg.wBit ≤ 31) (hi31 : cfg.iBit ≤ 31)
  (hn : n ≤ 2147483647)
  (hx : ∀ j, j < n → 0 ≤ vec.get j ∧ vec.get j < 2 ^ cfg.iBit)
include hv hr hw1 hw31 hi31 hn hx

omit H hE hS h hp hδ hv hr hw1 hw31 hn in
theorem inV : ∀ j, j < n → InI32 (vec.get j) := fun j hj => by
  have := hx j hj
  have := two_pow_le hi31
  constructor <;> omega

theorem infV (hk : c.adc.kind = .inf) (hW : ∀ i j, i < m → j < n → |W i j| ≤ 2 ^ cfg.wBit)
    (hI : ∀ i, i < m → |res.get i| + n * 2 ^ (cfg.wBit + cfg.iBit) ≤ 2147483647) :
    ∃ a', aMvmIntV E cfg c a res vec m n l = .ok (a', res.over m fun i =>
      res.get i + ∑ j ∈ range n, W i j * vec.get j) := by
  have key : ∀ i, i < m → roundAway (∑ b ∈ range cfg.iBit, ∑ s ∈ range cfg.S,
        (∑ j ∈ range n, c.ia.p.get (i * cfg.S + s) j * (bitOf (vec.get j) b : K)) * (2 ^ (c.shift.get s + b) / st s)
      - ((∑ j ∈ range n, vec.get j : Int) : K)
        * (∑ s ∈ range cfg.S, 2 ^ c.shift.get s * (cfg.hrs / st s) + 2 ^ (cfg.wBit - 1)))
      = ∑ j ∈ range n, W i j * vec.get j := fun i hi => by
    rw [H.sumV hE hS h hp hδ hi hx, roundAway_int]
  obtain ⟨a', e⟩ := H.intV hE (l := l) hδ hv hr hw1 hw31 (by omega) hn (inV hi31 hx)
    (κ := fun b i s => (∑ j ∈ range n, c.ia.p.get (i * cfg.S + s) j * (bitOf (vec.get j) b : K))
      * (2 ^ (c.shift.get s + b) / st s))
    (fun b i s hb hi hs => by
      unfold conv1
      rw [hk]
      unfold Env.fmul Env.fadd
      rw [hE.f32, hE.f32, add_zero])
    (fun i hi => by
      rw [key i hi]
      have e1 : |∑ j ∈ range n, W i j * vec.get j| ≤ n * (2 ^ cfg.wBit * 2 ^ cfg.iBit) := by
        refine (abs_sum_le_sum_abs _ _).trans ?_
        simp only [abs_mul]
        refine sum_abs_mul_le (fun j hj => hW i j hi hj) (fun j hj => ⟨abs_nonneg _, ?_⟩) (by positivity)
        have := hx j hj
        rw [abs_of_nonneg this.1]; exact this.2.le
      have e2 := hI i hi
      rw [pow_add] at e2
      linarith)
  exact ⟨a', e.trans (congrArg _ (congrArg _ (over_congr fun i hi => by rw [key i hi])))⟩

theorem adcV (hb : mkAdc cfg = .ok c.adc) (hA : AdcOk cfg l lo hi)
    (hW : ∀ i j, i < m → j < n → |W i j| ≤ 2 ^ cfg.wBit)
    (hI : ∀ i, i < m → ((|res.get i| + n * 2 ^ (cfg.wBit + cfg.iBit) : Int) : K)
      + ∑ b ∈ range cfg.iBit, ∑ s ∈ range cfg.S, convErr cfg lo hi (scI cfg c s b) ≤ 2147483647)
    (hR : ∀ b i s, b < cfg.iBit → i < m → s < cfg.S →
      lo ≤ ∑ j ∈ range n, c.ia.p.get (i * cfg.S + s) j * (bitOf (vec.get j) b : K) ∧
      ∑ j ∈ range n, c.ia.p.get (i * cfg.S + s) j * (bitOf (vec.get j) b : K) ≤ hi) :
    Within (aMvmIntV E cfg c a res vec m n l) W vec res m n
      (∑ b ∈ range cfg.iBit, ∑ s ∈ range cfg.S, convErr cfg lo hi (scI cfg c s b) + 1 / 2) := by
  set κ : Nat → Nat → Nat → K := fun b i s => (adcOut cfg lo hi ((scI cfg c s b : K) / (cfg.lrs - cfg.hrs))
    (∑ j ∈ range n, c.ia.p.get (i * cfg.S + s) j * (bitOf (vec.get j) b : K)) : K) with hκ
  set y : Nat → K := fun i => ∑ b ∈ range cfg.iBit, ∑ s ∈ range cfg.S, κ b i s
      - ((∑ j ∈ range n, vec.get j : Int) : K)
        * (∑ s ∈ range cfg.S, 2 ^ c.shift.get s * (cfg.hrs / st s) + 2 ^ (cfg.wBit - 1)) with hy
  have near : ∀ i, i < m → |y i - ((∑ j ∈ range n, W i j * vec.get j : Int) : K)|
      ≤ ∑ b ∈ range cfg.iBit, ∑ s ∈ range cfg.S, convErr cfg lo hi (scI cfg c s b) := by
    intro i hi'
    have := abs_sum2_le (N := cfg.iBit) (S := cfg.S) (g := fun b s => convErr cfg lo hi (scI cfg c s b))
      (f := fun b s => κ b i s - (∑ j ∈ range n, c.ia.p.get (i * cfg.S + s) j * (bitOf (vec.get j) b : K))
        * (2 ^ (c.shift.get s + b) / st s)) fun b s hb hs => by
        rw [hS.scale hs]
        have := hR b i s hb hi' hs
        exact adcOut_near hA this.1 this.2 _
    refine le_trans (le_of_eq ?_) this
    congr 1
    rw [← H.sumV hE hS h hp hδ hi' hx, hy]
    simp only [sum_sub_distrib]
    ring
  have e1 : ∀ i, i < m → |∑ j ∈ range n, W i j * vec.get j| ≤ n * 2 ^ (cfg.wBit + cfg.iBit) := fun i hi => by
    rw [pow_add]
    refine (abs_sum_le_sum_abs _ _).trans ?_
    simp only [abs_mul]
    refine sum_abs_mul_le (fun j hj => hW i j hi hj) (fun j hj => ⟨abs_nonneg _, ?_⟩) (by positivity)
    have := hx j hj
    rw [abs_of_nonneg this.1]; exact this.2.le
  have e2 : ∀ i, i < m → |(roundAway (y i) : K) - ((∑ j ∈ range n, W i j * vec.get j : Int) : K)|
      ≤ ∑ b ∈ range cfg.iBit, ∑ s ∈ range cfg.S, convErr cfg lo hi (scI cfg c s b) + 1 / 2 := fun i hi => by
    have k1 := near i hi
    have k2 := roundAway_near (y i)
    have k3 := abs_add_le ((roundAway (y i) : K) - y i) (y i - ((∑ j ∈ range n, W i j * vec.get j : Int) : K))
    rw [sub_add_sub_cancel] at k3
    linarith
  obtain ⟨a', e⟩ := H.intV hE (l := l) hδ hv hr hw1 hw31 (by omega) hn (inV hi31 hx) (κ := κ)
    (fun b i s hb' hi hs => by rw [hS.scale hs, conv1_exact hE hb hA, add_zero]; rfl)
    (fun i hi => by
      change |res.get i| + |roundAway (y i)| ≤ _
      have k1 := e2 i hi
      have k2 := hI i hi
      have k3 : |(roundAway (y i) : K)| ≤ |(roundAway (y i) : K) - ((∑ j ∈ range n, W i j * vec.get j : Int) : K)|
        + |((∑ j ∈ range n, W i j * vec.get j : Int) : K)| := by
        have := abs_add_le ((roundAway (y i) : K) - ((∑ j ∈ range n, W i j * vec.get j : Int) : K))
          ((∑ j ∈ range n, W i j * vec.get j : Int) : K)
        rwa [sub_add_cancel] at this
      have k4 : |((∑ j ∈ range n, W i j * vec.get j : Int) : K)| ≤ ((n * 2 ^ (cfg.wBit + cfg.iBit) : Int) : K) := by
        rw [← Int.cast_abs]; exact Int.cast_le.2 (e1 i hi)
      have k5 : ((|res.get i| + |roundAway (y i)| : Int) : K) < ((2147483648 : Int) : K) := by
        simp only [Int.cast_add, Int.cast_abs, Int.cast_ofNat] at k2 ⊢
        linarith
      have := Int.cast_lt.1 k5
      omega)
  refine ⟨a', fun i => res.get i + roundAway (y i), e, fun i hi => ?_⟩
  rw [Int.cast_add, Int.cast_add, add_sub_add_left_eq_sub]
  exact e2 i hi

end IntHyp

end

end Acs
