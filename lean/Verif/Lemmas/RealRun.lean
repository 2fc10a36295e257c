import Verif.Lemmas.FlRun
import Verif.Lemmas.AMvmAdc
import Verif.SpecAdcNoise

/-!
# Multiplications with a real converter and arbitrary column currents

A real converter produces integers.  If the column currents are close to nominal ones and all integers
of a multiplication are represented, the result is off by the sum of the conversion errors.
-/

set_option linter.unusedSectionVars false

namespace Acs

open Finset Spec

section
variable {K : Type} [Field K] [LinearOrder K] [IsStrictOrderedRing K] [FloorRing K]
variable {E : Env K} {cfg : Cfg K} {c : Core K} {a : Aux K} {cf : K → K → K → K}
variable {vec res v : Vec Int} {m n : Nat} {l : String} {lo hi : K} {z : Int → Int} {q : Int → K → K} {B T : Int}
variable {W : Nat → Nat → Int} {δ δ' δ1 δ2 δ3 δ4 : K}

/-- Error of a conversion that is off by `e` before it is rounded to an integer. -/
def errL (e : K) : K := e + 1 / 2

/-- The same if the nominal value is an integer. -/
def errZ (e : K) : K := if e < 1 / 2 then 0 else e + 1 / 2

theorem Within.mono {o : C (Aux K × Vec Int)} {e e' : K} (h : Within o W vec res m n e) (he : e ≤ e') :
    Within o W vec res m n e' := by
  obtain ⟨a', f, h1, h2⟩ := h
  exact ⟨a', f, h1, fun i hi => (h2 i hi).trans he⟩

/-- Only the nearest rounding boundary matters. -/
theorem steady_iff {f e : K} : Steady f e ↔ e < |f - (⌊f⌋ + 1 / 2)| := by
  refine ⟨fun h => h _, fun h k => h.trans_le ?_⟩
  have h1 := Int.floor_le f
  have h2 := Int.lt_floor_add_one f
  have h3 : |f - (⌊f⌋ + 1 / 2)| ≤ 1 / 2 := abs_le.2 ⟨by linarith, by linarith⟩
  rcases lt_trichotomy k ⌊f⌋ with hk | rfl | hk
  · have : (k : K) + 1 ≤ ⌊f⌋ := by exact_mod_cast hk
    exact h3.trans (le_abs.2 (.inl (by linarith)))
  · exact le_rfl
  · have : (⌊f⌋ : K) + 1 ≤ k := by exact_mod_cast hk
    exact h3.trans (le_abs.2 (.inr (by linarith)))

/-- Errors that do not cross a rounding boundary do not change the rounded number. -/
theorem roundAway_steady {y f e : K} {b : Int} {t : Int} (hy : |y - lin f t b| ≤ e) (hc : Steady ((t : K) * f) e) :
    roundAway y = b + ⌊(t : K) * f + 1 / 2⌋ := by
  refine roundAway_of_near ?_
  have h1 := Int.floor_le ((t : K) * f + 1 / 2)
  have h2 := Int.lt_floor_add_one ((t : K) * f + 1 / 2)
  have k1 := hc ⌊(t : K) * f + 1 / 2⌋
  have k2 := hc (⌊(t : K) * f + 1 / 2⌋ - 1)
  generalize ⌊(t : K) * f + 1 / 2⌋ = k at *
  push_cast at k2 ⊢
  unfold lin at hy
  rw [abs_of_nonpos (by linarith)] at k1
  rw [abs_of_nonneg (by linarith)] at k2
  rw [abs_le] at hy
  rw [abs_lt]
  constructor <;> linarith [hy.1, hy.2]

/-- A converter that clips to `[lo, hi]`: for a current off by `δ` the value before the final rounding is
off by `q s δ`; the result is at most `z s`. -/
structure RealHyp (E : Env K) (cfg : Cfg K) (c : Core K) (l : String) (cf : K → K → K → K) (lo hi : K)
    (z : Int → Int) (q : Int → K → K) (B : Int) : Prop where
  fl : FlHyp E cfg c l cf
  int : ∀ k : Int, |k| ≤ B → E.f32 (k : K) = k
  conv : ∀ s : Int, s = 1 ∨ s = 2 → ∀ t off T δ : K, lo ≤ T → T ≤ hi → |t + off - T| ≤ δ →
    ∃ (β : Int) (y : K), cf t off (scaleOf E cfg s) = β ∧ |β| ≤ z s ∧ β = roundAway y ∧
      |y - T * ((s : K) / (cfg.lrs - cfg.hrs))| ≤ q s δ

namespace RealHyp
variable (H : RealHyp E cfg c l cf lo hi z q B)
include H

/-- Conversions of any currents. -/
theorem lins (hd : cfg.lrs - cfg.hrs ≠ 0) {s : Int} (hs : s = 1 ∨ s = 2) {t : Nat → K} {off : K} {a b : Nat → Int}
    (hr : ∀ i, i < m → InR cfg lo hi (a i) (b i))
    (ht : ∀ i, i < m → |t i + off - cur cfg.hrs (cfg.lrs - cfg.hrs) (a i) (b i)| ≤ δ) :
    ∃ β : Nat → Int, (∀ i, i < m → cf (t i) off (scaleOf E cfg s) = β i) ∧ (∀ i, i < m → |β i| ≤ z s) ∧
      (∀ i, i < m → |(β i : K) - lin (cfg.hrs / (2 * (cfg.lrs - cfg.hrs))) (s * a i) (s * b i)| ≤ errL (q s δ)) ∧
      (∀ i, i < m → a i = 0 → |(β i : K) - ((s * b i : Int) : K)| ≤ errZ (q s δ)) ∧
      ∀ i, i < m → Steady (((s * a i : Int) : K) * (cfg.hrs / (2 * (cfg.lrs - cfg.hrs)))) (q s δ) →
        β i = s * b i + ⌊((s * a i : Int) : K) * (cfg.hrs / (2 * (cfg.lrs - cfg.hrs))) + 1 / 2⌋ := by
  have key : ∀ i, i < m → ∃ β : Int, cf (t i) off (scaleOf E cfg s) = β ∧ |β| ≤ z s ∧
      |(β : K) - lin (cfg.hrs / (2 * (cfg.lrs - cfg.hrs))) (s * a i) (s * b i)| ≤ errL (q s δ) ∧
      (a i = 0 → |(β : K) - ((s * b i : Int) : K)| ≤ errZ (q s δ)) ∧
      (Steady (((s * a i : Int) : K) * (cfg.hrs / (2 * (cfg.lrs - cfg.hrs)))) (q s δ) →
        β = s * b i + ⌊((s * a i : Int) : K) * (cfg.hrs / (2 * (cfg.lrs - cfg.hrs))) + 1 / 2⌋) := fun i hi' => by
    obtain ⟨β, y, h1, h2, h3, h4⟩ := H.conv s hs (t i) off _ δ (hr i hi').1 (hr i hi').2 (ht i hi')
    rw [cur_scale hd] at h4
    have h5 := roundAway_near y
    rw [← h3] at h5
    have h6 : ∀ w : K, |y - w| ≤ q s δ → |(β : K) - w| ≤ errL (q s δ) := fun w hw => by
      have := abs_add_le ((β : K) - y) (y - w)
      rw [sub_add_sub_cancel] at this
      unfold errL
      linarith
    refine ⟨β, h1, h2, h6 _ h4, fun h0 => ?_, fun hc => h3.trans (roundAway_steady h4 hc)⟩
    rw [h0, mul_zero, lin_int] at h4
    unfold errZ
    split
    · next hq =>
      rw [h3, roundAway_of_near (z := s * b i) (h4.trans_lt hq), sub_self, abs_zero]
    · exact h6 _ h4
  choose! β h1 h2 h3 h4 h5 using key
  exact ⟨β, h1, h2, h3, h4, h5⟩

/-- Conversions of currents that are multiples of the resistance window. -/
theorem ints (hd : cfg.lrs - cfg.hrs ≠ 0) {s : Int} (hs : s = 1 ∨ s = 2) {t : Nat → K} {off : K} {b : Nat → Int}
    (hr : ∀ i, i < m → InR cfg lo hi 0 (b i))
    (ht : ∀ i, i < m → |t i + off - cur cfg.hrs (cfg.lrs - cfg.hrs) 0 (b i)| ≤ δ) :
    ∃ β : Nat → Int, (∀ i, i < m → cf (t i) off (scaleOf E cfg s) = β i) ∧ (∀ i, i < m → |β i| ≤ z s) ∧
      ∀ i, i < m → |(β i : K) - ((s * b i : Int) : K)| ≤ errZ (q s δ) := by
  obtain ⟨β, h1, h2, _, h4, _⟩ := H.lins hd hs hr ht
  exact ⟨β, h1, h2, fun i hi' => h4 i hi' rfl⟩

theorem plus {r x : Int} (hr : |r| + |x| ≤ B) : plus E r (x : K) = ((r + x : Int) : K) := by
  unfold Acs.plus Env.fadd Env.ofInt
  have := abs_nonneg x
  have := abs_add_le r x
  rw [H.int r (by omega), ← Int.cast_add, H.int _ (by omega)]

theorem minus {r x : Int} (hr : |r| + |x| ≤ B) : minus E r (x : K) = ((r - x : Int) : K) := by
  unfold Acs.minus Env.fsub Env.ofInt
  have := abs_nonneg x
  have := abs_sub r x
  rw [H.int r (by omega), ← Int.cast_sub, H.int _ (by omega)]

theorem fadd {r x : Int} (hr : |r| + |x| ≤ B) : E.fadd (r : K) (x : K) = ((r + x : Int) : K) := by
  unfold Env.fadd
  have := abs_add_le r x
  rw [← Int.cast_add, H.int _ (by omega)]

theorem fsub {r x : Int} (hr : |r| + |x| ≤ B) : E.fsub (r : K) (x : K) = ((r - x : Int) : K) := by
  unfold Env.fsub
  have := abs_sub r x
  rw [← Int.cast_sub, H.int _ (by omega)]

theorem ofInt {x : Int} (hx : |x| ≤ B) : E.ofInt x = (x : K) := by
  unfold Env.ofInt
  exact H.int x hx

/-- Wrap up for the mappings with one truncation at the end. -/
theorem fin {o : C (Aux K × Vec Int)} {w : Nat → Int} {e : K}
    (hB : ∀ i, i < m → |res.get i| + |w i| ≤ B ∧ |res.get i| + |w i| ≤ 2147483647)
    (he : ∀ i, i < m → |(w i : K) - ((∑ j ∈ range n, W i j * vec.get j : Int) : K)| ≤ e)
    (ho : (∀ i, i < m → InI32 (truncZ (Acs.plus E (res.get i) (w i : K)))) →
      ∃ a', o = .ok (a', res.over m fun i => truncZ (Acs.plus E (res.get i) (w i : K)))) :
    Within o W vec res m n e := by
  have k1 : ∀ i, i < m → truncZ (Acs.plus E (res.get i) (w i : K)) = res.get i + w i := fun i hi' => by
    rw [H.plus (hB i hi').1, truncZ_int]
  obtain ⟨a', e1⟩ := ho fun i hi' => by
    rw [k1 i hi']
    exact inI32_of_abs ((abs_add_le _ _).trans (hB i hi').2)
  refine ⟨a', _, e1, fun i hi' => ?_⟩
  rw [k1 i hi']
  refine le_trans (le_of_eq ?_) (he i hi')
  congr 1
  push_cast
  ring

end RealHyp

/-- Room for results up to `T` more than the product. -/
structure Roomy (res : Vec Int) (m n : Nat) (B T : Int) : Prop where
  room : ∀ i, i < m → |res.get i| + T + 3 * n ≤ 2147483647
  roomB : ∀ i, i < m → |res.get i| + T + 3 * n ≤ B

/-- The bit line currents of TNN_IV and TNN_V for both input halves, without or with parasitic wires. -/
def TcSums (E : Env K) (cfg : Cfg K) (c : Core K) (a : Aux K) (vp vm : Vec Int) (m n : Nat) (S0 S1 S2 S3 : Nat → K) : Prop :=
  (cfg.parasitics = false ∧ m ≤ a.tmp.size ∧ FlHyp.StepSum E c.ia.p vp m n S0 ∧ FlHyp.StepSum E c.ia.p vm m n S1 ∧
    FlHyp.StepSum E c.ia.m vp m n S2 ∧ FlHyp.StepSum E c.ia.m vm m n S3) ∨
  (cfg.parasitics = true ∧ m ≤ a.tmpLsb.size ∧ m ≤ a.tmpMsb.size ∧ FlHyp.SolveSum E c vp m n S0 S2 ∧
    FlHyp.SolveSum E c vm m n S1 S3)

namespace RealHyp
variable (H : RealHyp E cfg c l cf lo hi z q B) (R : Roomy res m n B T) (hd : cfg.lrs - cfg.hrs ≠ 0)
include H R hd

theorem bnn1 {t : Vec K} (hT : z 2 ≤ T) (hv : encBnn1 n vec a.vdP = .ok v)
    (ht : colCurrents E cfg c (iaDiffTerm E c.ia v) v none (a.tmp.fill 0) m n = .ok t)
    (htm : m ≤ t.size) (hr : m ≤ res.size) (hs : m ≤ c.gd.sumW.size) (hs' : ∀ i, i < m → |c.gd.sumW.get i| ≤ n)
    {b : Nat → Int} (hb : ∀ i, i < m → InR cfg lo hi 0 (b i))
    (hdv : ∀ i, i < m → |t.get i - cur cfg.hrs (cfg.lrs - cfg.hrs) 0 (b i)| ≤ δ)
    (hp : ∀ i, i < m → 2 * b i - c.gd.sumW.get i = ∑ j ∈ range n, W i j * vec.get j) :
    Within (aMvmBnnI E cfg c a res vec m n l) W vec res m n (errZ (q 2 δ)) := by
  obtain ⟨β, h1, h2, h3⟩ := H.ints hd (Or.inr rfl) (off := 0) hb (by simpa only [add_zero] using hdv)
  have bb : ∀ i, i < m → |res.get i| + (|β i| + |c.gd.sumW.get i|) ≤ |res.get i| + T + 3 * n := fun i hi' => by
    have := h2 i hi'; have := hs' i hi'; omega
  refine H.fin (w := fun i => β i - c.gd.sumW.get i) (fun i hi' => ?_) (fun i hi' => ?_) fun hI =>
    H.fl.bnn1 hv ht htm hr hs (fun i hi' => ?_) hI
  · have := abs_sub (β i) (c.gd.sumW.get i)
    exact ⟨by linarith [bb i hi', R.roomB i hi'], by linarith [bb i hi', R.room i hi']⟩
  · refine le_trans (le_of_eq ?_) (h3 i hi')
    congr 1
    rw [← hp i hi']
    push_cast
    ring
  · have e := h1 i hi'
    rw [Int.cast_ofNat] at e
    have := bb i hi'; have := R.roomB i hi'; have := abs_nonneg (res.get i); have := abs_nonneg (β i)
    rw [e, H.ofInt (by omega), H.fsub (by omega)]

theorem bnn2 {t : Vec K} (hT : z 2 ≤ T) (hv : encBnn2 n vec a.vdP = .ok v)
    (ht : colCurrents E cfg c (iaDiffTermNeg E c.ia v) v none (a.tmp.fill 0) m n = .ok t)
    (htm : m ≤ t.size) (hr : m ≤ res.size) (hs : m ≤ c.gd.sumW.size) (hs' : ∀ i, i < m → |c.gd.sumW.get i| ≤ n)
    {b : Nat → Int} (hb : ∀ i, i < m → InR cfg lo hi 0 (b i))
    (hdv : ∀ i, i < m → |t.get i - cur cfg.hrs (cfg.lrs - cfg.hrs) 0 (b i)| ≤ δ)
    (hp : ∀ i, i < m → 2 * b i + c.gd.sumW.get i = ∑ j ∈ range n, W i j * vec.get j) :
    Within (aMvmBnnII E cfg c a res vec m n l) W vec res m n (errZ (q 2 δ)) := by
  obtain ⟨β, h1, h2, h3⟩ := H.ints hd (Or.inr rfl) (off := 0) hb (by simpa only [add_zero] using hdv)
  have bb : ∀ i, i < m → |res.get i| + (|β i| + |c.gd.sumW.get i|) ≤ |res.get i| + T + 3 * n := fun i hi' => by
    have := h2 i hi'; have := hs' i hi'; omega
  refine H.fin (w := fun i => β i + c.gd.sumW.get i) (fun i hi' => ?_) (fun i hi' => ?_) fun hI =>
    H.fl.bnn2 hv ht htm hr hs (fun i hi' => ?_) hI
  · have := abs_add_le (β i) (c.gd.sumW.get i)
    exact ⟨by linarith [bb i hi', R.roomB i hi'], by linarith [bb i hi', R.room i hi']⟩
  · refine le_trans (le_of_eq ?_) (h3 i hi')
    congr 1
    rw [← hp i hi']
    push_cast
    ring
  · have e := h1 i hi'
    rw [Int.cast_ofNat] at e
    have := bb i hi'; have := R.roomB i hi'; have := abs_nonneg (res.get i); have := abs_nonneg (β i)
    rw [e, H.ofInt (by omega), H.fadd (by omega)]

theorem bnn3 {tp tm : Vec K} {vp vm : Vec Int} {s : Int} (hT : z 2 + z 2 ≤ T)
    (hv : encPMSum n vec a.vdP a.vdM = .ok ((vp, vm), s))
    (hp : colCurrents E cfg c (iaTerm E c.ia.p vp) vp none (a.tmpP.fill 0) m n = .ok tp)
    (hm : colCurrents E cfg c (iaTerm E c.ia.p vm) vm none (a.tmpM.fill 0) m n = .ok tm)
    (hs : negI s = .ok (-s)) (hpm : m ≤ tp.size) (hmm : m ≤ tm.size) (hr : m ≤ res.size) (hs' : |s| ≤ n)
    {u : Int} {b b' : Nat → Int} (hb : ∀ i, i < m → InR cfg lo hi u (b i)) (hb' : ∀ i, i < m → InR cfg lo hi u (b' i))
    (hdv : ∀ i, i < m → |tp.get i + E.fmul (E.ofInt (-s)) cfg.hrs
      - cur cfg.hrs (cfg.lrs - cfg.hrs) u (b i)| ≤ δ)
    (hdv' : ∀ i, i < m → |tm.get i - cur cfg.hrs (cfg.lrs - cfg.hrs) u (b' i)| ≤ δ')
    (hpr : ∀ i, i < m → 2 * b i - 2 * b' i - s = ∑ j ∈ range n, W i j * vec.get j) :
    Within (aMvmBnnIII E cfg c a res vec m n l) W vec res m n (errL (q 2 δ) + errL (q 2 δ')) ∧
      (Steady (((2 * u : Int) : K) * (cfg.hrs / (2 * (cfg.lrs - cfg.hrs)))) (q 2 δ) →
        Steady (((2 * u : Int) : K) * (cfg.hrs / (2 * (cfg.lrs - cfg.hrs)))) (q 2 δ') →
        Within (aMvmBnnIII E cfg c a res vec m n l) W vec res m n 0) := by
  obtain ⟨β, h1, h2, h3, _, h5⟩ := H.lins hd (Or.inr rfl) (a := fun _ => u) hb hdv
  obtain ⟨γ, k1, k2, k3, _, k5⟩ := H.lins hd (Or.inr rfl) (a := fun _ => u) (off := 0) hb'
    (by simpa only [add_zero] using hdv')
  have bb : ∀ i, i < m → |res.get i| + (|β i| + |γ i| + |s|) ≤ |res.get i| + T + 3 * n := fun i hi' => by
    have := h2 i hi'; have := k2 i hi'; omega
  have key : ∀ e : K, (∀ i, i < m → |((β i - γ i - s : Int) : K) - ((∑ j ∈ range n, W i j * vec.get j : Int) : K)| ≤ e) →
      Within (aMvmBnnIII E cfg c a res vec m n l) W vec res m n e := fun e he => by
    refine H.fin (w := fun i => β i - γ i - s) (fun i hi' => ?_) he fun hI =>
      H.fl.bnn3 hv hp hm hs hpm hmm hr (fun i hi' => ?_) hI
    · have := abs_sub (β i - γ i) s
      have := abs_sub (β i) (γ i)
      exact ⟨by linarith [bb i hi', R.roomB i hi'], by linarith [bb i hi', R.room i hi']⟩
    · have e := h1 i hi'
      have e' := k1 i hi'
      rw [Int.cast_ofNat] at e e'
      have := bb i hi'; have := R.roomB i hi'; have := abs_nonneg (res.get i); have := abs_nonneg (β i)
      have := abs_nonneg (γ i); have := abs_nonneg s; have := abs_sub (β i) (γ i)
      rw [e, e', H.ofInt (by omega), H.fsub (by omega), H.fsub (by omega)]
  refine ⟨key _ fun i hi' => ?_, fun c1 c2 => key 0 fun i hi' => le_of_eq ?_⟩
  · refine err_two (h3 i hi') (k3 i hi') (Or.inr (Or.inl ?_))
    rw [← hpr i hi']
    unfold lin
    push_cast
    ring
  · rw [h5 i hi' c1, k5 i hi' c2, ← hpr i hi', abs_eq_zero]
    push_cast
    ring

theorem bnn4 {tp tm : Vec K} {vp vm : Vec Int} {s : Int} (hT : z 2 + z 2 ≤ T)
    (hv : encPMSum n vec a.vdP a.vdM = .ok ((vp, vm), s))
    (hp : colCurrents E cfg c (iaTerm E c.ia.p vp) vp none (a.tmpP.fill 0) m n = .ok tp)
    (hm : colCurrents E cfg c (iaTerm E c.ia.p vm) vm none (a.tmpM.fill 0) m n = .ok tm)
    (hs : negI s = .ok (-s)) (hpm : m ≤ tp.size) (hmm : m ≤ tm.size) (hr : m ≤ res.size) (hs' : |s| ≤ n)
    {u : Int} {b b' : Nat → Int} (hb : ∀ i, i < m → InR cfg lo hi u (b i)) (hb' : ∀ i, i < m → InR cfg lo hi u (b' i))
    (hdv : ∀ i, i < m → |tp.get i + E.fmul (E.ofInt (-s)) cfg.hrs
      - cur cfg.hrs (cfg.lrs - cfg.hrs) u (b i)| ≤ δ)
    (hdv' : ∀ i, i < m → |tm.get i - cur cfg.hrs (cfg.lrs - cfg.hrs) u (b' i)| ≤ δ')
    (hpr : ∀ i, i < m → 2 * b' i - 2 * b i + s = ∑ j ∈ range n, W i j * vec.get j) :
    Within (aMvmBnnIV E cfg c a res vec m n l) W vec res m n (errL (q 2 δ) + errL (q 2 δ')) ∧
      (Steady (((2 * u : Int) : K) * (cfg.hrs / (2 * (cfg.lrs - cfg.hrs)))) (q 2 δ) →
        Steady (((2 * u : Int) : K) * (cfg.hrs / (2 * (cfg.lrs - cfg.hrs)))) (q 2 δ') →
        Within (aMvmBnnIV E cfg c a res vec m n l) W vec res m n 0) := by
  obtain ⟨β, h1, h2, h3, _, h5⟩ := H.lins hd (Or.inr rfl) (a := fun _ => u) hb hdv
  obtain ⟨γ, k1, k2, k3, _, k5⟩ := H.lins hd (Or.inr rfl) (a := fun _ => u) (off := 0) hb'
    (by simpa only [add_zero] using hdv')
  have bb : ∀ i, i < m → |res.get i| + (|β i| + |γ i| + |s|) ≤ |res.get i| + T + 3 * n := fun i hi' => by
    have := h2 i hi'; have := k2 i hi'; omega
  have key : ∀ e : K, (∀ i, i < m → |((γ i - β i + s : Int) : K) - ((∑ j ∈ range n, W i j * vec.get j : Int) : K)| ≤ e) →
      Within (aMvmBnnIV E cfg c a res vec m n l) W vec res m n e := fun e he => by
    refine H.fin (w := fun i => γ i - β i + s) (fun i hi' => ?_) he fun hI =>
      H.fl.bnn4 hv hp hm hs hpm hmm hr (fun i hi' => ?_) hI
    · have := abs_add_le (γ i - β i) s
      have := abs_sub (γ i) (β i)
      exact ⟨by linarith [bb i hi', R.roomB i hi'], by linarith [bb i hi', R.room i hi']⟩
    · have e := h1 i hi'
      have e' := k1 i hi'
      rw [Int.cast_ofNat] at e e'
      have := bb i hi'; have := R.roomB i hi'; have := abs_nonneg (res.get i); have := abs_nonneg (β i)
      have := abs_nonneg (γ i); have := abs_nonneg s; have := abs_sub (γ i) (β i)
      rw [e, e', H.ofInt (by omega), H.fsub (by omega), H.fadd (by omega)]
  refine ⟨key _ fun i hi' => ?_, fun c1 c2 => key 0 fun i hi' => le_of_eq ?_⟩
  · refine err_two (h3 i hi') (k3 i hi') (Or.inr (Or.inr ?_))
    rw [← hpr i hi']
    unfold lin
    push_cast
    ring
  · rw [h5 i hi' c1, k5 i hi' c2, ← hpr i hi', abs_eq_zero]
    push_cast
    ring

theorem bnn5 {t : Vec K} {vp vm : Vec Int} (hT : z 2 ≤ T) (hv : encPM n vec a.vdP a.vdM = .ok (vp, vm))
    (ht : colCurrents E cfg c (iaBnn5Term E c.ia vp vm) vp (some vm) (a.tmp.fill 0) m n = .ok t)
    (hn : negI n = .ok (-(n : Int))) (htm : m ≤ t.size) (hr : m ≤ res.size)
    {b : Nat → Int} (hb : ∀ i, i < m → InR cfg lo hi 0 (b i))
    (hdv : ∀ i, i < m → |t.get i + E.fmul (E.ofInt (-(n : Int))) cfg.hrs
      - cur cfg.hrs (cfg.lrs - cfg.hrs) 0 (b i)| ≤ δ)
    (hp : ∀ i, i < m → 2 * b i - n = ∑ j ∈ range n, W i j * vec.get j) :
    Within (aMvmBnnV E cfg c a res vec m n l) W vec res m n (errZ (q 2 δ)) := by
  obtain ⟨β, h1, h2, h3⟩ := H.ints hd (Or.inr rfl) hb hdv
  have bb : ∀ i, i < m → |res.get i| + (|β i| + n) ≤ |res.get i| + T + 3 * n := fun i hi' => by
    have := h2 i hi'; omega
  refine H.fin (w := fun i => β i - n) (fun i hi' => ?_) (fun i hi' => ?_) fun hI =>
    H.fl.bnn5 hv ht hn htm hr (fun i hi' => ?_) hI
  · have := abs_sub (β i) n
    rw [Nat.abs_cast] at this
    exact ⟨by linarith [bb i hi', R.roomB i hi'], by linarith [bb i hi', R.room i hi']⟩
  · refine le_trans (le_of_eq ?_) (h3 i hi')
    congr 1
    rw [← hp i hi']
    push_cast
    ring
  · have e := h1 i hi'
    rw [Int.cast_ofNat] at e
    have := bb i hi'; have := R.roomB i hi'; have := abs_nonneg (res.get i); have := abs_nonneg (β i)
    have hn' : |(n : Int)| = n := Nat.abs_cast n
    rw [e, H.ofInt (by omega), H.fsub (by omega)]

theorem quad {y : Nat → K} {o : C (Aux K × Vec Int)} (hT : z 1 ≤ T)
    {b : Nat → Int} (hb : ∀ i, i < m → InR cfg lo hi 0 (b i))
    (hdv : ∀ i, i < m → |y i - cur cfg.hrs (cfg.lrs - cfg.hrs) 0 (b i)| ≤ δ)
    (hp : ∀ i, i < m → b i = ∑ j ∈ range n, W i j * vec.get j)
    (ho : ∀ w : Nat → K, (∀ i, i < m → w i = cf (y i) 0 (scaleOf E cfg 1)) →
      (∀ i, i < m → InI32 (truncZ (Acs.plus E (res.get i) (w i)))) →
      ∃ a', o = .ok (a', res.over m fun i => truncZ (Acs.plus E (res.get i) (w i)))) :
    Within o W vec res m n (errZ (q 1 δ)) := by
  obtain ⟨β, h1, h2, h3⟩ := H.ints hd (Or.inl rfl) (off := 0) hb (by simpa only [add_zero] using hdv)
  refine H.fin (w := β) (fun i hi' => ?_) (fun i hi' => ?_) (ho _ fun i hi' => ?_)
  · have := h2 i hi'; have := R.roomB i hi'; have := R.room i hi'; omega
  · refine le_trans (le_of_eq ?_) (h3 i hi')
    rw [hp i hi', one_mul]
  · have e := h1 i hi'
    rw [Int.cast_one] at e
    rw [e]

theorem bnn6 {t : Vec K} {vp vm : Vec Int} (hT : z 1 ≤ T) (hv : encPM n vec a.vdP a.vdM = .ok (vp, vm))
    (ht : colCurrents E cfg c (iaQuadTerm E c.ia vp vm) vp (some vm) (a.tmp.fill 0) m n = .ok t)
    (htm : m ≤ t.size) (hr : m ≤ res.size)
    {b : Nat → Int} (hb : ∀ i, i < m → InR cfg lo hi 0 (b i))
    (hdv : ∀ i, i < m → |t.get i - cur cfg.hrs (cfg.lrs - cfg.hrs) 0 (b i)| ≤ δ)
    (hp : ∀ i, i < m → b i = ∑ j ∈ range n, W i j * vec.get j) :
    Within (aMvmBnnVI E cfg c a res vec m n l) W vec res m n (errZ (q 1 δ)) :=
  H.quad R hd hT hb hdv hp fun _ hw hI => H.fl.bnn6 hv ht htm hr hw hI

theorem tnn1 {t : Vec K} {vp vm : Vec Int} (hT : z 1 ≤ T) (hv : encTern n vec a.vdP a.vdM = .ok (vp, vm))
    (ht : colCurrents E cfg c (iaQuadTerm E c.ia vp vm) vp (some vm) (a.tmp.fill 0) m n = .ok t)
    (htm : m ≤ t.size) (hr : m ≤ res.size)
    {b : Nat → Int} (hb : ∀ i, i < m → InR cfg lo hi 0 (b i))
    (hdv : ∀ i, i < m → |t.get i - cur cfg.hrs (cfg.lrs - cfg.hrs) 0 (b i)| ≤ δ)
    (hp : ∀ i, i < m → b i = ∑ j ∈ range n, W i j * vec.get j) :
    Within (aMvmTnnI E cfg c a res vec m n l) W vec res m n (errZ (q 1 δ)) :=
  H.quad R hd hT hb hdv hp fun _ hw hI => H.fl.tnn1 hv ht htm hr hw hI

theorem tnn2 {t t' : Vec K} {v' : Vec Int} (hT : z 1 + z 2 ≤ T) (hv : encNonzero n vec a.vdP = .ok v)
    (hv' : encNegOne n vec v = .ok v')
    (ht : colCurrents E cfg c (iaDiffTerm E c.ia v) v none (a.tmp.fill 0) m n = .ok t)
    (ht' : colCurrents E cfg c (iaDiffTerm E c.ia v') v' none (t.fill 0) m n = .ok t')
    (htm : m ≤ t.size) (htm' : m ≤ t'.size) (hr : m ≤ res.size)
    {b b' : Nat → Int} (hb : ∀ i, i < m → InR cfg lo hi 0 (b i)) (hb' : ∀ i, i < m → InR cfg lo hi 0 (b' i))
    (hdv : ∀ i, i < m → |t.get i - cur cfg.hrs (cfg.lrs - cfg.hrs) 0 (b i)| ≤ δ)
    (hdv' : ∀ i, i < m → |t'.get i - cur cfg.hrs (cfg.lrs - cfg.hrs) 0 (b' i)| ≤ δ')
    (hp : ∀ i, i < m → b i - 2 * b' i = ∑ j ∈ range n, W i j * vec.get j) :
    Within (aMvmTnnII E cfg c a res vec m n l) W vec res m n (errZ (q 1 δ) + errZ (q 2 δ')) := by
  obtain ⟨β, h1, h2, h3⟩ := H.ints hd (Or.inl rfl) (off := 0) hb (by simpa only [add_zero] using hdv)
  obtain ⟨γ, k1, k2, k3⟩ := H.ints hd (Or.inr rfl) (off := 0) hb' (by simpa only [add_zero] using hdv')
  have bb : ∀ i, i < m → |res.get i| + (|β i| + |γ i|) ≤ |res.get i| + T + 3 * n := fun i hi' => by
    have := h2 i hi'; have := k2 i hi'; omega
  have p1 : ∀ i, i < m → truncZ (Acs.plus E (res.get i) (β i : K)) = res.get i + β i := fun i hi' => by
    have := bb i hi'; have := R.roomB i hi'; have := abs_nonneg (γ i)
    rw [H.plus (by omega), truncZ_int]
  have p2 : ∀ i, i < m → truncZ (Acs.minus E (res.get i + β i) (γ i : K)) = res.get i + β i - γ i := fun i hi' => by
    have := bb i hi'; have := R.roomB i hi'; have := abs_add_le (res.get i) (β i)
    rw [H.minus (by omega), truncZ_int]
  obtain ⟨a', e⟩ := H.fl.tnn2 (res := res) hv hv' ht ht' htm htm' hr (y := fun i => (β i : K)) (y' := fun i => (γ i : K))
    (k := fun i => res.get i + β i) (fun i hi' => by rw [← h1 i hi', Int.cast_one])
    (fun i hi' => by rw [← k1 i hi', Int.cast_ofNat]) (fun i hi' => (p1 i hi').symm)
    (fun i hi' => by
      have := bb i hi'; have := R.room i hi'; have := abs_add_le (res.get i) (β i); have := abs_nonneg (γ i)
      have := abs_sub (res.get i + β i) (γ i)
      rw [p2 i hi']
      exact ⟨inI32_of_abs (by omega), inI32_of_abs (by omega)⟩)
  refine ⟨a', _, e, fun i hi' => ?_⟩
  rw [p2 i hi']
  refine err_two (h3 i hi') (k3 i hi') (Or.inr (Or.inl ?_))
  rw [← hp i hi']
  push_cast
  ring

theorem tnn3 {t t' : Vec K} {v' : Vec Int} (hT : z 1 + z 2 ≤ T) (hv : encBit0 n vec a.vdP = .ok v)
    (hv' : encBit1 n vec v = .ok v')
    (ht : colCurrents E cfg c (iaDiffTerm E c.ia v) v none (a.tmp.fill 0) m n = .ok t)
    (ht' : colCurrents E cfg c (iaDiffTerm E c.ia v') v' none (t.fill 0) m n = .ok t')
    (htm : m ≤ t.size) (htm' : m ≤ t'.size) (hr : m ≤ res.size) (hs : m ≤ c.gd.sumW.size)
    (hs' : ∀ i, i < m → |c.gd.sumW.get i| ≤ n)
    {b b' : Nat → Int} (hb : ∀ i, i < m → InR cfg lo hi 0 (b i)) (hb' : ∀ i, i < m → InR cfg lo hi 0 (b' i))
    (hdv : ∀ i, i < m → |t.get i - cur cfg.hrs (cfg.lrs - cfg.hrs) 0 (b i)| ≤ δ)
    (hdv' : ∀ i, i < m → |t'.get i - cur cfg.hrs (cfg.lrs - cfg.hrs) 0 (b' i)| ≤ δ')
    (hp : ∀ i, i < m → b i + 2 * b' i - c.gd.sumW.get i = ∑ j ∈ range n, W i j * vec.get j) :
    Within (aMvmTnnIII E cfg c a res vec m n l) W vec res m n (errZ (q 1 δ) + errZ (q 2 δ')) := by
  obtain ⟨β, h1, h2, h3⟩ := H.ints hd (Or.inl rfl) (off := 0) hb (by simpa only [add_zero] using hdv)
  obtain ⟨γ, k1, k2, k3⟩ := H.ints hd (Or.inr rfl) (off := 0) hb' (by simpa only [add_zero] using hdv')
  have bb : ∀ i, i < m → |res.get i| + (|β i| + |γ i|) ≤ |res.get i| + T := fun i hi' => by
    have := h2 i hi'; have := k2 i hi'; omega
  have p1 : ∀ i, i < m → truncZ (Acs.plus E (res.get i) (β i : K)) = res.get i + β i := fun i hi' => by
    have := bb i hi'; have := R.roomB i hi'; have := abs_nonneg (γ i)
    rw [H.plus (by omega), truncZ_int]
  have p2 : ∀ i, i < m → truncZ (Acs.plus E (res.get i + β i) (γ i : K)) = res.get i + β i + γ i := fun i hi' => by
    have := bb i hi'; have := R.roomB i hi'; have := abs_add_le (res.get i) (β i)
    rw [H.plus (by omega), truncZ_int]
  obtain ⟨a', e⟩ := H.fl.tnn3 (res := res) hv hv' ht ht' htm htm' hr hs (y := fun i => (β i : K))
    (y' := fun i => (γ i : K)) (k := fun i => res.get i + β i) (k' := fun i => res.get i + β i + γ i)
    (fun i hi' => by rw [← h1 i hi', Int.cast_one])
    (fun i hi' => by rw [← k1 i hi', Int.cast_ofNat]) (fun i hi' => (p1 i hi').symm) (fun i hi' => (p2 i hi').symm)
    (fun i hi' => by
      have := bb i hi'; have := R.room i hi'; have := abs_add_le (res.get i) (β i); have := abs_nonneg (γ i)
      have := abs_add_le (res.get i + β i) (γ i); have := hs' i hi'
      have := abs_sub (res.get i + β i + γ i) (c.gd.sumW.get i)
      exact ⟨inI32_of_abs (by omega), inI32_of_abs (by omega), inI32_of_abs (by omega)⟩)
  refine ⟨a', _, e, fun i hi' => ?_⟩
  refine err_two (h3 i hi') (k3 i hi') (Or.inl ?_)
  rw [← hp i hi']
  push_cast
  ring

omit H R hd in
/-- Four conversions. -/
theorem err4 {x1 x2 x3 x4 e1 e2 e3 e4 t t' : K} (h1 : |x1| ≤ e1) (h2 : |x2| ≤ e2) (h3 : |x3| ≤ e3) (h4 : |x4| ≤ e4)
    (h : t - t' = x1 - x2 - x3 + x4 ∨ t - t' = x1 - x2 + x3 - x4) : |t - t'| ≤ e1 + e2 + e3 + e4 := by
  have k1 := abs_le.1 h1
  have k2 := abs_le.1 h2
  have k3 := abs_le.1 h3
  have k4 := abs_le.1 h4
  rw [abs_le]
  rcases h with h | h <;> rw [h] <;> constructor <;> linarith

theorem tnn4 (hT : z 1 + z 1 + z 2 + z 2 ≤ T) (hspl : cfg.split = [1, 1])
    {vp vm : Vec Int} {s : Int}
    (hs : inpSum n vec = .ok s) (hv : encTern n vec a.vdP a.vdM = .ok (vp, vm)) {S0 S1 S2 S3 : Nat → K}
    (h0 : TcSums E cfg c a vp vm m n S0 S1 S2 S3) (hf : m ≤ a.tmpFp.size) (hr : m ≤ res.size)
    {a1 a2 a3 a4 : Int} {b1 b2 b3 b4 : Nat → Int} (ha : a1 - a2 - 2 * a3 + 2 * a4 = 0)
    (i1 : ∀ i, i < m → InR cfg lo hi a1 (b1 i)) (i2 : ∀ i, i < m → InR cfg lo hi a2 (b2 i))
    (i3 : ∀ i, i < m → InR cfg lo hi a3 (b3 i)) (i4 : ∀ i, i < m → InR cfg lo hi a4 (b4 i))
    (d1 : ∀ i, i < m → |S0 i + E.f32 (E.fmul (E.ofInt s) cfg.hrs / 2)
      - cur cfg.hrs (cfg.lrs - cfg.hrs) a1 (b1 i)| ≤ δ1)
    (d2 : ∀ i, i < m → |S1 i + E.f32 (-E.fmul (E.ofInt s) cfg.hrs / 2)
      - cur cfg.hrs (cfg.lrs - cfg.hrs) a2 (b2 i)| ≤ δ2)
    (d3 : ∀ i, i < m → |S2 i - cur cfg.hrs (cfg.lrs - cfg.hrs) a3 (b3 i)| ≤ δ3)
    (d4 : ∀ i, i < m → |S3 i - cur cfg.hrs (cfg.lrs - cfg.hrs) a4 (b4 i)| ≤ δ4)
    (hpr : ∀ i, i < m → b1 i - b2 i - 2 * b3 i + 2 * b4 i = ∑ j ∈ range n, W i j * vec.get j) :
    Within (aMvmTnnIV E cfg c a res vec m n l) W vec res m n
      (errL (q 1 δ1) + errL (q 1 δ2) + errL (q 2 δ3) + errL (q 2 δ4)) := by
  obtain ⟨β1, f1, g1, k1, _⟩ := H.lins hd (Or.inl rfl) (a := fun _ => a1) i1 d1
  obtain ⟨β2, f2, g2, k2, _⟩ := H.lins hd (Or.inl rfl) (a := fun _ => a2) i2 d2
  obtain ⟨β3, f3, g3, k3, _⟩ := H.lins hd (Or.inr rfl) (a := fun _ => a3) (off := 0) i3
    (by simpa only [add_zero] using d3)
  obtain ⟨β4, f4, g4, k4, _⟩ := H.lins hd (Or.inr rfl) (a := fun _ => a4) (off := 0) i4
    (by simpa only [add_zero] using d4)
  have bb : ∀ i, i < m → |res.get i| + (|β1 i| + |β2 i| + |β3 i| + |β4 i|) ≤ |res.get i| + T + 3 * n :=
    fun i hi' => by have := g1 i hi'; have := g2 i hi'; have := g3 i hi'; have := g4 i hi'; omega
  refine H.fin (w := fun i => β1 i - β2 i - β3 i + β4 i) (fun i hi' => ?_) (fun i hi' => ?_) fun hI => ?_
  · have := abs_add_le (β1 i - β2 i - β3 i) (β4 i)
    have := abs_sub (β1 i - β2 i) (β3 i)
    have := abs_sub (β1 i) (β2 i)
    exact ⟨by linarith [bb i hi', R.roomB i hi'], by linarith [bb i hi', R.room i hi']⟩
  · refine err4 (k1 i hi') (k2 i hi') (k3 i hi') (k4 i hi') (Or.inl ?_)
    have ha' : (a1 : K) - a2 - 2 * a3 + 2 * a4 = 0 := by exact_mod_cast ha
    rw [← hpr i hi']
    unfold lin
    push_cast
    linear_combination (cfg.hrs / (2 * (cfg.lrs - cfg.hrs))) * ha'
  · rcases h0 with ⟨hp, ht, h0, h1, h2, h3⟩ | ⟨hp, ht, ht', h0, h1⟩
    · refine H.fl.tnn4 hp hspl hs hv h0 h1 h2 h3 ht hf hr (fun i hi' => ?_) hI
      have e1 := f1 i hi'
      have e2 := f2 i hi'
      have e3 := f3 i hi'
      have e4 := f4 i hi'
      rw [Int.cast_one] at e1 e2
      rw [Int.cast_ofNat] at e3 e4
      have := bb i hi'; have := R.roomB i hi'; have := abs_nonneg (res.get i); have := abs_nonneg (β1 i)
      have := abs_nonneg (β2 i); have := abs_nonneg (β3 i); have := abs_nonneg (β4 i)
      have := abs_sub (β1 i - β2 i) (β3 i)
      have := abs_sub (β1 i) (β2 i)
      rw [e1, e2, e3, e4, show (0 : K) = ((0 : Int) : K) from Int.cast_zero.symm,
        H.fadd (by rw [abs_zero]; omega), zero_add, H.fsub (by omega), H.fsub (by omega), H.fadd (by omega)]
    · refine H.fl.tnn4w hp hspl hs hv h0 h1 ht ht' hf hr (fun i hi' => ?_) hI
      have e1 := f1 i hi'
      have e2 := f2 i hi'
      have e3 := f3 i hi'
      have e4 := f4 i hi'
      rw [Int.cast_one] at e1 e2
      rw [Int.cast_ofNat] at e3 e4
      have := bb i hi'; have := R.roomB i hi'; have := abs_nonneg (res.get i); have := abs_nonneg (β1 i)
      have := abs_nonneg (β2 i); have := abs_nonneg (β3 i); have := abs_nonneg (β4 i)
      have := abs_sub (β1 i - β3 i) (β2 i)
      have := abs_sub (β1 i) (β3 i)
      rw [e1, e2, e3, e4, show (0 : K) = ((0 : Int) : K) from Int.cast_zero.symm,
        H.fadd (by rw [abs_zero]; omega), zero_add, H.fsub (by omega), H.fsub (by omega), H.fadd (by omega)]
      exact congrArg _ (by ring)

theorem tnn5 (hT : z 1 + z 1 + z 2 + z 2 ≤ T) (hspl : cfg.split = [1, 1])
    {vp vm : Vec Int} {s : Int}
    (hs : inpSum n vec = .ok s) (h64 : i64 (3 * s) = .ok (3 * s)) (hs' : |s| ≤ n)
    (hv : encTern n vec a.vdP a.vdM = .ok (vp, vm)) {S0 S1 S2 S3 : Nat → K}
    (h0 : TcSums E cfg c a vp vm m n S0 S1 S2 S3) (hf : m ≤ a.tmpFp.size) (hr : m ≤ res.size)
    {a1 a2 a3 a4 : Int} {b1 b2 b3 b4 : Nat → Int} (ha : a1 - a2 + 2 * a3 - 2 * a4 = 0)
    (i1 : ∀ i, i < m → InR cfg lo hi a1 (b1 i)) (i2 : ∀ i, i < m → InR cfg lo hi a2 (b2 i))
    (i3 : ∀ i, i < m → InR cfg lo hi a3 (b3 i)) (i4 : ∀ i, i < m → InR cfg lo hi a4 (b4 i))
    (d1 : ∀ i, i < m → |S0 i - cur cfg.hrs (cfg.lrs - cfg.hrs) a1 (b1 i)| ≤ δ1)
    (d2 : ∀ i, i < m → |S1 i + E.fmul (E.ofInt (3 * s)) cfg.hrs
      - cur cfg.hrs (cfg.lrs - cfg.hrs) a2 (b2 i)| ≤ δ2)
    (d3 : ∀ i, i < m → |S2 i - cur cfg.hrs (cfg.lrs - cfg.hrs) a3 (b3 i)| ≤ δ3)
    (d4 : ∀ i, i < m → |S3 i - cur cfg.hrs (cfg.lrs - cfg.hrs) a4 (b4 i)| ≤ δ4)
    (hpr : ∀ i, i < m → b1 i - b2 i + 2 * b3 i - 2 * b4 i - s = ∑ j ∈ range n, W i j * vec.get j) :
    Within (aMvmTnnV E cfg c a res vec m n l) W vec res m n
      (errL (q 1 δ1) + errL (q 1 δ2) + errL (q 2 δ3) + errL (q 2 δ4)) := by
  obtain ⟨β1, f1, g1, k1, _⟩ := H.lins hd (Or.inl rfl) (a := fun _ => a1) (off := 0) i1
    (by simpa only [add_zero] using d1)
  obtain ⟨β2, f2, g2, k2, _⟩ := H.lins hd (Or.inl rfl) (a := fun _ => a2) i2 d2
  obtain ⟨β3, f3, g3, k3, _⟩ := H.lins hd (Or.inr rfl) (a := fun _ => a3) (off := 0) i3
    (by simpa only [add_zero] using d3)
  obtain ⟨β4, f4, g4, k4, _⟩ := H.lins hd (Or.inr rfl) (a := fun _ => a4) (off := 0) i4
    (by simpa only [add_zero] using d4)
  have bb : ∀ i, i < m → |res.get i| + (|β1 i| + |β2 i| + |β3 i| + |β4 i|) ≤ |res.get i| + T :=
    fun i hi' => by have := g1 i hi'; have := g2 i hi'; have := g3 i hi'; have := g4 i hi'; omega
  have tri : ∀ i, |β1 i - β2 i + β3 i - β4 i| ≤ |β1 i| + |β2 i| + |β3 i| + |β4 i| := fun i => by
    have := abs_sub (β1 i - β2 i + β3 i) (β4 i)
    have := abs_add_le (β1 i - β2 i) (β3 i)
    have := abs_sub (β1 i) (β2 i)
    omega
  have p1 : ∀ i, i < m → truncZ (Acs.plus E (res.get i) ((β1 i - β2 i + β3 i - β4 i : Int) : K))
      = res.get i + (β1 i - β2 i + β3 i - β4 i) := fun i hi' => by
    have := bb i hi'; have := R.roomB i hi'; have := tri i
    rw [H.plus (by omega), truncZ_int]
  have kI : ∀ i, i < m → InI32 (res.get i + (β1 i - β2 i + β3 i - β4 i)) ∧
      InI32 (res.get i + (β1 i - β2 i + β3 i - β4 i) - s) := fun i hi' => by
    have := bb i hi'; have := R.room i hi'; have := tri i
    have := abs_add_le (res.get i) (β1 i - β2 i + β3 i - β4 i)
    have := abs_sub (res.get i + (β1 i - β2 i + β3 i - β4 i)) s
    exact ⟨inI32_of_abs (by omega), inI32_of_abs (by omega)⟩
  obtain ⟨a', e⟩ : ∃ a', aMvmTnnV E cfg c a res vec m n l
      = .ok (a', res.over m fun i => res.get i + (β1 i - β2 i + β3 i - β4 i) - s) := by
    rcases h0 with ⟨hp, ht, h0, h1, h2, h3⟩ | ⟨hp, ht, ht', h0, h1⟩
    · refine H.fl.tnn5 (res := res) hp hspl hs h64 hv h0 h1 h2 h3 ht hf hr
        (y := fun i => ((β1 i - β2 i + β3 i - β4 i : Int) : K)) (k := fun i => res.get i + (β1 i - β2 i + β3 i - β4 i))
        (fun i hi' => ?_) (fun i hi' => (p1 i hi').symm) kI
      have e1 := f1 i hi'
      have e2 := f2 i hi'
      have e3 := f3 i hi'
      have e4 := f4 i hi'
      rw [Int.cast_one] at e1 e2
      rw [Int.cast_ofNat] at e3 e4
      have := bb i hi'; have := R.roomB i hi'; have := abs_nonneg (res.get i); have := abs_nonneg (β1 i)
      have := abs_nonneg (β2 i); have := abs_nonneg (β3 i); have := abs_nonneg (β4 i)
      have := abs_add_le (β1 i - β2 i) (β3 i)
      have := abs_sub (β1 i) (β2 i)
      rw [e1, e2, e3, e4, show (0 : K) = ((0 : Int) : K) from Int.cast_zero.symm,
        H.fadd (by rw [abs_zero]; omega), zero_add, H.fsub (by omega), H.fadd (by omega), H.fsub (by omega)]
    · refine H.fl.tnn5w (res := res) hp hspl hs h64 hv h0 h1 ht ht' hf hr
        (y := fun i => ((β1 i - β2 i + β3 i - β4 i : Int) : K)) (k := fun i => res.get i + (β1 i - β2 i + β3 i - β4 i))
        (fun i hi' => ?_) (fun i hi' => (p1 i hi').symm) kI
      have e1 := f1 i hi'
      have e2 := f2 i hi'
      have e3 := f3 i hi'
      have e4 := f4 i hi'
      rw [Int.cast_one] at e1 e2
      rw [Int.cast_ofNat] at e3 e4
      have := bb i hi'; have := R.roomB i hi'; have := abs_nonneg (res.get i); have := abs_nonneg (β1 i)
      have := abs_nonneg (β2 i); have := abs_nonneg (β3 i); have := abs_nonneg (β4 i)
      have := abs_sub (β1 i + β3 i) (β2 i)
      have := abs_add_le (β1 i) (β3 i)
      rw [e1, e2, e3, e4, show (0 : K) = ((0 : Int) : K) from Int.cast_zero.symm,
        H.fadd (by rw [abs_zero]; omega), zero_add, H.fadd (by omega), H.fsub (by omega), H.fsub (by omega)]
      exact congrArg _ (by ring)
  refine ⟨a', _, e, fun i hi' => ?_⟩
  refine err4 (k1 i hi') (k2 i hi') (k3 i hi') (k4 i hi') (Or.inr ?_)
  have ha' : (a1 : K) - a2 + 2 * a3 - 2 * a4 = 0 := by exact_mod_cast ha
  rw [← hpr i hi']
  unfold lin
  push_cast
  linear_combination (cfg.hrs / (2 * (cfg.lrs - cfg.hrs))) * ha'

end RealHyp

end

end Acs
