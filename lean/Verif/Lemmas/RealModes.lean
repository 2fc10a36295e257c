import Verif.Lemmas.RealRun
import Verif.Lemmas.XAnalogAdc
import Verif.SpecAdcNoise

/-!
# Binary and ternary mappings with deviating column currents and a real converter

`ColHyp` says how far the computed column currents are from the nominal ones; the lemmas turn that into an
error of the result.
-/

set_option linter.unusedSectionVars false

namespace Acs

open Finset Spec

section
variable {K : Type} [Field K] [LinearOrder K] [IsStrictOrderedRing K] [FloorRing K]
variable {E : Env K} {cfg : Cfg K} {c : Core K} {a : Aux K} {cf : K → K → K → K}
variable {vec res v : Vec Int} {m n : Nat} {l : String} {lo hi : K} {z : Int → Int} {q : Int → K → K} {B T : Int}
variable {P Q W : Nat → Nat → Int} {D : Int → K} {ω : K}

/-- The accumulated currents of a term, whatever buffer they are accumulated in. -/
def ColSum (E : Env K) (term : Nat → Nat → C K) (m n : Nat) (S : Nat → K) : Prop :=
  ∀ tmp : Vec K, m ≤ tmp.size → accG (faddC E) m n term (tmp.fill 0) = .ok ((tmp.fill 0).over m S)

/-- Input bits. -/
def Bits (f : Nat → Int) (n : Nat) : Prop := ∀ j, j < n → f j = 0 ∨ f j = 1

/-- Column currents that are off by `D k` if `k` cells are read; offsets are off by `ω`. -/
structure ColHyp (E : Env K) (cfg : Cfg K) (c : Core K) (a : Aux K) (P Q W : Nat → Nat → Int) (vec res : Vec Int)
    (m n : Nat) (D : Int → K) (ω : K) : Prop where
  ne : cfg.lrs - cfg.hrs ≠ 0
  par : cfg.parasitics = false
  w1 : ∀ i j, i < m → j < n → |W i j| ≤ 1
  sw : m ≤ c.gd.sumW.size
  vdP : n ≤ a.vdP.size
  vdM : n ≤ a.vdM.size
  tmp : m ≤ a.tmp.size
  tmpP : m ≤ a.tmpP.size
  tmpM : m ≤ a.tmpM.size
  tmpFp : m ≤ a.tmpFp.size
  vec : n ≤ vec.size
  res : m ≤ res.size
  n31 : n ≤ 2147483647
  om : 0 ≤ ω
  off : ∀ k : Int, |k| ≤ 3 * n → |E.fmul (E.ofInt k) cfg.hrs - k * cfg.hrs| ≤ ω
  half : ∀ k : Int, |k| ≤ n → |E.f32 (E.fmul (E.ofInt k) cfg.hrs / 2) - k * (cfg.hrs / 2)| ≤ ω ∧
    |E.f32 (-E.fmul (E.ofInt k) cfg.hrs / 2) + k * (cfg.hrs / 2)| ≤ ω
  p : ∀ (u : Vec Int) (f : Nat → Int), n ≤ u.size → Bits f n → ∃ S, ColSum E (iaTerm E c.ia.p (u.over n f)) m n S ∧
    ∀ i, i < m → |S i - cur cfg.hrs (cfg.lrs - cfg.hrs) (∑ j ∈ range n, 2 * f j) (∑ j ∈ range n, P i j * f j)|
      ≤ D (∑ j ∈ range n, f j)
  q : ∀ (u : Vec Int) (f : Nat → Int), n ≤ u.size → Bits f n → ∃ S, ColSum E (iaTerm E c.ia.m (u.over n f)) m n S ∧
    ∀ i, i < m → |S i - cur cfg.hrs (cfg.lrs - cfg.hrs) (∑ j ∈ range n, 2 * f j) (∑ j ∈ range n, Q i j * f j)|
      ≤ D (∑ j ∈ range n, f j)
  diff : ∀ (u : Vec Int) (f : Nat → Int), n ≤ u.size → Bits f n →
    ∃ S, ColSum E (iaDiffTerm E c.ia (u.over n f)) m n S ∧
    ∀ i, i < m → |S i - cur cfg.hrs (cfg.lrs - cfg.hrs) 0 (∑ j ∈ range n, (P i j - Q i j) * f j)|
      ≤ D (2 * ∑ j ∈ range n, f j)
  neg : ∀ (u : Vec Int) (f : Nat → Int), n ≤ u.size → Bits f n →
    ∃ S, ColSum E (iaDiffTermNeg E c.ia (u.over n f)) m n S ∧
    ∀ i, i < m → |S i - cur cfg.hrs (cfg.lrs - cfg.hrs) 0 (∑ j ∈ range n, (Q i j - P i j) * f j)|
      ≤ D (2 * ∑ j ∈ range n, f j)
  five : ∀ (u u' : Vec Int) (f f' : Nat → Int), n ≤ u.size → n ≤ u'.size → Bits f n → Bits f' n →
    ∃ S, ColSum E (iaBnn5Term E c.ia (u.over n f) (u'.over n f')) m n S ∧
    ∀ i, i < m → |S i - cur cfg.hrs (cfg.lrs - cfg.hrs) (∑ j ∈ range n, (2 * f j + 2 * f' j))
      (∑ j ∈ range n, (P i j * f j + Q i j * f' j))| ≤ D (∑ j ∈ range n, f j + ∑ j ∈ range n, f' j)
  quad : ∀ (u u' : Vec Int) (f f' : Nat → Int), n ≤ u.size → n ≤ u'.size → Bits f n → Bits f' n →
    ∃ S, ColSum E (iaQuadTerm E c.ia (u.over n f) (u'.over n f')) m n S ∧
    ∀ i, i < m → |S i - cur cfg.hrs (cfg.lrs - cfg.hrs) 0 (∑ j ∈ range n, (P i j - Q i j) * (f j - f' j))|
      ≤ D (2 * (∑ j ∈ range n, f j + ∑ j ∈ range n, f' j))

/-- Column currents within `d` of `Y`, whatever buffer they are accumulated in. -/
def Cols (E : Env K) (cfg : Cfg K) (c : Core K) (term : Nat → Nat → C K) (vp : Vec Int) (vm : Option (Vec Int))
    (m n : Nat) (Y : Nat → K) (d : K) : Prop :=
  ∀ tmp : Vec K, m ≤ tmp.size → ∃ t, colCurrents E cfg c term vp vm (tmp.fill 0) m n = .ok t ∧ m ≤ t.size ∧
    ∀ i, i < m → |t.get i - Y i| ≤ d

/-- As `ColHyp`, for the column currents that the mapping reads and that need not come from the stored currents. -/
structure CurHyp (E : Env K) (cfg : Cfg K) (c : Core K) (a : Aux K) (P Q W : Nat → Nat → Int) (vec res : Vec Int)
    (m n : Nat) (D : Int → K) (ω : K) : Prop where
  ne : cfg.lrs - cfg.hrs ≠ 0
  w1 : ∀ i j, i < m → j < n → |W i j| ≤ 1
  sw : m ≤ c.gd.sumW.size
  vdP : n ≤ a.vdP.size
  vdM : n ≤ a.vdM.size
  tmp : m ≤ a.tmp.size
  tmpP : m ≤ a.tmpP.size
  tmpM : m ≤ a.tmpM.size
  tmpFp : m ≤ a.tmpFp.size
  vec : n ≤ vec.size
  res : m ≤ res.size
  n31 : n ≤ 2147483647
  om : 0 ≤ ω
  off : ∀ k : Int, |k| ≤ 3 * n → |E.fmul (E.ofInt k) cfg.hrs - k * cfg.hrs| ≤ ω
  half : ∀ k : Int, |k| ≤ n → |E.f32 (E.fmul (E.ofInt k) cfg.hrs / 2) - k * (cfg.hrs / 2)| ≤ ω ∧
    |E.f32 (-E.fmul (E.ofInt k) cfg.hrs / 2) + k * (cfg.hrs / 2)| ≤ ω
  p : cfg.mode = .bnn3 ∨ cfg.mode = .bnn4 → ∀ (u : Vec Int) (f : Nat → Int), n ≤ u.size → Bits f n →
    Cols E cfg c (iaTerm E c.ia.p (u.over n f)) (u.over n f) none m n
      (fun i => cur cfg.hrs (cfg.lrs - cfg.hrs) (∑ j ∈ range n, 2 * f j) (∑ j ∈ range n, P i j * f j))
      (D (∑ j ∈ range n, f j))
  diff : cfg.mode = .bnn1 ∨ cfg.mode = .tnn2 ∨ cfg.mode = .tnn3 → ∀ (u : Vec Int) (f : Nat → Int), n ≤ u.size →
    Bits f n → Cols E cfg c (iaDiffTerm E c.ia (u.over n f)) (u.over n f) none m n
      (fun i => cur cfg.hrs (cfg.lrs - cfg.hrs) 0 (∑ j ∈ range n, (P i j - Q i j) * f j)) (D (2 * ∑ j ∈ range n, f j))
  neg : cfg.mode = .bnn2 → ∀ (u : Vec Int) (f : Nat → Int), n ≤ u.size → Bits f n →
    Cols E cfg c (iaDiffTermNeg E c.ia (u.over n f)) (u.over n f) none m n
      (fun i => cur cfg.hrs (cfg.lrs - cfg.hrs) 0 (∑ j ∈ range n, (Q i j - P i j) * f j)) (D (2 * ∑ j ∈ range n, f j))
  five : cfg.mode = .bnn5 → ∀ (u u' : Vec Int) (f f' : Nat → Int), n ≤ u.size → n ≤ u'.size → Bits f n → Bits f' n →
    Cols E cfg c (iaBnn5Term E c.ia (u.over n f) (u'.over n f')) (u.over n f) (some (u'.over n f')) m n
      (fun i => cur cfg.hrs (cfg.lrs - cfg.hrs) (∑ j ∈ range n, (2 * f j + 2 * f' j))
        (∑ j ∈ range n, (P i j * f j + Q i j * f' j))) (D (∑ j ∈ range n, f j + ∑ j ∈ range n, f' j))
  quad : cfg.mode = .bnn6 ∨ cfg.mode = .tnn1 → ∀ (u u' : Vec Int) (f f' : Nat → Int), n ≤ u.size → n ≤ u'.size →
    Bits f n → Bits f' n →
    Cols E cfg c (iaQuadTerm E c.ia (u.over n f) (u'.over n f')) (u.over n f) (some (u'.over n f')) m n
      (fun i => cur cfg.hrs (cfg.lrs - cfg.hrs) 0 (∑ j ∈ range n, (P i j - Q i j) * (f j - f' j)))
      (D (2 * (∑ j ∈ range n, f j + ∑ j ∈ range n, f' j)))
  tc : cfg.mode = .tnn4 ∨ cfg.mode = .tnn5 → ∀ (u u' : Vec Int) (f f' : Nat → Int), n ≤ u.size → n ≤ u'.size →
    Bits f n → Bits f' n → ∃ S0 S1 S2 S3, TcSums E cfg c a (u.over n f) (u'.over n f') m n S0 S1 S2 S3 ∧
      (∀ i, i < m → |S0 i - cur cfg.hrs (cfg.lrs - cfg.hrs) (∑ j ∈ range n, 2 * f j) (∑ j ∈ range n, P i j * f j)|
        ≤ D (∑ j ∈ range n, f j)) ∧
      (∀ i, i < m → |S1 i - cur cfg.hrs (cfg.lrs - cfg.hrs) (∑ j ∈ range n, 2 * f' j) (∑ j ∈ range n, P i j * f' j)|
        ≤ D (∑ j ∈ range n, f' j)) ∧
      (∀ i, i < m → |S2 i - cur cfg.hrs (cfg.lrs - cfg.hrs) (∑ j ∈ range n, 2 * f j) (∑ j ∈ range n, Q i j * f j)|
        ≤ D (∑ j ∈ range n, f j)) ∧
      (∀ i, i < m → |S3 i - cur cfg.hrs (cfg.lrs - cfg.hrs) (∑ j ∈ range n, 2 * f' j) (∑ j ∈ range n, Q i j * f' j)|
        ≤ D (∑ j ∈ range n, f' j))

theorem ColHyp.toCur (H : ColHyp E cfg c a P Q W vec res m n D ω) : CurHyp E cfg c a P Q W vec res m n D ω := by
  have cols : ∀ {term : Nat → Nat → C K} {vp : Vec Int} {vm : Option (Vec Int)} {S Y : Nat → K} {d : K},
      ColSum E term m n S → (∀ i, i < m → |S i - Y i| ≤ d) → Cols E cfg c term vp vm m n Y d :=
    fun {term vp vm S Y d} h1 h2 tmp ht => ⟨(tmp.fill 0).over m S, by rw [colCurrents_ideal H.par, h1 _ ht], ht, fun i hi => by
      rw [Vec.over_lt hi]
      exact h2 i hi⟩
  exact {
    H with
    p := fun _ u f hu hf => by
      obtain ⟨S, h1, h2⟩ := H.p u f hu hf
      exact cols h1 h2
    diff := fun _ u f hu hf => by
      obtain ⟨S, h1, h2⟩ := H.diff u f hu hf
      exact cols h1 h2
    neg := fun _ u f hu hf => by
      obtain ⟨S, h1, h2⟩ := H.neg u f hu hf
      exact cols h1 h2
    five := fun _ u u' f f' hu hu' hf hf' => by
      obtain ⟨S, h1, h2⟩ := H.five u u' f f' hu hu' hf hf'
      exact cols h1 h2
    quad := fun _ u u' f f' hu hu' hf hf' => by
      obtain ⟨S, h1, h2⟩ := H.quad u u' f f' hu hu' hf hf'
      exact cols h1 h2
    tc := fun _ u u' f f' hu hu' hf hf' => by
      obtain ⟨S0, h0, g0⟩ := H.p u f hu hf
      obtain ⟨S1, h1, g1⟩ := H.p u' f' hu' hf'
      obtain ⟨S2, h2, g2⟩ := H.q u f hu hf
      obtain ⟨S3, h3, g3⟩ := H.q u' f' hu' hf'
      exact ⟨S0, S1, S2, S3, .inl ⟨H.par, H.tmp, h0, h1, h2, h3⟩, g0, g1, g2, g3⟩ }

theorem bits_up : Bits (fun j => up (vec.get j)) n := fun j _ => by
  show (if _ then _ else _) = _ ∨ (if _ then _ else _) = _
  split <;> simp

theorem bits_dn : Bits (fun j => dn (vec.get j)) n := fun j _ => by
  show (if _ then _ else _) = _ ∨ (if _ then _ else _) = _
  split <;> simp

namespace CurHyp
variable (H : CurHyp E cfg c a P Q W vec res m n D ω)
include H

/-- A current without offset. -/
theorem plain {x y : K} {k : Int} (h : |x - y| ≤ D k) : |x - y| ≤ D k + ω := by linarith [H.om]

omit H in
/-- A current with an offset. -/
theorem withOff {x y o o' : K} {k : Int} {Y : K} (h : |x - y| ≤ D k) (ho : |o - o'| ≤ ω) (hY : y + o' = Y) :
    |x + o - Y| ≤ D k + ω := by
  rw [← hY, add_sub_add_comm]
  exact (abs_add_le _ _).trans (add_le_add h ho)

theorem neg_sum (hx : ∀ j, j < n → IsTern (vec.get j)) :
    negI (∑ j ∈ range n, vec.get j) = .ok (-∑ j ∈ range n, vec.get j) := by
  have h1 := BinHyp.abs_sum_vec hx
  have := H.n31
  refine negI_ok (inI32_of_abs ?_)
  rw [abs_neg]
  omega

theorem sums (hs : ∀ i, i < m → c.gd.sumW.get i = ∑ j ∈ range n, W i j) {i : Nat} (hi : i < m) :
    |c.gd.sumW.get i| ≤ n := by
  rw [hs i hi]
  exact abs_sum_tern fun j hj => H.w1 i j hi hj

variable (R : RealHyp E cfg c l cf lo hi z q B) (M : Roomy res m n B T)
include R M

theorem bnn1 (hm : cfg.mode = .bnn1) (hT : z 2 ≤ T) (hx : ∀ j, j < n → IsBin (vec.get j))
    (h : ∀ i j, i < m → j < n → P i j - Q i j = W i j)
    (hs : ∀ i, i < m → c.gd.sumW.get i = ∑ j ∈ range n, W i j)
    (hr : ∀ i, i < m → InR cfg lo hi 0 (∑ j ∈ range n, (P i j - Q i j) * up (vec.get j))) :
    Within (aMvmBnnI E cfg c a res vec m n l) W vec res m n (errZ (q 2 (D (2 * count vec n 1) + ω))) := by
  have e : ∀ j, j < n → (vec.get j + 1) / 2 = up (vec.get j) := fun j hj => by
    rcases hx j hj with e | e <;> rw [e] <;> norm_num
  have key := fun i hi => sum_bnn1 (fun j hj => h i j hi hj) hx
  obtain ⟨t, h1, ht, h2⟩ := H.diff (.inl hm) a.vdP (fun j => up (vec.get j)) H.vdP bits_up a.tmp H.tmp
  refine R.bnn1 M H.ne hT (encBnn1_ok H.vec H.vdP fun j hj => (hx j hj).tern.in1)
    (by rw [over_congr e]; exact h1) ht H.res H.sw
    (fun i hi => H.sums hs hi) hr (fun i hi => ?_) fun i hi => ?_
  · exact H.plain (h2 i hi)
  · rw [← key i hi, hs i hi]
    exact congrArg (2 * · - _) (sum_congr rfl fun j hj => by rw [e j (mem_range.1 hj)])

theorem bnn2 (hm : cfg.mode = .bnn2) (hT : z 2 ≤ T) (hx : ∀ j, j < n → IsBin (vec.get j))
    (h : ∀ i j, i < m → j < n → P i j - Q i j = W i j)
    (hs : ∀ i, i < m → c.gd.sumW.get i = ∑ j ∈ range n, W i j)
    (hr : ∀ i, i < m → InR cfg lo hi 0 (∑ j ∈ range n, (Q i j - P i j) * dn (vec.get j))) :
    Within (aMvmBnnII E cfg c a res vec m n l) W vec res m n (errZ (q 2 (D (2 * count vec n (-1)) + ω))) := by
  have e : ∀ j, j < n → (vec.get j - 1).tdiv (-2) = dn (vec.get j) := fun j hj => by
    rcases hx j hj with e | e <;> rw [e] <;> norm_num
  have key := fun i hi => sum_bnn2 (fun j hj => h i j hi hj) hx
  obtain ⟨t, h1, ht, h2⟩ := H.neg hm a.vdP (fun j => dn (vec.get j)) H.vdP bits_dn a.tmp H.tmp
  refine R.bnn2 M H.ne hT (encBnn2_ok H.vec H.vdP fun j hj => (hx j hj).tern.in1')
    (by rw [over_congr e]; exact h1) ht H.res H.sw
    (fun i hi => H.sums hs hi) hr (fun i hi => ?_) fun i hi => ?_
  · exact H.plain (h2 i hi)
  · rw [← key i hi, hs i hi]
    exact congrArg (2 * · + _) (sum_congr rfl fun j hj => by rw [e j (mem_range.1 hj)])

theorem bnn3 (hm : cfg.mode = .bnn3) (hT : z 2 + z 2 ≤ T) (hx : ∀ j, j < n → IsBin (vec.get j))
    (h : ∀ i j, i < m → j < n → 2 * P i j - 1 = W i j)
    (hr : ∀ i, i < m → InR cfg lo hi (∑ j ∈ range n, 2 * dn (vec.get j)) (∑ j ∈ range n, P i j * up (vec.get j)))
    (hr' : ∀ i, i < m → InR cfg lo hi (∑ j ∈ range n, 2 * dn (vec.get j)) (∑ j ∈ range n, P i j * dn (vec.get j))) :
    Within (aMvmBnnIII E cfg c a res vec m n l) W vec res m n
      (errL (q 2 (D (count vec n 1) + ω)) + errL (q 2 (D (count vec n (-1)) + ω))) ∧
      (Steady (shared cfg vec n) (q 2 (D (count vec n 1) + ω)) → Steady (shared cfg vec n) (q 2 (D (count vec n (-1)) + ω)) →
        Within (aMvmBnnIII E cfg c a res vec m n l) W vec res m n 0) := by
  have es : shared cfg vec n
      = ((2 * ∑ j ∈ range n, 2 * dn (vec.get j) : Int) : K) * (cfg.hrs / (2 * (cfg.lrs - cfg.hrs))) := by
    have := H.ne
    unfold shared count
    rw [← mul_sum]
    push_cast
    field_simp
  rw [es]
  have hx' := fun j hj => (hx j hj).tern
  have b := BinHyp.abs_sum_vec hx'
  have ud := sum_up_dn hx'
  obtain ⟨tp, h1, ht, h2⟩ := H.p (.inl hm) a.vdP (fun j => up (vec.get j)) H.vdP bits_up a.tmpP H.tmpP
  obtain ⟨tm, k1, kt, k2⟩ := H.p (.inl hm) a.vdM (fun j => dn (vec.get j)) H.vdM bits_dn a.tmpM H.tmpM
  refine R.bnn3 M H.ne hT (encPMSum_ok H.vec H.vdP H.vdM H.n31 hx)
    h1 k1 (H.neg_sum hx') ht kt H.res b hr hr' (fun i hi => ?_) (fun i hi => ?_)
    fun i hi => sum_bnn3 (fun j hj => h i j hi hj) hx
  · refine withOff (h2 i hi) (H.off _ (by rw [abs_neg]; omega)) ?_
    rw [← ud, ← mul_sum, ← mul_sum]
    unfold cur
    push_cast
    ring
  · exact H.plain (k2 i hi)

theorem bnn4 (hm : cfg.mode = .bnn4) (hT : z 2 + z 2 ≤ T) (hx : ∀ j, j < n → IsBin (vec.get j))
    (h : ∀ i j, i < m → j < n → 1 - 2 * P i j = W i j)
    (hr : ∀ i, i < m → InR cfg lo hi (∑ j ∈ range n, 2 * dn (vec.get j)) (∑ j ∈ range n, P i j * up (vec.get j)))
    (hr' : ∀ i, i < m → InR cfg lo hi (∑ j ∈ range n, 2 * dn (vec.get j)) (∑ j ∈ range n, P i j * dn (vec.get j))) :
    Within (aMvmBnnIV E cfg c a res vec m n l) W vec res m n
      (errL (q 2 (D (count vec n 1) + ω)) + errL (q 2 (D (count vec n (-1)) + ω))) ∧
      (Steady (shared cfg vec n) (q 2 (D (count vec n 1) + ω)) → Steady (shared cfg vec n) (q 2 (D (count vec n (-1)) + ω)) →
        Within (aMvmBnnIV E cfg c a res vec m n l) W vec res m n 0) := by
  have es : shared cfg vec n
      = ((2 * ∑ j ∈ range n, 2 * dn (vec.get j) : Int) : K) * (cfg.hrs / (2 * (cfg.lrs - cfg.hrs))) := by
    have := H.ne
    unfold shared count
    rw [← mul_sum]
    push_cast
    field_simp
  rw [es]
  have hx' := fun j hj => (hx j hj).tern
  have b := BinHyp.abs_sum_vec hx'
  have ud := sum_up_dn hx'
  obtain ⟨tp, h1, ht, h2⟩ := H.p (.inr hm) a.vdP (fun j => up (vec.get j)) H.vdP bits_up a.tmpP H.tmpP
  obtain ⟨tm, k1, kt, k2⟩ := H.p (.inr hm) a.vdM (fun j => dn (vec.get j)) H.vdM bits_dn a.tmpM H.tmpM
  refine R.bnn4 M H.ne hT (encPMSum_ok H.vec H.vdP H.vdM H.n31 hx)
    h1 k1 (H.neg_sum hx') ht kt H.res b hr hr' (fun i hi => ?_) (fun i hi => ?_)
    fun i hi => sum_bnn4 (fun j hj => h i j hi hj) hx
  · refine withOff (h2 i hi) (H.off _ (by rw [abs_neg]; omega)) ?_
    rw [← ud, ← mul_sum, ← mul_sum]
    unfold cur
    push_cast
    ring
  · exact H.plain (k2 i hi)

theorem bnn5 (hm : cfg.mode = .bnn5) (hT : z 2 ≤ T) (hx : ∀ j, j < n → IsBin (vec.get j))
    (h : ∀ i j, i < m → j < n → 2 * P i j - 1 = W i j) (h' : ∀ i j, i < m → j < n → 2 * Q i j - 1 = -W i j)
    (hr : ∀ i, i < m → InR cfg lo hi 0 (∑ j ∈ range n, (P i j * up (vec.get j) + Q i j * dn (vec.get j)))) :
    Within (aMvmBnnV E cfg c a res vec m n l) W vec res m n
      (errZ (q 2 (D (count vec n 1 + count vec n (-1)) + ω))) := by
  have h31 := H.n31
  have e0 := sum_one hx
  obtain ⟨t, h1, ht, h2⟩ := H.five hm a.vdP a.vdM (fun j => up (vec.get j)) (fun j => dn (vec.get j)) H.vdP H.vdM bits_up bits_dn a.tmp H.tmp
  refine R.bnn5 M H.ne hT (encPM_ok H.vec H.vdP H.vdM hx)
    h1
    (negI_ok (inI32_of_abs (by rw [abs_neg, Nat.abs_cast]; omega))) ht H.res hr (fun i hi => ?_)
    fun i hi => sum_bnn5 (fun j hj => h i j hi hj) (fun j hj => h' i j hi hj) hx
  refine withOff (h2 i hi) (H.off _ (by rw [abs_neg, Nat.abs_cast]; omega)) ?_
  rw [sum_add_distrib, ← mul_sum, ← mul_sum, ← e0]
  unfold cur
  push_cast
  ring

theorem bnn6 (hm : cfg.mode = .bnn6) (hT : z 1 ≤ T) (hx : ∀ j, j < n → IsBin (vec.get j)) (h : ∀ i j, i < m → j < n → P i j - Q i j = W i j)
    (hr : ∀ i, i < m → InR cfg lo hi 0 (∑ j ∈ range n, (P i j - Q i j) * (up (vec.get j) - dn (vec.get j)))) :
    Within (aMvmBnnVI E cfg c a res vec m n l) W vec res m n
      (errZ (q 1 (D (2 * (count vec n 1 + count vec n (-1))) + ω))) := by
  obtain ⟨t, h1, ht, h2⟩ := H.quad (.inl hm) a.vdP a.vdM (fun j => up (vec.get j)) (fun j => dn (vec.get j)) H.vdP H.vdM bits_up bits_dn a.tmp H.tmp
  refine R.bnn6 M H.ne hT (encPM_ok H.vec H.vdP H.vdM hx)
    h1 ht H.res hr (fun i hi => ?_)
    fun i hi => sum_quad (fun j hj => h i j hi hj) fun j hj => (hx j hj).tern
  exact H.plain (h2 i hi)

theorem tnn1 (hm : cfg.mode = .tnn1) (hT : z 1 ≤ T) (hx : ∀ j, j < n → IsTern (vec.get j)) (h : ∀ i j, i < m → j < n → P i j - Q i j = W i j)
    (hr : ∀ i, i < m → InR cfg lo hi 0 (∑ j ∈ range n, (P i j - Q i j) * (up (vec.get j) - dn (vec.get j)))) :
    Within (aMvmTnnI E cfg c a res vec m n l) W vec res m n
      (errZ (q 1 (D (2 * (count vec n 1 + count vec n (-1))) + ω))) := by
  obtain ⟨t, h1, ht, h2⟩ := H.quad (.inr hm) a.vdP a.vdM (fun j => up (vec.get j)) (fun j => dn (vec.get j)) H.vdP H.vdM bits_up bits_dn a.tmp H.tmp
  refine R.tnn1 M H.ne hT (encTern_ok H.vec H.vdP H.vdM hx)
    h1 ht H.res hr (fun i hi => ?_)
    fun i hi => sum_quad (fun j hj => h i j hi hj) hx
  exact H.plain (h2 i hi)

theorem tnn2 (hm : cfg.mode = .tnn2) (hT : z 1 + z 2 ≤ T) (hx : ∀ j, j < n → IsTern (vec.get j))
    (h : ∀ i j, i < m → j < n → P i j - Q i j = W i j)
    (hr : ∀ i, i < m → InR cfg lo hi 0 (∑ j ∈ range n, (P i j - Q i j) * (if vec.get j ≠ 0 then 1 else 0)))
    (hr' : ∀ i, i < m → InR cfg lo hi 0 (∑ j ∈ range n, (P i j - Q i j) * dn (vec.get j))) :
    Within (aMvmTnnII E cfg c a res vec m n l) W vec res m n
      (errZ (q 1 (D (2 * (count vec n 1 + count vec n (-1))) + ω)) + errZ (q 2 (D (2 * count vec n (-1)) + ω))) := by
  have e : ∑ j ∈ range n, (if vec.get j ≠ 0 then 1 else 0 : Int) = count vec n 1 + count vec n (-1) := by
    unfold count
    rw [← sum_add_distrib]
    refine sum_congr rfl fun j hj => ?_
    rcases hx j (mem_range.1 hj) with e | e | e <;> rw [e] <;> norm_num
  obtain ⟨t, h1, ht, h2⟩ := H.diff (.inr (.inl hm)) a.vdP (fun j => if vec.get j ≠ 0 then 1 else 0) H.vdP (fun j _ => by
    dsimp only
    split <;> simp) a.tmp H.tmp
  obtain ⟨t', k1, kt, k2⟩ := H.diff (.inr (.inl hm)) (a.vdP.over n fun j => if vec.get j ≠ 0 then 1 else 0) (fun j => dn (vec.get j)) H.vdP bits_dn
    t ht
  rw [e] at h2
  refine R.tnn2 M H.ne hT (encNonzero_ok H.vec H.vdP) (encNegOne_ok H.vec (by exact H.vdP))
    h1 k1 ht kt H.res hr hr' (fun i hi => ?_) (fun i hi => ?_)
    fun i hi => sum_tnn2 (fun j hj => h i j hi hj) hx
  · exact H.plain (h2 i hi)
  · exact H.plain (k2 i hi)

theorem tnn3 (hm : cfg.mode = .tnn3) (hT : z 1 + z 2 ≤ T) (hx : ∀ j, j < n → IsTern (vec.get j))
    (h : ∀ i j, i < m → j < n → P i j - Q i j = W i j)
    (hs : ∀ i, i < m → c.gd.sumW.get i = ∑ j ∈ range n, W i j)
    (hr : ∀ i, i < m → InR cfg lo hi 0 (∑ j ∈ range n, (P i j - Q i j) * ((vec.get j + 1) % 2)))
    (hr' : ∀ i, i < m → InR cfg lo hi 0 (∑ j ∈ range n, (P i j - Q i j) * ((vec.get j + 1) / 2 % 2))) :
    Within (aMvmTnnIII E cfg c a res vec m n l) W vec res m n
      (errZ (q 1 (D (2 * count vec n 0) + ω)) + errZ (q 2 (D (2 * count vec n 1) + ω))) := by
  have e1 : ∑ j ∈ range n, (vec.get j + 1) % 2 = count vec n 0 := by
    unfold count
    refine sum_congr rfl fun j hj => ?_
    rcases hx j (mem_range.1 hj) with e | e | e <;> rw [e] <;> norm_num
  have e2 : ∑ j ∈ range n, (vec.get j + 1) / 2 % 2 = count vec n 1 := by
    unfold count
    refine sum_congr rfl fun j hj => ?_
    rcases hx j (mem_range.1 hj) with e | e | e <;> rw [e] <;> norm_num
  obtain ⟨t, h1, ht, h2⟩ := H.diff (.inr (.inr hm)) a.vdP (fun j => (vec.get j + 1) % 2) H.vdP (fun j _ => by dsimp only; omega)
    a.tmp H.tmp
  obtain ⟨t', k1, kt, k2⟩ := H.diff (.inr (.inr hm)) (a.vdP.over n fun j => (vec.get j + 1) % 2) (fun j => (vec.get j + 1) / 2 % 2) H.vdP
    (fun j _ => by dsimp only; omega) t ht
  rw [e1] at h2
  rw [e2] at k2
  have key := fun i hi => sum_tnn3 (fun j hj => h i j hi hj) hx
  refine R.tnn3 M H.ne hT (encBit0_ok H.vec H.vdP fun j hj => (hx j hj).in1)
    (encBit1_ok H.vec (by exact H.vdP) fun j hj => (hx j hj).in1)
    h1 k1 ht kt H.res H.sw (fun i hi => H.sums hs hi) hr hr'
    (fun i hi => ?_) (fun i hi => ?_) fun i hi => by rw [hs i hi]; exact key i hi
  · exact H.plain (h2 i hi)
  · exact H.plain (k2 i hi)

theorem tnn4 (hm : cfg.mode = .tnn4) (hT : z 1 + z 1 + z 2 + z 2 ≤ T) (hsp : cfg.split = [1, 1]) (hx : ∀ j, j < n → IsTern (vec.get j))
    (h : ∀ i j, i < m → j < n → P i j - 2 * Q i j = W i j)
    (hr1 : ∀ i, i < m → InR cfg lo hi (∑ j ∈ range n, 2 * up (vec.get j) + ∑ j ∈ range n, vec.get j)
      (∑ j ∈ range n, P i j * up (vec.get j)))
    (hr2 : ∀ i, i < m → InR cfg lo hi (∑ j ∈ range n, 2 * dn (vec.get j) + -(∑ j ∈ range n, vec.get j))
      (∑ j ∈ range n, P i j * dn (vec.get j)))
    (hr3 : ∀ i, i < m → InR cfg lo hi (∑ j ∈ range n, 2 * up (vec.get j))
      (∑ j ∈ range n, Q i j * up (vec.get j)))
    (hr4 : ∀ i, i < m → InR cfg lo hi (∑ j ∈ range n, 2 * dn (vec.get j))
      (∑ j ∈ range n, Q i j * dn (vec.get j))) :
    Within (aMvmTnnIV E cfg c a res vec m n l) W vec res m n
      (errL (q 1 (D (count vec n 1) + ω)) + errL (q 1 (D (count vec n (-1)) + ω))
        + errL (q 2 (D (count vec n 1) + ω)) + errL (q 2 (D (count vec n (-1)) + ω))) := by
  have b := BinHyp.abs_sum_vec hx
  have ud := sum_up_dn hx
  obtain ⟨S0, S1, S2, S3, h1, g1, g2, g3, g4⟩ := H.tc (.inl hm) a.vdP a.vdM (fun j => up (vec.get j))
    (fun j => dn (vec.get j)) H.vdP H.vdM bits_up bits_dn
  have hh := H.half _ b
  refine R.tnn4 M H.ne hT hsp (inpSum_ok H.vec H.n31 fun j hj => (hx j hj).in32)
    (encTern_ok H.vec H.vdP H.vdM hx) h1 H.tmpFp H.res ?_ hr1 hr2 hr3 hr4
    (fun i hi => withOff (g1 i hi) hh.1 (by unfold cur; push_cast; ring))
    (fun i hi => withOff (o' := -(((∑ j ∈ range n, vec.get j : Int) : K) * (cfg.hrs / 2))) (g2 i hi)
      (by rw [sub_neg_eq_add]; exact hh.2) (by unfold cur; push_cast; ring))
    (fun i hi => H.plain (g3 i hi)) (fun i hi => H.plain (g4 i hi))
    fun i hi => sum_tnn4 (fun j hj => h i j hi hj) hx
  rw [← ud, ← mul_sum, ← mul_sum]
  ring

theorem tnn5 (hm : cfg.mode = .tnn5) (hT : z 1 + z 1 + z 2 + z 2 ≤ T) (hsp : cfg.split = [1, 1]) (hx : ∀ j, j < n → IsTern (vec.get j))
    (h : ∀ i j, i < m → j < n → P i j + 2 * Q i j = W i j + 1)
    (hr1 : ∀ i, i < m → InR cfg lo hi (∑ j ∈ range n, 2 * up (vec.get j))
      (∑ j ∈ range n, P i j * up (vec.get j)))
    (hr2 : ∀ i, i < m → InR cfg lo hi (∑ j ∈ range n, 2 * dn (vec.get j) + 2 * (3 * ∑ j ∈ range n, vec.get j))
      (∑ j ∈ range n, P i j * dn (vec.get j)))
    (hr3 : ∀ i, i < m → InR cfg lo hi (∑ j ∈ range n, 2 * up (vec.get j))
      (∑ j ∈ range n, Q i j * up (vec.get j)))
    (hr4 : ∀ i, i < m → InR cfg lo hi (∑ j ∈ range n, 2 * dn (vec.get j))
      (∑ j ∈ range n, Q i j * dn (vec.get j))) :
    Within (aMvmTnnV E cfg c a res vec m n l) W vec res m n
      (errL (q 1 (D (count vec n 1) + ω)) + errL (q 1 (D (count vec n (-1)) + ω))
        + errL (q 2 (D (count vec n 1) + ω)) + errL (q 2 (D (count vec n (-1)) + ω))) := by
  have h31 := H.n31
  have b := BinHyp.abs_sum_vec hx
  have b6 := abs_le.1 b
  have ud := sum_up_dn hx
  obtain ⟨S0, S1, S2, S3, h1, g1, g2, g3, g4⟩ := H.tc (.inr hm) a.vdP a.vdM (fun j => up (vec.get j))
    (fun j => dn (vec.get j)) H.vdP H.vdM bits_up bits_dn
  refine R.tnn5 M H.ne hT hsp (inpSum_ok H.vec H.n31 fun j hj => (hx j hj).in32)
    (i64_ok ⟨by omega, by omega⟩) b
    (encTern_ok H.vec H.vdP H.vdM hx) h1 H.tmpFp H.res ?_ hr1 hr2 hr3 hr4
    (fun i hi => H.plain (g1 i hi))
    (fun i hi => withOff (g2 i hi) (H.off _ (abs_le.2 ⟨by omega, by omega⟩)) (by unfold cur; push_cast; ring))
    (fun i hi => H.plain (g3 i hi)) (fun i hi => H.plain (g4 i hi))
    fun i hi => sum_tnn5 (fun j hj => h i j hi hj) hx
  rw [← ud, ← mul_sum, ← mul_sum]
  ring

end CurHyp

/-! ## All mappings -/

/-- Error of a conversion that is off by `e` before it is rounded. -/
def convE : Mode → K → K
  | .bnn3 | .bnn4 | .tnn4 | .tnn5 => errL
  | _ => errZ

/-- Error of a row. -/
def rowDev (md : Mode) (q : Int → K → K) (D : Int → K) (ω : K) (vec : Vec Int) (n : Nat) : K :=
  ((readout md vec n).map fun c => convE md (q c.1 (D c.2 + ω))).sum

theorem convE_le (md : Mode) {e : K} (he : 0 ≤ e) : convE md e ≤ e + 1 / 2 := by
  have : errZ e ≤ e + 1 / 2 := by
    unfold errZ
    split <;> linarith
  cases md <;> first | exact this | exact le_rfl

theorem convE_zero {md : Mode} (h : integral md) {e : K} (he : e < 1 / 2) : convE md e = 0 := by
  have : errZ e = 0 := if_pos he
  cases md <;> first | exact this | exact h.elim

theorem _root_.Acs.Spec.Absorbs.mono {e e' : Int × Int → K} {vec : Vec Int} {n : Nat} (h : Absorbs cfg e vec n)
    (he : ∀ c, e' c ≤ e c) : Absorbs cfg e' vec n :=
  h.imp (fun h => ⟨h.1, fun c hc => (he c).trans_lt (h.2 c hc)⟩)
    fun h => ⟨h.1, fun c hc k => (he c).trans_lt (h.2 c hc k)⟩

theorem rowDev_nil {md : Mode} {q : Int → K → K} {D : Int → K} {ω : K} {vec : Vec Int} {n : Nat} (h : integral md)
    (he : ∀ c ∈ readout md vec n, q c.1 (D c.2 + ω) < 1 / 2) : rowDev md q D ω vec n = 0 := by
  unfold rowDev
  refine List.sum_eq_zero fun y hy => ?_
  obtain ⟨c, hc, rfl⟩ := List.mem_map.1 hy
  exact convE_zero h (he c hc)

section
variable (hP : ∀ i j r, i < m → j < n → nominal cfg r (encP cfg (W i j) 0) = cur cfg.hrs (cfg.lrs - cfg.hrs) 2 (P i j))
variable (hQ : ∀ i j r, i < m → j < n → nominal cfg r (encM cfg (W i j) 0) = cur cfg.hrs (cfg.lrs - cfg.hrs) 2 (Q i j))

include hP in
theorem nomColP {i : Nat} (hi : i < m) (r : Nat) (v : Nat → Int) :
    ∑ j ∈ range n, nominal cfg r (encP cfg (W i j) 0) * (v j : K)
      = cur cfg.hrs (cfg.lrs - cfg.hrs) (∑ j ∈ range n, 2 * v j) (∑ j ∈ range n, P i j * v j) := by
  rw [sum_congr rfl fun j hj => by rw [hP i j r hi (mem_range.1 hj)]]
  unfold cur
  push_cast
  rw [sum_mul, sum_mul, ← sum_add_distrib]
  exact sum_congr rfl fun j _ => by ring

include hQ in
theorem nomColM {i : Nat} (hi : i < m) (r : Nat) (v : Nat → Int) :
    ∑ j ∈ range n, nominal cfg r (encM cfg (W i j) 0) * (v j : K)
      = cur cfg.hrs (cfg.lrs - cfg.hrs) (∑ j ∈ range n, 2 * v j) (∑ j ∈ range n, Q i j * v j) := by
  rw [sum_congr rfl fun j hj => by rw [hQ i j r hi (mem_range.1 hj)]]
  unfold cur
  push_cast
  rw [sum_mul, sum_mul, ← sum_add_distrib]
  exact sum_congr rfl fun j _ => by ring

include hP hQ in
theorem nomColD {i : Nat} (hi : i < m) (r : Nat) (v : Nat → Int) :
    ∑ j ∈ range n, (nominal cfg r (encP cfg (W i j) 0) - nominal cfg r (encM cfg (W i j) 0)) * (v j : K)
      = cur cfg.hrs (cfg.lrs - cfg.hrs) 0 (∑ j ∈ range n, (P i j - Q i j) * v j) := by
  rw [sum_congr rfl fun j hj => by rw [hP i j r hi (mem_range.1 hj), hQ i j r hi (mem_range.1 hj)]]
  unfold cur
  push_cast
  rw [zero_mul, zero_add, sum_mul]
  exact sum_congr rfl fun j _ => by ring

theorem CurHyp.row (H : CurHyp E cfg c a P Q W vec res m n D ω) (R : RealHyp E cfg c l cf lo hi z q B)
    (M : Roomy res m n B T) (hb : cfg.mode.isInt = false) (hmd : c.mode = cfg.mode) (hok : CfgOk cfg)
    (hP : ∀ i j r, i < m → j < n → nominal cfg r (encP cfg (W i j) 0) = cur cfg.hrs (cfg.lrs - cfg.hrs) 2 (P i j))
    (hQ : ∀ i j r, i < m → j < n → nominal cfg r (encM cfg (W i j) 0) = cur cfg.hrs (cfg.lrs - cfg.hrs) 2 (Q i j))
    (hrel : ∀ i j, i < m → j < n → CellRel cfg.mode (P i j) (Q i j) (W i j)) (hx : LegalVec cfg vec n)
    (hs : keepsRowSums cfg.mode → ∀ i, i < m → c.gd.sumW.get i = ∑ j ∈ range n, W i j)
    (hr : ∀ i, i < m → ∀ c ∈ conversions cfg W vec n i, lo ≤ c.1 ∧ c.1 ≤ hi)
    (hT : ((readout cfg.mode vec n).map fun c => z c.1).sum ≤ T) :
    Within (aMvm E cfg c a res vec m n l) W vec res m n (rowDev cfg.mode q D ω vec n) := by
  have kP := fun i hi => nomColP hP (i := i) hi
  have kM := fun i hi => nomColM hQ (i := i) hi
  have kD := fun i hi => nomColD hP hQ (i := i) hi
  unfold CfgOk at hok
  unfold LegalVec LegalX at hx
  unfold aMvm rowDev
  rw [hmd]
  cases hm : cfg.mode <;>
    simp only [hm, CellRel, readout, convE, conversions, List.forall_mem_cons, List.not_mem_nil, false_implies,
      implies_true, and_true, List.map_cons, List.map_nil, List.sum_cons, List.sum_nil, add_zero] at hrel hx hs hok hr hT ⊢
  case bnn1 => exact H.bnn1 R M hm hT hx hrel (hs trivial) fun i hi => inr_of (hr i hi) (kD i hi _ _)
  case bnn2 =>
    refine H.bnn2 R M hm hT hx hrel (hs trivial) fun i hi => inr_of (hr i hi) ?_
    rw [kD i hi, cur_neg, neg_zero, ← sum_neg_distrib]
    exact congrArg _ (sum_congr rfl fun j hj => by ring)
  case bnn3 =>
    have ud := sum_up_dn fun j hj => IsBin.tern (hx j hj)
    refine (H.bnn3 R M hm hT hx hrel (fun i hi => inr_of (hr i hi).1 ?_) fun i hi => inr_of (hr i hi).2 (kP i hi _ _)).1
    rw [kP i hi, ← ud, ← mul_sum, ← mul_sum]; unfold cur; push_cast; ring
  case bnn4 =>
    have ud := sum_up_dn fun j hj => IsBin.tern (hx j hj)
    refine (H.bnn4 R M hm hT hx hrel (fun i hi => inr_of (hr i hi).1 ?_) fun i hi => inr_of (hr i hi).2 (kP i hi _ _)).1
    rw [kP i hi, ← ud, ← mul_sum, ← mul_sum]; unfold cur; push_cast; ring
  case bnn5 =>
    refine H.bnn5 R M hm hT hx (fun i j hi hj => (hrel i j hi hj).1) (fun i j hi hj => (hrel i j hi hj).2)
      fun i hi => inr_of (hr i hi) ?_
    rw [kP i hi, kM i hi, sum_add_distrib, cur_add, ← mul_sum, ← mul_sum]
    have e0 := sum_one hx
    rw [← mul_add, show (∑ j ∈ range n, (if vec.get j = 1 then 1 else 0 : Int))
      + ∑ j ∈ range n, (if vec.get j = -1 then 1 else 0) = n from e0]
    unfold cur; push_cast; ring
  case bnn6 =>
    refine H.bnn6 R M hm hT hx hrel fun i hi => inr_of (hr i hi) ?_
    rw [kD i hi, kD i hi, cur_sub, sub_zero, ← sum_sub_distrib]
    exact congrArg _ (sum_congr rfl fun j hj => by ring)
  case tnn1 =>
    refine H.tnn1 R M hm hT hx hrel fun i hi => inr_of (hr i hi) ?_
    rw [kD i hi, kD i hi, cur_sub, sub_zero, ← sum_sub_distrib]
    exact congrArg _ (sum_congr rfl fun j hj => by ring)
  case tnn2 =>
    refine H.tnn2 R M hm hT hx hrel (fun i hi => inr_of (hr i hi).1 ((kD i hi _ _).trans
      (congrArg _ (sum_congr rfl fun j hj => ?_)))) fun i hi => inr_of (hr i hi).2 (kD i hi _ _)
    rcases hx j (mem_range.1 hj) with e | e | e <;> rw [e] <;> norm_num
  case tnn3 =>
    refine H.tnn3 R M hm hT hx hrel (hs trivial) (fun i hi => inr_of (hr i hi).1 ((kD i hi _ _).trans
      (congrArg _ (sum_congr rfl fun j hj => ?_)))) fun i hi => inr_of (hr i hi).2 ((kD i hi _ _).trans
      (congrArg _ (sum_congr rfl fun j hj => ?_)))
    · rcases hx j (mem_range.1 hj) with e | e | e <;> rw [e] <;> norm_num
    · rcases hx j (mem_range.1 hj) with e | e | e <;> rw [e] <;> norm_num
  case tnn4 =>
    refine (H.tnn4 R M hm (by linarith) hok.1 hx hrel (fun i hi => inr_of (hr i hi).1 ?_)
      (fun i hi => inr_of (hr i hi).2.1 ?_) (fun i hi => inr_of (hr i hi).2.2.1 (kM i hi _ _))
      fun i hi => inr_of (hr i hi).2.2.2 (kM i hi _ _)).mono (le_of_eq (by ring))
    · rw [kP i hi]; unfold cur; push_cast; ring
    · rw [kP i hi]; unfold cur; push_cast; ring
  case tnn5 =>
    refine (H.tnn5 R M hm (by linarith) hok.1 hx hrel (fun i hi => inr_of (hr i hi).1 (kP i hi _ _))
      (fun i hi => inr_of (hr i hi).2.1 ?_) (fun i hi => inr_of (hr i hi).2.2.1 (kM i hi _ _))
      fun i hi => inr_of (hr i hi).2.2.2 (kM i hi _ _)).mono (le_of_eq (by ring))
    rw [kP i hi]; unfold cur; push_cast; ring
  all_goals (rw [hm] at hb; exact absurd hb (by decide))

theorem CurHyp.row_steady (H : CurHyp E cfg c a P Q W vec res m n D ω) (R : RealHyp E cfg c l cf lo hi z q B)
    (M : Roomy res m n B T) (hmd : c.mode = cfg.mode)
    (hP : ∀ i j r, i < m → j < n → nominal cfg r (encP cfg (W i j) 0) = cur cfg.hrs (cfg.lrs - cfg.hrs) 2 (P i j))
    (hrel : ∀ i j, i < m → j < n → CellRel cfg.mode (P i j) (Q i j) (W i j)) (hx : LegalVec cfg vec n)
    (hr : ∀ i, i < m → ∀ c ∈ conversions cfg W vec n i, lo ≤ c.1 ∧ c.1 ≤ hi)
    (hT : ((readout cfg.mode vec n).map fun c => z c.1).sum ≤ T)
    (hm : cfg.mode = .bnn3 ∨ cfg.mode = .bnn4)
    (hc : ∀ c ∈ readout cfg.mode vec n, Steady (shared cfg vec n) (q c.1 (D c.2 + ω))) :
    Within (aMvm E cfg c a res vec m n l) W vec res m n 0 := by
  have kP := fun i hi => nomColP hP (i := i) hi
  unfold LegalVec LegalX at hx
  unfold aMvm
  rw [hmd]
  rcases hm with hm | hm <;>
    simp only [hm, CellRel, readout, conversions, List.forall_mem_cons, List.not_mem_nil, false_implies,
      implies_true, and_true, List.map_cons, List.map_nil, List.sum_cons, List.sum_nil, add_zero] at hrel hx hr hT hc ⊢ <;>
    have ud := sum_up_dn fun j hj => IsBin.tern (hx j hj)
  · refine (H.bnn3 R M hm hT hx hrel (fun i hi => inr_of (hr i hi).1 ?_)
      fun i hi => inr_of (hr i hi).2 (kP i hi _ _)).2 hc.1 hc.2
    rw [kP i hi, ← ud, ← mul_sum, ← mul_sum]; unfold cur; push_cast; ring
  · refine (H.bnn4 R M hm hT hx hrel (fun i hi => inr_of (hr i hi).1 ?_)
      fun i hi => inr_of (hr i hi).2 (kP i hi _ _)).2 hc.1 hc.2
    rw [kP i hi, ← ud, ← mul_sum, ← mul_sum]; unfold cur; push_cast; ring

/-- A binary or ternary multiplication with deviating column currents and a real converter: an error bound, and
no error if the rounding absorbs the deviations. -/
theorem CurHyp.real (H : CurHyp E cfg c a P Q W vec res m n D ω) (R : RealHyp E cfg c l cf lo hi z q B)
    (M : Roomy res m n B T) (hb : cfg.mode.isInt = false) (hmd : c.mode = cfg.mode) (hok : CfgOk cfg)
    (hP : ∀ i j r, i < m → j < n → nominal cfg r (encP cfg (W i j) 0) = cur cfg.hrs (cfg.lrs - cfg.hrs) 2 (P i j))
    (hQ : ∀ i j r, i < m → j < n → nominal cfg r (encM cfg (W i j) 0) = cur cfg.hrs (cfg.lrs - cfg.hrs) 2 (Q i j))
    (hrel : ∀ i j, i < m → j < n → CellRel cfg.mode (P i j) (Q i j) (W i j)) (hx : LegalVec cfg vec n)
    (hs : keepsRowSums cfg.mode → ∀ i, i < m → c.gd.sumW.get i = ∑ j ∈ range n, W i j)
    (hr : ∀ i, i < m → ∀ c ∈ conversions cfg W vec n i, lo ≤ c.1 ∧ c.1 ≤ hi)
    (hT : ((readout cfg.mode vec n).map fun c => z c.1).sum ≤ T) :
    ∃ a' f, aMvm E cfg c a res vec m n l = .ok (a', res.over m f) ∧
      (∀ i, i < m → |((f i : Int) : K) - ((res.get i + ∑ j ∈ range n, W i j * vec.get j : Int) : K)|
        ≤ rowDev cfg.mode q D ω vec n) ∧
      (Absorbs cfg (fun c => q c.1 (D c.2 + ω)) vec n →
        ∀ i, i < m → f i = res.get i + ∑ j ∈ range n, W i j * vec.get j) := by
  obtain ⟨a', f, e, hf⟩ := H.row R M hb hmd hok hP hQ hrel hx hs hr hT
  refine ⟨a', f, e, hf, fun hA i hi => ?_⟩
  rcases hA with ⟨h1, h2⟩ | ⟨h1, h2⟩
  · have := hf i hi
    rw [rowDev_nil h1 h2, abs_nonpos_iff, sub_eq_zero] at this
    exact_mod_cast this
  · obtain ⟨a'', f', e', hf'⟩ := H.row_steady R M hmd hP hrel hx hr hT h1 h2
    rw [e] at e'
    have e2 := congrArg (fun v => v.get i) (Prod.mk.inj (ok_inj.1 e')).2
    simp only [Vec.over_lt hi] at e2
    have := hf' i hi
    rw [abs_nonpos_iff, sub_eq_zero] at this
    rw [e2]
    exact_mod_cast this

theorem ColHyp.real (H : ColHyp E cfg c a P Q W vec res m n D ω) (R : RealHyp E cfg c l cf lo hi z q B)
    (M : Roomy res m n B T) (hb : cfg.mode.isInt = false) (hmd : c.mode = cfg.mode) (hok : CfgOk cfg)
    (hP : ∀ i j r, i < m → j < n → nominal cfg r (encP cfg (W i j) 0) = cur cfg.hrs (cfg.lrs - cfg.hrs) 2 (P i j))
    (hQ : ∀ i j r, i < m → j < n → nominal cfg r (encM cfg (W i j) 0) = cur cfg.hrs (cfg.lrs - cfg.hrs) 2 (Q i j))
    (hrel : ∀ i j, i < m → j < n → CellRel cfg.mode (P i j) (Q i j) (W i j)) (hx : LegalVec cfg vec n)
    (hs : keepsRowSums cfg.mode → ∀ i, i < m → c.gd.sumW.get i = ∑ j ∈ range n, W i j)
    (hr : ∀ i, i < m → ∀ c ∈ conversions cfg W vec n i, lo ≤ c.1 ∧ c.1 ≤ hi)
    (hT : ((readout cfg.mode vec n).map fun c => z c.1).sum ≤ T) :
    ∃ a' f, aMvm E cfg c a res vec m n l = .ok (a', res.over m f) ∧
      (∀ i, i < m → |((f i : Int) : K) - ((res.get i + ∑ j ∈ range n, W i j * vec.get j : Int) : K)|
        ≤ rowDev cfg.mode q D ω vec n) ∧
      (Absorbs cfg (fun c => q c.1 (D c.2 + ω)) vec n →
        ∀ i, i < m → f i = res.get i + ∑ j ∈ range n, W i j * vec.get j) :=
  H.toCur.real R M hb hmd hok hP hQ hrel hx hs hr hT

end

/-- The factors of the conversions. -/
theorem conv_factors (hb : cfg.mode.isInt = false) (i : Nat) : (conversions cfg W vec n i).map (·.2)
    = (readout cfg.mode vec n).map fun c => (c.1 : K) / (cfg.lrs - cfg.hrs) := by
  unfold conversions readout
  cases hm : cfg.mode <;> simp only [hm] at hb ⊢ <;>
    first
    | exact absurd hb (by decide)
    | simp only [List.map_cons, List.map_nil, Int.cast_one, Int.cast_ofNat]

theorem convPeak_eq (hb : cfg.mode.isInt = false) (i : Nat) : convPeak lo hi (conversions cfg W vec n i)
    = ((readout cfg.mode vec n).map fun c => max |lo| |hi| * |(c.1 : K) / (cfg.lrs - cfg.hrs)| + 1 / 2).sum := by
  have := congrArg (fun l => (l.map fun f => max |lo| |hi| * |f| + 1 / 2).sum)
    (conv_factors (W := W) (vec := vec) (n := n) hb i)
  simp only [List.map_map] at this
  exact this

/-- The scales are one or two. -/
theorem readout_scale {md : Mode} : ∀ c ∈ readout md vec n, (c.1 = 1 ∨ c.1 = 2) ∧ 0 ≤ c.2 := by
  have h0 : ∀ v, 0 ≤ count vec n v := fun v => sum_nonneg fun j _ => by split <;> norm_num
  have h1 := h0 1
  have h2 := h0 (-1)
  have h3 := h0 0
  unfold readout
  cases md <;>
    simp only [List.forall_mem_cons, List.not_mem_nil, false_implies, implies_true, and_true] <;>
    norm_num <;> omega

end

end Acs
