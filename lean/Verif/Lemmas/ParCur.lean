import Verif.Lemmas.ParRun
import Mathlib.Algebra.BigOperators.Field

/-! # Column currents of a crossbar with parasitic wires -/

set_option linter.unusedSectionVars false

namespace Acs
open Spec (lines pair cross slices firstArray secondArray driven onLine chain idealCol wiredCol tap taps)

section
variable {K : Type} [Field K] [LinearOrder K] [IsStrictOrderedRing K] [FloorRing K]
variable {E : Env K} {cfg : Cfg K} {x : Xbar K} {m n m' n' : Nat} {p q : Nat → Nat → K}
variable {vp vm : Nat → Int} {md : Mode} {u R R' : K} {N c : Nat}

theorem tapped_eq (hmd : md ≠ .iTcWDiff) (I : Nat → K) : tapped md I = tap md I := by
  funext i
  unfold tapped tap
  cases md <;> simp [Mode.oEncDouble, pair] at hmd ⊢

theorem taps_cols (hmd : cfg.mode ≠ .iTcWDiff) : (if cfg.mode.oEncDouble then 2 * taps cfg m' else taps cfg m') =
    m' * slices cfg * pair cfg.mode := by
  unfold taps slices
  cases h : cfg.mode <;> simp [h, Mode.oEncDouble, pair] at hmd ⊢ <;> omega

theorem cross_nonneg {r : Nat} (hp : ∀ i j, 0 ≤ p i j) (hq : ∀ i j, 0 ≤ q i j) :
    0 ≤ cross md p q r c := by
  unfold cross; split
  · exact hp _ _
  · exact hq _ _

theorem cross_map {f : K → K} {r : Nat} :
    cross md (fun i j => f (p i j)) (fun i j => f (q i j)) r c = f (cross md p q r c) := by
  unfold cross; split <;> rfl

theorem onLine_div {x : Nat → Nat → K} {r : Nat} :
    onLine md vp vm n c (fun r c => x r c / u) r = onLine md vp vm n c x r / u := by
  unfold onLine; split
  · rfl
  · rw [zero_div]

theorem driven_lt {r : Nat} (hn : n * lines md ≤ N) (h : driven md vp vm n r) : r < N :=
  lt_of_lt_of_le ((Nat.div_lt_iff_lt_mul (lines_pos md)).1 h.1) hn

theorem ideal_div (u : K) : (Finset.range N).sum (onLine md vp vm n c fun r c => cross md p q r c / u) =
    idealCol md p q vp vm n N c / u := by
  unfold idealCol
  rw [Finset.sum_div]
  exact Finset.sum_congr rfl fun r _ => onLine_div

section
variable (hu : 0 < u) (hR : 0 < R) (hg : ∀ r, r < N → driven md vp vm n r → 0 ≤ cross md p q r c)
include hu hR hg

theorem wire_pos : (0 : K) < 1 / R * 1000000 := by positivity

theorem line_nonneg : ∀ r, r < N → 0 ≤ onLine md vp vm n c (fun r c => cross md p q r c / u) r := fun r hr => by
  unfold onLine
  split
  · next h => exact div_nonneg (hg r hr h) hu.le
  · exact le_refl _

theorem wiredCol_nonneg : 0 ≤ wiredCol u R md p q vp vm n N c :=
  mul_nonneg hu.le (chain_nonneg (by positivity) (line_nonneg hu hR hg))

theorem wiredCol_le : wiredCol u R md p q vp vm n N c ≤ idealCol md p q vp vm n N c := by
  have := chain_le (w := 1 / R * 1000000) (by positivity) (line_nonneg hu hR hg)
  rw [ideal_div] at this
  unfold wiredCol
  calc u * _ ≤ u * (idealCol md p q vp vm n N c / u) := mul_le_mul_of_nonneg_left this hu.le
    _ = _ := mul_div_cancel₀ _ hu.ne'

theorem wiredCol_lt (h : ∃ r, r < N ∧ driven md vp vm n r ∧ 0 < cross md p q r c) :
    0 < wiredCol u R md p q vp vm n N c ∧
    wiredCol u R md p q vp vm n N c < idealCol md p q vp vm n N c := by
  obtain ⟨r, hr, hd, hc⟩ := h
  have hex : ∃ r, r < N ∧ 0 < onLine md vp vm n c (fun r c => cross md p q r c / u) r :=
    ⟨r, hr, by unfold onLine; rw [if_pos hd]; exact div_pos hc hu⟩
  refine ⟨mul_pos hu (chain_pos (by positivity) (line_nonneg hu hR hg) hex), ?_⟩
  have := chain_lt (w := 1 / R * 1000000) (by positivity) (line_nonneg hu hR hg) hex
  rw [ideal_div] at this
  unfold wiredCol
  calc u * _ < u * (idealCol md p q vp vm n N c / u) := mul_lt_mul_of_pos_left this hu
    _ = _ := mul_div_cancel₀ _ hu.ne'

theorem wiredCol_anti (hRR : R ≤ R') :
    wiredCol u R' md p q vp vm n N c ≤ wiredCol u R md p q vp vm n N c := by
  refine mul_le_mul_of_nonneg_left (chain_mono ?_ ?_ (line_nonneg hu hR hg) fun _ _ => le_refl _) hu.le
  · have : 0 < R' := hR.trans_le hRR
    positivity
  · exact mul_le_mul_of_nonneg_right (one_div_le_one_div_of_le hR hRR) (by norm_num)

theorem wiredCol_ge : idealCol md p q vp vm n N c -
      N * idealCol md p q vp vm n N c ^ 2 * R / (u * 1000000) ≤ wiredCol u R md p q vp vm n N c := by
  have := chain_ge (w := 1 / R * 1000000) (by positivity) (line_nonneg hu hR hg) (le_refl _)
  rw [ideal_div] at this
  unfold wiredCol
  have h2 := mul_le_mul_of_nonneg_left this hu.le
  refine le_trans (le_of_eq ?_) h2
  field_simp

end

theorem onLine_congr {x y : Nat → Nat → K} {r : Nat} (h : driven md vp vm n r → x r c = y r c) :
    onLine md vp vm n c x r = onLine md vp vm n c y r := by
  unfold onLine
  split
  · next hd => exact h hd
  · rfl

theorem wiredCol_congr {p' q' : Nat → Nat → K}
    (h : ∀ r, r < N → driven md vp vm n r → cross md p q r c = cross md p' q' r c) :
    wiredCol u R md p q vp vm n N c = wiredCol u R md p' q' vp vm n N c := by
  unfold wiredCol
  congr 1
  exact chain_congr fun r hr => onLine_congr fun hd => by rw [h r hr hd]

theorem idealCol_congr {p' q' : Nat → Nat → K}
    (h : ∀ r, r < N → driven md vp vm n r → cross md p q r c = cross md p' q' r c) :
    idealCol md p q vp vm n N c = idealCol md p' q' vp vm n N c :=
  Finset.sum_congr rfl fun r hr => onLine_congr fun hd => h r (Finset.mem_range.1 hr) hd

theorem wiredCol_zero (h : ∀ r, r < N → ¬driven md vp vm n r) : wiredCol u R md p q vp vm n N c = 0 := by
  unfold wiredCol
  rw [chain_zero, mul_zero]
  intro r hr
  unfold onLine
  rw [if_neg (h r hr)]

theorem idealCol_nonneg (hg : ∀ r, r < N → driven md vp vm n r → 0 ≤ cross md p q r c) :
    0 ≤ idealCol md p q vp vm n N c :=
  Finset.sum_nonneg fun r hr => by
    unfold onLine
    split
    · next h => exact hg r (Finset.mem_range.1 hr) h
    · exact le_refl _

/-- What the solver of a crossbar in sync returns. -/
theorem sync_currents (ha : Spec.ExactArith E) (hsh : Shape E cfg x) (htn : Tuned cfg x.mapper.core.par)
    (h : Spec.InSync E cfg x m n) {s : Solver K} (hs : x.mapper.core.par = some s)
    (hv : cfg.vRead < 0) (hR : 0 < cfg.wRes)
    (hpos : ∀ i j, i < m * slices cfg → j < n → 0 ≤ (firstArray cfg.mode x.mapper.core.ia).get i j ∧
      0 ≤ (secondArray cfg.mode x.mapper.core.ia).get i j)
    {vp vm : Vec Int} {V : Option (Vec Int)} (hV : V = some vm ∨ lines cfg.mode = 1)
    (hp : n' ≤ vp.size) (hvm : n' ≤ vm.size) (hm : m' ≤ m) (hn : n' ≤ n)
    (hN : n' * lines cfg.mode ≤ cfg.N) (hM : taps cfg m' ≤ cfg.M) :
    computeCurrents E s vp V (taps cfg m') n' = .ok ((Vec.const cfg.M 0).over (taps cfg m')
      (tap cfg.mode fun c => wiredCol (-cfg.vRead) cfg.wRes cfg.mode
        (firstArray cfg.mode x.mapper.core.ia).get (secondArray cfg.mode x.mapper.core.ia).get
        vp.get vm.get n' cfg.N c)) := by
  obtain ⟨s0, g, w, e, hga, hw, hgr, hgc, hget⟩ := h
  obtain rfl : s = s0 := Option.some.inj (hs.symm.trans e)
  have hd := hsh.core.par s hs
  have ht := htn s hs
  have hw' : w = 1 / cfg.wRes * 1000000 := by rw [hw, ha.f32, ha.f64, ha.f32]
  have hwp : 0 < w := by rw [hw']; positivity
  have hcol : m' * slices cfg * pair cfg.mode ≤ m * slices cfg * pair cfg.mode :=
    Nat.mul_le_mul_right _ (Nat.mul_le_mul_right _ hm)
  have hval : ∀ r c, r < cfg.N → c < m * slices cfg * pair cfg.mode →
      driven cfg.mode vp.get vm.get n' r → g.get r c = cross cfg.mode
        (firstArray cfg.mode x.mapper.core.ia).get (secondArray cfg.mode x.mapper.core.ia).get r c
          / -cfg.vRead := fun r c hr hc hdr => by
    rw [hget r c hr hc, if_pos (lt_of_lt_of_le hdr.1 hn)]
    simp only [ha.f32]
    exact cross_map (f := fun y => y / -cfg.vRead)
  have hcr : ∀ r c, c < m * slices cfg * pair cfg.mode → driven cfg.mode vp.get vm.get n' r →
      0 ≤ cross cfg.mode (firstArray cfg.mode x.mapper.core.ia).get
        (secondArray cfg.mode x.mapper.core.ia).get r c := fun r c hc hdr => by
    have h1 : c / pair cfg.mode < m * slices cfg := Nat.div_lt_of_lt_mul (by rw [mul_comm]; exact hc)
    have h2 := hpos _ _ h1 (lt_of_lt_of_le hdr.1 hn)
    unfold cross
    split
    · exact h2.1
    · exact h2.2
  rw [computeCurrents_ok ha hga hwp (by rw [hd.2.1, hgr]) (by rw [hd.2.2]; exact hV) hp hvm
    (by rw [hd.2.2, hd.2.1]; exact hN) (by rw [hd.1]; exact hM)
    (by rw [hd.2.2, hgc, taps_cols ht.2.2]; exact hcol)
    (by
      rw [hd.2.2, hd.2.1, hgc]
      intro r c hr hc hdr
      rw [hval r c hr hc hdr]
      exact div_nonneg (hcr r c hc hdr) (by linarith))]
  rw [hd.1, hd.2.1, hd.2.2, ht.2.1, tapped_eq ht.2.2]
  congr 1
  refine Vec.ext' (by rfl) fun i => ?_
  simp only [Vec.over]
  split
  · next hi =>
    have key : ∀ c, c < m' * slices cfg * pair cfg.mode →
        -cfg.vRead * chain w (onLine cfg.mode vp.get vm.get n' c g.get) cfg.N =
        wiredCol (-cfg.vRead) cfg.wRes cfg.mode (firstArray cfg.mode x.mapper.core.ia).get
          (secondArray cfg.mode x.mapper.core.ia).get vp.get vm.get n' cfg.N c := fun c hc => by
      unfold wiredCol
      rw [← hw']
      congr 1
      refine chain_congr fun r hr => ?_
      unfold onLine
      split
      · next hdr => exact hval r c hr (lt_of_lt_of_le hc hcol) hdr
      · rfl
    have hi' := taps_cols (cfg := cfg) (m' := m') ht.2.2
    unfold tap
    split
    · next hh =>
      refine key i ?_
      have : cfg.mode.oEncDouble = false := by
        cases hmd : cfg.mode <;> simp [hmd, pair] at hh <;> rfl
      rw [this, if_neg (by simp)] at hi'
      omega
    · next hh =>
      have : cfg.mode.oEncDouble = true ∨ cfg.mode = .iTcWDiff := by
        cases hmd : cfg.mode <;> simp [hmd, pair] at hh <;> simp [Mode.oEncDouble]
      rw [this.resolve_right ht.2.2, if_pos rfl] at hi'
      exact congr_arg₂ _ (key _ (by omega)) (key _ (by omega))
  · rfl

set_option linter.unusedSimpArgs false in
set_option linter.unnecessarySeqFocus false in
/-- With parasitics a multiplication does not look at the stored currents: only the copy in the solver
counts. -/
theorem aMvm_ia (hp : cfg.parasitics = true) (c : Core K) (ia : Ia K) (a : Aux K) (res vec : Vec Int)
    (m n : Nat) (l : String) :
    aMvm E cfg { c with ia := ia } a res vec m n l = aMvm E cfg c a res vec m n l := by
  have hb : ∀ md v sg, intBit E cfg { c with mode := md, ia := ia } v sg m n l = intBit E cfg c v sg m n l := fun md v sg => by
    funext bit st
    simp only [intBit, intCurrents, hp, if_true]
    rfl
  have hb5 : ∀ md v, intBitV E cfg { c with mode := md, ia := ia } v m n l = intBitV E cfg c v m n l := fun md v => by
    funext bit st
    simp only [intBitV, intCurrents, hp, if_true]
    rfl
  unfold aMvm
  dsimp only
  cases c.mode <;> dsimp only <;>
  simp only [aMvmBnnI, aMvmBnnII, aMvmBnnIII, aMvmBnnIV, aMvmBnnV, aMvmBnnVI, aMvmTnnI, aMvmTnnII, aMvmTnnIII, 
    aMvmTnnIV, aMvmTnnV, bnn34Currents, tcSolve, aMvmIntI, aMvmIntII, aMvmIntIII, aMvmIntIV, aMvmIntV, colCurrents, intCurrents, hp, if_true, hb, hb5] <;> rfl

end

end Acs
