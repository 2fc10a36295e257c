import Verif.Lemmas.FlIntRes
import Verif.SpecRoundInt

/-!
# Conversions and columns of the integer mappings in floating point
-/

set_option linter.unusedSectionVars false

namespace Acs

open Finset Spec

section
variable {K : Type} [Field K] [LinearOrder K] [IsStrictOrderedRing K] [FloorRing K]
variable {E : Env K} {cfg : Cfg K} {c : Core K} {a : Aux K} {q : Prec K} {adc : Adc}
variable {n : Nat} {l : String} {A lo hi ε δ θ κ τ e f B : K} {g : Nat → Int} {t : Nat}

/-! ## Steps -/

theorem near_trans {x y z a b : K} (h1 : |x - y| ≤ a) (h2 : |y - z| ≤ b) : |x - z| ≤ a + b := by
  have := abs_add_le (x - y) (y - z)
  rw [sub_add_sub_cancel] at this
  linarith

theorem near_size {x y a b : K} (h1 : |x - y| ≤ a) (h2 : |y| ≤ b) : |x| ≤ b + a := by
  have := abs_add_le (x - y) y
  rw [sub_add_cancel] at this
  linarith

/-- An integer that a sum is truncated to. -/
theorem step_trunc {y : K} {k : Int} (hA : A ≤ 2 ^ 24) (hy : |y - k| ≤ e) (hk : |(k : K)| + e ≤ A) :
    ∃ r' : Int, toI32 y = .ok r' ∧ |(r' : K) - k| ≤ 1 + e := by
  have h1 : |(truncZ y : K)| ≤ A := (truncZ_abs y).trans ((near_size hy le_rfl).trans hk)
  have h2 : |truncZ y| ≤ 2147483647 := by
    have : ((|truncZ y| : Int) : K) ≤ ((2147483647 : Int) : K) := by
      rw [Int.cast_abs]
      refine h1.trans (hA.trans ?_)
      norm_num
    exact Int.cast_le.1 this
  refine ⟨truncZ y, ?_, ?_⟩
  · unfold toI32
    rw [if_pos (inI32_of_abs h2)]
  · have := truncZ_lt hy
    linarith

theorem ofInt_small (hq : Rounds E q) {r : Int} (h : |(r : K)| ≤ A) (hA : A ≤ 2 ^ 24) : E.ofInt r = r := by
  refine hq.int _ ?_
  have : ((|r| : Int) : K) ≤ ((2 ^ 24 : Int) : K) := by
    rw [Int.cast_abs]
    refine h.trans (hA.trans ?_)
    norm_num
  exact Int.cast_le.1 this

theorem steps_add (hq : Rounds E q) (hA0 : 0 ≤ A) (hA : A ≤ 2 ^ 24) {τ : Int} (hκ : |κ - τ| ≤ f) :
    Steps A (Int.cast : Int → K) E.iaddf κ τ (1 + f + (q.u * A + q.η)) := by
  intro r hr
  have he := eta_nonneg hq
  have hf : 0 ≤ f := (abs_nonneg _).trans hκ
  have n1 := abs_nonneg (r : K)
  have n2 := abs_nonneg (τ : K)
  have hu := mul_nonneg hq.pos hA0
  unfold Env.iaddf
  rw [ofInt_small hq (A := A) (by linarith) hA]
  have s1 : |(r : K) + κ - (r + τ)| ≤ f := by rwa [add_sub_add_left_eq_sub]
  have s2 : |(r : K) + κ| ≤ A := by
    have := near_size s1 (abs_add_le _ _)
    linarith
  have s3 := rounds_to hq A _ s2
  have s4 := near_trans s3 s1
  obtain ⟨r', e1, e2⟩ := step_trunc (k := r + τ) (y := E.fadd r κ) (e := q.u * A + q.η + f) hA
    (by push_cast; exact s4) (by
      push_cast
      have := abs_add_le (r : K) τ
      linarith)
  refine ⟨r', e1, ?_⟩
  push_cast at e2
  linarith

theorem steps_sub (hq : Rounds E q) (hA0 : 0 ≤ A) (hA : A ≤ 2 ^ 24) {τ : Int} (hκ : |κ - τ| ≤ f) :
    Steps A (Int.cast : Int → K) E.isubf κ (-τ : K) (1 + f + (q.u * A + q.η)) := by
  have h := steps_add (κ := -κ) (τ := -τ) (f := f) hq hA0 hA (by
    push_cast
    rw [neg_sub_neg, abs_sub_comm]
    exact hκ)
  intro r hr
  obtain ⟨r', e1, e2⟩ := h r (by push_cast; exact hr)
  refine ⟨r', ?_, ?_⟩
  · unfold Env.iaddf Env.fadd at e1
    unfold Env.isubf Env.fsub
    rwa [sub_eq_add_neg]
  · push_cast at e2
    exact e2

theorem steps_addI (hq : Rounds E q) (hA : A ≤ 2 ^ 24) {k τ : Int} (hk : |(k : K) - τ| ≤ e) :
    Steps A (Int.cast : Int → K) E.iaddf k τ e := by
  intro r hr
  have he : 0 ≤ e := (abs_nonneg _).trans hk
  have n2 := abs_nonneg (τ : K)
  have s1 : |((r + k : Int) : K)| ≤ A := by
    push_cast
    have h1 : |(r : K) + k - (r + τ)| ≤ e := by rwa [add_sub_add_left_eq_sub]
    have := near_size h1 (abs_add_le _ _)
    linarith
  refine ⟨r + k, ?_, ?_⟩
  · unfold Env.iaddf Env.fadd
    rw [ofInt_small hq (A := A) (by linarith) hA, ← Int.cast_add]
    have e1 := ofInt_small hq s1 hA
    unfold Env.ofInt at e1
    rw [e1]
    refine toI32_int (inI32_of_abs ?_)
    have : ((|r + k| : Int) : K) ≤ ((2147483647 : Int) : K) := by
      rw [Int.cast_abs]
      refine s1.trans (hA.trans ?_)
      norm_num
    exact Int.cast_le.1 this
  · push_cast
    rwa [add_sub_add_left_eq_sub]

theorem steps_subI (hq : Rounds E q) (hA : A ≤ 2 ^ 24) {k τ : Int} (hk : |(k : K) - τ| ≤ e) :
    Steps A (Int.cast : Int → K) E.isubf k (-τ : K) e := by
  have h := steps_addI (k := -k) (τ := -τ) (e := e) hq hA (by
    push_cast
    rw [neg_sub_neg, abs_sub_comm]
    exact hk)
  intro r hr
  obtain ⟨r', e1, e2⟩ := h r (by push_cast; exact hr)
  refine ⟨r', ?_, ?_⟩
  · unfold Env.iaddf Env.fadd at e1
    unfold Env.isubf Env.fsub
    push_cast at e1
    rwa [sub_eq_add_neg]
  · push_cast at e2
    exact e2

theorem steps_float (hq : Rounds E q) (hA0 : 0 ≤ A) (hκ : |κ - τ| ≤ f) :
    Steps A (fun x : K => x) (faddC E) κ τ (f + (q.u * A + q.η)) := by
  intro r hr
  have he := eta_nonneg hq
  have hu := mul_nonneg hq.pos hA0
  dsimp only at hr ⊢
  have s1 : |r + κ - (r + τ)| ≤ f := by rwa [add_sub_add_left_eq_sub]
  have s2 : |r + κ| ≤ A := by
    have := near_size s1 (abs_add_le _ _)
    linarith
  refine ⟨_, rfl, ?_⟩
  have := near_trans (rounds_to hq A _ s2) s1
  unfold Env.fadd
  linarith

/-! ## Conversions -/

/-- A converter for currents in `[lo, hi]` that are known up to `δ`, with factors known up to `θ`: an error `f` of the
number, and an error `e` when it is added to an integer. -/
def ConvI (E : Env K) (cfg : Cfg K) (adc : Adc) (l : String) (lo hi δ θ A : K) (e f : K → K) : Prop :=
  ∀ t T S s0, lo ≤ T → T ≤ hi → |t - T| ≤ δ → |S - s0| ≤ θ * |s0| →
    ∃ κ, conv1 E cfg adc t S 0 l = .ok κ ∧ |κ - T * s0| ≤ f s0 ∧ 0 ≤ e s0 ∧
      ∀ τ : Int, T * s0 = τ → Steps A (Int.cast : Int → K) E.iaddf κ τ (e s0) ∧
        Steps A (Int.cast : Int → K) E.isubf κ (-τ : K) (e s0)

theorem absorb_round {z : K} {τ : Int} {Q : K} (h : |z - τ| ≤ Q) : |(roundAway z : K) - τ| ≤ absorb Q := by
  unfold absorb
  split
  next hQ =>
    rw [roundAway_of_near (lt_of_le_of_lt h hQ), sub_self, abs_zero]
  next =>
    have := near_trans (roundAway_near z) h
    linarith

theorem absorb_nonneg {z : K} : 0 ≤ absorb z := by
  unfold absorb
  split
  · exact le_rfl
  · next h => linarith [not_lt.1 h]

/-- The error of a factor. -/
theorem scaled_near {U T S s0 d : K} (hθ : 0 ≤ θ) (h1 : |U - T| ≤ d) (hT : |T| ≤ B) (hS : |S - s0| ≤ θ * |s0|) :
    |U * S - T * s0| ≤ |s0| * ((1 + θ) * d + θ * B) := by
  have e1 : U * S - T * s0 = (U - T) * S + T * (S - s0) := by ring
  have s2 : |S| ≤ (1 + θ) * |s0| := by
    have := near_size hS le_rfl
    linarith
  rw [e1]
  refine (abs_add_le _ _).trans ?_
  rw [abs_mul, abs_mul]
  have k1 := mul_le_mul h1 s2 (abs_nonneg _) ((abs_nonneg _).trans h1)
  have k2 := mul_le_mul hT hS (abs_nonneg _) ((abs_nonneg _).trans hT)
  linarith

theorem convI_inf (hq : Rounds E q) (hθ : 0 ≤ q.θ) (ha : adc.kind = .inf) (hA0 : 0 ≤ A) (hA : A ≤ 2 ^ 24) :
    ConvI E cfg adc l (-sliceMax cfg ε n) (sliceMax cfg ε n) (sliceDev cfg ε q n) q.θ A
      (fun s => 1 + scaledError cfg ε q n s + (q.u * A + q.η)) (scaledError cfg ε q n) := by
  intro t T S s0 h1 h2 ht hS
  have hu := hq.pos
  have hT : |T| ≤ sliceMax cfg ε n := abs_le.2 ⟨h1, h2⟩
  have key : |E.fmul (E.fadd t 0) S - T * s0| ≤ scaledError cfg ε q n s0 := by
    have k1 : |E.fadd t 0 - T| ≤ (1 + q.u) * sliceDev cfg ε q n + q.u * sliceMax cfg ε n + q.η := by
      unfold Env.fadd
      rw [add_zero]
      have k2 := rounds_to hq _ _ (near_size ht hT)
      have := near_trans k2 ht
      linarith
    have k2 := scaled_near hθ k1 hT hS
    have k3 : |T * s0| ≤ sliceMax cfg ε n * |s0| := by
      rw [abs_mul]
      exact mul_le_mul_of_nonneg_right hT (abs_nonneg _)
    have k4 := rounds_to hq _ _ (near_size k2 k3)
    have k5 := near_trans k4 k2
    unfold Env.fmul scaledError
    linarith
  refine ⟨_, ?_, key, ?_, fun τ hτ => ⟨?_, ?_⟩⟩
  · unfold conv1
    rw [ha]
  · have := (abs_nonneg _).trans key
    have := mul_nonneg hu hA0
    have := eta_nonneg hq
    linarith
  · rw [hτ] at key
    exact steps_add hq hA0 hA key
  · rw [hτ] at key
    exact steps_sub hq hA0 hA key

theorem convI_real (hq : Rounds E q) (hθ : 0 ≤ q.θ) (hθ1 : q.θ ≤ 1) (ha : mkAdc cfg = .ok adc) (hA : A ≤ 2 ^ 24)
    (hO : AdcOk cfg l lo hi) (hs : SmallConversion cfg lo hi q) :
    ConvI E cfg adc l lo hi (sliceDev cfg ε q n) q.θ A (fun s => absorb (levelError cfg lo hi ε q n s))
      (fun s => levelError cfg lo hi ε q n s + 1 / 2) := by
  intro t T S s0 h1 h2 ht hS
  obtain ⟨lo', hi', hg, n1, n2⟩ := getCurrents_near hq hs hO
  have H := rndConv hq hs hO n1 n2
  have hu := hq.pos
  have hR := H.R0
  have hT := top_range T h1 h2
  have hδ : 0 ≤ sliceDev cfg ε q n := (abs_nonneg _).trans ht
  have x1 : |E.fadd t 0 - T| ≤ (1 + q.u) * sliceDev cfg ε q n + adcRound cfg lo hi q := by
    unfold Env.fadd
    rw [add_zero]
    have k1 := near_trans (rounds_to hq _ _ (near_size ht hT)) ht
    have k5 := H.k4
    have k6 := mul_nonneg hu hR
    linarith
  obtain ⟨u1, u2⟩ := H.level h1 h2 x1 (by linarith [mul_nonneg hu hδ])
  have e0 : (hi - lo) / ((adcLevels cfg - 1 : Int) : K) = adcStep cfg lo hi := rfl
  rw [e0] at u1
  have c1 := conv1_rounded H ha hO hg t 0 S
  generalize rndLevel E lo' hi' (adcLevels cfg - 1) (E.fadd t 0) = U at u1 u2 c1
  have key : |E.fmul U S - T * s0| ≤ levelError cfg lo hi ε q n s0 := by
    have p2 := scaled_near hθ u1 hT hS
    have s2 : |S| ≤ 2 * |s0| := by
      have := near_size hS le_rfl
      have := mul_le_mul_of_nonneg_right hθ1 (abs_nonneg s0)
      linarith
    have p1 : |U * S| ≤ 5 * (|s0| * max |lo| |hi|) := by
      rw [abs_mul]
      have := mul_le_mul u2 s2 (abs_nonneg _) (by linarith)
      linarith
    have p3 := near_trans (rounds_to hq _ _ p1) p2
    unfold Env.fmul levelError
    linarith
  refine ⟨_, c1, ?_, absorb_nonneg, fun τ hτ => ?_⟩
  · have := near_trans (roundAway_near (E.fmul U S)) key
    linarith
  · rw [hτ] at key
    have := absorb_round key
    exact ⟨steps_addI hq hA this, steps_subI hq hA this⟩

/-! ## Columns -/

theorem bit_abs (v : Int) (b : Nat) : |bitOf v b| ≤ 1 := by
  unfold bitOf
  have h1 := Int.emod_nonneg (v / 2 ^ b) (by norm_num : (2 : Int) ≠ 0)
  have h2 := Int.emod_lt_of_pos (v / 2 ^ b) (by norm_num : (0 : Int) < 2)
  rw [abs_of_nonneg h1]
  omega

section
variable {I : K} (hq : Rounds E q) (h0 : 0 ≤ ε) (htop : 0 ≤ topCurrent cfg ε)
  (hcol : columnError cfg ε q n ≤ topCurrent cfg ε) (hg : ∀ j, j < n → |g j| ≤ 1)
include hq h0 htop hcol hg

theorem column_near {F y : Nat → K} (hF : ∀ j, j < n → |F j| ≤ 2 * topCurrent cfg ε)
    (hy : ∀ j, j < n → |y j - F j| ≤ cellRound cfg ε q)
    (hy2 : ∀ j, j < n → |y j| ≤ 3 * topCurrent cfg ε) :
    |fsum E (fun j => E.fmul (y j) (E.ofInt (g j))) n - ∑ j ∈ range n, F j * (g j : K)| ≤ columnError cfg ε q n := by
  have p1 := cellRound_nonneg hq htop
  have p2 : 0 ≤ colRound cfg ε q n := by
    have := hq.pos
    have := eta_nonneg hq
    unfold colRound
    positivity
  have hn : (0 : K) ≤ n := Nat.cast_nonneg n
  have r1 : Rnd E (cellRound cfg ε q) (5 * topCurrent cfg ε) := rounds_to hq _
  have r2 : Rnd E (colRound cfg ε q n) (4 * (n + 1) * topCurrent cfg ε) := rounds_to hq _
  have hc := hcol
  unfold columnError at hc
  have hnp := mul_nonneg hn p1
  have hnI := mul_nonneg hn htop
  have key := fsum_near (f := fun j => E.fmul (y j) (E.ofInt (g j))) (F := fun j => F j * (g j : K)) (e := 2 * cellRound cfg ε q)
    (b := 2 * topCurrent cfg ε) (n := n) r2 (by linarith) p2 (by linarith) (fun j hj => ?_) (fun j hj => ?_) ?_
  · refine key.trans ?_
    unfold columnError
    linarith
  · have hi : E.f32 ((g j : Int) : K) = g j := hq.int _ ((hg j hj).trans (by norm_num))
    have := (Ap.bit (Y := F j) r1 ⟨hy j hj, hy2 j hj⟩ (by linarith) (hg j hj) hi).1
    linarith
  · rw [abs_mul]
    have h1 : |(g j : K)| ≤ 1 := by rw [← Int.cast_abs]; exact_mod_cast hg j hj
    exact (mul_le_of_le_one_right (abs_nonneg _) h1).trans (hF j hj)
  · linarith

/-- A sum of deviating cells. -/
theorem bit_dev {F G : Nat → K} {d : K} (hd : ∀ j, j < n → |F j - G j| ≤ d) :
    |∑ j ∈ range n, F j * (g j : K) - ∑ j ∈ range n, G j * (g j : K)| ≤ n * d := by
  rw [← sum_sub_distrib]
  refine (abs_sum_le_sum_abs _ _).trans ((sum_le_sum (g := fun _ => d) fun j hj => ?_).trans_eq (by simp))
  have hj' := mem_range.1 hj
  rw [← sub_mul, abs_mul]
  have h1 : |(g j : K)| ≤ 1 := by rw [← Int.cast_abs]; exact_mod_cast hg j hj'
  exact (mul_le_of_le_one_right (abs_nonneg _) h1).trans (hd j hj')

theorem colDiff_near {P Q : Nat → K} (hp : ∀ j, j < n → |c.ia.p.get t j - P j| ≤ ε)
    (hm : ∀ j, j < n → |c.ia.m.get t j - Q j| ≤ ε) (hp' : ∀ j, j < n → |c.ia.p.get t j| ≤ topCurrent cfg ε)
    (hm' : ∀ j, j < n → |c.ia.m.get t j| ≤ topCurrent cfg ε) :
    |colDiff E c n g t - ∑ j ∈ range n, (P j - Q j) * (g j : K)| ≤ sliceDev cfg ε q n := by
  have p1 := cellRound_nonneg hq htop
  have r1 : Rnd E (cellRound cfg ε q) (5 * topCurrent cfg ε) := rounds_to hq _
  have k0 : ∀ j, j < n → |c.ia.p.get t j - c.ia.m.get t j| ≤ 2 * topCurrent cfg ε := fun j hj => by
    have := abs_sub (c.ia.p.get t j) (c.ia.m.get t j)
    linarith [hp' j hj, hm' j hj]
  have k1 : ∀ j, j < n → |E.fsub (c.ia.p.get t j) (c.ia.m.get t j) - (c.ia.p.get t j - c.ia.m.get t j)| ≤ cellRound cfg ε q :=
    fun j hj => r1 _ ((k0 j hj).trans (by linarith))
  have small : 0 < n → cellRound cfg ε q ≤ topCurrent cfg ε := fun hn => by
    have h4 : (1 : K) ≤ n := by exact_mod_cast hn
    have p2 : 0 ≤ colRound cfg ε q n := by
      have := hq.pos
      have := eta_nonneg hq
      unfold colRound
      positivity
    have hc := hcol
    unfold columnError at hc
    nlinarith
  have k2 := column_near hq h0 htop hcol hg k0 k1 fun j hj => by
    have := near_size (k1 j hj) (k0 j hj)
    have := small (by omega)
    linarith
  have k3 := bit_dev (F := fun j => c.ia.p.get t j - c.ia.m.get t j) (G := fun j => P j - Q j) (d := 2 * ε)
    hq h0 htop hcol hg fun j hj => by
      have e : c.ia.p.get t j - c.ia.m.get t j - (P j - Q j) = (c.ia.p.get t j - P j) - (c.ia.m.get t j - Q j) := by ring
      rw [e]
      have := abs_sub (c.ia.p.get t j - P j) (c.ia.m.get t j - Q j)
      linarith [hp j hj, hm j hj]
  have := near_trans k2 k3
  unfold colDiff sliceDev
  linarith

theorem colOne_near {P : Nat → K} (hp : ∀ j, j < n → |c.ia.p.get t j - P j| ≤ ε)
    (hp' : ∀ j, j < n → |c.ia.p.get t j| ≤ topCurrent cfg ε) :
    |colOne E c n g t - ∑ j ∈ range n, P j * (g j : K)| ≤ sliceDev cfg ε q n := by
  have p1 := cellRound_nonneg hq htop
  have k2 := column_near (F := c.ia.p.get t) (y := c.ia.p.get t) hq h0 htop hcol hg
    (fun j hj => (hp' j hj).trans (by linarith)) (fun j hj => by rw [sub_self, abs_zero]; exact p1)
    fun j hj => (hp' j hj).trans (by linarith)
  have k3 := bit_dev (F := c.ia.p.get t) (G := P) hq h0 htop hcol hg hp
  have := near_trans k2 k3
  have : 0 ≤ (n : K) * ε := mul_nonneg (Nat.cast_nonneg n) h0
  unfold colOne sliceDev
  linarith

end

end

end Acs
