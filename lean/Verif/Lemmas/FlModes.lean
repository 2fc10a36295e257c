import Verif.Lemmas.FlErr

/-! # Binary and ternary products in floating point -/

set_option linter.unusedSectionVars false

namespace Acs

open Finset Spec

section
variable {K : Type} [Field K] [LinearOrder K] [IsStrictOrderedRing K] [FloorRing K]
variable {E : Env K} {cfg : Cfg K} {c : Core K} {a : Aux K}
variable {vec res : Vec Int} {m n : Nat} {l : String} {ε ρ e e' B B' : K}
variable {P Q W : Nat → Nat → Int}

/-- Error of a conversion with scale one, without the final rounding. -/
def flConvErr (d : K) (n : Nat) (I ρ1 ρ2 θ : K) : K := ((1 + θ) * colErr n ρ1 ρ2 + 4 * n * I * θ) / |d|

theorem flErr_eq (d : K) (n g : Nat) (I ρ1 ρ2 ρ θ : K) :
    flErr d n g I ρ1 ρ2 ρ θ = g * flConvErr d n I ρ1 ρ2 θ + 10 * ρ := by
  unfold flErr flConvErr
  rw [mul_div_assoc]

/-- Total error before truncation. -/
def totErr (d : K) (n κ g : Nat) (ε I ρ1 ρ2 ρ θ : K) : K := κ * n * ε / |d| + flErr d n g I ρ1 ρ2 ρ θ

namespace FlDev
variable {I ρ1 ρ2 θ V A : K} (H : FlDev E cfg c a P Q W vec res m n ε I ρ1 ρ2 ρ θ V A)
include H

theorem rho0 : 0 ≤ ρ := (abs_nonneg _).trans (H.rn 0 (by rw [abs_zero]; linarith [H.A0, H.V0]))

theorem conv0 : 0 ≤ flConvErr (cfg.lrs - cfg.hrs) n I ρ1 ρ2 θ := by
  have h1 := H.tau0
  have h2 := H.t0
  have h3 := H.n0
  have h4 := H.I0
  unfold flConvErr
  positivity

/-- A converted column, with an offset. -/
theorem convO {t T o O s : K} (hs : s = 1 ∨ s = 2) (ht : |t - T| ≤ n * (7 * ρ1 + ρ2)) (ho : |o - O| ≤ 2 * ρ2)
    (hT : |T + O| ≤ 4 * n * I) :
    Ap (s * flConvErr (cfg.lrs - cfg.hrs) n I ρ1 ρ2 θ + ρ) (V + 1) (cv E t o (scaleOf E cfg s))
      ((T + O) * (s / (cfg.lrs - cfg.hrs))) := by
  unfold flConvErr
  rw [← mul_div_assoc]
  exact H.conv hs ht ho hT

/-- A converted column. -/
theorem conv1 {t T s b : K} (hs : s = 1 ∨ s = 2) (ht : |t - T| ≤ n * (7 * ρ1 + ρ2) ∧ |T| ≤ n * b) (hb : b ≤ 4 * I) :
    Ap (s * flConvErr (cfg.lrs - cfg.hrs) n I ρ1 ρ2 θ + ρ) (V + 1) (cv E t 0 (scaleOf E cfg s))
      (T * (s / (cfg.lrs - cfg.hrs))) := by
  have := H.convO (o := 0) (O := 0) hs ht.1 (by rw [sub_zero, abs_zero]; linarith [H.p2]) (by
    rw [add_zero]
    refine ht.2.trans ?_
    have := mul_le_mul_of_nonneg_left hb H.n0
    linarith)
  rwa [add_zero] at this

/-- A small integer as a float. -/
theorem num {k : Int} (hk : |k| ≤ n) : Ap 0 V (E.ofInt k) (k : K) := by
  unfold Env.ofInt
  rw [H.int k (by omega)]
  refine Ap.refl ?_
  have h1 : ((|k| : Int) : K) ≤ ((n : Int) : K) := Int.cast_le.2 hk
  push_cast at h1
  exact h1.trans H.nV

/-- One truncation at the end. -/
theorem one' {o : C (Aux K × Vec Int)} {κ g : Nat} (hx : ∀ j, j < n → IsTern (vec.get j))
    (hR : FlRoom (totErr (cfg.lrs - cfg.hrs) n κ g ε I ρ1 ρ2 ρ θ) res m n) {y Y : Nat → K}
    (hy : ∀ i, i < m → Ap e B (y i) (Y i)) (hB : B ≤ 5 * V + 9) (hB0 : 0 ≤ B)
    (he : e ≤ g * flConvErr (cfg.lrs - cfg.hrs) n I ρ1 ρ2 θ + 8 * ρ)
    (hY : ∀ i, i < m → |Y i - ((∑ j ∈ range n, W i j * vec.get j : Int) : K)| ≤ κ * n * ε / |cfg.lrs - cfg.hrs|)
    (ho : (∀ i, i < m → InI32 (truncZ (plus E (res.get i) (y i)))) →
      ∃ a', o = .ok (a', res.over m fun i => truncZ (plus E (res.get i) (y i)))) :
    NearBy o res vec W m n (totErr (cfg.lrs - cfg.hrs) n κ g ε I ρ1 ρ2 ρ θ + 1) := by
  have k1 : ∀ i, i < m → |(truncZ (plus E (res.get i) (y i)) : K)
      - ((res.get i + ∑ j ∈ range n, W i j * vec.get j : Int) : K)|
      < totErr (cfg.lrs - cfg.hrs) n κ g ε I ρ1 ρ2 ρ θ + 1 := fun i hi => by
    refine truncZ_lt ?_
    have h1 := (H.plusAp (H.hA i hi) (hy i hi) (by linarith) hB0).1
    have h2 := hY i hi
    have h3 := abs_add_le (plus E (res.get i) (y i) - (res.get i + Y i))
      (Y i - ((∑ j ∈ range n, W i j * vec.get j : Int) : K))
    unfold totErr
    rw [flErr_eq]
    rw [Int.cast_add, show plus E (res.get i) (y i) - ((res.get i : K) + ((∑ j ∈ range n, W i j * vec.get j : Int) : K))
      = plus E (res.get i) (y i) - (res.get i + Y i) + (Y i - ((∑ j ∈ range n, W i j * vec.get j : Int) : K)) by ring]
    linarith
  obtain ⟨a', e1⟩ := ho fun i hi => near_in (k1 i hi) (H.twin.absPr hx hi) (by
    have h1 := hR i hi
    have h2 := H.n0
    push_cast at h1 ⊢
    linarith)
  exact ⟨a', _, e1, k1⟩

theorem absSumW (hs : ∀ i, i < m → c.gd.sumW.get i = ∑ j ∈ range n, W i j) {i : Nat} (hi : i < m) :
    |c.gd.sumW.get i| ≤ n := by
  rw [hs i hi]
  refine (abs_sum_le_sum_abs _ _).trans ?_
  have : ∑ j ∈ range n, |W i j| ≤ ∑ _j ∈ range n, (1 : Int) := sum_le_sum fun j hj => H.twin.w1 i j hi (mem_range.1 hj)
  simpa using this

theorem bnn1 (hx : ∀ j, j < n → IsBin (vec.get j)) (hW : ∀ i j, i < m → j < n → P i j - Q i j = W i j)
    (hs : ∀ i, i < m → c.gd.sumW.get i = ∑ j ∈ range n, W i j)
    (hR : FlRoom (totErr (cfg.lrs - cfg.hrs) n 4 2 ε I ρ1 ρ2 ρ θ) res m n) :
    NearBy (aMvmBnnI E cfg c a res vec m n l) res vec W m n
      (totErr (cfg.lrs - cfg.hrs) n 4 2 ε I ρ1 ρ2 ρ θ + 1) := by
  have key := fun i hi => sum_bnn1 (fun j hj => hW i j hi hj) hx
  have T := H.twin
  have hρ := H.rho0
  have h1 := H.one
  have hV := H.V0
  refine H.one' (fun j hj => (hx j hj).tern) hR (Y := fun i =>
      (∑ j ∈ range n, (c.ia.p.get i j - c.ia.m.get i j) * (((vec.get j + 1) / 2 : Int) : K))
      * (2 / (cfg.lrs - cfg.hrs)) - c.gd.sumW.get i)
    (fun i hi => (H.conv1 (Or.inr rfl) (H.nearDiff hi fun j hj => ?_) (by linarith [H.I0])).fsub H.rn
      (H.num (H.absSumW hs hi)) (by linarith [H.A0])) (by linarith) (by linarith) (by push_cast; linarith)
    (fun i hi => ?_)
    fun hI => (H.fl l).bnn1 (encBnn1_ok T.vec T.vdP fun j hj => (hx j hj).tern.in1)
      (H.cols (H.colDiff T.vdP T.tmp)) T.tmp T.res T.sw (fun i hi => by rw [Vec.over_lt hi]) hI
  · rcases hx j hj with e | e <;> rw [e] <;> norm_num
  refine T.dev hi (g := fun j => 2 * ((vec.get j + 1) / 2)) (g' := fun j => -(2 * ((vec.get j + 1) / 2)))
    (o := -c.gd.sumW.get i) (fun j hj => ?_) ?_ ?_
  · rcases hx j hj with e | e <;> rw [e] <;> norm_num
  · rw [sum_mul, sub_eq_add_neg]
    push_cast
    congr 1
    refine sum_congr rfl fun j _ => ?_
    show _ = (c.ia.p.get i j * _ + c.ia.m.get i j * _ - _) / _
    ring
  · rw [← key i hi, hs i hi, mul_sum, sub_eq_add_neg]
    congr 1
    exact sum_congr rfl fun j _ => by ring

theorem bnn2 (hx : ∀ j, j < n → IsBin (vec.get j)) (hW : ∀ i j, i < m → j < n → P i j - Q i j = W i j)
    (hs : ∀ i, i < m → c.gd.sumW.get i = ∑ j ∈ range n, W i j)
    (hR : FlRoom (totErr (cfg.lrs - cfg.hrs) n 4 2 ε I ρ1 ρ2 ρ θ) res m n) :
    NearBy (aMvmBnnII E cfg c a res vec m n l) res vec W m n
      (totErr (cfg.lrs - cfg.hrs) n 4 2 ε I ρ1 ρ2 ρ θ + 1) := by
  have key := fun i hi => sum_bnn2 (fun j hj => hW i j hi hj) hx
  have T := H.twin
  have hρ := H.rho0
  have h1 := H.one
  have hV := H.V0
  refine H.one' (fun j hj => (hx j hj).tern) hR (Y := fun i =>
      (∑ j ∈ range n, (c.ia.m.get i j - c.ia.p.get i j) * (((vec.get j - 1).tdiv (-2) : Int) : K))
      * (2 / (cfg.lrs - cfg.hrs)) + c.gd.sumW.get i)
    (fun i hi => (H.conv1 (Or.inr rfl) (H.nearDiffNeg hi fun j hj => ?_) (by linarith [H.I0])).fadd H.rn
      (H.num (H.absSumW hs hi)) (by linarith [H.A0])) (by linarith) (by linarith) (by push_cast; linarith)
    (fun i hi => ?_)
    fun hI => (H.fl l).bnn2 (encBnn2_ok T.vec T.vdP fun j hj => (hx j hj).tern.in1')
      (H.cols (H.colDiffNeg T.vdP T.tmp)) T.tmp T.res T.sw (fun i hi => by rw [Vec.over_lt hi]) hI
  · rcases hx j hj with e | e <;> rw [e] <;> decide
  refine T.dev hi (g := fun j => -(2 * (vec.get j - 1).tdiv (-2))) (g' := fun j => 2 * (vec.get j - 1).tdiv (-2))
    (o := c.gd.sumW.get i) (fun j hj => ?_) ?_ ?_
  · rcases hx j hj with e | e <;> rw [e] <;> norm_num
  · rw [sum_mul]
    push_cast
    congr 1
    refine sum_congr rfl fun j _ => ?_
    show _ = (c.ia.p.get i j * _ + c.ia.m.get i j * _ - _) / _
    ring
  · rw [← key i hi, hs i hi, mul_sum]
    congr 1
    exact sum_congr rfl fun j _ => by ring

omit H in
theorem up_le {x : Int} (h : IsTern x) : |up x| ≤ 1 ∧ |dn x| ≤ 1 := by
  rcases h with e | e | e <;> rw [e] <;> decide

theorem bnn34 (hx : ∀ j, j < n → IsBin (vec.get j)) {i : Nat} (hi : i < m) :
    Ap (2 * flConvErr (cfg.lrs - cfg.hrs) n I ρ1 ρ2 θ + ρ) (V + 1)
      (cv E (fsum E (fun j => E.fmul (c.ia.p.get i j) (E.ofInt (up (vec.get j)))) n)
        (E.fmul (E.ofInt (-∑ j ∈ range n, vec.get j)) cfg.hrs) (scaleOf E cfg 2))
      ((∑ j ∈ range n, c.ia.p.get i j * ((up (vec.get j) : Int) : K)
        + ((-∑ j ∈ range n, vec.get j : Int) : K) * cfg.hrs) * (2 / (cfg.lrs - cfg.hrs))) := by
  have hn := mul_nonneg H.n0 H.I0
  obtain ⟨h1, h2⟩ := H.nearP hi fun j hj => (up_le (hx j hj).tern).1
  obtain ⟨h3, h4⟩ := H.offset (k := -∑ j ∈ range n, vec.get j) (by
    have := BinHyp.abs_sum_vec fun j hj => (hx j hj).tern
    rw [abs_neg]
    omega)
  refine H.convO (Or.inr rfl) h1 (by linarith [H.p2]) ?_
  refine (abs_add_le _ _).trans ?_
  linarith

theorem bnn3 (hx : ∀ j, j < n → IsBin (vec.get j)) (hW : ∀ i j, i < m → j < n → 2 * P i j - 1 = W i j)
    (hR : FlRoom (totErr (cfg.lrs - cfg.hrs) n 2 4 ε I ρ1 ρ2 ρ θ) res m n) :
    NearBy (aMvmBnnIII E cfg c a res vec m n l) res vec W m n
      (totErr (cfg.lrs - cfg.hrs) n 2 4 ε I ρ1 ρ2 ρ θ + 1) := by
  have key := fun i hi => sum_bnn3 (fun j hj => hW i j hi hj) hx
  have T := H.twin
  have hρ := H.rho0
  have h1 := H.one
  have hV := H.V0
  have hA := H.A0
  refine H.one' (fun j hj => (hx j hj).tern) hR
    (fun i hi => (((H.bnn34 hx hi).fsub H.rn (H.conv1 (Or.inr rfl)
      (H.nearP hi fun j hj => (up_le (hx j hj).tern).2) (by linarith [H.I0])) (by linarith)).fsub H.rn
      (H.num (BinHyp.abs_sum_vec fun j hj => (hx j hj).tern)) (by linarith))) (by linarith) (by linarith)
    (by push_cast; linarith) (fun i hi => ?_)
    fun hI => (H.fl l).bnn3 (encPMSum_ok T.vec T.vdP T.vdM T.n31 hx) (H.cols (H.colP T.vdP T.tmpP))
      (H.cols (H.colP T.vdM T.tmpM)) (T.neg_sum fun j hj => (hx j hj).tern) T.tmpP T.tmpM T.res
      (fun i hi => by rw [Vec.over_lt hi, Vec.over_lt hi]) hI
  refine T.bnn34 hx hi (s := 2) (o := -∑ j ∈ range n, vec.get j) (by norm_num) ?_ ?_
  · show _ = (2 : Int) * ((∑ j ∈ range n, c.ia.p.get i j * _ - _) - ∑ j ∈ range n, c.ia.p.get i j * _) / _ + _
    push_cast
    ring
  · rw [← key i hi, mul_sum, mul_sum]
    ring

theorem bnn4 (hx : ∀ j, j < n → IsBin (vec.get j)) (hW : ∀ i j, i < m → j < n → 1 - 2 * P i j = W i j)
    (hR : FlRoom (totErr (cfg.lrs - cfg.hrs) n 2 4 ε I ρ1 ρ2 ρ θ) res m n) :
    NearBy (aMvmBnnIV E cfg c a res vec m n l) res vec W m n
      (totErr (cfg.lrs - cfg.hrs) n 2 4 ε I ρ1 ρ2 ρ θ + 1) := by
  have key := fun i hi => sum_bnn4 (fun j hj => hW i j hi hj) hx
  have T := H.twin
  have hρ := H.rho0
  have h1 := H.one
  have hV := H.V0
  have hA := H.A0
  refine H.one' (fun j hj => (hx j hj).tern) hR
    (fun i hi => (((H.conv1 (Or.inr rfl)
      (H.nearP hi fun j hj => (up_le (hx j hj).tern).2) (by linarith [H.I0])).fsub H.rn (H.bnn34 hx hi)
      (by linarith)).fadd H.rn
      (H.num (BinHyp.abs_sum_vec fun j hj => (hx j hj).tern)) (by linarith))) (by linarith) (by linarith)
    (by push_cast; linarith) (fun i hi => ?_)
    fun hI => (H.fl l).bnn4 (encPMSum_ok T.vec T.vdP T.vdM T.n31 hx) (H.cols (H.colP T.vdP T.tmpP))
      (H.cols (H.colP T.vdM T.tmpM)) (T.neg_sum fun j hj => (hx j hj).tern) T.tmpP T.tmpM T.res
      (fun i hi => by rw [Vec.over_lt hi, Vec.over_lt hi]) hI
  refine T.bnn34 hx hi (s := -2) (o := ∑ j ∈ range n, vec.get j) (by norm_num) ?_ ?_
  · show _ = (-2 : Int) * ((∑ j ∈ range n, c.ia.p.get i j * _ - _) - ∑ j ∈ range n, c.ia.p.get i j * _) / _ + _
    push_cast
    ring
  · rw [← key i hi, ← mul_sum, ← mul_sum]
    ring

theorem bnn5 (hx : ∀ j, j < n → IsBin (vec.get j)) (hW : ∀ i j, i < m → j < n → 2 * P i j - 1 = W i j)
    (hW' : ∀ i j, i < m → j < n → 2 * Q i j - 1 = -W i j)
    (hR : FlRoom (totErr (cfg.lrs - cfg.hrs) n 2 2 ε I ρ1 ρ2 ρ θ) res m n) :
    NearBy (aMvmBnnV E cfg c a res vec m n l) res vec W m n
      (totErr (cfg.lrs - cfg.hrs) n 2 2 ε I ρ1 ρ2 ρ θ + 1) := by
  have key := fun i hi => sum_bnn5 (fun j hj => hW i j hi hj) (fun j hj => hW' i j hi hj) hx
  have h1 : (n : Int) = ∑ j ∈ range n, (up (vec.get j) + dn (vec.get j)) := by
    rw [sum_add_distrib, sum_one hx]
  have T := H.twin
  have hρ := H.rho0
  have hρ1 := H.one
  have hV := H.V0
  have hA := H.A0
  have hnI := mul_nonneg H.n0 H.I0
  have hc : ∀ i, i < m → Ap (2 * flConvErr (cfg.lrs - cfg.hrs) n I ρ1 ρ2 θ + ρ) (V + 1)
      (cv E (fsum E (fun j => E.fadd (E.fmul (c.ia.p.get i j) (E.ofInt (up (vec.get j))))
        (E.fmul (c.ia.m.get i j) (E.ofInt (dn (vec.get j))))) n)
        (E.fmul (E.ofInt (-(n : Int))) cfg.hrs) (scaleOf E cfg 2))
      ((∑ j ∈ range n, (c.ia.p.get i j * ((up (vec.get j) : Int) : K) + c.ia.m.get i j * ((dn (vec.get j) : Int) : K))
        + ((-(n : Int) : Int) : K) * cfg.hrs) * (2 / (cfg.lrs - cfg.hrs))) := fun i hi => by
    obtain ⟨k1, k2⟩ := H.near5 hi (fun j hj => (up_le (hx j hj).tern).1) fun j hj => (up_le (hx j hj).tern).2
    obtain ⟨k3, _⟩ := H.offset (k := -(n : Int)) (by rw [abs_neg, Nat.abs_cast]; omega)
    have k4 : |((-(n : Int) : Int) : K) * cfg.hrs| ≤ n * I := by
      push_cast
      rw [neg_mul, abs_neg, abs_mul, Nat.abs_cast]
      exact mul_le_mul_of_nonneg_left H.hI H.n0
    refine H.convO (Or.inr rfl) k1 (by linarith [H.p2]) ?_
    refine (abs_add_le _ _).trans ?_
    linarith
  refine H.one' (fun j hj => (hx j hj).tern) hR
    (fun i hi => (hc i hi).fsub H.rn (H.num (k := n) (by rw [Nat.abs_cast])) (by linarith)) (by linarith) (by linarith)
    (by push_cast; linarith) (fun i hi => ?_)
    fun hI => (H.fl l).bnn5 (encPM_ok T.vec T.vdP T.vdM hx) (H.cols (H.col5 T.vdP T.vdM T.tmp))
      (negI_ok (by have := T.n31; constructor <;> omega)) T.tmp T.res (fun i hi => by rw [Vec.over_lt hi]) hI
  refine T.dev hi (g := fun j => 2 * up (vec.get j)) (g' := fun j => 2 * dn (vec.get j)) (o := -(n : Int))
    (fun j hj => ?_) ?_ ?_
  · rcases hx j hj with e | e <;> rw [e] <;> norm_num [up, dn]
  · have h2 : ((n : Nat) : K) = ∑ j ∈ range n, (((up (vec.get j) : Int) : K) + ((dn (vec.get j) : Int) : K)) := by
      rw [← Int.cast_natCast, h1]; push_cast; rfl
    rw [Int.cast_neg, Int.cast_natCast, sub_eq_add_neg]
    congr 1
    conv_lhs => rw [h2]
    rw [neg_mul, ← sub_eq_add_neg, sum_mul, ← sum_sub_distrib, sum_mul]
    refine sum_congr rfl fun j _ => ?_
    show _ = (c.ia.p.get i j * _ + c.ia.m.get i j * _ - _) / _
    rw [Int.cast_mul, Int.cast_mul, Int.cast_ofNat]
    ring
  · rw [← key i hi, mul_sum, sub_eq_add_neg]
    congr 1
    exact sum_congr rfl fun j _ => by ring

theorem quadAp (hx : ∀ j, j < n → IsTern (vec.get j)) {i : Nat} (hi : i < m) :
    Ap (1 * flConvErr (cfg.lrs - cfg.hrs) n I ρ1 ρ2 θ + ρ) (V + 1)
      (cv E (fsum E (fun j =>
        E.fsub (E.fsub (E.fadd (E.fmul (c.ia.p.get i j) (E.ofInt (up (vec.get j))))
          (E.fmul (c.ia.m.get i j) (E.ofInt (dn (vec.get j)))))
          (E.fmul (c.ia.m.get i j) (E.ofInt (up (vec.get j)))))
          (E.fmul (c.ia.p.get i j) (E.ofInt (dn (vec.get j))))) n) 0 (scaleOf E cfg 1))
      ((∑ j ∈ range n, (c.ia.p.get i j - c.ia.m.get i j)
        * (((up (vec.get j) : Int) : K) - ((dn (vec.get j) : Int) : K))) * (1 / (cfg.lrs - cfg.hrs))) :=
  H.conv1 (Or.inl rfl) (H.nearQuad hi (fun j hj => (up_le (hx j hj)).1) fun j hj => (up_le (hx j hj)).2) le_rfl

theorem bnn6 (hx : ∀ j, j < n → IsBin (vec.get j)) (hW : ∀ i j, i < m → j < n → P i j - Q i j = W i j)
    (hR : FlRoom (totErr (cfg.lrs - cfg.hrs) n 2 1 ε I ρ1 ρ2 ρ θ) res m n) :
    NearBy (aMvmBnnVI E cfg c a res vec m n l) res vec W m n
      (totErr (cfg.lrs - cfg.hrs) n 2 1 ε I ρ1 ρ2 ρ θ + 1) := by
  have T := H.twin
  have hρ := H.rho0
  have hV := H.V0
  exact H.one' (fun j hj => (hx j hj).tern) hR (fun i hi => H.quadAp (fun j hj => (hx j hj).tern) hi) (by linarith)
    (by linarith) (by push_cast; linarith) (fun i hi => T.quad (fun j hj => (hx j hj).tern) hW hi)
    fun hI => (H.fl l).bnn6 (encPM_ok T.vec T.vdP T.vdM hx) (H.cols (H.colQuad T.vdP T.vdM T.tmp)) T.tmp T.res
      (fun i hi => by rw [Vec.over_lt hi]) hI

theorem tnn1 (hx : ∀ j, j < n → IsTern (vec.get j)) (hW : ∀ i j, i < m → j < n → P i j - Q i j = W i j)
    (hR : FlRoom (totErr (cfg.lrs - cfg.hrs) n 2 1 ε I ρ1 ρ2 ρ θ) res m n) :
    NearBy (aMvmTnnI E cfg c a res vec m n l) res vec W m n
      (totErr (cfg.lrs - cfg.hrs) n 2 1 ε I ρ1 ρ2 ρ θ + 1) := by
  have T := H.twin
  have hρ := H.rho0
  have hV := H.V0
  exact H.one' hx hR (fun i hi => H.quadAp hx hi) (by linarith)
    (by linarith) (by push_cast; linarith) (fun i hi => T.quad hx hW hi)
    fun hI => (H.fl l).tnn1 (encTern_ok T.vec T.vdP T.vdM hx) (H.cols (H.colQuad T.vdP T.vdM T.tmp)) T.tmp T.res
      (fun i hi => by rw [Vec.over_lt hi]) hI

/-- Bound of the first of two truncated sums. -/
theorem first {y Y : Nat → K} (hy : ∀ i, i < m → Ap e (V + 1) (y i) (Y i)) {k : Nat → Int}
    (hk : ∀ i, k i = truncZ (plus E (res.get i) (y i))) {i : Nat} (hi : i < m) :
    |(k i : K) - (res.get i + Y i)| < e + 2 * ρ + 1 ∧ |(k i : K)| ≤ A + V + 3 := by
  have hV := H.V0
  have h1 := H.plusAp (H.hA i hi) (hy i hi) (by linarith) (by linarith)
  have h2 := truncZ_near (plus E (res.get i) (y i))
  have h3 := truncZ_abs (plus E (res.get i) (y i))
  rw [← hk] at h2 h3
  have h4 := abs_add_le ((k i : K) - plus E (res.get i) (y i)) (plus E (res.get i) (y i) - (res.get i + Y i))
  rw [sub_add_sub_cancel] at h4
  exact ⟨by linarith [h1.1], by linarith [h1.2]⟩

/-- Wrap up for TNN_II. -/
theorem two' {o : C (Aux K × Vec Int)} (hx : ∀ j, j < n → IsTern (vec.get j))
    (hR : FlRoom (totErr (cfg.lrs - cfg.hrs) n 2 3 ε I ρ1 ρ2 ρ θ) res m n) {y y' Y Y' : Nat → K} {S : Nat → Int}
    (hS : ∀ i, i < m → |S i| ≤ 1 * n)
    (hy : ∀ i, i < m → Ap (1 * flConvErr (cfg.lrs - cfg.hrs) n I ρ1 ρ2 θ + ρ) (V + 1) (y i) (Y i))
    (hy' : ∀ i, i < m → Ap (2 * flConvErr (cfg.lrs - cfg.hrs) n I ρ1 ρ2 θ + ρ) (V + 1) (y' i) (Y' i))
    (hY : ∀ i, i < m → |Y i - S i| ≤ (2 : Nat) * n * ε / |cfg.lrs - cfg.hrs|)
    (hY' : ∀ i, i < m → |Y i + -Y' i - ((∑ j ∈ range n, W i j * vec.get j : Int) : K)|
      ≤ (2 : Nat) * n * ε / |cfg.lrs - cfg.hrs|)
    (ho : ∀ k : Nat → Int, (∀ i, k i = truncZ (plus E (res.get i) (y i))) →
      (∀ i, i < m → InI32 (k i) ∧ InI32 (truncZ (minus E (k i) (y' i)))) →
      ∃ a', o = .ok (a', res.over m fun i => truncZ (minus E (k i) (y' i)))) :
    NearBy o res vec W m n (totErr (cfg.lrs - cfg.hrs) n 2 3 ε I ρ1 ρ2 ρ θ + 2) := by
  have hρ := H.rho0
  have hV := H.V0
  have hq := H.conv0
  obtain ⟨k, hk⟩ : ∃ k : Nat → Int, ∀ i, k i = truncZ (plus E (res.get i) (y i)) := ⟨_, fun _ => rfl⟩
  have k1 : ∀ i, i < m → |(k i : K) - ((res.get i + S i : Int) : K)|
      < totErr (cfg.lrs - cfg.hrs) n 2 3 ε I ρ1 ρ2 ρ θ + 2 := fun i hi => by
    have h1 := (H.first hy hk hi).1
    have h2 := hY i hi
    have h3 := abs_add_le ((k i : K) - (res.get i + Y i)) (Y i - S i)
    rw [show (k i : K) - (res.get i + Y i) + (Y i - S i) = (k i : K) - ((res.get i + S i : Int) : K) by
      push_cast; ring] at h3
    unfold totErr
    rw [flErr_eq]
    push_cast at h2 h3 ⊢
    linarith
  have k2 : ∀ i, i < m → |(truncZ (minus E (k i) (y' i)) : K)
      - ((res.get i + ∑ j ∈ range n, W i j * vec.get j : Int) : K)|
      < totErr (cfg.lrs - cfg.hrs) n 2 3 ε I ρ1 ρ2 ρ θ + 2 := fun i hi => by
    have h1 := H.first hy hk hi
    have h2 := hY' i hi
    have h3 := (H.minusAp h1.2 (hy' i hi) (by linarith) (by linarith)).1
    have h4 := truncZ_near (minus E (k i) (y' i))
    generalize truncZ (minus E (k i) (y' i)) = z at h4 ⊢
    generalize minus E (k i) (y' i) = w at h3 h4
    generalize (∑ j ∈ range n, W i j * vec.get j : Int) = s at h2 ⊢
    have e1 : (z : K) - ((res.get i + s : Int) : K) = (z - w) + (w - (k i - Y' i)) + ((k i : K) - (res.get i + Y i))
        + (Y i + -Y' i - s) := by push_cast; ring
    rw [e1]
    have h5 := abs_add_le ((z - w) + (w - (k i - Y' i)) + ((k i : K) - (res.get i + Y i))) (Y i + -Y' i - s)
    have h6 := abs_add_le ((z - w) + (w - (k i - Y' i))) ((k i : K) - (res.get i + Y i))
    have h7 := abs_add_le (z - w) (w - (k i - Y' i))
    unfold totErr
    rw [flErr_eq]
    have h8 := h1.1
    push_cast at h2 ⊢
    linarith
  obtain ⟨a', e1⟩ := ho k hk fun i hi => by
    have h1 := hR i hi
    have h2 := H.n0
    refine ⟨near_in (k1 i hi) (hS i hi) ?_, near_in (k2 i hi) (H.twin.absPr hx hi) ?_⟩
    all_goals
      push_cast at h1 ⊢
      linarith
  exact ⟨a', _, e1, k2⟩

theorem tnn2 (hx : ∀ j, j < n → IsTern (vec.get j)) (hW : ∀ i j, i < m → j < n → P i j - Q i j = W i j)
    (hR : FlRoom (totErr (cfg.lrs - cfg.hrs) n 2 3 ε I ρ1 ρ2 ρ θ) res m n) :
    NearBy (aMvmTnnII E cfg c a res vec m n l) res vec W m n
      (totErr (cfg.lrs - cfg.hrs) n 2 3 ε I ρ1 ρ2 ρ θ + 2) := by
  have T := H.twin
  refine H.two' hx hR
    (S := fun i => ∑ j ∈ range n, (P i j - Q i j) * (1 * (if vec.get j ≠ 0 then 1 else 0 : Int)))
    (fun i hi => T.absPQ hW hi fun j hj => (DevHyp.nz_small (hx j hj)).2.2)
    (fun i hi => H.conv1 (Or.inl rfl) (H.nearDiff hi (f := fun j => if vec.get j ≠ 0 then 1 else 0) fun j hj => by
      split <;> simp) (by linarith [H.I0]))
    (fun i hi => H.conv1 (Or.inr rfl) (H.nearDiff hi (f := fun j => dn (vec.get j)) fun j hj => (up_le (hx j hj)).2)
      (by linarith [H.I0]))
    (fun i hi => ?_) (fun i hi => ?_) fun k hk hI =>
    (H.fl l).tnn2 (encNonzero_ok T.vec T.vdP) (encNegOne_ok T.vec (by exact T.vdP))
      (H.cols (H.colDiff T.vdP T.tmp)) (H.cols (H.colDiff (by exact T.vdP) (by exact T.tmp))) T.tmp T.tmp T.res
      (fun i hi => by rw [Vec.over_lt hi]) (fun i hi => by rw [Vec.over_lt hi]) (fun i _ => hk i) hI
  · have := T.diffs hi (s := 1) fun j hj => (DevHyp.nz_small (hx j hj)).1
    rw [Int.cast_one] at this
    exact this
  · have := T.diffs2 hi (s := -2) fun j hj => (DevHyp.nz_small (hx j hj)).2.1
    have e : ∑ j ∈ range n, (P i j - Q i j) * ((if vec.get j ≠ 0 then 1 else 0) + -2 * dn (vec.get j))
        = ∑ j ∈ range n, W i j * vec.get j := sum_congr rfl fun j hj => by
      rw [← id_tnn2 (hW i j hi (mem_range.1 hj)) (hx j (mem_range.1 hj))]; ring
    rw [e, show ((-2 : Int) : K) / (cfg.lrs - cfg.hrs) = -(2 / (cfg.lrs - cfg.hrs)) by push_cast; ring, mul_neg] at this
    exact this

/-- Wrap up for TNN_III. -/
theorem three' {o : C (Aux K × Vec Int)} (hx : ∀ j, j < n → IsTern (vec.get j))
    (hR : FlRoom (totErr (cfg.lrs - cfg.hrs) n 4 3 ε I ρ1 ρ2 ρ θ) res m n) {y y' Y Y' : Nat → K} {S S' : Nat → Int}
    (hS : ∀ i, i < m → |S i| ≤ 1 * n) (hS' : ∀ i, i < m → |S' i| ≤ 2 * n)
    (hy : ∀ i, i < m → Ap (1 * flConvErr (cfg.lrs - cfg.hrs) n I ρ1 ρ2 θ + ρ) (V + 1) (y i) (Y i))
    (hy' : ∀ i, i < m → Ap (2 * flConvErr (cfg.lrs - cfg.hrs) n I ρ1 ρ2 θ + ρ) (V + 1) (y' i) (Y' i))
    (hY : ∀ i, i < m → |Y i - S i| ≤ (2 : Nat) * n * ε / |cfg.lrs - cfg.hrs|)
    (hY' : ∀ i, i < m → |Y i + Y' i - S' i| ≤ (4 : Nat) * n * ε / |cfg.lrs - cfg.hrs|)
    (hp : ∀ i, i < m → S' i - c.gd.sumW.get i = ∑ j ∈ range n, W i j * vec.get j)
    (ho : ∀ k k' : Nat → Int, (∀ i, k i = truncZ (plus E (res.get i) (y i))) →
      (∀ i, k' i = truncZ (plus E (k i) (y' i))) →
      (∀ i, i < m → InI32 (k i) ∧ InI32 (k' i) ∧ InI32 (k' i - c.gd.sumW.get i)) →
      ∃ a', o = .ok (a', res.over m fun i => k' i - c.gd.sumW.get i)) :
    NearBy o res vec W m n (totErr (cfg.lrs - cfg.hrs) n 4 3 ε I ρ1 ρ2 ρ θ + 2) := by
  have hρ := H.rho0
  have hV := H.V0
  have hq := H.conv0
  obtain ⟨k, hk⟩ : ∃ k : Nat → Int, ∀ i, k i = truncZ (plus E (res.get i) (y i)) := ⟨_, fun _ => rfl⟩
  obtain ⟨k', hk'⟩ : ∃ k' : Nat → Int, ∀ i, k' i = truncZ (plus E (k i) (y' i)) := ⟨_, fun _ => rfl⟩
  have hm := H.twin.eps_mono (show 2 ≤ 4 by norm_num)
  have k1 : ∀ i, i < m → |(k i : K) - ((res.get i + S i : Int) : K)|
      < totErr (cfg.lrs - cfg.hrs) n 4 3 ε I ρ1 ρ2 ρ θ + 2 := fun i hi => by
    have h1 := (H.first hy hk hi).1
    have h2 := hY i hi
    have h3 := abs_add_le ((k i : K) - (res.get i + Y i)) (Y i - S i)
    rw [show (k i : K) - (res.get i + Y i) + (Y i - S i) = (k i : K) - ((res.get i + S i : Int) : K) by
      push_cast; ring] at h3
    unfold totErr
    rw [flErr_eq]
    push_cast at h2 h3 hm ⊢
    linarith
  have k2 : ∀ i, i < m → |(k' i : K) - ((res.get i + S' i : Int) : K)|
      < totErr (cfg.lrs - cfg.hrs) n 4 3 ε I ρ1 ρ2 ρ θ + 2 := fun i hi => by
    have h1 := H.first hy hk hi
    have h2 := hY' i hi
    have h3 := (H.plusAp h1.2 (hy' i hi) (by linarith) (by linarith)).1
    have h4 := truncZ_near (plus E (k i) (y' i))
    rw [← hk'] at h4
    generalize plus E (k i) (y' i) = w at h3 h4
    have e1 : (k' i : K) - ((res.get i + S' i : Int) : K) = (k' i - w) + (w - (k i + Y' i))
        + ((k i : K) - (res.get i + Y i)) + (Y i + Y' i - S' i) := by push_cast; ring
    rw [e1]
    have h5 := abs_add_le ((k' i - w) + (w - (k i + Y' i)) + ((k i : K) - (res.get i + Y i))) (Y i + Y' i - S' i)
    have h6 := abs_add_le ((k' i - w) + (w - (k i + Y' i))) ((k i : K) - (res.get i + Y i))
    have h7 := abs_add_le (k' i - w) (w - (k i + Y' i))
    unfold totErr
    rw [flErr_eq]
    have h8 := h1.1
    push_cast at h2 ⊢
    linarith
  have k3 : ∀ i, i < m → |((k' i - c.gd.sumW.get i : Int) : K)
      - ((res.get i + ∑ j ∈ range n, W i j * vec.get j : Int) : K)|
      < totErr (cfg.lrs - cfg.hrs) n 4 3 ε I ρ1 ρ2 ρ θ + 2 := fun i hi => by
    rw [← hp i hi, show ((k' i - c.gd.sumW.get i : Int) : K) - ((res.get i + (S' i - c.gd.sumW.get i) : Int) : K)
      = (k' i : K) - ((res.get i + S' i : Int) : K) by push_cast; ring]
    exact k2 i hi
  obtain ⟨a', e1⟩ := ho k k' hk hk' fun i hi => by
    have h1 := hR i hi
    have h2 := H.n0
    refine ⟨near_in (k1 i hi) (hS i hi) ?_, near_in (k2 i hi) (hS' i hi) ?_,
      near_in (k3 i hi) (H.twin.absPr hx hi) ?_⟩
    all_goals
      push_cast at h1 ⊢
      linarith
  exact ⟨a', _, e1, k3⟩

omit H in
theorem bit_le {x : Int} (h : IsTern x) : |(x + 1) % 2| ≤ 1 ∧ |(x + 1) / 2 % 2| ≤ 1 := by
  rcases h with e | e | e <;> rw [e] <;> decide

theorem tnn3 (hx : ∀ j, j < n → IsTern (vec.get j)) (hW : ∀ i j, i < m → j < n → P i j - Q i j = W i j)
    (hs : ∀ i, i < m → c.gd.sumW.get i = ∑ j ∈ range n, W i j)
    (hR : FlRoom (totErr (cfg.lrs - cfg.hrs) n 4 3 ε I ρ1 ρ2 ρ θ) res m n) :
    NearBy (aMvmTnnIII E cfg c a res vec m n l) res vec W m n
      (totErr (cfg.lrs - cfg.hrs) n 4 3 ε I ρ1 ρ2 ρ θ + 2) := by
  have T := H.twin
  refine H.three' hx hR
    (S := fun i => ∑ j ∈ range n, (P i j - Q i j) * (1 * ((vec.get j + 1) % 2)))
    (S' := fun i => ∑ j ∈ range n, (P i j - Q i j) * ((vec.get j + 1) % 2 + 2 * ((vec.get j + 1) / 2 % 2)))
    (fun i hi => T.absPQ hW hi fun j hj => (DevHyp.bits_small (hx j hj)).2.2.1)
    (fun i hi => T.absPQ hW hi fun j hj => (DevHyp.bits_small (hx j hj)).2.2.2)
    (fun i hi => H.conv1 (Or.inl rfl) (H.nearDiff hi (f := fun j => (vec.get j + 1) % 2)
      fun j hj => (bit_le (hx j hj)).1) (by linarith [H.I0]))
    (fun i hi => H.conv1 (Or.inr rfl) (H.nearDiff hi (f := fun j => (vec.get j + 1) / 2 % 2)
      fun j hj => (bit_le (hx j hj)).2) (by linarith [H.I0]))
    (fun i hi => ?_) (fun i hi => ?_)
    (fun i hi => ?_) fun k k' hk hk' hI =>
    (H.fl l).tnn3 (encBit0_ok T.vec T.vdP fun j hj => (hx j hj).in1)
      (encBit1_ok T.vec (by exact T.vdP) fun j hj => (hx j hj).in1)
      (H.cols (H.colDiff T.vdP T.tmp)) (H.cols (H.colDiff (by exact T.vdP) (by exact T.tmp))) T.tmp T.tmp T.res T.sw
      (fun i hi => by rw [Vec.over_lt hi]) (fun i hi => by rw [Vec.over_lt hi]) (fun i _ => hk i) (fun i _ => hk' i) hI
  · have := T.diffs hi (s := 1) fun j hj => (DevHyp.bits_small (hx j hj)).1
    rw [Int.cast_one] at this
    exact this
  · have := T.diffs2 hi (s := 2) fun j hj => (DevHyp.bits_small (hx j hj)).2.1
    rw [Int.cast_ofNat] at this
    exact this
  · rw [← sum_tnn3 (fun j hj => hW i j hi hj) hx, hs i hi, mul_sum, ← sum_add_distrib]
    congr 1
    exact sum_congr rfl fun j _ => by ring

theorem stepP {u : Vec Int} {f : Nat → Int} (hu : n ≤ u.size) :
    FlHyp.StepSum E c.ia.p (u.over n f) m n fun i => fsum E (fun j => E.fmul (c.ia.p.get i j) (E.ofInt (f j))) n :=
  fun _ ht => H.colP hu ht

theorem stepM {u : Vec Int} {f : Nat → Int} (hu : n ≤ u.size) :
    FlHyp.StepSum E c.ia.m (u.over n f) m n fun i => fsum E (fun j => E.fmul (c.ia.m.get i j) (E.ofInt (f j))) n :=
  fun _ ht => H.colM hu ht

theorem absSum (hx : ∀ j, j < n → IsTern (vec.get j)) : |∑ j ∈ range n, vec.get j| ≤ 3 * n := by
  have := BinHyp.abs_sum_vec hx
  omega

theorem tnn4 (hsp : cfg.split = [1, 1]) (hx : ∀ j, j < n → IsTern (vec.get j))
    (hW : ∀ i j, i < m → j < n → P i j - 2 * Q i j = W i j)
    (hR : FlRoom (totErr (cfg.lrs - cfg.hrs) n 3 6 ε I ρ1 ρ2 ρ θ) res m n) :
    NearBy (aMvmTnnIV E cfg c a res vec m n l) res vec W m n
      (totErr (cfg.lrs - cfg.hrs) n 3 6 ε I ρ1 ρ2 ρ θ + 1) := by
  have T := H.twin
  have hρ := H.rho0
  have hρ1 := H.one
  have hV := H.V0
  have hA := H.A0
  have hI0 := H.I0
  have hu : ∀ j, j < n → |up (vec.get j)| ≤ 1 := fun j hj => (up_le (hx j hj)).1
  have hv : ∀ j, j < n → |dn (vec.get j)| ≤ 1 := fun j hj => (up_le (hx j hj)).2
  obtain ⟨f1, f2⟩ := H.offset (H.absSum hx)
  obtain ⟨o1, o2⟩ := H.halfOff f1 f2
  obtain ⟨o3, o4⟩ := H.halfOff (x := -E.fmul (E.ofInt (∑ j ∈ range n, vec.get j)) cfg.hrs)
    (X := -(((∑ j ∈ range n, vec.get j : Int) : K) * cfg.hrs)) (by rw [neg_sub_neg, abs_sub_comm]; exact f1)
    (by rw [abs_neg]; exact f2)
  have c1 := fun i hi => H.convO (Or.inl rfl) (H.nearP (i := i) hi hu).1 o1
    ((abs_add_le _ _).trans (by linarith [(H.nearP (i := i) hi hu).2]))
  have c2 := fun i hi => H.convO (Or.inl rfl) (H.nearP (i := i) hi hv).1 o3
    ((abs_add_le _ _).trans (by linarith [(H.nearP (i := i) hi hv).2]))
  have c3 := fun i hi => H.conv1 (Or.inr rfl) (H.nearM (i := i) hi hu) (by linarith)
  have c4 := fun i hi => H.conv1 (Or.inr rfl) (H.nearM (i := i) hi hv) (by linarith)
  refine H.one' hx hR (fun i hi => (((((Ap.refl (y := (0 : K)) (B := 0) (by rw [abs_zero])).fadd H.rn (c1 i hi)
      (by linarith)).fsub H.rn (c2 i hi) (by linarith)).fsub H.rn (c3 i hi) (by linarith)).fadd H.rn (c4 i hi)
      (by linarith))) (by linarith) (by linarith) (by push_cast; linarith) (fun i hi => ?_) fun hI =>
    (H.fl l).tnn4 T.par hsp (inpSum_ok T.vec T.n31 fun j hj => (hx j hj).in32) (encTern_ok T.vec T.vdP T.vdM hx)
      (H.stepP T.vdP) (H.stepP T.vdM) (H.stepM T.vdP) (H.stepM T.vdM) T.tmp T.tmpFp T.res (fun i _ => rfl) hI
  refine T.four hx hi (s := -2) (by norm_num) ?_ (sum_congr rfl fun j hj => by
    rw [← hW i j hi (mem_range.1 hj)]; ring)
  show _ = ((∑ j ∈ range n, c.ia.p.get i j * _) - (∑ j ∈ range n, c.ia.p.get i j * _)
    + _ * (∑ j ∈ range n, c.ia.m.get i j * _) - _ * (∑ j ∈ range n, c.ia.m.get i j * _) - _) / _
  rw [Int.cast_neg, Int.cast_ofNat]
  ring

/-- Wrap up for TNN_V. -/
theorem oneMinus' {o : C (Aux K × Vec Int)} {s : Int} (hx : ∀ j, j < n → IsTern (vec.get j))
    (hR : FlRoom (totErr (cfg.lrs - cfg.hrs) n 3 6 ε I ρ1 ρ2 ρ θ) res m n) {y Y : Nat → K} {S : Nat → Int}
    (hs : |s| ≤ n) (hy : ∀ i, i < m → Ap e B (y i) (Y i)) (hB : B ≤ 5 * V + 9) (hB0 : 0 ≤ B)
    (he : e ≤ (6 : Nat) * flConvErr (cfg.lrs - cfg.hrs) n I ρ1 ρ2 θ + 8 * ρ)
    (hY : ∀ i, i < m → |Y i - S i| ≤ (3 : Nat) * n * ε / |cfg.lrs - cfg.hrs|)
    (hp : ∀ i, i < m → S i - s = ∑ j ∈ range n, W i j * vec.get j)
    (ho : ∀ k : Nat → Int, (∀ i, k i = truncZ (plus E (res.get i) (y i))) →
      (∀ i, i < m → InI32 (k i) ∧ InI32 (k i - s)) → ∃ a', o = .ok (a', res.over m fun i => k i - s)) :
    NearBy o res vec W m n (totErr (cfg.lrs - cfg.hrs) n 3 6 ε I ρ1 ρ2 ρ θ + 1) := by
  obtain ⟨k, hk⟩ : ∃ k : Nat → Int, ∀ i, k i = truncZ (plus E (res.get i) (y i)) := ⟨_, fun _ => rfl⟩
  have k1 : ∀ i, i < m → |(k i : K) - ((res.get i + S i : Int) : K)|
      < totErr (cfg.lrs - cfg.hrs) n 3 6 ε I ρ1 ρ2 ρ θ + 1 := fun i hi => by
    rw [hk]
    refine truncZ_lt ?_
    have h1 := (H.plusAp (H.hA i hi) (hy i hi) (by linarith) hB0).1
    have h2 := hY i hi
    have h3 := abs_add_le (plus E (res.get i) (y i) - (res.get i + Y i)) (Y i - S i)
    unfold totErr
    rw [flErr_eq, Int.cast_add, show plus E (res.get i) (y i) - ((res.get i : K) + (S i : K))
      = plus E (res.get i) (y i) - (res.get i + Y i) + (Y i - S i) by ring]
    push_cast at h2 he ⊢
    linarith
  have k3 : ∀ i, i < m → |((k i - s : Int) : K) - ((res.get i + ∑ j ∈ range n, W i j * vec.get j : Int) : K)|
      < totErr (cfg.lrs - cfg.hrs) n 3 6 ε I ρ1 ρ2 ρ θ + 1 := fun i hi => by
    rw [← hp i hi, show ((k i - s : Int) : K) - ((res.get i + (S i - s) : Int) : K)
      = (k i : K) - ((res.get i + S i : Int) : K) by push_cast; ring]
    exact k1 i hi
  have hS : ∀ i, i < m → |S i| ≤ 2 * n := fun i hi => by
    have h1 := H.twin.absPr hx hi
    rw [← hp i hi] at h1
    have h2 := abs_add_le (S i - s) s
    rw [sub_add_cancel] at h2
    omega
  obtain ⟨a', e1⟩ := ho k hk fun i hi => by
    have h1 := hR i hi
    have h2 := H.n0
    refine ⟨near_in (k1 i hi) (hS i hi) ?_, near_in (k3 i hi) (H.twin.absPr hx hi) ?_⟩
    all_goals
      push_cast at h1 ⊢
      linarith
  exact ⟨a', _, e1, k3⟩

theorem tnn5 (hsp : cfg.split = [1, 1]) (hx : ∀ j, j < n → IsTern (vec.get j))
    (hW : ∀ i j, i < m → j < n → P i j + 2 * Q i j = W i j + 1)
    (hR : FlRoom (totErr (cfg.lrs - cfg.hrs) n 3 6 ε I ρ1 ρ2 ρ θ) res m n) :
    NearBy (aMvmTnnV E cfg c a res vec m n l) res vec W m n
      (totErr (cfg.lrs - cfg.hrs) n 3 6 ε I ρ1 ρ2 ρ θ + 1) := by
  have hs := BinHyp.abs_sum_vec hx
  have T := H.twin
  have hρ := H.rho0
  have hρ1 := H.one
  have hV := H.V0
  have hA := H.A0
  have hI0 := H.I0
  have hp2 := H.p2
  have hu : ∀ j, j < n → |up (vec.get j)| ≤ 1 := fun j hj => (up_le (hx j hj)).1
  have hv : ∀ j, j < n → |dn (vec.get j)| ≤ 1 := fun j hj => (up_le (hx j hj)).2
  obtain ⟨f1, f2⟩ := H.offset (k := 3 * ∑ j ∈ range n, vec.get j) (by rw [abs_mul, abs_of_nonneg (by norm_num : (0 : Int) ≤ 3)]; omega)
  have c1 := fun i hi => H.conv1 (Or.inl rfl) (H.nearP (i := i) hi hu) (by linarith)
  have c2 := fun i hi => H.convO (Or.inl rfl) (H.nearP (i := i) hi hv).1 (f1.trans (by linarith))
    ((abs_add_le _ _).trans (by linarith [(H.nearP (i := i) hi hv).2]))
  have c3 := fun i hi => H.conv1 (Or.inr rfl) (H.nearM (i := i) hi hu) (by linarith)
  have c4 := fun i hi => H.conv1 (Or.inr rfl) (H.nearM (i := i) hi hv) (by linarith)
  refine H.oneMinus' hx hR (S := fun i => ∑ j ∈ range n, (P i j + 2 * Q i j) * vec.get j) hs
    (fun i hi => (((((Ap.refl (y := (0 : K)) (B := 0) (by rw [abs_zero])).fadd H.rn (c1 i hi)
      (by linarith)).fsub H.rn (c2 i hi) (by linarith)).fadd H.rn (c3 i hi) (by linarith)).fsub H.rn (c4 i hi)
      (by linarith))) (by linarith) (by linarith) (by push_cast; linarith)
    (fun i hi => ?_) (fun i hi => ?_) fun k hk hI =>
    (H.fl l).tnn5 T.par hsp (inpSum_ok T.vec T.n31 fun j hj => (hx j hj).in32)
      (i64_ok (by have := T.n31; have := abs_le.1 hs; constructor <;> omega)) (encTern_ok T.vec T.vdP T.vdM hx)
      (H.stepP T.vdP) (H.stepP T.vdM) (H.stepM T.vdP) (H.stepM T.vdM) T.tmp T.tmpFp T.res (fun i _ => rfl)
      (fun i _ => hk i) hI
  · refine T.four hx hi (s := 2) (by norm_num) ?_ rfl
    show _ = ((∑ j ∈ range n, c.ia.p.get i j * _) - (∑ j ∈ range n, c.ia.p.get i j * _)
      + _ * (∑ j ∈ range n, c.ia.m.get i j * _) - _ * (∑ j ∈ range n, c.ia.m.get i j * _) - _) / _
    rw [Int.cast_mul, Int.cast_ofNat, Int.cast_ofNat]
    ring
  · rw [← sum_sub_distrib]
    refine sum_congr rfl fun j hj => ?_
    rw [hW i j hi (mem_range.1 hj)]
    ring

end FlDev

end

end Acs
