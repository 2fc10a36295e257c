import Verif.Lemmas.AMvmVal

/-!
# Column currents of the binary and ternary mappings

Without variation every current is `a * (HRS / 2) + b * (LRS - HRS)` with integers `a`, `b`.  The
theorems `step_*` give the result of each multiplication in terms of the converted values of these
currents.
-/

set_option linter.unusedSectionVars false

namespace Acs

open Finset Spec

section
variable {K : Type} [Field K] [LinearOrder K] [IsStrictOrderedRing K] [FloorRing K]
variable {E : Env K} {cfg : Cfg K} {c : Core K} {a : Aux K}
variable {mat vec res v w : Vec Int} {m n : Nat} {l : String} {z sc off h d : K} {B : Int}

/-- The current `a * (h / 2) + b * d`. -/
def cur (h d : K) (a b : Int) : K := a * (h / 2) + b * d

theorem cur_add (a b a' b' : Int) : cur h d a b + cur h d a' b' = cur h d (a + a') (b + b') := by
  unfold cur; push_cast; ring
theorem cur_sub (a b a' b' : Int) : cur h d a b - cur h d a' b' = cur h d (a - a') (b - b') := by
  unfold cur; push_cast; ring
theorem cur_mul (a b x : Int) : cur h d a b * (x : K) = cur h d (a * x) (b * x) := by
  unfold cur; push_cast; ring
theorem cur_zero : cur h d 0 0 = 0 := by unfold cur; simp
theorem cur_h (o : Int) : cur h d (2 * o) 0 = (o : K) * h := by unfold cur; push_cast; ring
theorem cur_neg (a b : Int) : -cur h d a b = cur h d (-a) (-b) := by unfold cur; push_cast; ring
theorem cur_half (o : Int) : cur h d (2 * o) 0 / 2 = cur h d o 0 := by unfold cur; push_cast; ring

theorem cur_scale (hd : d ≠ 0) (a b s : Int) :
    cur h d a b * ((s : K) / d) = lin (h / (2 * d)) (s * a) (s * b) := by
  unfold cur lin; push_cast; field_simp

/-- the plus half of an input -/
abbrev up (x : Int) : Int := if x = 1 then 1 else 0
/-- the minus half of an input -/
abbrev dn (x : Int) : Int := if x = -1 then 1 else 0

/-- The rounding keeps all numbers a multiplication meets, for coefficients up to `B`. -/
structure Faith (E : Env K) (h d : K) (B : Int) : Prop where
  ne : d ≠ 0
  cur : ∀ a b : Int, |a| ≤ B → |b| ≤ B → E.f32 (cur h d a b) = Acs.cur h d a b
  out : OutOk E (h / (2 * d)) B
  s1 : E.f32 (1 / d) = 1 / d
  s2 : E.f32 (2 / d) = 2 / d

theorem Faith.exact (hE : ExactArith E) (hd : d ≠ 0) : Faith E h d B :=
  ⟨hd, fun _ _ _ _ => hE.f32 _, OutOk.exact hE _ _, hE.f32 _, hE.f32 _⟩

namespace Faith
variable (F : Faith E h d B)
include F

theorem fadd {a b a' b' : Int} (h1 : |a + a'| ≤ B) (h2 : |b + b'| ≤ B) :
    E.fadd (Acs.cur h d a b) (Acs.cur h d a' b') = Acs.cur h d (a + a') (b + b') := by
  unfold Env.fadd; rw [cur_add]; exact F.cur _ _ h1 h2

theorem fsub {a b a' b' : Int} (h1 : |a - a'| ≤ B) (h2 : |b - b'| ≤ B) :
    E.fsub (Acs.cur h d a b) (Acs.cur h d a' b') = Acs.cur h d (a - a') (b - b') := by
  unfold Env.fsub; rw [cur_sub]; exact F.cur _ _ h1 h2

theorem fmul {a b x : Int} (h0 : |x| ≤ B) (h1 : |a * x| ≤ B) (h2 : |b * x| ≤ B) :
    E.fmul (Acs.cur h d a b) (E.ofInt x) = Acs.cur h d (a * x) (b * x) := by
  unfold Env.fmul; rw [F.out.ofInt h0, cur_mul]; exact F.cur _ _ h1 h2

theorem offs {o : Int} (h0 : |2 * o| ≤ B) : E.fmul (E.ofInt o) h = Acs.cur h d (2 * o) 0 := by
  have h1 : |o| ≤ B := by
    rw [abs_mul, abs_two] at h0; have := abs_nonneg o; omega
  unfold Env.fmul
  rw [F.out.ofInt h1, ← cur_h (d := d)]
  exact F.cur _ _ h0 (by simpa using (abs_nonneg o).trans h1)

theorem half {o : Int} (h1 : |o| ≤ B) : E.fdiv (Acs.cur h d (2 * o) 0) 2 = .ok (Acs.cur h d o 0) := by
  unfold Env.fdiv
  rw [if_neg (by norm_num), cur_half, F.cur _ _ h1 (by simpa using (abs_nonneg o).trans h1)]

theorem sc1 : E.fdiv 1 d = .ok (((1 : Int) : K) / d) := by
  unfold Env.fdiv
  rw [if_neg F.ne, F.s1, Int.cast_one]

theorem sc2 : E.fdiv 2 d = .ok (((2 : Int) : K) / d) := by
  unfold Env.fdiv
  rw [if_neg F.ne, F.s2, Int.cast_ofNat]

end Faith

/-- Sum of currents. -/
theorem accCur (F : Faith E h d B) {term : Nat → Nat → C K} {tmp : Vec K} {fa fb : Nat → Nat → Int}
    (hm : m ≤ tmp.size) (hB : 4 * (n : Int) ≤ B)
    (ht : ∀ i j, i < m → j < n → term i j = .ok (cur h d (fa i j) (fb i j)))
    (ha : ∀ i j, i < m → j < n → |fa i j| ≤ 4) (hb : ∀ i j, i < m → j < n → |fb i j| ≤ 4) :
    accG (faddC E) m n term (tmp.fill 0)
      = .ok ((tmp.fill 0).over m fun i => cur h d (∑ j ∈ range n, fa i j) (∑ j ∈ range n, fb i j)) := by
  have bnd : ∀ f : Nat → Nat → Int, (∀ i j, i < m → j < n → |f i j| ≤ 4) → ∀ i k, i < m → k < n →
      |∑ j ∈ range k, f i j + f i k| ≤ B := fun f hf i k hi hk => by
    rw [← sum_range_succ]
    have h1 := sum_bound (f := f i) (n := n) (k := k + 1) (b := 4) (by norm_num) (by omega)
      fun j hj => hf i j hi hj
    have h2 : |∑ j ∈ range (k + 1), f i j| ≤ ∑ j ∈ range (k + 1), |f i j| := abs_sum_le_sum_abs _ _
    linarith
  refine accG_ok (fun i k => cur h d (∑ j ∈ range k, fa i j) (∑ j ∈ range k, fb i j)) hm ?_ ?_
  · intro t ht'
    rw [Vec.fill_get (by omega), sum_range_zero, sum_range_zero, cur_zero]
  · intro t k ht' hk
    rw [ht t k ht' hk, ok_bind]
    unfold faddC
    rw [F.fadd (bnd fa ha t k ht' hk) (bnd fb hb t k ht' hk), sum_range_succ, sum_range_succ]

/-- Cell currents for cell states `P`, `Q`. -/
structure BinHyp (E : Env K) (cfg : Cfg K) (c : Core K) (a : Aux K) (P Q : Nat → Nat → Int) (vec res : Vec Int)
    (m n : Nat) (B : Int) : Prop where
  par : cfg.parasitics = false
  prof : cfg.adcProfile = false
  F : Faith E cfg.hrs (cfg.lrs - cfg.hrs) B
  iMM : c.iMM = cfg.lrs - cfg.hrs
  p : ∀ i j, i < m → j < n → c.ia.p.get i j = cur cfg.hrs (cfg.lrs - cfg.hrs) 2 (P i j)
  q : ∀ i j, i < m → j < n → c.ia.m.get i j = cur cfg.hrs (cfg.lrs - cfg.hrs) 2 (Q i j)
  p1 : ∀ i j, i < m → j < n → |P i j| ≤ 1
  q1 : ∀ i j, i < m → j < n → |Q i j| ≤ 1
  pr : m ≤ c.ia.p.rows
  pc : n ≤ c.ia.p.cols
  mr : m ≤ c.ia.m.rows
  mc : n ≤ c.ia.m.cols
  sw : m ≤ c.gd.sumW.size
  vdP : n ≤ a.vdP.size
  vdM : n ≤ a.vdM.size
  tmp : m ≤ a.tmp.size
  tmpP : m ≤ a.tmpP.size
  tmpM : m ≤ a.tmpM.size
  tmpFp : m ≤ a.tmpFp.size
  vec : n ≤ vec.size
  res : m ≤ res.size
  n31 : n ≤ 2147483647
  B8 : 16 * (n : Int) + 16 ≤ B

namespace BinHyp
variable {P Q : Nat → Nat → Int} (H : BinHyp E cfg c a P Q vec res m n B)
include H

theorem n0 : (0 : Int) ≤ n := by omega
theorem B4 : 4 * (n : Int) ≤ B := by have := H.B8; omega
theorem B0 : 8 ≤ B := by have := H.B8; omega

theorem tDiff {i j : Nat} {x : Int} (hi : i < m) (hj : j < n) (hjv : j < v.size) (hv : v.get j = x)
    (hx : |x| ≤ 1) : iaDiffTerm E c.ia v i j
      = .ok (Acs.cur cfg.hrs (cfg.lrs - cfg.hrs) 0 ((P i j - Q i j) * x)) ∧ |(P i j - Q i j) * x| ≤ 4 := by
  have hB := H.B0
  have h1 := H.p1 i j hi hj
  have h2 := H.q1 i j hi hj
  have h3 := abs_sub (P i j) (Q i j)
  have h4 : |(P i j - Q i j) * x| ≤ 4 := by
    rw [abs_mul]; nlinarith [abs_nonneg (P i j - Q i j), abs_nonneg x]
  refine ⟨?_, h4⟩
  have hp := H.pr; have hq := H.mr; have hp' := H.pc; have hq' := H.mc
  unfold iaDiffTerm
  rw [Mat.rd_ok (by omega) (by omega), ok_bind, Mat.rd_ok (by omega) (by omega), ok_bind, Vec.rd_ok hjv,
    ok_bind, H.p i j hi hj, H.q i j hi hj, hv, H.F.fsub (by simp; omega) (by omega),
    H.F.fmul (by omega) (by simp; omega) (by omega)]
  simp

theorem tDiffNeg {i j : Nat} {x : Int} (hi : i < m) (hj : j < n) (hjv : j < v.size) (hv : v.get j = x)
    (hx : |x| ≤ 1) : iaDiffTermNeg E c.ia v i j
      = .ok (Acs.cur cfg.hrs (cfg.lrs - cfg.hrs) 0 ((Q i j - P i j) * x)) ∧ |(Q i j - P i j) * x| ≤ 4 := by
  have hB := H.B0
  have h1 := H.p1 i j hi hj
  have h2 := H.q1 i j hi hj
  have h3 := abs_sub (Q i j) (P i j)
  have h4 : |(Q i j - P i j) * x| ≤ 4 := by
    rw [abs_mul]; nlinarith [abs_nonneg (Q i j - P i j), abs_nonneg x]
  refine ⟨?_, h4⟩
  have hp := H.pr; have hq := H.mr; have hp' := H.pc; have hq' := H.mc
  unfold iaDiffTermNeg
  rw [Mat.rd_ok (by omega) (by omega), ok_bind, Mat.rd_ok (by omega) (by omega), ok_bind, Vec.rd_ok hjv,
    ok_bind, H.p i j hi hj, H.q i j hi hj, hv, H.F.fsub (by simp; omega) (by omega),
    H.F.fmul (by omega) (by simp; omega) (by omega)]
  simp

theorem tP {i j : Nat} {x : Int} (hi : i < m) (hj : j < n) (hjv : j < v.size) (hv : v.get j = x)
    (hx : |x| ≤ 1) : iaTerm E c.ia.p v i j
      = .ok (Acs.cur cfg.hrs (cfg.lrs - cfg.hrs) (2 * x) (P i j * x)) ∧ |2 * x| ≤ 4 ∧ |P i j * x| ≤ 4 := by
  have hB := H.B0
  have h1 := abs_mul_le_one (H.p1 i j hi hj) hx
  have h2 := abs_two_mul hx
  refine ⟨?_, by omega, by omega⟩
  have hp := H.pr; have hp' := H.pc
  unfold iaTerm
  rw [Mat.rd_ok (by omega) (by omega), ok_bind, Vec.rd_ok hjv, ok_bind, H.p i j hi hj, hv,
    H.F.fmul (by omega) (by omega) (by omega)]

theorem tM {i j : Nat} {x : Int} (hi : i < m) (hj : j < n) (hjv : j < v.size) (hv : v.get j = x)
    (hx : |x| ≤ 1) : iaTerm E c.ia.m v i j
      = .ok (Acs.cur cfg.hrs (cfg.lrs - cfg.hrs) (2 * x) (Q i j * x)) ∧ |2 * x| ≤ 4 ∧ |Q i j * x| ≤ 4 := by
  have hB := H.B0
  have h1 := abs_mul_le_one (H.q1 i j hi hj) hx
  have h2 := abs_two_mul hx
  refine ⟨?_, by omega, by omega⟩
  have hp := H.mr; have hp' := H.mc
  unfold iaTerm
  rw [Mat.rd_ok (by omega) (by omega), ok_bind, Vec.rd_ok hjv, ok_bind, H.q i j hi hj, hv,
    H.F.fmul (by omega) (by omega) (by omega)]

theorem tBnn5 {i j : Nat} {x y : Int} (hi : i < m) (hj : j < n) (hjv : j < v.size) (hv : v.get j = x)
    (hjw : j < w.size) (hw : w.get j = y) (hx : |x| ≤ 1) (hy : |y| ≤ 1) :
    iaBnn5Term E c.ia v w i j
      = .ok (Acs.cur cfg.hrs (cfg.lrs - cfg.hrs) (2 * x + 2 * y) (P i j * x + Q i j * y)) ∧
    |2 * x + 2 * y| ≤ 4 ∧ |P i j * x + Q i j * y| ≤ 4 := by
  have hB := H.B0
  have h1 := abs_mul_le_one (H.p1 i j hi hj) hx
  have h2 := abs_two_mul hx
  have h3 := abs_mul_le_one (H.q1 i j hi hj) hy
  have h4 := abs_two_mul hy
  have h5 := abs_add_le (2 * x) (2 * y)
  have h6 := abs_add_le (P i j * x) (Q i j * y)
  refine ⟨?_, by omega, by omega⟩
  have hp := H.pr; have hq := H.mr; have hp' := H.pc; have hq' := H.mc
  unfold iaBnn5Term
  rw [Mat.rd_ok (by omega) (by omega), ok_bind, Vec.rd_ok hjv, ok_bind,
    Mat.rd_ok (by omega) (by omega), ok_bind, Vec.rd_ok hjw, ok_bind, H.p i j hi hj, H.q i j hi hj, hv, hw,
    H.F.fmul (by omega) (by omega) (by omega), H.F.fmul (by omega) (by omega) (by omega),
    H.F.fadd (by omega) (by omega)]

theorem tQuad {i j : Nat} {x y : Int} (hi : i < m) (hj : j < n) (hjv : j < v.size) (hv : v.get j = x)
    (hjw : j < w.size) (hw : w.get j = y) (hx : |x| ≤ 1) (hy : |y| ≤ 1) :
    iaQuadTerm E c.ia v w i j
      = .ok (Acs.cur cfg.hrs (cfg.lrs - cfg.hrs) 0 ((P i j - Q i j) * (x - y))) ∧
    |(P i j - Q i j) * (x - y)| ≤ 4 := by
  have hB := H.B0
  have h1 := abs_mul_le_one (H.p1 i j hi hj) hx
  have h1' := abs_mul_le_one (H.p1 i j hi hj) hy
  have h2 := abs_two_mul hx
  have h3 := abs_mul_le_one (H.q1 i j hi hj) hy
  have h3' := abs_mul_le_one (H.q1 i j hi hj) hx
  have h4 := abs_two_mul hy
  have h5 := abs_add_le (2 * x) (2 * y)
  have h6 := abs_add_le (P i j * x) (Q i j * y)
  have h7 := abs_sub (2 * x + 2 * y) (2 * x)
  have h8 := abs_sub (P i j * x + Q i j * y) (Q i j * x)
  have h9 := abs_sub (2 * x + 2 * y - 2 * x) (2 * y)
  have h10 := abs_sub (P i j * x + Q i j * y - Q i j * x) (P i j * y)
  have e : (P i j - Q i j) * (x - y) = P i j * x + Q i j * y - Q i j * x - P i j * y := by ring
  refine ⟨?_, by rw [e]; omega⟩
  have hp := H.pr; have hq := H.mr; have hp' := H.pc; have hq' := H.mc
  unfold iaQuadTerm
  rw [Mat.rd_ok (by omega) (by omega), ok_bind, Mat.rd_ok (by omega) (by omega), ok_bind, Vec.rd_ok hjv,
    ok_bind, Vec.rd_ok hjw, ok_bind, H.p i j hi hj, H.q i j hi hj, hv, hw,
    H.F.fmul (by omega) (by omega) (by omega), H.F.fmul (by omega) (by omega) (by omega),
    H.F.fmul (by omega) (by omega) (by omega), H.F.fmul (by omega) (by omega) (by omega),
    H.F.fadd (by omega) (by omega), H.F.fsub (by omega) (by omega), H.F.fsub (by omega) (by omega), e]
  congr 2
  ring

/-! ## Results in terms of the converted values -/

theorem bnn1 (hx : ∀ j, j < n → IsBin (vec.get j)) {β : Nat → Int}
    (hy : ∀ i, i < m → conv1 E cfg c.adc (Acs.cur cfg.hrs (cfg.lrs - cfg.hrs) 0
      (∑ j ∈ range n, (P i j - Q i j) * ((vec.get j + 1) / 2))) (((2 : Int) : K) / (cfg.lrs - cfg.hrs)) 0 l
      = .ok (β i : K))
    (hB : ∀ i, i < m → |res.get i| + |β i| + |c.gd.sumW.get i| ≤ B)
    (hI : ∀ i, i < m → InI32 (res.get i + (β i - c.gd.sumW.get i))) :
    ∃ a', aMvmBnnI E cfg c a res vec m n l
      = .ok (a', res.over m fun i => res.get i + (β i - c.gd.sumW.get i)) := by
  have hv : ∀ j, j < n → |(vec.get j + 1) / 2| ≤ 1 := fun j hj => by
    rcases hx j hj with e | e <;> rw [e] <;> norm_num
  have ht := fun i j (hi : i < m) (hj : j < n) => H.tDiff (v := a.vdP.over n fun j => (vec.get j + 1) / 2) hi hj
    (show j < a.vdP.size from hj.trans_le H.vdP) (Vec.over_lt hj) (hv j hj)
  refine aMvmBnnI_val H.par H.prof H.F.out (encBnn1_ok H.vec H.vdP fun j hj => (hx j hj).tern.in1)
    (accCur H.F H.tmp H.B4 (fun i j hi hj => (ht i j hi hj).1) (fun i j _ _ => by simp)
      fun i j hi hj => (ht i j hi hj).2) (by rw [H.iMM]; exact H.F.sc2) H.tmp H.res H.sw (fun i hi => ?_) hB hI
  rw [Vec.over_lt hi, sum_const_zero]
  exact hy i hi

theorem bnn2 (hx : ∀ j, j < n → IsBin (vec.get j)) {β : Nat → Int}
    (hy : ∀ i, i < m → conv1 E cfg c.adc (Acs.cur cfg.hrs (cfg.lrs - cfg.hrs) 0
      (∑ j ∈ range n, (Q i j - P i j) * ((vec.get j - 1).tdiv (-2)))) (((2 : Int) : K) / (cfg.lrs - cfg.hrs)) 0 l
      = .ok (β i : K))
    (hB : ∀ i, i < m → |res.get i| + |β i| + |c.gd.sumW.get i| ≤ B)
    (hI : ∀ i, i < m → InI32 (res.get i + (β i + c.gd.sumW.get i))) :
    ∃ a', aMvmBnnII E cfg c a res vec m n l
      = .ok (a', res.over m fun i => res.get i + (β i + c.gd.sumW.get i)) := by
  have hv : ∀ j, j < n → |(vec.get j - 1).tdiv (-2)| ≤ 1 := fun j hj => by
    rcases hx j hj with e | e <;> rw [e] <;> norm_num
  have ht := fun i j (hi : i < m) (hj : j < n) => H.tDiffNeg
    (v := a.vdP.over n fun j => (vec.get j - 1).tdiv (-2)) hi hj
    (show j < a.vdP.size from hj.trans_le H.vdP) (Vec.over_lt hj) (hv j hj)
  refine aMvmBnnII_val H.par H.prof H.F.out (encBnn2_ok H.vec H.vdP fun j hj => (hx j hj).tern.in1')
    (accCur H.F H.tmp H.B4 (fun i j hi hj => (ht i j hi hj).1) (fun i j _ _ => by simp)
      fun i j hi hj => (ht i j hi hj).2) (by rw [H.iMM]; exact H.F.sc2) H.tmp H.res H.sw (fun i hi => ?_) hB hI
  rw [Vec.over_lt hi, sum_const_zero]
  exact hy i hi

theorem curP {f : Nat → Int} {tmp : Vec K} (htmp : m ≤ tmp.size) (hf : ∀ j, |f j| ≤ 1) {u : Vec Int}
    (hu : n ≤ u.size) :
    accG (faddC E) m n (iaTerm E c.ia.p (u.over n f)) (tmp.fill 0)
      = .ok ((tmp.fill 0).over m fun i => Acs.cur cfg.hrs (cfg.lrs - cfg.hrs) (∑ j ∈ range n, 2 * f j)
        (∑ j ∈ range n, P i j * f j)) := by
  have ht := fun i j (hi : i < m) (hj : j < n) => H.tP (v := u.over n f) hi hj
    (show j < u.size from hj.trans_le hu) (Vec.over_lt hj) (hf j)
  exact accCur H.F htmp H.B4 (fun i j hi hj => (ht i j hi hj).1) (fun i j hi hj => (ht i j hi hj).2.1)
    fun i j hi hj => (ht i j hi hj).2.2

theorem curM {f : Nat → Int} {tmp : Vec K} (htmp : m ≤ tmp.size) (hf : ∀ j, |f j| ≤ 1) {u : Vec Int}
    (hu : n ≤ u.size) :
    accG (faddC E) m n (iaTerm E c.ia.m (u.over n f)) (tmp.fill 0)
      = .ok ((tmp.fill 0).over m fun i => Acs.cur cfg.hrs (cfg.lrs - cfg.hrs) (∑ j ∈ range n, 2 * f j)
        (∑ j ∈ range n, Q i j * f j)) := by
  have ht := fun i j (hi : i < m) (hj : j < n) => H.tM (v := u.over n f) hi hj
    (show j < u.size from hj.trans_le hu) (Vec.over_lt hj) (hf j)
  exact accCur H.F htmp H.B4 (fun i j hi hj => (ht i j hi hj).1) (fun i j hi hj => (ht i j hi hj).2.1)
    fun i j hi hj => (ht i j hi hj).2.2

omit H in
theorem abs_sum_vec {f : Nat → Int} (hx : ∀ j, j < n → IsTern (f j)) : |∑ j ∈ range n, f j| ≤ n :=
  abs_sum_tern fun j hj => (hx j hj).abs

theorem bnn34 (hx : ∀ j, j < n → IsBin (vec.get j)) {α β γ : Nat → Int}
    (hy : ∀ i, i < m → conv1 E cfg c.adc (Acs.cur cfg.hrs (cfg.lrs - cfg.hrs)
        (∑ j ∈ range n, 2 * up (vec.get j))
        (∑ j ∈ range n, P i j * up (vec.get j)))
      (((2 : Int) : K) / (cfg.lrs - cfg.hrs))
      (Acs.cur cfg.hrs (cfg.lrs - cfg.hrs) (2 * -(∑ j ∈ range n, vec.get j)) 0) l
      = .ok (lin z (α i) (β i)))
    (hy' : ∀ i, i < m → conv1 E cfg c.adc (Acs.cur cfg.hrs (cfg.lrs - cfg.hrs)
        (∑ j ∈ range n, 2 * dn (vec.get j))
        (∑ j ∈ range n, P i j * dn (vec.get j)))
      (((2 : Int) : K) / (cfg.lrs - cfg.hrs)) 0 l = .ok (lin z (α i) (γ i))) :
    Bnn34 E cfg c a vec (plusOf a.vdP n vec) (minusOf a.vdM n vec) m n l z (∑ j ∈ range n, vec.get j) α β γ := by
  have hs := abs_sum_vec fun j hj => (hx j hj).tern
  have hn := H.B8
  refine ⟨_, _, _, encPMSum_ok H.vec H.vdP H.vdM H.n31 hx, H.curP H.tmpP (fun j => ite_abs) H.vdP,
    H.curP H.tmpM (fun j => ite_abs) H.vdM, by rw [H.iMM]; exact H.F.sc2, ?_, H.tmpP, H.tmpM, ?_, ?_⟩
  · have := H.n31
    refine negI_ok (inI32_of_abs ?_)
    rw [abs_neg]
    omega
  · intro i hi
    rw [Vec.over_lt hi, H.F.offs (by rw [abs_mul, abs_neg, abs_two]; omega)]
    exact hy i hi
  · intro i hi
    rw [Vec.over_lt hi]
    exact hy' i hi

theorem bnn5 (hx : ∀ j, j < n → IsBin (vec.get j)) {β : Nat → Int}
    (hy : ∀ i, i < m → conv1 E cfg c.adc (Acs.cur cfg.hrs (cfg.lrs - cfg.hrs)
        (∑ j ∈ range n, ((2 * up (vec.get j)) + 2 * dn (vec.get j)))
        (∑ j ∈ range n, ((P i j * up (vec.get j)) + Q i j * dn (vec.get j))))
      (((2 : Int) : K) / (cfg.lrs - cfg.hrs)) (Acs.cur cfg.hrs (cfg.lrs - cfg.hrs) (2 * -(n : Int)) 0) l
      = .ok (β i : K))
    (hB : ∀ i, i < m → |res.get i| + |β i| + n ≤ B)
    (hI : ∀ i, i < m → InI32 (res.get i + (β i - n))) :
    ∃ a', aMvmBnnV E cfg c a res vec m n l = .ok (a', res.over m fun i => res.get i + (β i - n)) := by
  have hn := H.B8
  have ht := fun i j (hi : i < m) (hj : j < n) => H.tBnn5 (v := plusOf a.vdP n vec) (w := minusOf a.vdM n vec)
    hi hj (show j < a.vdP.size from hj.trans_le H.vdP) (Vec.over_lt hj)
    (show j < a.vdM.size from hj.trans_le H.vdM) (Vec.over_lt hj) ite_abs ite_abs
  refine aMvmBnnV_val H.par H.prof H.F.out (encPM_ok H.vec H.vdP H.vdM hx)
    (accCur H.F H.tmp H.B4 (fun i j hi hj => (ht i j hi hj).1) (fun i j hi hj => (ht i j hi hj).2.1)
      fun i j hi hj => (ht i j hi hj).2.2) (by rw [H.iMM]; exact H.F.sc2) ?_ H.tmp H.res (fun i hi => ?_) hB hI
  · have := H.n31
    exact negI_ok (by constructor <;> omega)
  · rw [Vec.over_lt hi, H.F.offs (by rw [abs_mul, abs_neg, abs_two, Nat.abs_cast]; omega)]
    exact hy i hi

theorem curQuad :
    accG (faddC E) m n (iaQuadTerm E c.ia (plusOf a.vdP n vec) (minusOf a.vdM n vec)) (a.tmp.fill 0)
      = .ok ((a.tmp.fill 0).over m fun i => Acs.cur cfg.hrs (cfg.lrs - cfg.hrs) 0
        (∑ j ∈ range n, (P i j - Q i j) *
          ((up (vec.get j)) - dn (vec.get j)))) := by
  have ht := fun i j (hi : i < m) (hj : j < n) => H.tQuad (v := plusOf a.vdP n vec) (w := minusOf a.vdM n vec)
    hi hj (show j < a.vdP.size from hj.trans_le H.vdP) (Vec.over_lt hj)
    (show j < a.vdM.size from hj.trans_le H.vdM) (Vec.over_lt hj) ite_abs ite_abs
  rw [accCur (fa := fun _ _ => 0) H.F H.tmp H.B4 (fun i j hi hj => (ht i j hi hj).1)
    (fun i j hi hj => by simp) fun i j hi hj => (ht i j hi hj).2]
  simp only [sum_const_zero]

theorem bnn6 (hx : ∀ j, j < n → IsBin (vec.get j)) {β : Nat → Int}
    (hy : ∀ i, i < m → conv1 E cfg c.adc (Acs.cur cfg.hrs (cfg.lrs - cfg.hrs) 0
        (∑ j ∈ range n, (P i j - Q i j) *
          ((up (vec.get j)) - dn (vec.get j))))
      (((1 : Int) : K) / (cfg.lrs - cfg.hrs)) 0 l = .ok (β i : K))
    (hB : ∀ i, i < m → |res.get i| + |β i| ≤ B) (hI : ∀ i, i < m → InI32 (res.get i + β i)) :
    ∃ a', aMvmBnnVI E cfg c a res vec m n l = .ok (a', res.over m fun i => res.get i + β i) := by
  refine aMvmBnnVI_val H.par H.prof H.F.out (encPM_ok H.vec H.vdP H.vdM hx) H.curQuad
    (by rw [H.iMM]; exact H.F.sc1) H.tmp H.res (fun i hi => ?_) hB hI
  rw [Vec.over_lt hi]
  exact hy i hi

theorem tnn1 (hx : ∀ j, j < n → IsTern (vec.get j)) {β : Nat → Int}
    (hy : ∀ i, i < m → conv1 E cfg c.adc (Acs.cur cfg.hrs (cfg.lrs - cfg.hrs) 0
        (∑ j ∈ range n, (P i j - Q i j) *
          ((up (vec.get j)) - dn (vec.get j))))
      (((1 : Int) : K) / (cfg.lrs - cfg.hrs)) 0 l = .ok (β i : K))
    (hB : ∀ i, i < m → |res.get i| + |β i| ≤ B) (hI : ∀ i, i < m → InI32 (res.get i + β i)) :
    ∃ a', aMvmTnnI E cfg c a res vec m n l = .ok (a', res.over m fun i => res.get i + β i) := by
  refine aMvmTnnI_val H.par H.prof H.F.out (encTern_ok H.vec H.vdP H.vdM hx) H.curQuad
    (by rw [H.iMM]; exact H.F.sc1) H.tmp H.res (fun i hi => ?_) hB hI
  rw [Vec.over_lt hi]
  exact hy i hi

theorem curDiff {f : Nat → Int} {tmp : Vec K} (htmp : m ≤ tmp.size) (hf : ∀ j, j < n → |f j| ≤ 1) {u : Vec Int}
    (hu : n ≤ u.size) :
    accG (faddC E) m n (iaDiffTerm E c.ia (u.over n f)) (tmp.fill 0)
      = .ok ((tmp.fill 0).over m fun i => Acs.cur cfg.hrs (cfg.lrs - cfg.hrs) 0
        (∑ j ∈ range n, (P i j - Q i j) * f j)) := by
  have ht := fun i j (hi : i < m) (hj : j < n) => H.tDiff (v := u.over n f) hi hj
    (show j < u.size from hj.trans_le hu) (Vec.over_lt hj) (hf j hj)
  rw [accCur (fa := fun _ _ => 0) H.F htmp H.B4 (fun i j hi hj => (ht i j hi hj).1)
    (fun i j hi hj => by simp) fun i j hi hj => (ht i j hi hj).2]
  simp only [sum_const_zero]

theorem tnn23 {f g : Nat → Int} (hf : ∀ j, j < n → |f j| ≤ 1) (hg : ∀ j, j < n → |g j| ≤ 1) {β γ : Nat → Int}
    (hy : ∀ i, i < m → conv1 E cfg c.adc (Acs.cur cfg.hrs (cfg.lrs - cfg.hrs) 0
        (∑ j ∈ range n, (P i j - Q i j) * f j))
      (((1 : Int) : K) / (cfg.lrs - cfg.hrs)) 0 l = .ok (β i : K))
    (hy' : ∀ i, i < m → conv1 E cfg c.adc (Acs.cur cfg.hrs (cfg.lrs - cfg.hrs) 0
        (∑ j ∈ range n, (P i j - Q i j) * g j))
      (((2 : Int) : K) / (cfg.lrs - cfg.hrs)) 0 l = .ok (γ i : K)) :
    Tnn23 E cfg c (a.vdP.over n f) ((a.vdP.over n f).over n g) a.tmp m n l
      (((1 : Int) : K) / (cfg.lrs - cfg.hrs)) (((2 : Int) : K) / (cfg.lrs - cfg.hrs)) β γ := by
  refine ⟨by rw [H.iMM]; exact H.F.sc1, by rw [H.iMM]; exact H.F.sc2, _, H.curDiff H.tmp hf H.vdP, H.tmp,
    fun i hi => ?_, _, H.curDiff (by exact H.tmp) hg (by exact H.vdP), H.tmp, fun i hi => ?_⟩
  · rw [Vec.over_lt hi]
    exact hy i hi
  · rw [Vec.over_lt hi]
    exact hy' i hi

theorem tcP {f : Nat → Int} (hf : ∀ j, |f j| ≤ 1) {u : Vec Int} (hu : n ≤ u.size) {α β : Nat → Int}
    (hy : ∀ i, i < m → conv1 E cfg c.adc (Acs.cur cfg.hrs (cfg.lrs - cfg.hrs) (∑ j ∈ range n, 2 * f j)
        (∑ j ∈ range n, P i j * f j)) sc off l = .ok (lin z (α i) (β i))) :
    TcStep E cfg c c.ia.p (u.over n f) m n a.tmp.size sc off l z α β := by
  refine ⟨fun tmp ht => ⟨_, H.curP (by have := H.tmp; omega) hf hu, ht, fun i hi => ?_⟩⟩
  rw [Vec.over_lt hi]
  exact hy i hi

theorem tcM {f : Nat → Int} (hf : ∀ j, |f j| ≤ 1) {u : Vec Int} (hu : n ≤ u.size) {α β : Nat → Int}
    (hy : ∀ i, i < m → conv1 E cfg c.adc (Acs.cur cfg.hrs (cfg.lrs - cfg.hrs) (∑ j ∈ range n, 2 * f j)
        (∑ j ∈ range n, Q i j * f j)) sc off l = .ok (lin z (α i) (β i))) :
    TcStep E cfg c c.ia.m (u.over n f) m n a.tmp.size sc off l z α β := by
  refine ⟨fun tmp ht => ⟨_, H.curM (by have := H.tmp; omega) hf hu, ht, fun i hi => ?_⟩⟩
  rw [Vec.over_lt hi]
  exact hy i hi

end BinHyp

end

end Acs
