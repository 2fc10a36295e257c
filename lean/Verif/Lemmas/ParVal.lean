import Verif.Model.Mapper
import Verif.SpecPar
import Verif.Lemmas.Blk
import Verif.Lemmas.Chain

/-! # Closed forms of the parasitic solver -/

set_option linter.unusedSectionVars false

namespace Acs
open Spec (lines pair cross driven onLine chain)

section
variable {K : Type} [Field K] [LinearOrder K] [IsStrictOrderedRing K] [FloorRing K]
variable {E : Env K} {cfg : Cfg K} {s : Solver K} {A gp gm g : Mat K} {B : Option (Mat K)} {m n : Nat}

/-- `g` with the first `m * D` columns of the first `n * L` rows replaced by `f`, after the loops have
reached row block `i` and column block `j`. -/
def Mat.woven (g : Mat K) (L D n : Nat) (f : Nat → Nat → K) (i j : Nat) : Mat K :=
  ⟨g.rows, g.cols, fun r c =>
    if (c / D < i ∧ r / L < n) ∨ (c / D = i ∧ r / L < j) then f r c else g.get r c⟩

theorem Mat.woven_zero (g : Mat K) (L D n : Nat) (f : Nat → Nat → K) : g.woven L D n f 0 0 = g :=
  Mat.ext' (by rfl) (by rfl) fun r c => if_neg (by
    generalize c / D = x; generalize r / L = y; omega)

theorem Mat.woven_row (g : Mat K) (L D n : Nat) (f : Nat → Nat → K) (i : Nat) :
    g.woven L D n f (i + 1) 0 = g.woven L D n f i n := by
  refine Mat.ext' (by rfl) (by rfl) fun r c => ?_
  simp only [Mat.woven]
  refine if_congr ?_ rfl rfl
  generalize c / D = x; generalize r / L = y
  omega

theorem fdiv_ok {x y : K} (h : y ≠ 0) : E.fdiv x y = .ok (E.f32 (x / y)) := if_neg h

/-- The conductances: `ia / -V_read` for the first `M` rows, HRS below. -/
theorem divVRead_ok (hv : s.vRead ≠ 0) (hr : s.mXbar ≤ A.rows) (hc : s.nXbar ≤ A.cols)
    (hS : s.mXbar ≤ s.mXbar * cfg.S) :
    divVRead E cfg s A = .ok ((Mat.const (s.mXbar * cfg.S) s.nXbar cfg.hrs).over s.mXbar s.nXbar
      fun i j => E.f32 (A.get i j / -s.vRead)) := by
  unfold divVRead
  refine (loop2_ok (fun i j => (Mat.const (s.mXbar * cfg.S) s.nXbar cfg.hrs).blk 1 s.nXbar
    (fun i j => E.f32 (A.get i j / -s.vRead)) i j) (Mat.blk_zero ..) (fun i _ => Mat.blk_row ..) ?_).trans
    ?_
  · intro i j hi hj
    rw [Mat.rd_ok (by omega) (by omega), ok_bind, fdiv_ok (neg_ne_zero.2 hv), ok_bind]
    exact Mat.blk_wr (by dsimp only [Mat.const]; omega) (by dsimp only [Mat.const]; omega) rfl
  · rw [Mat.blk_end, Nat.mul_one]

theorem wEncSingle_ok (hr : m ≤ gp.rows) (hc : n ≤ gp.cols) (hn : n ≤ s.nXbar) :
    wEncSingle s gp m n = .ok ((Mat.const s.nXbar m 0).woven 1 1 n (fun r c => gp.get c r) m 0) := by
  unfold wEncSingle
  refine loop2_ok (fun i j => (Mat.const s.nXbar m 0).woven 1 1 n (fun r c => gp.get c r) i j)
    (Mat.woven_zero ..) (fun i _ => Mat.woven_row ..) fun i j hi hj => ?_
  rw [Mat.rd_ok (by omega) (by omega), ok_bind,
    Mat.wr_ok (by dsimp only [Mat.woven, Mat.const]; omega) (by dsimp only [Mat.woven, Mat.const]; omega)]
  congr 1
  refine Mat.ext' (by rfl) (by rfl) fun r c => ?_
  simp only [Mat.woven, Nat.div_one]
  by_cases h : r = j ∧ c = i
  · rw [if_pos h, if_pos (by omega), h.1, h.2]
  · rw [if_neg h]
    refine if_congr ?_ rfl rfl
    omega

theorem wEncDoubleCol_ok (hr : m ≤ gp.rows) (hc : n ≤ gp.cols) (hr' : m ≤ gm.rows)
    (hc' : n ≤ gm.cols) (hn : n ≤ s.nXbar) :
    wEncDoubleCol s gp gm m n = .ok ((Mat.const s.nXbar (m * 2) 0).woven 1 2 n
      (fun r c => if c % 2 = 0 then gp.get (c / 2) r else gm.get (c / 2) r) m 0) := by
  unfold wEncDoubleCol
  refine loop2_ok (fun i j => (Mat.const s.nXbar (m * 2) 0).woven 1 2 n
      (fun r c => if c % 2 = 0 then gp.get (c / 2) r else gm.get (c / 2) r) i j)
    (Mat.woven_zero ..) (fun i _ => Mat.woven_row ..) fun i j hi hj => ?_
  rw [Mat.rd_ok (by omega) (by omega), ok_bind, Mat.rd_ok (by omega) (by omega), ok_bind,
    Mat.wr_ok (by dsimp only [Mat.woven, Mat.const]; omega) (by dsimp only [Mat.woven, Mat.const]; omega),
    ok_bind,
    Mat.wr_ok (by dsimp only [Mat.woven, Mat.const]; omega) (by dsimp only [Mat.woven, Mat.const]; omega)]
  congr 1
  refine Mat.ext' (by rfl) (by rfl) fun r c => ?_
  simp only [Mat.woven, Nat.div_one]
  by_cases h : r = j ∧ c = 2 * i + 1
  · rw [if_pos h, if_pos (by omega), if_neg (by omega), h.1, show c / 2 = i by omega]
  · rw [if_neg h]
    by_cases h' : r = j ∧ c = 2 * i
    · rw [if_pos h', if_pos (by omega), if_pos (by omega), h'.1, show c / 2 = i by omega]
    · rw [if_neg h']
      refine if_congr ?_ rfl rfl
      omega

theorem wEncDoubleRow_ok (hr : m ≤ gp.rows) (hc : n ≤ gp.cols) (hr' : m ≤ gm.rows)
    (hc' : n ≤ gm.cols) (hn : 2 * n ≤ s.nXbar) :
    wEncDoubleRow s gp gm m n = .ok ((Mat.const s.nXbar m 0).woven 2 1 n
      (fun r c => if r % 2 = 0 then gp.get c (r / 2) else gm.get c (r / 2)) m 0) := by
  unfold wEncDoubleRow
  refine loop2_ok (fun i j => (Mat.const s.nXbar m 0).woven 2 1 n
      (fun r c => if r % 2 = 0 then gp.get c (r / 2) else gm.get c (r / 2)) i j)
    (Mat.woven_zero ..) (fun i _ => Mat.woven_row ..) fun i j hi hj => ?_
  rw [Mat.rd_ok (by omega) (by omega), ok_bind, Mat.rd_ok (by omega) (by omega), ok_bind,
    Mat.wr_ok (by dsimp only [Mat.woven, Mat.const]; omega) (by dsimp only [Mat.woven, Mat.const]; omega),
    ok_bind,
    Mat.wr_ok (by dsimp only [Mat.woven, Mat.const]; omega) (by dsimp only [Mat.woven, Mat.const]; omega)]
  congr 1
  refine Mat.ext' (by rfl) (by rfl) fun r c => ?_
  simp only [Mat.woven, Nat.div_one]
  by_cases h : r = 2 * j + 1 ∧ c = i
  · rw [if_pos h, if_pos (by omega), if_neg (by omega), h.2, show r / 2 = j by omega]
  · rw [if_neg h]
    by_cases h' : r = 2 * j ∧ c = i
    · rw [if_pos h', if_pos (by omega), if_pos (by omega), h'.2, show r / 2 = j by omega]
    · rw [if_neg h']
      refine if_congr ?_ rfl rfl
      omega

theorem wEncQuad_ok (hr : m ≤ gp.rows) (hc : n ≤ gp.cols) (hr' : m ≤ gm.rows)
    (hc' : n ≤ gm.cols) (hn : 2 * n ≤ s.nXbar) :
    wEncQuad s gp gm m n = .ok ((Mat.const s.nXbar (m * 2) 0).woven 2 2 n
      (fun r c => if (r % 2 + c % 2) % 2 = 0 then gp.get (c / 2) (r / 2) else gm.get (c / 2) (r / 2))
      m 0) := by
  unfold wEncQuad
  refine loop2_ok (fun i j => (Mat.const s.nXbar (m * 2) 0).woven 2 2 n
      (fun r c => if (r % 2 + c % 2) % 2 = 0 then gp.get (c / 2) (r / 2) else gm.get (c / 2) (r / 2))
      i j)
    (Mat.woven_zero ..) (fun i _ => Mat.woven_row ..) fun i j hi hj => ?_
  rw [Mat.rd_ok (by omega) (by omega), ok_bind, Mat.rd_ok (by omega) (by omega), ok_bind,
    Mat.wr_ok (by dsimp only [Mat.woven, Mat.const]; omega) (by dsimp only [Mat.woven, Mat.const]; omega),
    ok_bind,
    Mat.wr_ok (by dsimp only [Mat.woven, Mat.const]; omega) (by dsimp only [Mat.woven, Mat.const]; omega),
    ok_bind,
    Mat.wr_ok (by dsimp only [Mat.woven, Mat.const]; omega) (by dsimp only [Mat.woven, Mat.const]; omega),
    ok_bind,
    Mat.wr_ok (by dsimp only [Mat.woven, Mat.const]; omega) (by dsimp only [Mat.woven, Mat.const]; omega)]
  congr 1
  refine Mat.ext' (by rfl) (by rfl) fun r c => ?_
  simp only [Mat.woven]
  by_cases h : r / 2 = j ∧ c / 2 = i
  · rw [if_pos (c := c / 2 < i ∧ r / 2 < n ∨ c / 2 = i ∧ r / 2 < j + 1) (by omega), h.1, h.2]
    by_cases h1 : r % 2 = 0 <;> by_cases h2 : c % 2 = 0
    · rw [if_neg (by omega), if_neg (by omega), if_neg (by omega), if_pos (by omega),
        if_pos (by omega)]
    · rw [if_neg (by omega), if_pos (by omega), if_neg (by omega)]
    · rw [if_neg (by omega), if_neg (by omega), if_pos (by omega), if_neg (by omega)]
    · rw [if_pos (by omega), if_pos (by omega)]
  · rw [if_neg (by omega), if_neg (by omega), if_neg (by omega), if_neg (by omega)]
    refine if_congr ?_ rfl rfl
    omega

/-- All four encoders place the cells as described by `Spec.cross`. -/
theorem wEncode_ok (hmd : s.mode ≠ .iTcWDiff) (hB : B = some gm ∨ pair s.mode * lines s.mode = 1)
    (hr : m ≤ gp.rows) (hc : n ≤ gp.cols) (hr' : m ≤ gm.rows) (hc' : n ≤ gm.cols)
    (hn : n * lines s.mode ≤ s.nXbar) :
    wEncode s gp B m n = .ok ((Mat.const s.nXbar (m * pair s.mode) 0).woven (lines s.mode)
      (pair s.mode) n (cross s.mode gp.get gm.get) m 0) := by
  unfold wEncode
  cases h : s.mode <;> rw [h] at hmd hB hn <;>
    simp only [Mode.wEnc, lines, pair, Nat.mul_one, Nat.reduceMul, Nat.reduceEqDiff, or_false,
      reduceCtorEq, or_true, ne_eq, not_true_eq_false, not_false_eq_true] at hmd hB hn ⊢
  case iUintWOffs | bnn3 | bnn4 =>
    rw [wEncSingle_ok hr hc hn]
    congr 1
    refine Mat.ext' (by rfl) (by rfl) fun r c => ?_
    simp only [Mat.woven, cross, lines, pair, Nat.mod_one, Nat.div_one, Nat.add_zero, Nat.zero_mod,
      if_true]
  case bnn5 =>
    subst hB
    dsimp only
    rw [wEncDoubleRow_ok hr hc hr' hc' (by omega)]
    congr 1
    refine Mat.ext' (by rfl) (by rfl) fun r c => ?_
    simp only [Mat.woven, cross, lines, pair, Nat.mod_one, Nat.div_one, Nat.add_zero,
      Nat.mod_mod]
  case bnn6 | tnn1 =>
    subst hB
    dsimp only
    rw [wEncQuad_ok hr hc hr' hc' (by omega)]
    rfl
  all_goals
    subst hB
    dsimp only
    rw [wEncDoubleCol_ok hr hc hr' hc' hn]
    congr 1
    refine Mat.ext' (by rfl) (by rfl) fun r c => ?_
    simp only [Mat.woven, cross, lines, pair, Nat.mod_one, Nat.div_one, Nat.zero_add,
      Nat.mod_mod]

/-- The conductance matrix of a write of `m` rows and `n` columns. -/
def conductances (E : Env K) (s : Solver K) (p q : Nat → Nat → K) (m n : Nat) : Mat K :=
  (Mat.const s.nXbar (m * pair s.mode) 0).woven (lines s.mode) (pair s.mode) n
    (cross s.mode (fun i j => E.f32 (p i j / -s.vRead)) (fun i j => E.f32 (q i j / -s.vRead))) m 0

/-- The wire conductance. -/
def wireOf (E : Env K) (s : Solver K) : K := E.f32 (E.f64 (E.f32 (1 / s.wRes) * 1000000))

theorem lines_pos (md : Mode) : 0 < lines md := by cases md <;> decide
theorem pair_pos (md : Mode) : 0 < pair md := by cases md <;> decide
theorem pair_cases (md : Mode) : pair md = 1 ∨ pair md = 2 := by cases md <;> decide
theorem lines_cases (md : Mode) : lines md = 1 ∨ lines md = 2 := by cases md <;> decide

theorem cross_congr {md : Mode} {p q p' q' : Nat → Nat → K} {r c : Nat}
    (hp : p (c / pair md) (r / lines md) = p' (c / pair md) (r / lines md))
    (hq : q (c / pair md) (r / lines md) = q' (c / pair md) (r / lines md)) :
    cross md p q r c = cross md p' q' r c := by
  unfold cross
  split
  · exact hp
  · exact hq

theorem woven_congr {g : Mat K} {L D n m : Nat} {f f' : Nat → Nat → K}
    (h : ∀ r c, c / D < m → r / L < n → f r c = f' r c) :
    g.woven L D n f m 0 = g.woven L D n f' m 0 := by
  refine Mat.ext' (by rfl) (by rfl) fun r c => ?_
  simp only [Mat.woven]
  split
  · next hh =>
    rcases hh with hh | hh
    · exact h r c hh.1 hh.2
    · exact absurd hh.2 (Nat.not_lt_zero _)
  · rfl

/-- `set_conductance_matrix` in closed form. -/
theorem setConductance_ok {q : Mat K} (hmd : s.mode ≠ .iTcWDiff)
    (hB : B = some q ∨ (B = none ∧ pair s.mode * lines s.mode = 1))
    (hv : s.vRead ≠ 0) (hw : s.wRes ≠ 0) (hS : s.mXbar ≤ s.mXbar * cfg.S)
    (hr : s.mXbar ≤ A.rows) (hc : s.nXbar ≤ A.cols) (hq : 0 < q.rows)
    (hr' : s.mXbar ≤ q.rows) (hc' : s.nXbar ≤ q.cols) (hm : m ≤ s.mXbar)
    (hn : n * lines s.mode ≤ s.nXbar) (h0 : 0 < s.nXbar) :
    setConductance E cfg s A B m n =
      .ok { s with ga := some (conductances E s A.get q.get m n, wireOf E s) } := by
  have hn' : n ≤ s.nXbar := (Nat.le_mul_of_pos_right _ (lines_pos _)).trans hn
  unfold setConductance
  rw [divVRead_ok hv hr hc hS, ok_bind]
  have key : ∀ G : Mat K, (B = some q → G = (Mat.const (s.mXbar * cfg.S) s.nXbar cfg.hrs).over s.mXbar
      s.nXbar fun i j => E.f32 (q.get i j / -s.vRead)) →
      (Mat.const s.nXbar (m * pair s.mode) 0).woven (lines s.mode) (pair s.mode) n
        (cross s.mode ((Mat.const (s.mXbar * cfg.S) s.nXbar cfg.hrs).over s.mXbar s.nXbar
          fun i j => E.f32 (A.get i j / -s.vRead)).get G.get) m 0 = conductances E s A.get q.get m n := by
    intro G hG
    refine woven_congr fun r c h1 h2 => ?_
    have h3 : c / pair s.mode < s.mXbar ∧ r / lines s.mode < s.nXbar := ⟨by omega, by omega⟩
    rcases hB with hB | ⟨-, hB⟩
    · exact cross_congr (Mat.over_in h3.1 h3.2) (by rw [hG hB]; exact Mat.over_in h3.1 h3.2)
    · have h5 : lines s.mode = 1 := Nat.eq_one_of_mul_eq_one_left hB
      have h4 : pair s.mode = 1 := Nat.eq_one_of_mul_eq_one_right hB
      unfold cross
      rw [h4, h5] at h3 ⊢
      rw [if_pos (by omega), if_pos (by omega)]
      exact Mat.over_in h3.1 h3.2
  have hfin : ∀ G : Mat K, G = conductances E s A.get q.get m n →
      (if G.rows = 0 then .error .oob
        else do
          let w ← E.fdiv 1 s.wRes
          .ok { s with ga := some (G, E.f32 (E.f64 (w * 1000000))) } : C (Solver K)) =
      .ok { s with ga := some (conductances E s A.get q.get m n, wireOf E s) } := by
    intro G hG
    subst hG
    rw [if_neg (by show ¬ s.nXbar = 0; omega), fdiv_ok hw, ok_bind]
    rfl
  unfold divVReadOpt
  rcases hB with hB | ⟨hB, hS'⟩
  · subst hB
    dsimp only
    rw [if_neg (by omega), divVRead_ok hv hr' hc' hS, ok_bind, ok_bind]
    rw [wEncode_ok hmd (Or.inl rfl) (by dsimp only [Mat.over, Mat.const]; omega)
      (by dsimp only [Mat.over, Mat.const]; omega) (by dsimp only [Mat.over, Mat.const]; omega)
      (by dsimp only [Mat.over, Mat.const]; omega) hn, ok_bind]
    exact hfin _ (key _ fun _ => rfl)
  · subst hB
    dsimp only
    rw [ok_bind]
    rw [wEncode_ok (gm := q) hmd (Or.inr hS') (by dsimp only [Mat.over, Mat.const]; omega)
      (by dsimp only [Mat.over, Mat.const]; omega) (by omega) (by omega) hn, ok_bind]
    exact hfin _ (key _ fun h => nomatch h)

/-! ## Reading -/

/-- The encoded input vector. -/
def lineIn (md : Mode) (N n : Nat) (vp vm : Nat → Int) : Vec Int :=
  ⟨N, fun r => if r / lines md < n then (if r % lines md = 0 then vp else vm) (r / lines md) else 0⟩

theorem iEnc_ok {vp vm : Vec Int} {V : Option (Vec Int)} (hV : V = some vm ∨ lines s.mode = 1)
    (hp : n ≤ vp.size) (hm : n ≤ vm.size) (hn : n * lines s.mode ≤ s.nXbar) :
    iEnc s vp V n = .ok (lineIn s.mode s.nXbar n vp.get vm.get) := by
  unfold iEnc
  cases hd : s.mode.iEncDouble
  · rw [if_neg (by simp)]
    have hl : lines s.mode = 1 := by revert hd; cases s.mode <;> decide
    rw [hl, Nat.mul_one] at hn
    refine (loop_ok (fun j => (Vec.const s.nXbar 0).over j vp.get) (Vec.over_zero ..) ?_).trans ?_
    · intro j hj
      rw [Vec.rd_ok (by omega), ok_bind]
      exact Vec.over_wr (by dsimp only [Vec.const]; omega)
    · congr 1
      refine Vec.ext' (by rfl) fun k => ?_
      simp only [Vec.over, lineIn, hl, Nat.div_one, Nat.mod_one, if_true, Vec.const]
  · rw [if_pos rfl]
    have hl : lines s.mode = 2 := by revert hd; cases s.mode <;> decide
    rw [hl] at hn hV
    obtain rfl : V = some vm := hV.resolve_right (by decide)
    refine (loop_ok (fun j => (⟨s.nXbar, fun r => if r / 2 < j then
      (if r % 2 = 0 then vp.get else vm.get) (r / 2) else 0⟩ : Vec Int)) ?_ ?_).trans ?_
    · refine Vec.ext' (by rfl) fun k => ?_
      simp
    · intro j hj
      dsimp only
      rw [Vec.rd_ok (by omega), ok_bind, Vec.wr_ok (by dsimp only; omega), ok_bind,
        Vec.rd_ok (by omega), ok_bind, Vec.wr_ok (by dsimp only; omega)]
      congr 1
      refine Vec.ext' (by rfl) fun k => ?_
      dsimp only
      by_cases h1 : k = 2 * j + 1
      · rw [if_pos h1, if_pos (by omega), if_neg (by omega), show k / 2 = j by omega]
      · rw [if_neg h1]
        by_cases h2 : k = 2 * j
        · rw [if_pos h2, if_pos (by omega), if_pos (by omega), show k / 2 = j by omega]
        · rw [if_neg h2]
          refine if_congr ?_ rfl rfl
          omega
    · congr 1
      refine Vec.ext' (by rfl) fun k => ?_
      simp only [lineIn, hl]

theorem lineIn_ne {md : Mode} {N n r : Nat} {vp vm : Nat → Int} :
    (lineIn md N n vp vm).get r ≠ 0 ↔ driven md vp vm n r := by
  simp only [lineIn, driven]
  split
  · next h => exact ⟨fun h' => ⟨h, h'⟩, fun h' => h'.2⟩
  · next h => exact ⟨fun h' => absurd rfl h', fun h' => absurd h'.1 h⟩

/-- The accumulated conductance of bit line `c`. -/
theorem columns_ok (ha : Spec.ExactArith E) {wire : K} (hw : 0 < wire) {vd : Vec Int} {N : Nat}
    (hN : N ≤ vd.size) (hg : N ≤ g.rows)
    (hpos : ∀ r c, r < N → c < g.cols → vd.get r ≠ 0 → 0 ≤ g.get r c) :
    loop N (fun j acc => do
      let x ← vd.rd j
      updG g.cols (fun c a => do
        let gc ← (if x ≠ 0 then g.rd j c else .ok 0)
        serPar E wire a gc) acc) (Vec.const g.cols 0) =
      .ok ⟨g.cols, fun c => if c < g.cols then
        chain wire (fun r => if vd.get r ≠ 0 then g.get r c else 0) N else 0⟩ := by
  have hnn : ∀ c k, c < g.cols → k ≤ N →
      0 ≤ chain wire (fun r => if vd.get r ≠ 0 then g.get r c else 0) k := fun c k hc hk =>
    chain_nonneg hw fun r hr => by
      split
      · next h => exact hpos r c (by omega) hc h
      · exact le_refl _
  refine loop_ok (fun k => (⟨g.cols, fun c => if c < g.cols then
    chain wire (fun r => if vd.get r ≠ 0 then g.get r c else 0) k else 0⟩ : Vec K)) ?_ ?_
  · refine Vec.ext' (by rfl) fun c => ?_
    simp [chain]
  · intro k hk
    rw [Vec.rd_ok (by omega), ok_bind]
    rw [updG_ok (fun c => chain wire (fun r => if vd.get r ≠ 0 then g.get r c else 0) (k + 1))
      (by exact le_refl _)]
    · congr 1
      refine Vec.ext' (by rfl) fun c => ?_
      simp only [Vec.over]
      split
      · rfl
      · rfl
    · intro c hc
      dsimp only
      have h0 := hnn c k hc (by omega)
      rw [if_pos hc]
      have h1 : (if vd.get k ≠ 0 then g.rd k c else .ok 0 : C K) =
          .ok (if vd.get k ≠ 0 then g.get k c else 0) := by
        split
        · exact Mat.rd_ok (by omega) hc
        · rfl
      have h2 : (0 : K) ≤ if vd.get k ≠ 0 then g.get k c else 0 := by
        split
        · next h => exact hpos k c hk hc h
        · exact le_refl _
      rw [h1, ok_bind, serPar]
      simp only [Env.fadd, Env.fmul, ha.f32]
      rw [fdiv_ok (by positivity), ha.f32]
      rfl

theorem oEnc_ok {acc : Vec K} (hm : m ≤ s.mXbar)
    (ha : (if s.mode.oEncDouble then 2 * m else m) ≤ acc.size) :
    oEnc E s acc m = .ok ((Vec.const s.mXbar 0).over m fun i =>
      if s.mode.oEncDouble then E.fmul (E.fsub (acc.get (2 * i)) (acc.get (2 * i + 1))) (-s.vRead)
      else E.fmul (acc.get i) (-s.vRead)) := by
  unfold oEnc
  refine setG_ok _ (by dsimp only [Vec.const]; omega) fun i hi => ?_
  cases h : s.mode.oEncDouble
  · rw [h, if_neg (by simp)] at ha
    simp only [Bool.false_eq_true, if_false]
    rw [Vec.rd_ok (by omega), ok_bind]
  · rw [h, if_pos rfl] at ha
    simp only [if_true]
    rw [Vec.rd_ok (by omega), ok_bind, Vec.rd_ok (by omega), ok_bind]

/-- The output of the solver as a function of the column currents `I`. -/
def tapped (md : Mode) (I : Nat → K) (i : Nat) : K :=
  if md.oEncDouble then I (2 * i) - I (2 * i + 1) else I i

theorem computeCurrents_ok (ha : Spec.ExactArith E) {vp vm : Vec Int} {V : Option (Vec Int)} {wire : K}
    (hga : s.ga = some (g, wire)) (hw : 0 < wire) (hgr : s.nXbar ≤ g.rows)
    (hV : V = some vm ∨ lines s.mode = 1) (hp : n ≤ vp.size) (hvm : n ≤ vm.size)
    (hn : n * lines s.mode ≤ s.nXbar) (hm : m ≤ s.mXbar)
    (hcol : (if s.mode.oEncDouble then 2 * m else m) ≤ g.cols)
    (hpos : ∀ r c, r < s.nXbar → c < g.cols → driven s.mode vp.get vm.get n r → 0 ≤ g.get r c) :
    computeCurrents E s vp V m n = .ok ((Vec.const s.mXbar 0).over m
      (tapped s.mode fun c => -s.vRead *
        chain wire (onLine s.mode vp.get vm.get n c g.get) s.nXbar)) := by
  unfold computeCurrents
  rw [iEnc_ok hV hp hvm hn, ok_bind, hga]
  dsimp only
  rw [columns_ok ha hw (by exact le_refl _) hgr fun r c hr hc h => hpos r c hr hc (lineIn_ne.1 h),
    ok_bind, oEnc_ok hm hcol]
  congr 1
  refine Vec.ext' (by rfl) fun i => ?_
  simp only [Vec.over]
  split
  · next hi =>
    have hc : ∀ c, c < g.cols → (if c < g.cols then chain wire (fun r =>
        if (lineIn s.mode s.nXbar n vp.get vm.get).get r ≠ 0 then g.get r c else 0) s.nXbar else 0) =
        chain wire (onLine s.mode vp.get vm.get n c g.get) s.nXbar := fun c hc => by
      rw [if_pos hc]
      refine chain_congr fun r _ => ?_
      unfold onLine
      exact if_congr lineIn_ne rfl rfl
    unfold tapped
    cases h : s.mode.oEncDouble
    · rw [h, if_neg (by simp)] at hcol
      simp only [Bool.false_eq_true, if_false]
      rw [hc i (by omega), Env.fmul, ha.f32, mul_comm]
    · rw [h, if_pos rfl] at hcol
      simp only [if_true]
      rw [hc _ (by omega), hc _ (by omega), Env.fmul, ha.f32, Env.fsub, ha.f32, mul_comm, mul_sub]
  · rfl

end

end Acs
