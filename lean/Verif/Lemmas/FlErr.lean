import Verif.Lemmas.FlRun
import Verif.Lemmas.NearBin

/-!
# Size of rounding errors

Three scales matter: single cells (`ρ₁`), columns (`ρ₂`) and results (`ρ`).
-/

set_option linter.unusedSectionVars false

namespace Acs

open Finset Spec

section
variable {K : Type} [Field K] [LinearOrder K] [IsStrictOrderedRing K] [FloorRing K]
variable {E : Env K} {cfg : Cfg K} {c : Core K} {a : Aux K}
variable {vec res : Vec Int} {m n : Nat} {l : String} {ε ρ N e e' B B' y z Y Z : K}
variable {P Q W : Nat → Nat → Int}

/-- Rounding a number of size at most `N` costs at most `ρ`. -/
def Rnd (E : Env K) (ρ N : K) : Prop := ∀ x, |x| ≤ N → |E.f32 x - x| ≤ ρ

/-- `y` is `Y` up to `e`, and at most `B`. -/
def Ap (e B y Y : K) : Prop := |y - Y| ≤ e ∧ |y| ≤ B

theorem Ap.refl (h : |y| ≤ B) : Ap 0 B y y := ⟨by rw [sub_self, abs_zero], h⟩

theorem Ap.mono (h : Ap e B y Y) (he : e ≤ e') (hB : B ≤ B') : Ap e' B' y Y := ⟨h.1.trans he, h.2.trans hB⟩

theorem Ap.val (h : Ap e B y Y) (hy : Y = Z) : Ap e B y Z := hy ▸ h

theorem Ap.rnd (hR : Rnd E ρ N) (h : Ap e B y Y) (hN : B ≤ N) : Ap (e + ρ) (B + ρ) (E.f32 y) Y := by
  have h1 := hR y (h.2.trans hN)
  have h2 := abs_add_le (E.f32 y - y) (y - Y)
  have h3 := abs_add_le (E.f32 y - y) y
  rw [sub_add_sub_cancel] at h2
  rw [sub_add_cancel] at h3
  exact ⟨by linarith [h.1], by linarith [h.2]⟩

theorem Ap.add (h : Ap e B y Y) (h' : Ap e' B' z Z) : Ap (e + e') (B + B') (y + z) (Y + Z) := by
  refine ⟨?_, (abs_add_le y z).trans (add_le_add h.2 h'.2)⟩
  rw [add_sub_add_comm]
  exact (abs_add_le _ _).trans (add_le_add h.1 h'.1)

theorem Ap.neg (h : Ap e B y Y) : Ap e B (-y) (-Y) :=
  ⟨by rw [neg_sub_neg, abs_sub_comm]; exact h.1, by rw [abs_neg]; exact h.2⟩

theorem Ap.sub (h : Ap e B y Y) (h' : Ap e' B' z Z) : Ap (e + e') (B + B') (y - z) (Y - Z) := by
  rw [sub_eq_add_neg, sub_eq_add_neg]
  exact h.add h'.neg

theorem Ap.fadd (hR : Rnd E ρ N) (h : Ap e B y Y) (h' : Ap e' B' z Z) (hN : B + B' ≤ N) :
    Ap (e + e' + ρ) (B + B' + ρ) (E.fadd y z) (Y + Z) := (h.add h').rnd hR hN

theorem Ap.fsub (hR : Rnd E ρ N) (h : Ap e B y Y) (h' : Ap e' B' z Z) (hN : B + B' ≤ N) :
    Ap (e + e' + ρ) (B + B' + ρ) (E.fsub y z) (Y - Z) := (h.sub h').rnd hR hN

/-- Product with an input bit. -/
theorem Ap.bit (hR : Rnd E ρ N) (h : Ap e B y Y) (hN : B ≤ N) {f : Int} (hf : |f| ≤ 1) (hi : E.f32 (f : K) = f) :
    Ap (e + ρ) (B + ρ) (E.fmul y (E.ofInt f)) (Y * f) := by
  unfold Env.fmul Env.ofInt
  rw [hi]
  have h1 : |(f : K)| ≤ 1 := by rw [← Int.cast_abs]; exact_mod_cast hf
  refine Ap.rnd hR ⟨?_, ?_⟩ hN
  · rw [← sub_mul, abs_mul]
    exact (mul_le_of_le_one_right (abs_nonneg _) h1).trans h.1
  · rw [abs_mul]
    exact (mul_le_of_le_one_right (abs_nonneg _) h1).trans h.2

/-- Truncation does not enlarge a number. -/
theorem truncZ_abs (x : K) : |(truncZ x : K)| ≤ |x| := by
  unfold truncZ
  split
  next h =>
    have h1 : (0 : K) ≤ (⌊x⌋ : Int) := Int.cast_nonneg (Int.floor_nonneg.2 h)
    rw [abs_of_nonneg h1, abs_of_nonneg h]
    exact Int.floor_le x
  next h =>
    have h0 := (not_le.1 h).le
    have h1 : ((⌈x⌉ : Int) : K) ≤ 0 := by exact_mod_cast Int.ceil_nonpos.2 h0
    rw [abs_of_nonpos h1, abs_of_nonpos h0]
    exact neg_le_neg (Int.le_ceil x)

/-! ## Columns -/

/-- Accumulation in floating point. -/
def fsum (E : Env K) (f : Nat → K) : Nat → K
  | 0 => 0
  | k + 1 => E.fadd (fsum E f k) (f k)

theorem accFl {term : Nat → Nat → C K} {tmp : Vec K} {f : Nat → Nat → K} (hm : m ≤ tmp.size)
    (ht : ∀ i j, i < m → j < n → term i j = .ok (f i j)) :
    accG (faddC E) m n term (tmp.fill 0) = .ok ((tmp.fill 0).over m fun i => fsum E (f i) n) := by
  refine accG_ok (fun i k => fsum E (f i) k) hm ?_ ?_
  · intro t ht'
    rw [Vec.fill_get (by omega), fsum]
  · intro t k ht' hk
    rw [ht t k ht' hk, ok_bind]
    rfl

/-- Error of an accumulation of terms with error `e` and size `b`. -/
theorem fsum_near (hR : Rnd E ρ N) {f F : Nat → K} {b : K} (hb : 0 ≤ b) (hρ : 0 ≤ ρ) (he : 0 ≤ e)
    (hf : ∀ j, j < n → |f j - F j| ≤ e) (hF : ∀ j, j < n → |F j| ≤ b) (hN : n * b + n * (e + ρ) ≤ N) :
    |fsum E f n - ∑ j ∈ range n, F j| ≤ n * (e + ρ) := by
  suffices h : ∀ k, k ≤ n → |fsum E f k - ∑ j ∈ range k, F j| ≤ k * (e + ρ) ∧ |∑ j ∈ range k, F j| ≤ k * b from
    (h n le_rfl).1
  intro k
  induction k with
  | zero => intro _; simp [fsum]
  | succ k ih =>
    intro hk
    obtain ⟨h1, h2⟩ := ih (by omega)
    have h3 := hf k (by omega)
    have h4 := hF k (by omega)
    rw [sum_range_succ, fsum]
    have hs : |∑ j ∈ range k, F j + F k| ≤ ((k + 1 : Nat) : K) * b := by
      have := abs_add_le (∑ j ∈ range k, F j) (F k)
      push_cast
      linarith
    refine ⟨?_, hs⟩
    have h5 : |fsum E f k + f k - (∑ j ∈ range k, F j + F k)| ≤ k * (e + ρ) + e := by
      rw [add_sub_add_comm]
      exact (abs_add_le _ _).trans (add_le_add h1 h3)
    have hkn : ((k + 1 : Nat) : K) ≤ n := Nat.cast_le.2 hk
    have h6 : |fsum E f k + f k| ≤ N := by
      have h7 := abs_add_le (fsum E f k + f k - (∑ j ∈ range k, F j + F k)) (∑ j ∈ range k, F j + F k)
      rw [sub_add_cancel] at h7
      have h8 := mul_le_mul_of_nonneg_right hkn hb
      have h9 := mul_le_mul_of_nonneg_right hkn (add_nonneg he hρ)
      push_cast at h8 h9 hs
      linarith
    have h7 := hR _ h6
    have h8 := abs_add_le (E.f32 (fsum E f k + f k) - (fsum E f k + f k))
      (fsum E f k + f k - (∑ j ∈ range k, F j + F k))
    rw [sub_add_sub_cancel] at h8
    unfold Env.fadd
    push_cast
    linarith

/-! ## Crossbars -/

/-- The same machine with exact arithmetic. -/
def exactly (E : Env K) : Env K := { E with f32 := fun x => x, f64 := fun x => x }

/-- The same core with an exact resistance window. -/
def exactCore (cfg : Cfg K) (c : Core K) : Core K := { c with iMM := cfg.lrs - cfg.hrs }

/-- Error of a column current: rounded terms, rounded partial sums and a rounded offset. -/
def colErr (n : Nat) (ρ1 ρ2 : K) : K := n * (7 * ρ1 + ρ2) + 3 * ρ2

/-- The columns of deviating cells in floating point.  `I` bounds the currents. -/
structure FlCols (E : Env K) (cfg : Cfg K) (c : Core K) (a : Aux K) (P Q W : Nat → Nat → Int) (vec res : Vec Int)
    (m n : Nat) (ε I ρ1 ρ2 : K) : Prop where
  cells : CellDev (exactly E) cfg (exactCore cfg c) a P Q W vec res m n ε
  hI : |cfg.hrs| ≤ I
  pI : ∀ i j, i < m → j < n → |c.ia.p.get i j| ≤ I
  mI : ∀ i j, i < m → j < n → |c.ia.m.get i j| ≤ I
  r1 : Rnd E ρ1 (5 * I)
  r2 : Rnd E ρ2 (4 * (n + 1) * I)
  int : ∀ k : Int, |k| ≤ 3 * n + 1 → E.f32 (k : K) = k
  col : colErr n ρ1 ρ2 ≤ I

/-- Deviating cells read in floating point with an ideal converter.  `V` bounds the converted values, `A` the
buffer and `θ` the error of the converter scales. -/
structure FlDev (E : Env K) (cfg : Cfg K) (c : Core K) (a : Aux K) (P Q W : Nat → Nat → Int) (vec res : Vec Int)
    (m n : Nat) (ε I ρ1 ρ2 ρ θ V A : K) : Prop extends FlCols E cfg c a P Q W vec res m n ε I ρ1 ρ2 where
  fl : ∀ l, FlHyp E cfg c l (cv E)
  inf : InfHyp (exactly E) cfg (exactCore cfg c)
  rn : Rnd E ρ (A + 5 * V + 10)
  sc : ∀ s : K, s = 1 ∨ s = 2 → |scaleOf E cfg s * (cfg.lrs - cfg.hrs) - s| ≤ θ
  th : θ ≤ 1
  one : ρ ≤ 1
  hV : 12 * (n + 1) * I / |cfg.lrs - cfg.hrs| ≤ V
  nV : (n : K) ≤ V
  A0 : 0 ≤ A
  hA : ∀ i, i < m → |(res.get i : K)| ≤ A

namespace FlCols
variable {I ρ1 ρ2 : K} (H : FlCols E cfg c a P Q W vec res m n ε I ρ1 ρ2)
include H

theorem I0 : 0 ≤ I := (abs_nonneg _).trans H.hI

theorem p1 : 0 ≤ ρ1 := (abs_nonneg _).trans (H.r1 0 (by rw [abs_zero]; linarith [H.I0]))

theorem n0 : (0 : K) ≤ n := Nat.cast_nonneg n

theorem p2 : 0 ≤ ρ2 := (abs_nonneg _).trans (H.r2 0 (by
  rw [abs_zero]
  exact mul_nonneg (by linarith [H.n0]) H.I0))

theorem d0 : 0 < |cfg.lrs - cfg.hrs| := abs_pos.2 H.cells.ne

/-- A single cell leaves room for its roundings. -/
theorem small (hn : 0 < n) : 7 * ρ1 ≤ I := by
  have h1 := H.col
  have h2 := H.p1
  have h3 := H.p2
  have h4 : (1 : K) ≤ n := by exact_mod_cast hn
  unfold colErr at h1
  nlinarith

theorem tau0 : 0 ≤ colErr n ρ1 ρ2 := by
  have h1 := H.p1
  have h2 := H.p2
  have h3 := H.n0
  unfold colErr
  positivity

/-- A column current. -/
theorem column {f F : Nat → K} {b : K} (hb : 0 ≤ b) (hb4 : b ≤ 4 * I) (hf : ∀ j, j < n → |f j - F j| ≤ 7 * ρ1)
    (hF : ∀ j, j < n → |F j| ≤ b) :
    |fsum E f n - ∑ j ∈ range n, F j| ≤ n * (7 * ρ1 + ρ2) ∧ |∑ j ∈ range n, F j| ≤ n * b := by
  have h1 := H.p1
  have h2 := H.p2
  have h3 := H.col
  have h4 := H.n0
  unfold colErr at h3
  constructor
  · refine fsum_near H.r2 hb h2 (by linarith) hf hF ?_
    have := mul_le_mul_of_nonneg_left hb4 h4
    linarith
  · refine (abs_sum_le_sum_abs _ _).trans ?_
    have : ∑ j ∈ range n, |F j| ≤ ∑ _j ∈ range n, b := sum_le_sum fun j hj => hF j (mem_range.1 hj)
    rwa [sum_const, card_range, nsmul_eq_mul] at this

theorem intBit {f : Int} (hf : |f| ≤ 1) : E.f32 (f : K) = f := H.int f (by omega)

theorem cell {y : K} (hy : |y| ≤ I) {f : Int} (hf : |f| ≤ 1) :
    Ap ρ1 (I + ρ1) (E.fmul y (E.ofInt f)) (y * f) := by
  have := (Ap.refl hy).bit H.r1 (by linarith [H.I0]) hf (H.intBit hf)
  exact this.mono (by linarith) le_rfl

theorem absBit {y b : K} (hy : |y| ≤ b) {f : Int} (hf : |f| ≤ 1) : |y * f| ≤ b := by
  have h1 : |(f : K)| ≤ 1 := by rw [← Int.cast_abs]; exact_mod_cast hf
  rw [abs_mul]
  exact (mul_le_of_le_one_right (abs_nonneg _) h1).trans hy

theorem diffCell {y z : K} (hn : 0 < n) (hy : |y| ≤ I) (hz : |z| ≤ I) {f : Int} (hf : |f| ≤ 1) :
    |E.fmul (E.fsub y z) (E.ofInt f) - (y - z) * f| ≤ 7 * ρ1 := by
  have h0 := H.I0
  have h1 := H.small hn
  have h2 := H.p1
  have := ((Ap.refl hy).fsub H.r1 (Ap.refl hz) (by linarith)).bit H.r1 (by linarith) hf (H.intBit hf)
  linarith [this.1]

theorem sumCell {y z : K} (hn : 0 < n) (hy : |y| ≤ I) (hz : |z| ≤ I) {f g : Int} (hf : |f| ≤ 1) (hg : |g| ≤ 1) :
    Ap (3 * ρ1) (2 * I + 3 * ρ1) (E.fadd (E.fmul y (E.ofInt f)) (E.fmul z (E.ofInt g))) (y * f + z * g) := by
  have h0 := H.I0
  have h1 := H.small hn
  have h2 := H.p1
  exact ((H.cell hy hf).fadd H.r1 (H.cell hz hg) (by linarith)).mono (by linarith) (by linarith)

theorem quadCell {y z : K} (hn : 0 < n) (hy : |y| ≤ I) (hz : |z| ≤ I) {f g : Int} (hf : |f| ≤ 1) (hg : |g| ≤ 1) :
    |E.fsub (E.fsub (E.fadd (E.fmul y (E.ofInt f)) (E.fmul z (E.ofInt g))) (E.fmul z (E.ofInt f)))
      (E.fmul y (E.ofInt g)) - (y - z) * (f - g)| ≤ 7 * ρ1 := by
  have h0 := H.I0
  have h1 := H.small hn
  have h2 := H.p1
  have k1 := (H.sumCell hn hy hz hf hg).fsub H.r1 (H.cell hz hf) (by linarith)
  have k2 := (k1.fsub H.r1 (H.cell hy hg) (by linarith)).val (Z := (y - z) * (f - g)) (by ring)
  linarith [k2.1]

/-! ## Accumulated currents -/

theorem colP {u : Vec Int} {f : Nat → Int} {tmp : Vec K} (hu : n ≤ u.size) (ht : m ≤ tmp.size) :
    accG (faddC E) m n (iaTerm E c.ia.p (u.over n f)) (tmp.fill 0)
      = .ok ((tmp.fill 0).over m fun i => fsum E (fun j => E.fmul (c.ia.p.get i j) (E.ofInt (f j))) n) := by
  have hp : m ≤ c.ia.p.rows := H.cells.pr
  have hp' : n ≤ c.ia.p.cols := H.cells.pc
  refine accFl ht fun i j hi hj => ?_
  unfold iaTerm
  rw [Mat.rd_ok (by omega) (by omega), ok_bind, over_rd hu hj, ok_bind]

theorem colM {u : Vec Int} {f : Nat → Int} {tmp : Vec K} (hu : n ≤ u.size) (ht : m ≤ tmp.size) :
    accG (faddC E) m n (iaTerm E c.ia.m (u.over n f)) (tmp.fill 0)
      = .ok ((tmp.fill 0).over m fun i => fsum E (fun j => E.fmul (c.ia.m.get i j) (E.ofInt (f j))) n) := by
  have hp : m ≤ c.ia.m.rows := H.cells.mr
  have hp' : n ≤ c.ia.m.cols := H.cells.mc
  refine accFl ht fun i j hi hj => ?_
  unfold iaTerm
  rw [Mat.rd_ok (by omega) (by omega), ok_bind, over_rd hu hj, ok_bind]

theorem colDiff {u : Vec Int} {f : Nat → Int} {tmp : Vec K} (hu : n ≤ u.size) (ht : m ≤ tmp.size) :
    accG (faddC E) m n (iaDiffTerm E c.ia (u.over n f)) (tmp.fill 0)
      = .ok ((tmp.fill 0).over m fun i =>
        fsum E (fun j => E.fmul (E.fsub (c.ia.p.get i j) (c.ia.m.get i j)) (E.ofInt (f j))) n) := by
  have hp : m ≤ c.ia.p.rows := H.cells.pr
  have hp' : n ≤ c.ia.p.cols := H.cells.pc
  have hq : m ≤ c.ia.m.rows := H.cells.mr
  have hq' : n ≤ c.ia.m.cols := H.cells.mc
  refine accFl ht fun i j hi hj => ?_
  unfold iaDiffTerm
  rw [Mat.rd_ok (by omega) (by omega), ok_bind, Mat.rd_ok (by omega) (by omega), ok_bind, over_rd hu hj, ok_bind]

theorem colDiffNeg {u : Vec Int} {f : Nat → Int} {tmp : Vec K} (hu : n ≤ u.size) (ht : m ≤ tmp.size) :
    accG (faddC E) m n (iaDiffTermNeg E c.ia (u.over n f)) (tmp.fill 0)
      = .ok ((tmp.fill 0).over m fun i =>
        fsum E (fun j => E.fmul (E.fsub (c.ia.m.get i j) (c.ia.p.get i j)) (E.ofInt (f j))) n) := by
  have hp : m ≤ c.ia.p.rows := H.cells.pr
  have hp' : n ≤ c.ia.p.cols := H.cells.pc
  have hq : m ≤ c.ia.m.rows := H.cells.mr
  have hq' : n ≤ c.ia.m.cols := H.cells.mc
  refine accFl ht fun i j hi hj => ?_
  unfold iaDiffTermNeg
  rw [Mat.rd_ok (by omega) (by omega), ok_bind, Mat.rd_ok (by omega) (by omega), ok_bind, over_rd hu hj, ok_bind]

theorem col5 {u u' : Vec Int} {f f' : Nat → Int} {tmp : Vec K} (hu : n ≤ u.size) (hu' : n ≤ u'.size)
    (ht : m ≤ tmp.size) :
    accG (faddC E) m n (iaBnn5Term E c.ia (u.over n f) (u'.over n f')) (tmp.fill 0)
      = .ok ((tmp.fill 0).over m fun i => fsum E (fun j =>
        E.fadd (E.fmul (c.ia.p.get i j) (E.ofInt (f j))) (E.fmul (c.ia.m.get i j) (E.ofInt (f' j)))) n) := by
  have hp : m ≤ c.ia.p.rows := H.cells.pr
  have hp' : n ≤ c.ia.p.cols := H.cells.pc
  have hq : m ≤ c.ia.m.rows := H.cells.mr
  have hq' : n ≤ c.ia.m.cols := H.cells.mc
  refine accFl ht fun i j hi hj => ?_
  unfold iaBnn5Term
  rw [Mat.rd_ok (by omega) (by omega), ok_bind, over_rd hu hj, ok_bind, Mat.rd_ok (by omega) (by omega), ok_bind,
    over_rd hu' hj, ok_bind]

theorem colQuad {u u' : Vec Int} {f f' : Nat → Int} {tmp : Vec K} (hu : n ≤ u.size) (hu' : n ≤ u'.size)
    (ht : m ≤ tmp.size) :
    accG (faddC E) m n (iaQuadTerm E c.ia (u.over n f) (u'.over n f')) (tmp.fill 0)
      = .ok ((tmp.fill 0).over m fun i => fsum E (fun j =>
        E.fsub (E.fsub (E.fadd (E.fmul (c.ia.p.get i j) (E.ofInt (f j))) (E.fmul (c.ia.m.get i j) (E.ofInt (f' j))))
          (E.fmul (c.ia.m.get i j) (E.ofInt (f j)))) (E.fmul (c.ia.p.get i j) (E.ofInt (f' j)))) n) := by
  have hp : m ≤ c.ia.p.rows := H.cells.pr
  have hp' : n ≤ c.ia.p.cols := H.cells.pc
  have hq : m ≤ c.ia.m.rows := H.cells.mr
  have hq' : n ≤ c.ia.m.cols := H.cells.mc
  refine accFl ht fun i j hi hj => ?_
  unfold iaQuadTerm
  rw [Mat.rd_ok (by omega) (by omega), ok_bind, Mat.rd_ok (by omega) (by omega), ok_bind, over_rd hu hj, ok_bind,
    over_rd hu' hj, ok_bind]

theorem cols {term : Nat → Nat → C K} {vp : Vec Int} {vm : Option (Vec Int)} {tmp : Vec K} {t : Vec K}
    (h : accG (faddC E) m n term tmp = .ok t) : colCurrents E cfg c term vp vm tmp m n = .ok t := by
  rw [colCurrents_ideal H.cells.par, h]

theorem nearP {i : Nat} (hi : i < m) {f : Nat → Int} (hf : ∀ j, j < n → |f j| ≤ 1) :
    |fsum E (fun j => E.fmul (c.ia.p.get i j) (E.ofInt (f j))) n - ∑ j ∈ range n, c.ia.p.get i j * (f j : K)|
      ≤ n * (7 * ρ1 + ρ2) ∧ |∑ j ∈ range n, c.ia.p.get i j * (f j : K)| ≤ n * I :=
  H.column H.I0 (by linarith [H.I0]) (fun j hj => by linarith [(H.cell (H.pI i j hi hj) (hf j hj)).1, H.p1])
    fun j hj => H.absBit (H.pI i j hi hj) (hf j hj)

theorem nearM {i : Nat} (hi : i < m) {f : Nat → Int} (hf : ∀ j, j < n → |f j| ≤ 1) :
    |fsum E (fun j => E.fmul (c.ia.m.get i j) (E.ofInt (f j))) n - ∑ j ∈ range n, c.ia.m.get i j * (f j : K)|
      ≤ n * (7 * ρ1 + ρ2) ∧ |∑ j ∈ range n, c.ia.m.get i j * (f j : K)| ≤ n * I :=
  H.column H.I0 (by linarith [H.I0]) (fun j hj => by linarith [(H.cell (H.mI i j hi hj) (hf j hj)).1, H.p1])
    fun j hj => H.absBit (H.mI i j hi hj) (hf j hj)

theorem absDiff {y z : K} (hy : |y| ≤ I) (hz : |z| ≤ I) : |y - z| ≤ 2 * I := by
  linarith [abs_sub y z]

theorem nearDiff {i : Nat} (hi : i < m) {f : Nat → Int} (hf : ∀ j, j < n → |f j| ≤ 1) :
    |fsum E (fun j => E.fmul (E.fsub (c.ia.p.get i j) (c.ia.m.get i j)) (E.ofInt (f j))) n
      - ∑ j ∈ range n, (c.ia.p.get i j - c.ia.m.get i j) * (f j : K)| ≤ n * (7 * ρ1 + ρ2) ∧
      |∑ j ∈ range n, (c.ia.p.get i j - c.ia.m.get i j) * (f j : K)| ≤ n * (2 * I) :=
  H.column (by linarith [H.I0]) (by linarith [H.I0])
    (fun j hj => H.diffCell (by omega) (H.pI i j hi hj) (H.mI i j hi hj) (hf j hj))
    fun j hj => H.absBit (H.absDiff (H.pI i j hi hj) (H.mI i j hi hj)) (hf j hj)

theorem nearDiffNeg {i : Nat} (hi : i < m) {f : Nat → Int} (hf : ∀ j, j < n → |f j| ≤ 1) :
    |fsum E (fun j => E.fmul (E.fsub (c.ia.m.get i j) (c.ia.p.get i j)) (E.ofInt (f j))) n
      - ∑ j ∈ range n, (c.ia.m.get i j - c.ia.p.get i j) * (f j : K)| ≤ n * (7 * ρ1 + ρ2) ∧
      |∑ j ∈ range n, (c.ia.m.get i j - c.ia.p.get i j) * (f j : K)| ≤ n * (2 * I) :=
  H.column (by linarith [H.I0]) (by linarith [H.I0])
    (fun j hj => H.diffCell (by omega) (H.mI i j hi hj) (H.pI i j hi hj) (hf j hj))
    fun j hj => H.absBit (H.absDiff (H.mI i j hi hj) (H.pI i j hi hj)) (hf j hj)

theorem near5 {i : Nat} (hi : i < m) {f f' : Nat → Int} (hf : ∀ j, j < n → |f j| ≤ 1) (hf' : ∀ j, j < n → |f' j| ≤ 1) :
    |fsum E (fun j =>
        E.fadd (E.fmul (c.ia.p.get i j) (E.ofInt (f j))) (E.fmul (c.ia.m.get i j) (E.ofInt (f' j)))) n
      - ∑ j ∈ range n, (c.ia.p.get i j * (f j : K) + c.ia.m.get i j * (f' j : K))| ≤ n * (7 * ρ1 + ρ2) ∧
      |∑ j ∈ range n, (c.ia.p.get i j * (f j : K) + c.ia.m.get i j * (f' j : K))| ≤ n * (2 * I) :=
  H.column (by linarith [H.I0]) (by linarith [H.I0])
    (fun j hj => by
      linarith [(H.sumCell (by omega) (H.pI i j hi hj) (H.mI i j hi hj) (hf j hj) (hf' j hj)).1, H.p1])
    fun j hj => by
      have h1 := H.absBit (H.pI i j hi hj) (hf j hj)
      have h2 := H.absBit (H.mI i j hi hj) (hf' j hj)
      linarith [abs_add_le (c.ia.p.get i j * (f j : K)) (c.ia.m.get i j * (f' j : K))]

theorem nearQuad {i : Nat} (hi : i < m) {f f' : Nat → Int} (hf : ∀ j, j < n → |f j| ≤ 1)
    (hf' : ∀ j, j < n → |f' j| ≤ 1) :
    |fsum E (fun j =>
        E.fsub (E.fsub (E.fadd (E.fmul (c.ia.p.get i j) (E.ofInt (f j))) (E.fmul (c.ia.m.get i j) (E.ofInt (f' j))))
          (E.fmul (c.ia.m.get i j) (E.ofInt (f j)))) (E.fmul (c.ia.p.get i j) (E.ofInt (f' j)))) n
      - ∑ j ∈ range n, (c.ia.p.get i j - c.ia.m.get i j) * ((f j : K) - (f' j : K))| ≤ n * (7 * ρ1 + ρ2) ∧
      |∑ j ∈ range n, (c.ia.p.get i j - c.ia.m.get i j) * ((f j : K) - (f' j : K))| ≤ n * (4 * I) :=
  H.column (by linarith [H.I0]) le_rfl
    (fun j hj => H.quadCell (by omega) (H.pI i j hi hj) (H.mI i j hi hj) (hf j hj) (hf' j hj))
    fun j hj => by
      have h0 := H.absDiff (H.pI i j hi hj) (H.mI i j hi hj)
      have h1 := H.absBit h0 (hf j hj)
      have h2 := H.absBit h0 (hf' j hj)
      rw [mul_sub]
      linarith [abs_sub ((c.ia.p.get i j - c.ia.m.get i j) * (f j : K)) ((c.ia.p.get i j - c.ia.m.get i j) * (f' j : K))]

/-! ## Offsets -/

/-- An offset of `k` cells. -/
theorem offset {k : Int} (hk : |k| ≤ 3 * n) :
    |E.fmul (E.ofInt k) cfg.hrs - k * cfg.hrs| ≤ ρ2 ∧ |(k : K) * cfg.hrs| ≤ 3 * n * I := by
  have hk' : |(k : K)| ≤ 3 * n := by
    have : ((|k| : Int) : K) ≤ ((3 * n : Int) : K) := Int.cast_le.2 hk
    push_cast at this
    exact this
  have h2 : |(k : K) * cfg.hrs| ≤ 3 * n * I := by
    rw [abs_mul]
    have := H.n0
    exact mul_le_mul hk' H.hI (abs_nonneg _) (by positivity)
  refine ⟨?_, h2⟩
  unfold Env.fmul Env.ofInt
  rw [H.int k (by omega)]
  refine H.r2 _ (h2.trans ?_)
  have := mul_nonneg H.n0 H.I0
  linarith [H.I0]

/-- Half an offset of at most `n` cells. -/
theorem halfOff {x X : K} (hx : |x - X| ≤ ρ2) (hX : |X| ≤ 3 * n * I) :
    |E.f32 (x / 2) - X / 2| ≤ 2 * ρ2 ∧ |X / 2| ≤ 3 * n * I := by
  have hn := mul_nonneg H.n0 H.I0
  have hc := H.col
  have h2 := H.p2
  have h3 := H.p1
  have h4 : |X / 2| ≤ 3 * n * I := by
    rw [abs_div, abs_two]
    linarith [abs_nonneg X]
  refine ⟨?_, h4⟩
  have h5 : |x / 2 - X / 2| ≤ ρ2 := by
    rw [← sub_div, abs_div, abs_two]
    linarith [abs_nonneg (x - X)]
  have h6 : |x / 2| ≤ 3 * n * I + ρ2 := by
    have := abs_add_le (x / 2 - X / 2) (X / 2)
    rw [sub_add_cancel] at this
    linarith
  have := (Ap.rnd H.r2 (⟨h5, h6⟩ : Ap _ _ (x / 2) (X / 2)) (by
    unfold colErr at hc
    have := mul_nonneg H.n0 (by linarith : (0 : K) ≤ 7 * ρ1 + ρ2)
    linarith)).1
  linarith

end FlCols

namespace FlDev
variable {I ρ1 ρ2 θ V A : K} (H : FlDev E cfg c a P Q W vec res m n ε I ρ1 ρ2 ρ θ V A)
include H

theorem twin : DevHyp (exactly E) cfg (exactCore cfg c) a P Q W vec res m n ε := { H.cells with inf := H.inf }

theorem V0 : 0 ≤ V := H.n0.trans H.nV

theorem t0 : 0 ≤ θ := (abs_nonneg _).trans (H.sc 1 (Or.inl rfl))

/-! ## Converter -/

/-- A converted column. -/
theorem conv {t T o O s : K} (hs : s = 1 ∨ s = 2) (ht : |t - T| ≤ n * (7 * ρ1 + ρ2)) (ho : |o - O| ≤ 2 * ρ2)
    (hT : |T + O| ≤ 4 * n * I) :
    Ap (s * ((1 + θ) * colErr n ρ1 ρ2 + 4 * n * I * θ) / |cfg.lrs - cfg.hrs| + ρ) (V + 1)
      (cv E t o (scaleOf E cfg s)) ((T + O) * (s / (cfg.lrs - cfg.hrs))) := by
  have hd := H.d0
  have hne := H.twin.inf.ne
  have hI := H.I0
  have h2 := H.p2
  have hn := H.n0
  have hth := H.th
  have ht0 := H.t0
  have hcol := H.col
  have htau := H.tau0
  have hs1 : 1 ≤ s := by rcases hs with rfl | rfl <;> norm_num
  have hs2 : s ≤ 2 := by rcases hs with rfl | rfl <;> norm_num
  -- the current
  have k1 : |t + o - (T + O)| ≤ n * (7 * ρ1 + ρ2) + 2 * ρ2 := by
    rw [add_sub_add_comm]
    exact (abs_add_le _ _).trans (add_le_add ht ho)
  have k2 : |t + o| ≤ 4 * n * I + (n * (7 * ρ1 + ρ2) + 2 * ρ2) := by
    have := abs_add_le (t + o - (T + O)) (T + O)
    rw [sub_add_cancel] at this
    linarith
  have k3 := Ap.rnd H.r2 (⟨k1, k2⟩ : Ap _ _ (t + o) (T + O)) (by unfold colErr at hcol; linarith)
  obtain ⟨x1, x2⟩ := k3
  have e1 : n * (7 * ρ1 + ρ2) + 2 * ρ2 + ρ2 = colErr n ρ1 ρ2 := by unfold colErr; ring
  rw [e1] at x1
  rw [show 4 * n * I + (n * (7 * ρ1 + ρ2) + 2 * ρ2) + ρ2 = 4 * n * I + colErr n ρ1 ρ2 by rw [← e1]; ring] at x2
  unfold cv Env.fmul Env.fadd
  generalize E.f32 (t + o) = X at x1 x2 ⊢
  -- the scale
  have s0 := H.sc s hs
  generalize scaleOf E cfg s = S at s0 ⊢
  have s1 : |S - s / (cfg.lrs - cfg.hrs)| ≤ θ / |cfg.lrs - cfg.hrs| := by
    rw [show S - s / (cfg.lrs - cfg.hrs) = (S * (cfg.lrs - cfg.hrs) - s) / (cfg.lrs - cfg.hrs) by field_simp, abs_div]
    exact div_le_div_of_nonneg_right s0 hd.le
  have s2 : |S| ≤ (s + θ) / |cfg.lrs - cfg.hrs| := by
    have := abs_add_le (S - s / (cfg.lrs - cfg.hrs)) (s / (cfg.lrs - cfg.hrs))
    rw [sub_add_cancel, abs_div, abs_of_nonneg (by linarith : (0 : K) ≤ s)] at this
    rw [add_div]
    linarith
  -- the product
  have v1 : |X * S - (T + O) * (s / (cfg.lrs - cfg.hrs))|
      ≤ s * ((1 + θ) * colErr n ρ1 ρ2 + 4 * n * I * θ) / |cfg.lrs - cfg.hrs| := by
    rw [show X * S - (T + O) * (s / (cfg.lrs - cfg.hrs))
      = (X - (T + O)) * S + (T + O) * (S - s / (cfg.lrs - cfg.hrs)) by ring]
    refine (abs_add_le _ _).trans ?_
    rw [abs_mul, abs_mul]
    have m1 := mul_le_mul x1 s2 (abs_nonneg _) htau
    have m2 := mul_le_mul hT s1 (abs_nonneg _) (by positivity)
    refine (add_le_add m1 m2).trans ?_
    rw [← mul_div_assoc, ← mul_div_assoc, ← add_div]
    refine div_le_div_of_nonneg_right ?_ hd.le
    have q1 : 0 ≤ (s - 1) * (θ * colErr n ρ1 ρ2) := mul_nonneg (by linarith) (by positivity)
    have q2 : 0 ≤ (s - 1) * (4 * n * I * θ) := mul_nonneg (by linarith) (by positivity)
    linarith
  have v2 : |X * S| ≤ V := by
    rw [abs_mul]
    refine le_trans ?_ H.hV
    have m1 : |X| ≤ 4 * (n + 1) * I := by linarith
    have m2 : |S| ≤ 3 / |cfg.lrs - cfg.hrs| := s2.trans (div_le_div_of_nonneg_right (by linarith) hd.le)
    have m3 := mul_le_mul m1 m2 (abs_nonneg _) (by positivity)
    refine m3.trans (le_of_eq ?_)
    ring
  exact (Ap.rnd H.rn ⟨v1, v2⟩ (by linarith [H.V0, H.A0])).mono le_rfl (by linarith [H.one])

/-! ## Results -/

theorem plusAp {r : Int} (hr : |(r : K)| ≤ B') (hy : Ap e B y Y) (hB : B' + B ≤ A + 5 * V + 9) (hB0 : 0 ≤ B) :
    Ap (e + 2 * ρ) (B' + B + 2) (plus E r y) (r + Y) := by
  have h1 := H.one
  have k := ((Ap.refl hr).rnd H.rn (by linarith)).fadd H.rn hy (by linarith)
  exact k.mono (by linarith) (by linarith)

theorem minusAp {r : Int} (hr : |(r : K)| ≤ B') (hy : Ap e B y Y) (hB : B' + B ≤ A + 5 * V + 9) (hB0 : 0 ≤ B) :
    Ap (e + 2 * ρ) (B' + B + 2) (minus E r y) (r - Y) := by
  have h1 := H.one
  have k := ((Ap.refl hr).rnd H.rn (by linarith)).fsub H.rn hy (by linarith)
  exact k.mono (by linarith) (by linarith)

end FlDev

/-- Rounding part of the error. -/
def flErr (d : K) (n g : Nat) (I ρ1 ρ2 ρ θ : K) : K :=
  g * ((1 + θ) * colErr n ρ1 ρ2 + 4 * n * I * θ) / |d| + 10 * ρ

/-- Room for a result with error `δ` and two truncations. -/
def FlRoom (δ : K) (res : Vec Int) (m n : Nat) : Prop :=
  ∀ i, i < m → ((|res.get i| + 3 * n : Int) : K) + δ + 2 ≤ 2147483647

end

end Acs
