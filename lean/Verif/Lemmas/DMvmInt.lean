import Mathlib.Algebra.BigOperators.Ring.Finset
import Verif.Lemmas.Digits
import Verif.Model.TnnMappers

/-! # The digital multiplications of the integer mappings -/

namespace Acs

open Finset

/-- Two scratch states with the same vector lengths. -/
structure AuxLike {K : Type} (a b : Aux K) : Prop where
  vdP : b.vdP.size = a.vdP.size
  vdM : b.vdM.size = a.vdM.size
  vdSlice : b.vdSlice.size = a.vdSlice.size
  tmpInt : b.tmpInt.size = a.tmpInt.size
  tmpFp : b.tmpFp.size = a.tmpFp.size
  tmp : b.tmp.size = a.tmp.size
  tmpP : b.tmpP.size = a.tmpP.size
  tmpM : b.tmpM.size = a.tmpM.size
  tmpLsb : b.tmpLsb.size = a.tmpLsb.size
  tmpMsb : b.tmpMsb.size = a.tmpMsb.size
  resFp : b.resFp.size = a.resFp.size

/-! ## Row-wise loops -/

/-- One assignment. -/
def Vec.set {α : Type} (v : Vec α) (i : Nat) (x : α) : Vec α :=
  ⟨v.size, fun k => if k = i then x else v.get k⟩

theorem rowLoop_ok {α : Type} {m : Nat} {body : Nat → Vec α → C (Vec α)} {v : Vec α} (g : Nat → α)
    (h : ∀ i, i < m → ∀ r : Vec α, r.size = v.size → r.get i = v.get i →
      body i r = .ok (r.set i (g i))) :
    loop m body v = .ok (v.over m g) := by
  refine loop_ok (fun i => v.over i g) (Vec.over_zero v g) fun i hi => ?_
  rw [h i hi (v.over i g) rfl (Vec.over_ge le_rfl)]
  congr 1
  refine Vec.ext' (by rfl) fun k => ?_
  simp only [Vec.set, Vec.over]
  rcases lt_trichotomy k i with h | h | h
  · rw [if_neg (by omega), if_pos h, if_pos (by omega)]
  · subst h; rw [if_pos rfl, if_pos (by omega)]
  · rw [if_neg (by omega), if_neg (by omega), if_neg (by omega)]

theorem updAt_set {α : Type} {v : Vec α} {i : Nat} {f : α → C α} {x : α} (hi : i < v.size)
    (h : f (v.get i) = .ok x) : updAt v i f = .ok (v.set i x) := updAt_ok hi h

@[simp] theorem Vec.set_size {α : Type} (v : Vec α) (i : Nat) (x : α) : (v.set i x).size = v.size := rfl
@[simp] theorem Vec.set_get {α : Type} (v : Vec α) (i : Nat) (x : α) : (v.set i x).get i = x :=
  if_pos rfl
@[simp] theorem Vec.set_set {α : Type} (v : Vec α) (i : Nat) (x y : α) :
    (v.set i x).set i y = v.set i y := by
  refine Vec.ext' (by rfl) fun k => ?_
  simp only [Vec.set]
  split <;> rfl

theorem accRow_set {t N : Nat} {term : Nat → C Int} {v : Vec Int} (g : Nat → Int)
    (ht : t < v.size) (hterm : ∀ n, n < N → term n = .ok (g n))
    (hb : |v.get t| + ∑ n ∈ range N, |g n| ≤ 2147483647) :
    accRow addI t N term v = .ok (v.set t (v.get t + ∑ n ∈ range N, g n)) :=
  accRow_addI g ht hterm hb

/-! ## Encodings seen by a multiplication -/

/-- The signed cell values `D` of `S` segments per weight encode the matrix `W`. -/
structure Enc (S : Nat) (sh : Nat → Nat) (D W : Nat → Nat → Int) (m n : Nat) : Prop where
  val : ∀ i j, i < m → j < n → ∑ s ∈ range S, D (i * S + s) j * 2 ^ sh s = W i j
  mag : ∀ i j, i < m → j < n → ∑ s ∈ range S, |D (i * S + s) j| * 2 ^ sh s = |W i j|

section Enc
variable {S : Nat} {sh : Nat → Nat} {D W : Nat → Nat → Int} {m n : Nat}

theorem Enc.le (h : Enc S sh D W m n) {i j s : Nat} (hi : i < m) (hj : j < n) (hs : s < S) :
    |D (i * S + s) j| ≤ |W i j| := by
  rw [← h.mag i j hi hj]
  have h1 : |D (i * S + s) j| * 1 ≤ |D (i * S + s) j| * 2 ^ sh s :=
    mul_le_mul_of_nonneg_left (one_le_pow₀ (by norm_num)) (abs_nonneg _)
  have h2 := single_le_sum (s := range S) (f := fun s => |D (i * S + s) j| * 2 ^ sh s)
    (fun _ _ => by positivity) (mem_range.2 hs)
  linarith

theorem Enc.row (h : Enc S sh D W m n) (v : Nat → Int) {i : Nat} (hi : i < m) :
    ∑ s ∈ range S, (∑ j ∈ range n, D (i * S + s) j * v j) * 2 ^ sh s
      = ∑ j ∈ range n, W i j * v j := by
  simp_rw [sum_mul]
  rw [sum_comm]
  refine sum_congr rfl fun j hj => ?_
  rw [← h.val i j hi (mem_range.1 hj), sum_mul]
  exact sum_congr rfl fun s _ => by ring

theorem Enc.rowAbs (h : Enc S sh D W m n) (v : Nat → Int) {i : Nat} (hi : i < m) :
    ∑ s ∈ range S, |(∑ j ∈ range n, D (i * S + s) j * v j) * 2 ^ sh s|
      ≤ ∑ j ∈ range n, |W i j| * |v j| := by
  calc _ ≤ ∑ s ∈ range S, (∑ j ∈ range n, |D (i * S + s) j| * |v j|) * 2 ^ sh s := by
        refine sum_le_sum fun s _ => ?_
        rw [abs_mul, abs_of_pos (show (0 : Int) < 2 ^ sh s by positivity)]
        refine mul_le_mul_of_nonneg_right ?_ (by positivity)
        refine (abs_sum_le_sum_abs _ _).trans_eq (sum_congr rfl fun j _ => abs_mul _ _)
    _ = _ := by
        simp_rw [sum_mul]
        rw [sum_comm]
        refine sum_congr rfl fun j hj => ?_
        rw [← h.mag i j hi (mem_range.1 hj), sum_mul]
        exact sum_congr rfl fun s _ => by ring

theorem Enc.colAbs (h : Enc S sh D W m n) (v : Nat → Int) {t : Nat} (ht : t < m * S) :
    ∑ j ∈ range n, |D t j * v j| ≤ ∑ j ∈ range n, |W (t / S) j| * |v j| := by
  have hS : 0 < S := by
    rcases Nat.eq_zero_or_pos S with h0 | h0
    · subst h0; omega
    · exact h0
  have hi : t / S < m := Nat.div_lt_of_lt_mul (by rw [Nat.mul_comm]; exact ht)
  have hs : t % S < S := Nat.mod_lt _ hS
  have e : t / S * S + t % S = t := Nat.div_add_mod' t S
  refine sum_le_sum fun j hj => ?_
  rw [abs_mul]
  refine mul_le_mul_of_nonneg_right ?_ (abs_nonneg _)
  have := h.le hi (mem_range.1 hj) hs
  rwa [e] at this

theorem Enc.neg (h : Enc S sh D W m n) : Enc S sh (fun t j => - D t j) (fun i j => - W i j) m n where
  val i j hi hj := by
    rw [← h.val i j hi hj, ← sum_neg_distrib]; exact sum_congr rfl fun s _ => by ring
  mag i j hi hj := by simp_rw [abs_neg]; exact h.mag i j hi hj

theorem Enc.congr {D' W' : Nat → Nat → Int} (h : Enc S sh D W m n)
    (hD : ∀ t j, t < m * S → j < n → D' t j = D t j) (hW : ∀ i j, i < m → j < n → W' i j = W i j) :
    Enc S sh D' W' m n where
  val i j hi hj := by
    rw [hW i j hi hj, ← h.val i j hi hj]
    exact sum_congr rfl fun s hs => by rw [hD _ _ (blk_lt hi (mem_range.1 hs)) hj]
  mag i j hi hj := by
    rw [hW i j hi hj, ← h.mag i j hi hj]
    exact sum_congr rfl fun s hs => by rw [hD _ _ (blk_lt hi (mem_range.1 hs)) hj]

theorem Enc.mono {m' n' : Nat} (h : Enc S sh D W m n) (hm : m' ≤ m) (hn : n' ≤ n) :
    Enc S sh D W m' n' where
  val i j hi hj := h.val i j (by omega) (by omega)
  mag i j hi hj := h.mag i j (by omega) (by omega)

end Enc

/-! ## Building blocks -/

section
variable {S : Nat} {shift : Vec Nat} {D W : Nat → Nat → Int} {m n : Nat} {x : Nat → Int}

/-- Accumulation of the columns into the cleared scratch vector. -/
theorem cols_ok {term : Nat → Nat → C Int} {tmp : Vec Int}
    (henc : Enc S shift.get D W m n) (ht : m * S ≤ tmp.size)
    (hterm : ∀ t j, t < m * S → j < n → term t j = .ok (D t j * x j))
    (hb : ∀ i, i < m → ∑ j ∈ range n, |W i j| * |x j| ≤ 2147483647) :
    accG addI (m * S) n term (tmp.fill 0)
      = .ok ((tmp.fill 0).over (m * S) fun t => ∑ j ∈ range n, D t j * x j) := by
  rw [accG_addI (fun t j => D t j * x j) (by exact ht) hterm]
  · congr 1
    refine Vec.ext' (by rfl) fun k => ?_
    simp only [Vec.over]
    split
    · rw [Vec.fill_get (by omega), zero_add]
    · rfl
  · intro t htt
    rw [Vec.fill_get (by omega), abs_zero, zero_add]
    refine (henc.colAbs x htt).trans (hb _ (Nat.div_lt_of_lt_mul (by rw [Nat.mul_comm]; exact htt)))

theorem shiftedTmp_ok {t : Vec Int} {i s : Nat} (hi : i * S + s < t.size) (hs : s < shift.size)
    (hsh : shift.get s < 32)
    (hb : InI32 (t.get (i * S + s) * 2 ^ shift.get s)) :
    shiftedTmp false S shift t i s = .ok (t.get (i * S + s) * 2 ^ shift.get s) := by
  unfold shiftedTmp
  rw [Vec.rd_ok hi, ok_bind, Vec.rd_ok hs, ok_bind, shlI_ok hsh hb (by simp)]

/-- Shift and add of the segments. -/
theorem shifted_ok {t res : Vec Int} (henc : Enc S shift.get D W m n) (hS : shift.size = S)
    (hsh : ∀ s, s < S → shift.get s < 32) (ht : m * S ≤ t.size) (hr : m ≤ res.size)
    (hg : ∀ k, k < m * S → t.get k = ∑ j ∈ range n, D k j * x j)
    (hb : ∀ i, i < m → |res.get i| + ∑ j ∈ range n, |W i j| * |x j| ≤ 2147483647) :
    accG addI m S (shiftedTmp false S shift t) res
      = .ok (res.over m fun i => res.get i + ∑ j ∈ range n, W i j * x j) := by
  rw [accG_addI (fun i s => (∑ j ∈ range n, D (i * S + s) j * x j) * 2 ^ shift.get s) hr]
  · congr 1
    refine Vec.ext' (by rfl) fun k => ?_
    simp only [Vec.over]
    split
    · next hk => rw [henc.row x hk]
    · rfl
  · intro i s hi hs
    have := blk_lt hi hs
    rw [shiftedTmp_ok (by omega) (by omega) (hsh s hs), hg _ this]
    rw [hg _ this]
    apply inI32_of_abs
    have h1 := single_le_sum (s := range S) (f := fun s =>
      |(∑ j ∈ range n, D (i * S + s) j * x j) * 2 ^ shift.get s|) (fun _ _ => abs_nonneg _)
      (mem_range.2 hs)
    have h2 := henc.rowAbs x hi
    have h3 := hb i hi
    have h4 := abs_nonneg (res.get i)
    linarith
  · intro i hi
    have h2 := henc.rowAbs x hi
    have h3 := hb i hi
    linarith

/-- The same for one row. -/
theorem shiftedRow_ok {t res : Vec Int} {i : Nat} (hi : i < m) (henc : Enc S shift.get D W m n)
    (hS : shift.size = S)
    (hsh : ∀ s, s < S → shift.get s < 32) (ht : m * S ≤ t.size) (hr : i < res.size)
    (hg : ∀ k, k < m * S → t.get k = ∑ j ∈ range n, D k j * x j)
    (hb : |res.get i| + ∑ j ∈ range n, |W i j| * |x j| ≤ 2147483647) :
    accRow addI i S (shiftedTmp false S shift t i) res
      = .ok (res.set i (res.get i + ∑ j ∈ range n, W i j * x j)) := by
  rw [accRow_set (fun s => (∑ j ∈ range n, D (i * S + s) j * x j) * 2 ^ shift.get s) hr]
  · rw [henc.row x hi]
  · intro s hs
    have := blk_lt hi hs
    rw [shiftedTmp_ok (by omega) (by omega) (hsh s hs), hg _ this]
    rw [hg _ this]
    apply inI32_of_abs
    have h1 := single_le_sum (s := range S) (f := fun s =>
      |(∑ j ∈ range n, D (i * S + s) j * x j) * 2 ^ shift.get s|) (fun _ _ => abs_nonneg _)
      (mem_range.2 hs)
    have h2 := henc.rowAbs x hi
    have h4 := abs_nonneg (res.get i)
    linarith
  · have h2 := henc.rowAbs x hi
    linarith

end

/-! ## Cell terms -/

section
variable {gd : Gd} {v : Vec Int} {t j : Nat}

theorem abs_le_of_mul {a b : Int} {B : Int} (h : |a * b| ≤ B) (hb : b ≠ 0) : |a| ≤ B := by
  rw [abs_mul] at h
  have : 1 ≤ |b| := Int.one_le_abs hb
  nlinarith [abs_nonneg a]

theorem diffTerm_ok (hp : t < gd.p.rows) (hp' : j < gd.p.cols) (hm : t < gd.m.rows)
    (hm' : j < gd.m.cols) (hv : j < v.size) (hd : InI32 (gd.p.get t j - gd.m.get t j))
    (hb : InI32 ((gd.p.get t j - gd.m.get t j) * v.get j)) :
    diffTerm gd v t j = .ok ((gd.p.get t j - gd.m.get t j) * v.get j) := by
  unfold diffTerm
  rw [Mat.rd_ok hp hp', ok_bind, Mat.rd_ok hm hm', ok_bind, subI_ok hd, ok_bind, Vec.rd_ok hv, ok_bind,
    mulI_ok hb]

theorem diffTermNeg_ok (hp : t < gd.p.rows) (hp' : j < gd.p.cols) (hm : t < gd.m.rows)
    (hm' : j < gd.m.cols) (hv : j < v.size) (hd : InI32 (gd.m.get t j - gd.p.get t j))
    (hb : InI32 ((gd.m.get t j - gd.p.get t j) * v.get j)) :
    diffTermNeg gd v t j = .ok ((gd.m.get t j - gd.p.get t j) * v.get j) := by
  unfold diffTermNeg
  rw [Mat.rd_ok hm hm', ok_bind, Mat.rd_ok hp hp', ok_bind, subI_ok hd, ok_bind, Vec.rd_ok hv, ok_bind,
    mulI_ok hb]

theorem posTerm_ok (hp : t < gd.p.rows) (hp' : j < gd.p.cols) (hv : j < v.size)
    (hb : InI32 (gd.p.get t j * v.get j)) :
    posTerm gd v t j = .ok (gd.p.get t j * v.get j) := by
  unfold posTerm
  rw [Mat.rd_ok hp hp', ok_bind, Vec.rd_ok hv, ok_bind, mulI_ok hb]

end

/-- Bound of a single product from the bound of the row. -/
theorem prod_bound {S : Nat} {sh : Nat → Nat} {D W : Nat → Nat → Int} {m n : Nat} {x : Nat → Int}
    (henc : Enc S sh D W m n) (hb : ∀ i, i < m → ∑ j ∈ range n, |W i j| * |x j| ≤ 2147483647)
    {t j : Nat} (ht : t < m * S) (hj : j < n) : InI32 (D t j * x j) := by
  apply inI32_of_abs
  have h1 := henc.colAbs x ht
  have h2 := hb _ (Nat.div_lt_of_lt_mul (by rw [Nat.mul_comm]; exact ht))
  have h3 := single_le_sum (s := range n) (f := fun j => |D t j * x j|) (fun _ _ => abs_nonneg _)
    (mem_range.2 hj)
  linarith

theorem cell_bound {S : Nat} {sh : Nat → Nat} {D W : Nat → Nat → Int} {m n : Nat}
    (henc : Enc S sh D W m n) (hb : ∀ i j, i < m → j < n → |W i j| ≤ 2147483647)
    {t j : Nat} (ht : t < m * S) (hj : j < n) : |D t j| ≤ 2147483647 := by
  have hS : 0 < S := by
    rcases Nat.eq_zero_or_pos S with h0 | h0
    · subst h0; omega
    · exact h0
  have hi : t / S < m := Nat.div_lt_of_lt_mul (by rw [Nat.mul_comm]; exact ht)
  have := henc.le hi hj (Nat.mod_lt t hS)
  rw [Nat.div_add_mod' t S] at this
  exact this.trans (hb _ _ hi hj)

/-! ## Input encodings -/

theorem encSigned_ok {n : Nat} {vec vp vm : Vec Int} (hv : n ≤ vec.size) (hp : n ≤ vp.size)
    (hm : n ≤ vm.size) (hx : ∀ j, j < n → InI32 (-vec.get j)) :
    encSigned n vec vp vm = .ok
      (vp.over n fun j => if 0 ≤ vec.get j then vec.get j else 0,
       vm.over n fun j => if 0 ≤ vec.get j then 0 else -vec.get j) := by
  unfold encSigned
  refine loop_ok (fun i => (vp.over i fun j => if 0 ≤ vec.get j then vec.get j else 0,
       vm.over i fun j => if 0 ≤ vec.get j then 0 else -vec.get j)) ?_ fun i hi => ?_
  · simp [Vec.over_zero]
  rw [Vec.rd_ok (by omega), ok_bind]
  have e1 := Vec.over_wr (v := vp) (i := i) (f := fun j => if 0 ≤ vec.get j then vec.get j else 0)
    (by omega)
  have e2 := Vec.over_wr (v := vm) (i := i) (f := fun j => if 0 ≤ vec.get j then 0 else -vec.get j)
    (by omega)
  by_cases h : 0 ≤ vec.get i
  · simp only [if_pos h] at e1 e2
    rw [if_pos h, e1, ok_bind, e2, ok_bind]
  · simp only [if_neg h] at e1 e2
    rw [if_neg h, e1, ok_bind, negI_ok (hx i hi), ok_bind, e2, ok_bind]

theorem inpSum_ok {n : Nat} {vec : Vec Int} (hv : n ≤ vec.size) (hn : n ≤ 2147483647)
    (hx : ∀ j, j < n → InI32 (vec.get j)) : inpSum n vec = .ok (∑ j ∈ range n, vec.get j) := by
  unfold inpSum
  refine loop_ok (fun i => ∑ j ∈ range i, vec.get j) (by simp) fun i hi => ?_
  rw [Vec.rd_ok (by omega), ok_bind, addL_ok, sum_range_succ]
  rw [← sum_range_succ]
  have h1 : |∑ j ∈ range (i + 1), vec.get j| ≤ ∑ j ∈ range (i + 1), (2147483648 : Int) :=
    (abs_sum_le_sum_abs _ _).trans (sum_le_sum fun j hj => by
      have := hx j (by have := mem_range.1 hj; omega)
      rw [abs_le]; exact ⟨this.1, this.2.trans (by norm_num)⟩)
  rw [sum_const, card_range, nsmul_eq_mul, abs_le] at h1
  have h2 : ((i + 1 : Nat) : Int) ≤ 2147483647 := by exact_mod_cast (by omega : i + 1 ≤ 2147483647)
  constructor <;> nlinarith [h1.1, h1.2]

/-! ## The multiplications -/

/-- The scratch vectors used by the digital integer multiplications are large enough. -/
structure IntScratch {K : Type} (a : Aux K) (S m n : Nat) : Prop where
  vdP : n ≤ a.vdP.size
  vdM : n ≤ a.vdM.size
  tmpInt : m * S ≤ a.tmpInt.size

/-- The cell arrays are large enough. -/
structure GdDims (gd : Gd) (T m n : Nat) : Prop where
  pr : T ≤ gd.p.rows
  pc : n ≤ gd.p.cols
  mr : T ≤ gd.m.rows
  mc : n ≤ gd.m.cols
  sw : m ≤ gd.sumW.size

section
variable {K : Type} {E : Env K} {cfg : Cfg K} {c : Core K} {a : Aux K} {res vec : Vec Int}
  {m n : Nat} {W : Nat → Nat → Int}

/-- Signed cell values of the differential mappings. -/
def Core.D (c : Core K) (t j : Nat) : Int := c.gd.p.get t j - c.gd.m.get t j

theorem abs_pos_le (x : Int) : |if 0 ≤ x then x else 0| ≤ |x| := by
  split <;> simp

theorem abs_neg_le (x : Int) : |if 0 ≤ x then 0 else -x| ≤ |x| := by
  split <;> simp

theorem sum_le_of_abs_le {W : Nat → Int} {u v : Nat → Int} {n : Nat} (h : ∀ j, j < n → |u j| ≤ |v j|) :
    ∑ j ∈ range n, |W j| * |u j| ≤ ∑ j ∈ range n, |W j| * |v j| :=
  sum_le_sum fun j hj => mul_le_mul_of_nonneg_left (h j (mem_range.1 hj)) (abs_nonneg _)

theorem ok_pair {α β : Type} {a : α} {x y : β} (h : x = y) :
    (.ok (a, x) : C (α × β)) = .ok (a, y) := by rw [h]

/-- `MapperIntI`. -/
theorem dMvmIntI_ok (hstrict : E.strict = false) (hdim : GdDims c.gd (m * cfg.S) m n)
    (hscr : IntScratch a cfg.S m n) (hS : c.shift.size = cfg.S)
    (hsh : ∀ s, s < cfg.S → c.shift.get s < 32) (henc : Enc cfg.S c.shift.get c.D W m n)
    (hv : n ≤ vec.size) (hr : m ≤ res.size) (hx : ∀ j, j < n → |vec.get j| ≤ 2147483647)
    (hW : ∀ i j, i < m → j < n → |W i j| ≤ 2147483647)
    (hb : ∀ i, i < m → |res.get i| + ∑ j ∈ range n, |W i j| * |vec.get j| ≤ 2147483647) :
    ∃ a', dMvmIntI E cfg c a res vec m n
      = .ok (a', res.over m fun i => res.get i + ∑ j ∈ range n, W i j * vec.get j) ∧
      AuxLike a a' ∧ a'.rng = a.rng ∧ a'.hists = a.hists := by
  obtain ⟨hpr, hpc, hmr, hmc, hsw⟩ := hdim
  obtain ⟨h1, h2, h3⟩ := hscr
  unfold dMvmIntI
  rw [hstrict, encSigned_ok hv h1 h2 (fun j hj => inI32_of_abs (by rw [abs_neg]; exact hx j hj)), ok_bind]
  set vp := a.vdP.over n fun j => if 0 ≤ vec.get j then vec.get j else 0 with hvp
  set vm := a.vdM.over n fun j => if 0 ≤ vec.get j then 0 else -vec.get j with hvm
  dsimp only
  have evp : ∀ j, j < n → vp.get j = if 0 ≤ vec.get j then vec.get j else 0 :=
    fun j hj => Vec.over_lt hj
  have evm : ∀ j, j < n → vm.get j = if 0 ≤ vec.get j then 0 else -vec.get j :=
    fun j hj => Vec.over_lt hj
  have bp : ∀ i, i < m → ∑ j ∈ range n, |W i j| * |vp.get j| ≤ 2147483647 := fun i hi => by
    have h5 := sum_le_of_abs_le (W := W i) (u := vp.get) (v := vec.get) (n := n)
      (fun j hj => by rw [evp j hj]; exact abs_pos_le _)
    have h6 := hb i hi
    have h7 := abs_nonneg (res.get i)
    linarith
  have bm : ∀ i, i < m → ∑ j ∈ range n, |(fun i j => - W i j) i j| * |vm.get j| ≤ 2147483647 := by
    intro i hi
    have h5 := sum_le_of_abs_le (W := W i) (u := vm.get) (v := vec.get) (n := n)
      (fun j hj => by rw [evm j hj]; exact abs_neg_le _)
    have h6 := hb i hi
    have h7 := abs_nonneg (res.get i)
    simp only [abs_neg]
    linarith
  have hneg : Enc cfg.S c.shift.get (fun t j => c.gd.m.get t j - c.gd.p.get t j)
      (fun i j => - W i j) m n := henc.neg.congr (fun t j _ _ => by simp [Core.D]) (fun _ _ _ _ => rfl)
  rw [cols_ok (x := vp.get) henc h3 (fun t j ht hj =>
    diffTerm_ok (by omega) (by omega) (by omega) (by omega) (by rw [hvp]; simp; omega)
      (inI32_of_abs (cell_bound henc hW ht hj)) (prod_bound henc bp ht hj)) bp, ok_bind]
  rw [shifted_ok (x := vp.get) henc hS hsh (by simpa using h3) hr (fun k hk => Vec.over_lt hk)
    (fun i hi => by
      have h5 := sum_le_of_abs_le (W := W i) (u := vp.get) (v := vec.get) (n := n)
        (fun j hj => by rw [evp j hj]; exact abs_pos_le _)
      have h6 := hb i hi
      linarith), ok_bind]
  have habs : ∀ i, i < m → |res.get i + ∑ j ∈ range n, W i j * vp.get j| +
      ∑ j ∈ range n, |-W i j| * |vm.get j| ≤ 2147483647 := by
    intro i hi
    have h6 := hb i hi
    have h7 := abs_add_le (res.get i) (∑ j ∈ range n, W i j * vp.get j)
    have h8 : |∑ j ∈ range n, W i j * vp.get j| ≤ ∑ j ∈ range n, |W i j| * |vp.get j| :=
      (abs_sum_le_sum_abs _ _).trans_eq (sum_congr rfl fun j _ => abs_mul _ _)
    have h9 : ∑ j ∈ range n, |W i j| * |vp.get j| + ∑ j ∈ range n, |W i j| * |vm.get j|
        = ∑ j ∈ range n, |W i j| * |vec.get j| := by
      rw [← sum_add_distrib]
      refine sum_congr rfl fun j hj => ?_
      rw [evp j (mem_range.1 hj), evm j (mem_range.1 hj)]
      split <;> simp
    simp only [abs_neg]
    linarith
  rw [cols_ok (x := vm.get) hneg (by simpa using h3) (fun t j ht hj =>
    diffTermNeg_ok (by omega) (by omega) (by omega) (by omega) (by rw [hvm]; simp; omega)
      (inI32_of_abs (cell_bound hneg (fun i j hi hj => by simpa using hW i j hi hj) ht hj))
      (prod_bound hneg bm ht hj)) bm, ok_bind]
  rw [shifted_ok (x := vm.get) hneg hS hsh (by simpa using h3) (by simpa using hr)
    (fun k hk => Vec.over_lt hk) (fun i hi => by rw [Vec.over_lt hi]; exact habs i hi), ok_bind]
  refine ⟨_, ok_pair ?_, ?_, rfl, rfl⟩
  · refine Vec.ext' (by rfl) fun k => ?_
    simp only [Vec.over_get]
    split
    · rw [add_assoc, ← sum_add_distrib]
      congr 1
      refine sum_congr rfl fun j hj => ?_
      rw [evp j (mem_range.1 hj), evm j (mem_range.1 hj)]
      split <;> ring
    · rfl
  · constructor <;> rfl

theorem encOffs_ok {strict : Bool} {iBit : Nat} {vp : Vec Int} (hi : 1 ≤ iBit) (hi' : iBit ≤ 31)
    (hv : n ≤ vec.size) (hp : n ≤ vp.size) (hx : ∀ j, j < n → InI32 (2 ^ (iBit - 1) + vec.get j)) :
    encOffs strict iBit n vec vp = .ok (vp.over n fun j => 2 ^ (iBit - 1) + vec.get j) := by
  unfold encOffs
  refine setG_ok _ hp fun j hj => ?_
  rw [u32sub_one hi, shl_one (by omega), ok_bind, Vec.rd_ok (by omega), ok_bind, addI_ok (hx j hj)]

/-- `MapperIntII`. -/
theorem dMvmIntII_ok (hstrict : E.strict = false) (hdim : GdDims c.gd (m * cfg.S) m n)
    (hscr : IntScratch a cfg.S m n) (hS : c.shift.size = cfg.S)
    (hsh : ∀ s, s < cfg.S → c.shift.get s < 32) (henc : Enc cfg.S c.shift.get c.D W m n)
    (hsum : ∀ i, i < m → c.gd.sumW.get i = ∑ j ∈ range n, W i j)
    (hI : 1 ≤ cfg.iBit) (hI' : cfg.iBit ≤ 31)
    (hv : n ≤ vec.size) (hr : m ≤ res.size)
    (hx : ∀ j, j < n → 0 ≤ 2 ^ (cfg.iBit - 1) + vec.get j ∧
      2 ^ (cfg.iBit - 1) + vec.get j ≤ 2 ^ cfg.iBit)
    (hW : ∀ i j, i < m → j < n → |W i j| ≤ 2147483647)
    (hb : ∀ i, i < m → |res.get i| + (∑ j ∈ range n, |W i j|) * 2 ^ cfg.iBit ≤ 2147483647)
    (hx' : ∀ j, j < n → InI32 (2 ^ (cfg.iBit - 1) + vec.get j)) :
    ∃ a', dMvmIntII E cfg c a res vec m n
      = .ok (a', res.over m fun i => res.get i + ∑ j ∈ range n, W i j * vec.get j) ∧
      AuxLike a a' ∧ a'.rng = a.rng ∧ a'.hists = a.hists := by
  obtain ⟨hpr, hpc, hmr, hmc, hsw⟩ := hdim
  obtain ⟨h1, h2, h3⟩ := hscr
  unfold dMvmIntII
  rw [hstrict, encOffs_ok hI hI' hv h1 hx', ok_bind]
  set vp := a.vdP.over n fun j => 2 ^ (cfg.iBit - 1) + vec.get j with hvp
  have evp : ∀ j, j < n → vp.get j = 2 ^ (cfg.iBit - 1) + vec.get j := fun j hj => Vec.over_lt hj
  have bs : ∀ i, ∑ j ∈ range n, |W i j| * |vp.get j| ≤
      (∑ j ∈ range n, |W i j|) * 2 ^ cfg.iBit := fun i => by
    rw [sum_mul]
    refine sum_le_sum fun j hj => mul_le_mul_of_nonneg_left ?_ (abs_nonneg _)
    rw [evp j (mem_range.1 hj), abs_of_nonneg (hx j (mem_range.1 hj)).1]
    exact (hx j (mem_range.1 hj)).2
  have bp : ∀ i, i < m → ∑ j ∈ range n, |W i j| * |vp.get j| ≤ 2147483647 := fun i hi => by
    have h5 := bs i
    have h6 := hb i hi
    have h7 := abs_nonneg (res.get i)
    linarith
  rw [cols_ok (x := vp.get) henc h3 (fun t j ht hj =>
    diffTerm_ok (by omega) (by omega) (by omega) (by omega) (by rw [hvp]; simp; omega)
      (inI32_of_abs (cell_bound henc hW ht hj)) (prod_bound henc bp ht hj)) bp, ok_bind]
  have hpow : (2 : Int) ^ cfg.iBit = 2 * 2 ^ (cfg.iBit - 1) := by
    rw [← pow_succ']; congr 1; omega
  rw [rowLoop_ok (v := res) (fun i => res.get i + ∑ j ∈ range n, W i j * vec.get j), ok_bind]
  · exact ⟨_, rfl, by constructor <;> rfl, rfl, rfl⟩
  · intro i hi r hrs hri
    have hsumabs : |∑ j ∈ range n, W i j| ≤ ∑ j ∈ range n, |W i j| := abs_sum_le_sum_abs _ _
    have h6 := hb i hi
    have h7 := abs_nonneg (res.get i)
    have hp1 : (1 : Int) ≤ 2 ^ (cfg.iBit - 1) := one_le_pow₀ (by norm_num)
    have hk : InI32 ((∑ j ∈ range n, W i j) * 2 ^ (cfg.iBit - 1)) := by
      apply inI32_of_abs
      rw [abs_mul, abs_of_pos (show (0 : Int) < 2 ^ (cfg.iBit - 1) by positivity)]
      nlinarith [abs_nonneg (∑ j ∈ range n, W i j)]
    rw [shiftedRow_ok (x := vp.get) hi henc hS hsh (by simpa using h3) (by omega)
      (fun k hk => Vec.over_lt hk) (by rw [hri]; have := bs i; linarith), ok_bind]
    unfold sumShift
    rw [Vec.rd_ok (by omega), ok_bind, hsum i hi, u32sub_one hI,
      shlI_ok (by omega) hk (by simp), ok_bind]
    have e : r.get i + ∑ j ∈ range n, W i j * vp.get j -
        (∑ j ∈ range n, W i j) * 2 ^ (cfg.iBit - 1)
        = res.get i + ∑ j ∈ range n, W i j * vec.get j := by
      rw [hri, add_sub_assoc, sum_mul, ← sum_sub_distrib]
      congr 1
      refine sum_congr rfl fun j hj => ?_
      rw [evp j (mem_range.1 hj)]; ring
    rw [updAt_set (x := res.get i + ∑ j ∈ range n, W i j * vec.get j) (by simp; omega), Vec.set_set]
    rw [Vec.set_get, subI_ok (by
      rw [e]
      apply inI32_of_abs
      have h8 : |∑ j ∈ range n, W i j * vec.get j| ≤ (∑ j ∈ range n, |W i j|) * 2 ^ cfg.iBit := by
        refine (abs_sum_le_sum_abs _ _).trans ?_
        rw [sum_mul]
        refine sum_le_sum fun j hj => ?_
        rw [abs_mul]
        refine mul_le_mul_of_nonneg_left ?_ (abs_nonneg _)
        have := hx j (mem_range.1 hj)
        rw [abs_le]; constructor <;> linarith [this.1, this.2]
      have h9 := abs_add_le (res.get i) (∑ j ∈ range n, W i j * vec.get j)
      linarith), e]

theorem encMask_ok {mask : Int} {vp : Vec Int} (hv : n ≤ vec.size) (hp : n ≤ vp.size) :
    encMask mask n vec vp = .ok (vp.over n fun j => and32 mask (vec.get j)) := by
  unfold encMask
  refine setG_ok _ hp fun j hj => ?_
  rw [Vec.rd_ok (by omega), ok_bind]

/-- Two's complement: low bits minus sign bit. -/
theorem tc_split {x : Int} {k : Nat} (h1 : -2 ^ k ≤ x) (h2 : x < 2 ^ k) :
    x % 2 ^ k - x / 2 ^ k % 2 * 2 ^ k = x := by
  have hp : (0 : Int) < 2 ^ k := by positivity
  by_cases h : 0 ≤ x
  · rw [Int.emod_eq_of_lt h h2, Int.ediv_eq_zero_of_lt h h2]; norm_num
  · have e1 : x / 2 ^ k = -1 := by
      have : x = (x + 2 ^ k) + 2 ^ k * (-1) := by ring
      rw [this, Int.add_mul_ediv_left _ _ hp.ne', Int.ediv_eq_zero_of_lt (by omega) (by omega)]
      norm_num
    have e2 := Int.mul_ediv_add_emod x (2 ^ k)
    rw [e1] at e2 ⊢
    have e3 : (-1 : Int) % 2 = 1 := by norm_num
    rw [e3]; linarith

/-- `MapperIntIII`. -/
theorem dMvmIntIII_ok (hstrict : E.strict = false) (hdim : GdDims c.gd (m * cfg.S) m n)
    (hscr : IntScratch a cfg.S m n) (hS : c.shift.size = cfg.S)
    (hsh : ∀ s, s < cfg.S → c.shift.get s < 32) (henc : Enc cfg.S c.shift.get c.D W m n)
    (hI : 1 ≤ cfg.iBit) (hI' : cfg.iBit ≤ 31)
    (hv : n ≤ vec.size) (hr : m ≤ res.size)
    (hx : ∀ j, j < n → -2 ^ (cfg.iBit - 1) ≤ vec.get j ∧ vec.get j < 2 ^ (cfg.iBit - 1))
    (hW : ∀ i j, i < m → j < n → |W i j| ≤ 2147483647)
    (hb : ∀ i, i < m → |res.get i| + (∑ j ∈ range n, |W i j|) * 2 ^ cfg.iBit ≤ 2147483647) :
    ∃ a', dMvmIntIII E cfg c a res vec m n
      = .ok (a', res.over m fun i => res.get i + ∑ j ∈ range n, W i j * vec.get j) ∧
      AuxLike a a' ∧ a'.rng = a.rng ∧ a'.hists = a.hists := by
  obtain ⟨hpr, hpc, hmr, hmc, hsw⟩ := hdim
  obtain ⟨h1, h2, h3⟩ := hscr
  have hpow : (2 : Int) ^ cfg.iBit = 2 * 2 ^ (cfg.iBit - 1) := by
    rw [← pow_succ']; congr 1; omega
  have hpp : (0 : Int) < 2 ^ (cfg.iBit - 1) := by positivity
  unfold dMvmIntIII
  rw [hstrict, u32sub_one hI, maskOf_ok (by omega), ok_bind, encMask_ok hv h1, ok_bind]
  set v1 := a.vdP.over n fun j => and32 (2 ^ (cfg.iBit - 1) - 1) (vec.get j) with hv1
  have e1 : ∀ j, j < n → v1.get j = vec.get j % 2 ^ (cfg.iBit - 1) := fun j hj => by
    rw [hv1, Vec.over_lt hj, and32_comm, and32_mask _ (by omega)]
  have bx1 : ∀ j, j < n → |v1.get j| ≤ 2 ^ (cfg.iBit - 1) := fun j hj => by
    rw [e1 j hj, abs_of_nonneg (Int.emod_nonneg _ hpp.ne')]
    exact (Int.emod_lt_of_pos _ hpp).le
  have bs1 : ∀ i, ∑ j ∈ range n, |W i j| * |v1.get j| ≤
      (∑ j ∈ range n, |W i j|) * 2 ^ (cfg.iBit - 1) := fun i => by
    rw [sum_mul]
    exact sum_le_sum fun j hj => mul_le_mul_of_nonneg_left (bx1 j (mem_range.1 hj)) (abs_nonneg _)
  have hpos : ∀ i, 0 ≤ (∑ j ∈ range n, |W i j|) * 2 ^ (cfg.iBit - 1) := fun i =>
    mul_nonneg (sum_nonneg fun _ _ => abs_nonneg _) hpp.le
  have bp1 : ∀ i, i < m → ∑ j ∈ range n, |W i j| * |v1.get j| ≤ 2147483647 := fun i hi => by
    have h5 := bs1 i
    have h6 := hb i hi
    have h7 := abs_nonneg (res.get i)
    have h8 := hpos i
    rw [hpow] at h6
    linarith
  rw [cols_ok (x := v1.get) henc h3 (fun t j ht hj =>
    diffTerm_ok (by omega) (by omega) (by omega) (by omega) (by rw [hv1]; simp; omega)
      (inI32_of_abs (cell_bound henc hW ht hj)) (prod_bound henc bp1 ht hj)) bp1, ok_bind,
    shl_one (by omega), ok_bind, encMask_ok hv (by rw [hv1]; simpa using h1), ok_bind]
  set v2 := v1.over n fun j => and32 (2 ^ (cfg.iBit - 1)) (vec.get j) with hv2
  have e2 : ∀ j, j < n → v2.get j = vec.get j / 2 ^ (cfg.iBit - 1) % 2 * 2 ^ (cfg.iBit - 1) :=
    fun j hj => by rw [hv2, Vec.over_lt hj, and32_comm, and32_bit _ (by omega)]
  have bx2 : ∀ j, j < n → |v2.get j| ≤ 2 ^ (cfg.iBit - 1) := fun j hj => by
    have h5 : 0 ≤ vec.get j / 2 ^ (cfg.iBit - 1) % 2 := Int.emod_nonneg _ (by norm_num)
    have h6 : vec.get j / 2 ^ (cfg.iBit - 1) % 2 < 2 := Int.emod_lt_of_pos _ (by norm_num)
    rw [e2 j hj, abs_of_nonneg (mul_nonneg h5 hpp.le)]
    nlinarith
  have bs2 : ∀ i, ∑ j ∈ range n, |W i j| * |v2.get j| ≤
      (∑ j ∈ range n, |W i j|) * 2 ^ (cfg.iBit - 1) := fun i => by
    rw [sum_mul]
    exact sum_le_sum fun j hj => mul_le_mul_of_nonneg_left (bx2 j (mem_range.1 hj)) (abs_nonneg _)
  have bp2 : ∀ i, i < m → ∑ j ∈ range n, |W i j| * |v2.get j| ≤ 2147483647 := fun i hi => by
    have h5 := bs2 i
    have h6 := hb i hi
    have h7 := abs_nonneg (res.get i)
    have h8 := hpos i
    rw [hpow] at h6
    linarith
  have ediff : ∀ j, j < n → v1.get j - v2.get j = vec.get j := fun j hj => by
    rw [e1 j hj, e2 j hj]; exact tc_split (hx j hj).1 (hx j hj).2
  have hlt : ∀ t, t < m * cfg.S → t / cfg.S < m := fun t ht =>
    Nat.div_lt_of_lt_mul (by rw [Nat.mul_comm]; exact ht)
  rw [accG_subI (fun t j => c.D t j * v2.get j) (by simpa using h3) (fun t j ht hj =>
    diffTerm_ok (by omega) (by omega) (by omega) (by omega) (by rw [hv2, hv1]; simp; omega)
      (inI32_of_abs (cell_bound henc hW ht hj)) (prod_bound henc bp2 ht hj)) (fun t ht => by
      rw [Vec.over_lt ht]
      have h5 := henc.colAbs v1.get ht
      have h6 := henc.colAbs v2.get ht
      have h7 : |∑ j ∈ range n, c.D t j * v1.get j| ≤ ∑ j ∈ range n, |c.D t j * v1.get j| :=
        abs_sum_le_sum_abs _ _
      have h8 := bs1 (t / cfg.S)
      have h9 := bs2 (t / cfg.S)
      have h10 := hb _ (hlt t ht)
      have h11 := abs_nonneg (res.get (t / cfg.S))
      rw [hpow] at h10
      linarith), ok_bind]
  rw [shifted_ok (x := vec.get) henc hS hsh (by simpa using h3) hr (fun k hk => by
      rw [Vec.over_lt hk, Vec.over_lt hk, ← sum_sub_distrib]
      refine sum_congr rfl fun j hj => ?_
      rw [← ediff j (mem_range.1 hj)]; ring) (fun i hi => by
      have h6 := hb i hi
      have h8 : ∑ j ∈ range n, |W i j| * |vec.get j| ≤
          (∑ j ∈ range n, |W i j|) * 2 ^ (cfg.iBit - 1) := by
        rw [sum_mul]
        refine sum_le_sum fun j hj => mul_le_mul_of_nonneg_left ?_ (abs_nonneg _)
        have := hx j (mem_range.1 hj)
        rw [abs_le]; exact ⟨this.1, this.2.le⟩
      have h9 := hpos i
      rw [hpow] at h6
      linarith), ok_bind]
  exact ⟨_, rfl, by constructor <;> rfl, rfl, rfl⟩

/-- `MapperIntIV`. -/
theorem dMvmIntIV_ok (hstrict : E.strict = false) (hdim : GdDims c.gd (m * cfg.S) m n)
    (hscr : IntScratch a cfg.S m n) (hS : c.shift.size = cfg.S)
    (hsh : ∀ s, s < cfg.S → c.shift.get s < 32) (henc : Enc cfg.S c.shift.get c.D W m n)
    (hv : n ≤ vec.size) (hr : m ≤ res.size)
    (hW : ∀ i j, i < m → j < n → |W i j| ≤ 2147483647)
    (hb : ∀ i, i < m → |res.get i| + ∑ j ∈ range n, |W i j| * |vec.get j| ≤ 2147483647) :
    ∃ a', dMvmIntIV E cfg c a res vec m n
      = .ok (a', res.over m fun i => res.get i + ∑ j ∈ range n, W i j * vec.get j) ∧
      AuxLike a a' ∧ a'.rng = a.rng ∧ a'.hists = a.hists := by
  obtain ⟨hpr, hpc, hmr, hmc, hsw⟩ := hdim
  obtain ⟨h1, h2, h3⟩ := hscr
  have bp : ∀ i, i < m → ∑ j ∈ range n, |W i j| * |vec.get j| ≤ 2147483647 := fun i hi => by
    have h6 := hb i hi
    have h7 := abs_nonneg (res.get i)
    linarith
  unfold dMvmIntIV
  rw [hstrict, cols_ok (x := vec.get) henc h3 (fun t j ht hj =>
    diffTerm_ok (by omega) (by omega) (by omega) (by omega) (by omega)
      (inI32_of_abs (cell_bound henc hW ht hj)) (prod_bound henc bp ht hj)) bp, ok_bind]
  rw [shifted_ok (x := vec.get) henc hS hsh (by simpa using h3) hr (fun k hk => Vec.over_lt hk) hb,
    ok_bind]
  exact ⟨_, rfl, by constructor <;> rfl, rfl, rfl⟩

/-- `MapperIntV`: the plus cells encode the matrix `V = W + 2^(W_BIT-1)`.  The final subtraction is
done in 64 bits and truncated, so only the end result has to fit. -/
theorem dMvmIntV_ok {V : Nat → Nat → Int} (hstrict : E.strict = false)
    (hdim : GdDims c.gd (m * cfg.S) m n)
    (hscr : IntScratch a cfg.S m n) (hS : c.shift.size = cfg.S)
    (hsh : ∀ s, s < cfg.S → c.shift.get s < 32) (henc : Enc cfg.S c.shift.get c.gd.p.get V m n)
    (hV : ∀ i j, i < m → j < n → V i j = W i j + 2 ^ (cfg.wBit - 1))
    (hw : 1 ≤ cfg.wBit) (hw' : cfg.wBit ≤ 31) (hn : n ≤ 2147483647)
    (hv : n ≤ vec.size) (hr : m ≤ res.size) (hx : ∀ j, j < n → InI32 (vec.get j))
    (hsum : 0 < m → |∑ j ∈ range n, vec.get j| ≤ 2147483647)
    (hb : ∀ i, i < m → |res.get i| + ∑ j ∈ range n, |V i j| * |vec.get j| ≤ 2147483647)
    (hfin : ∀ i, i < m → InI32 (res.get i + ∑ j ∈ range n, W i j * vec.get j)) :
    ∃ a', dMvmIntV E cfg c a res vec m n
      = .ok (a', res.over m fun i => res.get i + ∑ j ∈ range n, W i j * vec.get j) ∧
      AuxLike a a' ∧ a'.rng = a.rng ∧ a'.hists = a.hists := by
  obtain ⟨hpr, hpc, hmr, hmc, hsw⟩ := hdim
  obtain ⟨h1, h2, h3⟩ := hscr
  have bp : ∀ i, i < m → ∑ j ∈ range n, |V i j| * |vec.get j| ≤ 2147483647 := fun i hi => by
    have h6 := hb i hi
    have h7 := abs_nonneg (res.get i)
    linarith
  unfold dMvmIntV
  rw [hstrict, inpSum_ok hv hn hx, ok_bind, cols_ok (x := vec.get) henc h3 (fun t j ht hj =>
    posTerm_ok (by omega) (by omega) (by omega) (prod_bound henc bp ht hj)) bp, ok_bind]
  rw [rowLoop_ok (v := res) (fun i => res.get i + ∑ j ∈ range n, W i j * vec.get j), ok_bind]
  · exact ⟨_, rfl, by constructor <;> rfl, rfl, rfl⟩
  · intro i hi r hrs hri
    have hpp : (0 : Int) < 2 ^ (cfg.wBit - 1) := by positivity
    have hle : (2 : Int) ^ (cfg.wBit - 1) ≤ 1073741824 := by
      have : (1073741824 : Int) = 2 ^ 30 := by norm_num
      rw [this]; exact pow_le_pow_right₀ (by norm_num) (by omega)
    have hk : InI64 ((∑ j ∈ range n, vec.get j) * 2 ^ (cfg.wBit - 1)) := by
      have h5 : |(∑ j ∈ range n, vec.get j) * 2 ^ (cfg.wBit - 1)| ≤ 2147483647 * 1073741824 := by
        rw [abs_mul, abs_of_pos hpp]
        exact mul_le_mul (hsum (by omega)) hle hpp.le (by norm_num)
      rw [abs_le] at h5
      exact ⟨by linarith [h5.1], by linarith [h5.2]⟩
    rw [shiftedRow_ok (x := vec.get) hi henc hS hsh (by simpa using h3) (by omega)
      (fun k hk => Vec.over_lt hk) (by rw [hri]; exact hb i hi), ok_bind, u32sub_one hw,
      shlL_ok (by omega) hk (by simp), ok_bind]
    have e : r.get i + ∑ j ∈ range n, V i j * vec.get j -
        (∑ j ∈ range n, vec.get j) * 2 ^ (cfg.wBit - 1)
        = res.get i + ∑ j ∈ range n, W i j * vec.get j := by
      rw [hri, add_sub_assoc, sum_mul, ← sum_sub_distrib]
      congr 1
      refine sum_congr rfl fun j hj => ?_
      rw [hV i j hi (mem_range.1 hj)]; ring
    have hf := hfin i hi
    rw [updAt_set (x := res.get i + ∑ j ∈ range n, W i j * vec.get j) (by simp; omega), Vec.set_set]
    rw [Vec.set_get, e, i64_ok ⟨by have := hf.1; omega, by have := hf.2; omega⟩, ok_bind,
      wrap32_id hf]

end

end Acs
