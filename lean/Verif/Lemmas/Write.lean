import Verif.Lemmas.Blk
import Verif.Model.Mapper

/-! # Closed forms of the weight encoders -/

namespace Acs

open Finset

/-- Base-`2^sp` digit of `a` at bit position `sh`. -/
def dg (a : Int) (sh sp : Nat) : Int := a / 2 ^ sh % 2 ^ sp

theorem maskOf_ok {strict : Bool} {k : Nat} (hk : k ≤ 30) : maskOf strict k = .ok (2 ^ k - 1) := by
  unfold maskOf
  rw [shl_one hk, ok_bind, subI_ok]
  have := two_pow_inI32 hk
  have hpos : (0 : Int) < 2 ^ k := by positivity
  constructor <;> [omega; exact le_trans (by omega) this.2]

theorem digit_ok {strict : Bool} {w : Int} {sh sp : Nat} (hsh : sh < 32) (hsp : sp ≤ 30) :
    digit strict w sh sp = .ok (dg w sh sp) := by
  unfold digit
  rw [shrI_ok hsh, ok_bind, maskOf_ok hsp, ok_bind, and32_mask _ (by omega)]
  rfl

/-! ## Differential encoding -/

/-- Plus cell of a weight in differential encoding. -/
def cellP (w : Int) (sh sp : Nat) : Int := if 0 ≤ w then dg w sh sp else 0
/-- Minus cell of a weight in differential encoding. -/
def cellM (w : Int) (sh sp : Nat) : Int := if 0 ≤ w then 0 else dg (-w) sh sp

/-- Cell array after `d_write_diff`. -/
def gdDiff (split : List Nat) (shift : Vec Nat) (mat : Vec Int) (m n : Nat) (gd : Gd) : Gd :=
  ⟨gd.p.over (m * split.length) n fun t j => cellP (mat.get (n * (t / split.length) + j))
      (shift.get (t % split.length)) (split.getD (t % split.length) 0),
   gd.m.over (m * split.length) n fun t j => cellM (mat.get (n * (t / split.length) + j))
      (shift.get (t % split.length)) (split.getD (t % split.length) 0),
   gd.sumW.over m fun i => ∑ j ∈ range n, mat.get (n * i + j)⟩

theorem dWriteDiff_exact {strict : Bool} {split : List Nat} {shift : Vec Nat} {mat : Vec Int}
    {m n : Nat} {gd : Gd} (hS : shift.size = split.length)
    (hsh : ∀ s, s < split.length → shift.get s < 32)
    (hsp : ∀ s, s < split.length → split.getD s 0 ≤ 30)
    (hpr : m * split.length ≤ gd.p.rows) (hpc : n ≤ gd.p.cols)
    (hmr : m * split.length ≤ gd.m.rows) (hmc : n ≤ gd.m.cols)
    (hsw : m ≤ gd.sumW.size) (hmat : m * n ≤ mat.size)
    (hb : ∀ i k, i < m → k ≤ n → InI32 (∑ j ∈ range k, mat.get (n * i + j)))
    (hng : ∀ i j, i < m → j < n → InI32 (-mat.get (n * i + j))) :
    dWriteDiff strict split shift mat m n gd = .ok (gdDiff split shift mat m n gd) := by
  set S := split.length with hSdef
  set fp : Nat → Nat → Int := fun t j => cellP (mat.get (n * (t / S) + j))
      (shift.get (t % S)) (split.getD (t % S) 0) with hfp
  set fm : Nat → Nat → Int := fun t j => cellM (mat.get (n * (t / S) + j))
      (shift.get (t % S)) (split.getD (t % S) 0) with hfm
  unfold dWriteDiff
  refine (loop_ok (fun i => (⟨gd.p.blk S n fp i 0, gd.m.blk S n fm i 0,
    gd.sumW.over i fun i => ∑ j ∈ range n, mat.get (n * i + j)⟩ : Gd)) ?_ ?_).trans ?_
  · simp [Mat.blk_zero, Vec.over_zero]
  · intro i hi
    have inner : loop n (fun j (st : Gd × Int) => do
      let w ← mat.rd (n * i + j)
      let sum ← addI st.2 w
      let gd ← loop split.length (fun s (gd : Gd) => do
        let sh ← shift.rd s
        if 0 ≤ w then do
          let d ← digit strict w sh (split.getD s 0)
          let p ← gd.p.wr (i * split.length + s) j d
          let q ← gd.m.wr (i * split.length + s) j 0
          .ok { gd with p := p, m := q }
        else do
          let p ← gd.p.wr (i * split.length + s) j 0
          let a ← negI w
          let d ← digit strict a sh (split.getD s 0)
          let q ← gd.m.wr (i * split.length + s) j d
          .ok { gd with p := p, m := q }) st.1
      .ok (gd, sum)) ((⟨gd.p.blk S n fp i 0, gd.m.blk S n fm i 0,
        gd.sumW.over i fun i => ∑ j ∈ range n, mat.get (n * i + j)⟩ : Gd), 0)
      = .ok ((⟨gd.p.blk S n fp i n, gd.m.blk S n fm i n,
        gd.sumW.over i fun i => ∑ j ∈ range n, mat.get (n * i + j)⟩ : Gd),
          ∑ j ∈ range n, mat.get (n * i + j)) := by
      refine loop_ok (fun j => ((⟨gd.p.blk S n fp i j, gd.m.blk S n fm i j,
        gd.sumW.over i fun i => ∑ j ∈ range n, mat.get (n * i + j)⟩ : Gd),
          ∑ j ∈ range j, mat.get (n * i + j))) (by simp) fun j hj => ?_
      rw [Vec.rd_ok (by have := idx_lt hi hj; omega)]
      simp only [ok_bind]
      rw [addI_ok (by
        rw [← sum_range_succ (fun j => mat.get (n * i + j))]
        exact hb i (j + 1) hi hj)]
      simp only [ok_bind]
      have hseg : loop split.length (fun s (gd : Gd) => do
        let sh ← shift.rd s
        if 0 ≤ mat.get (n * i + j) then do
          let d ← digit strict (mat.get (n * i + j)) sh (split.getD s 0)
          let p ← gd.p.wr (i * split.length + s) j d
          let q ← gd.m.wr (i * split.length + s) j 0
          .ok { gd with p := p, m := q }
        else do
          let p ← gd.p.wr (i * split.length + s) j 0
          let a ← negI (mat.get (n * i + j))
          let d ← digit strict a sh (split.getD s 0)
          let q ← gd.m.wr (i * split.length + s) j d
          .ok { gd with p := p, m := q }) (⟨gd.p.blk S n fp i j, gd.m.blk S n fm i j,
        gd.sumW.over i fun i => ∑ j ∈ range n, mat.get (n * i + j)⟩ : Gd)
        = .ok (⟨gd.p.blk S n fp i (j + 1), gd.m.blk S n fm i (j + 1),
        gd.sumW.over i fun i => ∑ j ∈ range n, mat.get (n * i + j)⟩ : Gd) := by
        refine (loop_ok (fun s => (⟨gd.p.blk3 S n fp i j s, gd.m.blk3 S n fm i j s,
          gd.sumW.over i fun i => ∑ j ∈ range n, mat.get (n * i + j)⟩ : Gd))
          (by simp [Mat.blk3_zero]) fun s hs => ?_).trans
          (by rw [← hSdef]; simp [Mat.blk3_end])
        have hrow := blk_lt (S := S) hi hs
        have h1 : fp (i * S + s) j = cellP (mat.get (n * i + j)) (shift.get s) (split.getD s 0) := by
          simp only [hfp]; rw [blk_div hs, blk_mod hs]
        have h2 : fm (i * S + s) j = cellM (mat.get (n * i + j)) (shift.get s) (split.getD s 0) := by
          simp only [hfm]; rw [blk_div hs, blk_mod hs]
        rw [Vec.rd_ok (by omega)]
        simp only [ok_bind]
        by_cases hw0 : 0 ≤ mat.get (n * i + j)
        · rw [if_pos hw0, digit_ok (hsh s hs) (hsp s hs)]
          simp only [ok_bind]
          rw [Mat.blk3_wr (by omega) (by omega) (by rw [h1, cellP, if_pos hw0]), ok_bind,
            Mat.blk3_wr (by omega) (by omega) (by rw [h2, cellM, if_pos hw0]), ok_bind]
        · rw [if_neg hw0, Mat.blk3_wr (by omega) (by omega) (by rw [h1, cellP, if_neg hw0]), ok_bind,
            negI_ok (hng i j hi hj), ok_bind, digit_ok (hsh s hs) (hsp s hs)]
          simp only [ok_bind]
          rw [Mat.blk3_wr (by omega) (by omega) (by rw [h2, cellM, if_neg hw0]), ok_bind]
      rw [hseg, ok_bind, sum_range_succ (fun j => mat.get (n * i + j))]
    rw [inner, ok_bind]
    dsimp only
    rw [Vec.over_wr (f := fun i => ∑ j ∈ range n, mat.get (n * i + j)) (by omega), ok_bind,
      ← Mat.blk_row, ← Mat.blk_row]
  · simp only [Mat.blk_end]
    rfl

theorem dWriteDiff_ok {strict : Bool} {split : List Nat} {shift : Vec Nat} {mat : Vec Int}
    {m n : Nat} {gd : Gd} (hS : shift.size = split.length)
    (hsh : ∀ s, s < split.length → shift.get s < 32)
    (hsp : ∀ s, s < split.length → split.getD s 0 ≤ 30)
    (hpr : m * split.length ≤ gd.p.rows) (hpc : n ≤ gd.p.cols)
    (hmr : m * split.length ≤ gd.m.rows) (hmc : n ≤ gd.m.cols)
    (hsw : m ≤ gd.sumW.size) (hmat : m * n ≤ mat.size)
    (hb : ∀ i, i < m → ∑ j ∈ range n, |mat.get (n * i + j)| ≤ 2147483647) :
    dWriteDiff strict split shift mat m n gd = .ok (gdDiff split shift mat m n gd) := by
  refine dWriteDiff_exact hS hsh hsp hpr hpc hmr hmc hsw hmat (fun i k hi hk => ?_) fun i j hi hj => ?_
  · have := abs_add_sum_le (g := fun j => mat.get (n * i + j)) (a := 0) (B := 2147483647)
      (N := n) (k := k) hk (by simpa using hb i hi)
    rw [zero_add] at this
    exact inI32_of_abs this
  · refine inI32_of_abs ?_
    rw [abs_neg]
    refine le_trans ?_ (hb i hi)
    exact single_le_sum (f := fun j => |mat.get (n * i + j)|) (fun _ _ => abs_nonneg _) (mem_range.2 hj)

/-! ## Offset encoding -/

def gdOffs (wBit : Nat) (split : List Nat) (shift : Vec Nat) (mat : Vec Int) (m n : Nat) (gd : Gd) :
    Gd :=
  ⟨gd.p.over (m * split.length) n fun t j =>
      dg (mat.get (n * (t / split.length) + j) + 2 ^ (wBit - 1))
        (shift.get (t % split.length)) (split.getD (t % split.length) 0),
   gd.m, gd.sumW⟩

theorem dWriteOffs_ok {strict : Bool} {wBit : Nat} {split : List Nat} {shift : Vec Nat}
    {mat : Vec Int} {m n : Nat} {gd : Gd} (hS : shift.size = split.length)
    (hsh : ∀ s, s < split.length → shift.get s < 32)
    (hsp : ∀ s, s < split.length → split.getD s 0 ≤ 30) (hW : 1 ≤ wBit) (hW' : wBit ≤ 31)
    (hpr : m * split.length ≤ gd.p.rows) (hpc : n ≤ gd.p.cols) (hmat : m * n ≤ mat.size)
    (hb : ∀ i j, i < m → j < n → InI32 (mat.get (n * i + j) + 2 ^ (wBit - 1))) :
    dWriteOffs strict wBit split shift mat m n gd = .ok (gdOffs wBit split shift mat m n gd) := by
  set S := split.length with hSdef
  set fp : Nat → Nat → Int := fun t j => dg (mat.get (n * (t / S) + j) + 2 ^ (wBit - 1))
      (shift.get (t % S)) (split.getD (t % S) 0) with hfp
  unfold dWriteOffs
  refine (loop2_ok (fun i j => ({ gd with p := gd.p.blk S n fp i j } : Gd)) ?_ ?_ ?_).trans ?_
  · simp [Mat.blk_zero]
  · intro i _; simp only [Mat.blk_row]
  · intro i j hi hj
    rw [Vec.rd_ok (by have := idx_lt hi hj; omega), ok_bind, u32sub_one hW,
      shl_one (by omega), ok_bind, addI_ok (hb i j hi hj), ok_bind]
    refine (loop_ok (fun s => ({ gd with p := gd.p.blk3 S n fp i j s } : Gd))
          (by simp [Mat.blk3_zero]) fun s hs => ?_).trans
          (by rw [← hSdef]; simp [Mat.blk3_end])
    have hrow := blk_lt (S := S) hi hs
    have h1 : fp (i * S + s) j = dg (mat.get (n * i + j) + 2 ^ (wBit - 1)) (shift.get s)
        (split.getD s 0) := by
      simp only [hfp]; rw [blk_div hs, blk_mod hs]
    rw [Vec.rd_ok (by omega)]
    simp only [ok_bind]
    rw [digit_ok (hsh s hs) (hsp s hs)]
    simp only [ok_bind]
    rw [Mat.blk3_wr (by omega) (by omega) h1, ok_bind]
  · simp only [Mat.blk_end]
    rfl

/-! ## Binary and ternary encodings -/

/-- Cell array after `d_write_diff_bnn` and `d_write_diff_tnn`. -/
def gdPM (mat : Vec Int) (m n : Nat) (gd : Gd) : Gd :=
  ⟨gd.p.over m n fun i j => if mat.get (n * i + j) = 1 then 1 else 0,
   gd.m.over m n fun i j => if mat.get (n * i + j) = -1 then 1 else 0,
   gd.sumW.over m fun i => ∑ j ∈ range n, mat.get (n * i + j)⟩

section
variable {mat : Vec Int} {m n : Nat} {gd : Gd}

theorem sum_tern_inI32 {i : Nat} {k : Nat} (hn : n ≤ 2147483647) (hk : k ≤ n)
    (hw : ∀ j, j < n → |mat.get (n * i + j)| ≤ 1) :
    InI32 (∑ j ∈ range k, mat.get (n * i + j)) := by
  apply inI32_of_abs
  refine (abs_sum_le_sum_abs _ _).trans ?_
  calc ∑ j ∈ range k, |mat.get (n * i + j)| ≤ ∑ j ∈ range k, 1 :=
        sum_le_sum fun j hj => hw j (by have := mem_range.1 hj; omega)
    _ = k := by simp
    _ ≤ _ := by exact_mod_cast hk.trans hn

theorem dWriteDiffBnn_ok (hpr : m ≤ gd.p.rows) (hpc : n ≤ gd.p.cols)
    (hmr : m ≤ gd.m.rows) (hmc : n ≤ gd.m.cols) (hsw : m ≤ gd.sumW.size) (hmat : m * n ≤ mat.size)
    (hn : n ≤ 2147483647)
    (hw : ∀ i j, i < m → j < n → mat.get (n * i + j) = 1 ∨ mat.get (n * i + j) = -1) :
    dWriteDiffBnn mat m n gd = .ok (gdPM mat m n gd) := by
  set fp : Nat → Nat → Int := fun i j => if mat.get (n * i + j) = 1 then 1 else 0 with hfp
  set fm : Nat → Nat → Int := fun i j => if mat.get (n * i + j) = -1 then 1 else 0 with hfm
  unfold dWriteDiffBnn
  refine (loop_ok (fun i => (⟨gd.p.blk 1 n fp i 0, gd.m.blk 1 n fm i 0,
    gd.sumW.over i fun i => ∑ j ∈ range n, mat.get (n * i + j)⟩ : Gd)) ?_ ?_).trans ?_
  · simp [Mat.blk_zero, Vec.over_zero]
  · intro i hi
    rw [loop_ok (n := n) (fun j => ((⟨gd.p.blk 1 n fp i j, gd.m.blk 1 n fm i j,
        gd.sumW.over i fun i => ∑ j ∈ range n, mat.get (n * i + j)⟩ : Gd),
          ∑ j ∈ range j, mat.get (n * i + j))) (by simp) ?_, ok_bind]
    · dsimp only
      rw [Vec.over_wr (f := fun i => ∑ j ∈ range n, mat.get (n * i + j)) (by omega), ok_bind,
        ← Mat.blk_row, ← Mat.blk_row]
    · intro j hj
      rw [Vec.rd_ok (by have := idx_lt hi hj; omega)]
      simp only [ok_bind]
      rw [addI_ok (by
        rw [← sum_range_succ (fun j => mat.get (n * i + j))]
        exact sum_tern_inI32 hn (by omega) fun j hj => by rcases hw i j hi hj with h | h <;> simp [h]),
        ok_bind, ← sum_range_succ (fun j => mat.get (n * i + j))]
      rcases hw i j hi hj with h | h
      · rw [if_pos h, h, Mat.blk_wr (by omega) (by omega) (by simp [hfp, h]), ok_bind,
          Mat.blk_wr (by omega) (by omega) (by simp [hfm, h]), ok_bind]
      · rw [if_neg (by omega), if_pos h, h, Mat.blk_wr (by omega) (by omega) (by simp [hfp, h]),
          ok_bind, negI_ok (by decide), ok_bind,
          Mat.blk_wr (by omega) (by omega) (by simp [hfm, h]), ok_bind]
  · simp only [Mat.blk_end, Nat.mul_one]
    rfl

theorem dWriteDiffTnn_ok (hpr : m ≤ gd.p.rows) (hpc : n ≤ gd.p.cols)
    (hmr : m ≤ gd.m.rows) (hmc : n ≤ gd.m.cols) (hsw : m ≤ gd.sumW.size) (hmat : m * n ≤ mat.size)
    (hn : n ≤ 2147483647)
    (hw : ∀ i j, i < m → j < n → mat.get (n * i + j) = 1 ∨ mat.get (n * i + j) = -1 ∨
      mat.get (n * i + j) = 0) :
    dWriteDiffTnn mat m n gd = .ok (gdPM mat m n gd) := by
  set fp : Nat → Nat → Int := fun i j => if mat.get (n * i + j) = 1 then 1 else 0 with hfp
  set fm : Nat → Nat → Int := fun i j => if mat.get (n * i + j) = -1 then 1 else 0 with hfm
  unfold dWriteDiffTnn
  refine (loop_ok (fun i => (⟨gd.p.blk 1 n fp i 0, gd.m.blk 1 n fm i 0,
    gd.sumW.over i fun i => ∑ j ∈ range n, mat.get (n * i + j)⟩ : Gd)) ?_ ?_).trans ?_
  · simp [Mat.blk_zero, Vec.over_zero]
  · intro i hi
    rw [loop_ok (n := n) (fun j => ((⟨gd.p.blk 1 n fp i j, gd.m.blk 1 n fm i j,
        gd.sumW.over i fun i => ∑ j ∈ range n, mat.get (n * i + j)⟩ : Gd),
          ∑ j ∈ range j, mat.get (n * i + j))) (by simp) ?_, ok_bind]
    · dsimp only
      rw [Vec.over_wr (f := fun i => ∑ j ∈ range n, mat.get (n * i + j)) (by omega), ok_bind,
        ← Mat.blk_row, ← Mat.blk_row]
    · intro j hj
      rw [Vec.rd_ok (by have := idx_lt hi hj; omega)]
      simp only [ok_bind]
      rw [addI_ok (by
        rw [← sum_range_succ (fun j => mat.get (n * i + j))]
        exact sum_tern_inI32 hn (by omega)
          fun j hj => by rcases hw i j hi hj with h | h | h <;> simp [h]),
        ok_bind, ← sum_range_succ (fun j => mat.get (n * i + j))]
      rcases hw i j hi hj with h | h | h
      · rw [if_pos h, h, Mat.blk_wr (by omega) (by omega) (by simp [hfp, h]), ok_bind,
          Mat.blk_wr (by omega) (by omega) (by simp [hfm, h]), ok_bind]
      · rw [if_neg (by omega), if_pos h, h, Mat.blk_wr (by omega) (by omega) (by simp [hfp, h]),
          ok_bind, negI_ok (by decide), ok_bind,
          Mat.blk_wr (by omega) (by omega) (by simp [hfm, h]), ok_bind]
      · rw [if_neg (by omega), if_neg (by omega), if_pos h,
          Mat.blk_wr (by omega) (by omega) (by simp [hfp, h]),
          ok_bind, Mat.blk_wr (by omega) (by omega) (by simp [hfm, h]), ok_bind]
  · simp only [Mat.blk_end, Nat.mul_one]
    rfl

/-- Cell array after `MapperBnnIII::d_write`. -/
def gdBnn3 (mat : Vec Int) (m n : Nat) (gd : Gd) : Gd :=
  { gd with p := gd.p.over m n fun i j => (mat.get (n * i + j) + 1) / 2 }

theorem dWriteBnn3_ok (hpr : m ≤ gd.p.rows) (hpc : n ≤ gd.p.cols) (hmat : m * n ≤ mat.size)
    (hw : ∀ i j, i < m → j < n → InI32 (mat.get (n * i + j) + 1)) :
    dWriteBnn3 mat m n gd = .ok (gdBnn3 mat m n gd) := by
  unfold dWriteBnn3
  refine (loop2_ok (fun i j => ({ gd with
    p := gd.p.blk 1 n (fun i j => (mat.get (n * i + j) + 1) / 2) i j } : Gd)) ?_ ?_ ?_).trans ?_
  · simp [Mat.blk_zero]
  · intro i _; simp only [Mat.blk_row]
  · intro i j hi hj
    rw [Vec.rd_ok (by have := idx_lt hi hj; omega), ok_bind, addI_ok (hw i j hi hj), ok_bind,
      shrI_ok (by omega), ok_bind, Mat.blk_wr (by omega) (by omega) (by simp), ok_bind]
  · simp only [Mat.blk_end, Nat.mul_one]; rfl

/-- Cell array after `MapperBnnIV::d_write`. -/
def gdBnn4 (mat : Vec Int) (m n : Nat) (gd : Gd) : Gd :=
  { gd with p := gd.p.over m n fun i j => (mat.get (n * i + j) - 1).tdiv (-2) }

theorem dWriteBnn4_ok (hpr : m ≤ gd.p.rows) (hpc : n ≤ gd.p.cols) (hmat : m * n ≤ mat.size)
    (hw : ∀ i j, i < m → j < n → InI32 (mat.get (n * i + j) - 1)) :
    dWriteBnn4 mat m n gd = .ok (gdBnn4 mat m n gd) := by
  unfold dWriteBnn4
  refine (loop2_ok (fun i j => ({ gd with
    p := gd.p.blk 1 n (fun i j => (mat.get (n * i + j) - 1).tdiv (-2)) i j } : Gd)) ?_ ?_ ?_).trans ?_
  · simp [Mat.blk_zero]
  · intro i _; simp only [Mat.blk_row]
  · intro i j hi hj
    rw [Vec.rd_ok (by have := idx_lt hi hj; omega), ok_bind, subI_ok (hw i j hi hj), ok_bind,
      Mat.blk_wr (by omega) (by omega) (by simp), ok_bind]
  · simp only [Mat.blk_end, Nat.mul_one]; rfl

/-- Cell array after `d_write_tc_tnn`: the two low bits of `w` (or `w + 1`). -/
def gdTc (offset : Bool) (mat : Vec Int) (m n : Nat) (gd : Gd) : Gd :=
  { gd with
    p := gd.p.over m n fun i j => (mat.get (n * i + j) + offset.toNat) % 2
    m := gd.m.over m n fun i j => (mat.get (n * i + j) + offset.toNat) / 2 % 2 }

theorem and32_two (a : Int) : and32 a 2 = a / 2 % 2 * 2 := by
  have := and32_bit a (k := 1) (by norm_num)
  simpa using this

theorem shr_and_two (a : Int) : shrI (and32 a 2) 1 = .ok (a / 2 % 2) := by
  rw [shrI_ok (by omega), and32_two, pow_one, Int.mul_ediv_cancel _ (by norm_num)]

theorem dWriteTcTnn_ok {offset : Bool} (hpr : m ≤ gd.p.rows) (hpc : n ≤ gd.p.cols)
    (hmr : m ≤ gd.m.rows) (hmc : n ≤ gd.m.cols) (hmat : m * n ≤ mat.size)
    (hw : ∀ i j, i < m → j < n → InI32 (mat.get (n * i + j) + offset.toNat)) :
    dWriteTcTnn [1, 1] offset mat m n gd = .ok (gdTc offset mat m n gd) := by
  unfold dWriteTcTnn
  rw [if_pos rfl]
  refine (loop2_ok (fun i j => ({ gd with
    p := gd.p.blk 1 n (fun i j => (mat.get (n * i + j) + offset.toNat) % 2) i j
    m := gd.m.blk 1 n (fun i j => (mat.get (n * i + j) + offset.toNat) / 2 % 2) i j } : Gd))
    ?_ ?_ ?_).trans ?_
  · simp [Mat.blk_zero]
  · intro i _; simp only [Mat.blk_row]
  · intro i j hi hj
    have h1 : (if offset = true then addI (mat.get (n * i + j)) 1 else .ok (mat.get (n * i + j)))
        = .ok (mat.get (n * i + j) + offset.toNat) := by
      have := hw i j hi hj
      cases offset with
      | false => simp
      | true => rw [if_pos rfl]; exact addI_ok this
    rw [Vec.rd_ok (by have := idx_lt hi hj; omega), ok_bind, h1, ok_bind, and32_one,
      Mat.blk_wr (by omega) (by omega) rfl, ok_bind, shr_and_two, ok_bind,
      Mat.blk_wr (by omega) (by omega) rfl, ok_bind]
  · simp only [Mat.blk_end, Nat.mul_one]; rfl

end

end Acs
