import Verif.Lemmas.Shape

/-!
# Successful writes

Every write that returns normally leaves exactly the closed form of `Verif.Lemmas.Write` in the cell
array, whatever the weights are (no range or headroom hypotheses).
-/

set_option linter.unusedSectionVars false

namespace Acs

open Finset

theorem loop_inv {σ : Type} {n : Nat} {f : Nat → σ → C σ} {s t : σ} (inv : Nat → σ)
    (h0 : inv 0 = s) (hs : ∀ i, i < n → ∀ t, f i (inv i) = .ok t → t = inv (i + 1))
    (h : loop n f s = .ok t) : t = inv n := by
  induction n generalizing t with
  | zero => rw [loop_zero] at h; rw [h0]; exact (Except.ok.inj h).symm
  | succ n ih =>
    rw [loop_succ, bind_eq_ok] at h
    obtain ⟨u, h1, h2⟩ := h
    rw [ih (fun i hi => hs i (by omega)) h1] at h2
    exact hs n (by omega) t h2

theorem loop2_inv {σ : Type} {m n : Nat} {f : Nat → Nat → σ → C σ} {s t : σ} (inv : Nat → Nat → σ)
    (h0 : inv 0 0 = s) (hrow : ∀ i, i < m → inv (i + 1) 0 = inv i n)
    (hs : ∀ i j, i < m → j < n → ∀ t, f i j (inv i j) = .ok t → t = inv i (j + 1))
    (h : loop m (fun i st => loop n (f i) st) s = .ok t) : t = inv m 0 := by
  refine loop_inv (fun i => inv i 0) h0 (fun i hi t ht => ?_) h
  rw [hrow i hi]
  exact loop_inv (inv i) rfl (fun j hj => hs i j hi hj) ht

theorem i32_eq_ok {z a : Int} : i32 z = .ok a ↔ InI32 z ∧ z = a := by
  unfold i32
  split
  · next h => simp [h]
  · next h => simp [h]

theorem addI_eq_ok {a b c : Int} : addI a b = .ok c ↔ InI32 (a + b) ∧ a + b = c := i32_eq_ok
theorem subI_eq_ok {a b c : Int} : subI a b = .ok c ↔ InI32 (a - b) ∧ a - b = c := i32_eq_ok
theorem mulI_eq_ok {a b c : Int} : mulI a b = .ok c ↔ InI32 (a * b) ∧ a * b = c := i32_eq_ok
theorem negI_eq_ok {a c : Int} : negI a = .ok c ↔ InI32 (-a) ∧ -a = c := i32_eq_ok
theorem shrI_eq_ok {a c : Int} {k : Nat} : shrI a k = .ok c ↔ k < 32 ∧ a / 2 ^ k = c := by
  unfold shrI
  split
  · next h => simp [h]
  · next h => simp [h]
theorem Vec.rd_eq_ok {α : Type} {v : Vec α} {i : Nat} {a : α} :
    v.rd i = .ok a ↔ i < v.size ∧ v.get i = a := by
  unfold Vec.rd
  split
  · next h => simp [h]
  · next h => simp [h]
theorem Mat.rd_eq_ok {α : Type} {A : Mat α} {i j : Nat} {a : α} :
    A.rd i j = .ok a ↔ (i < A.rows ∧ j < A.cols) ∧ A.get i j = a := by
  unfold Mat.rd
  split
  · next h => simp [h]
  · next h => simp [h]
theorem Vec.wr_lt {α : Type} {v w : Vec α} {i : Nat} {a : α} (h : v.wr i a = .ok w) :
    i < v.size := by
  unfold Vec.wr at h
  split at h
  · assumption
  · cases h
theorem Mat.wr_lt {α : Type} {A B : Mat α} {i j : Nat} {a : α} (h : A.wr i j a = .ok B) :
    i < A.rows ∧ j < A.cols := by
  unfold Mat.wr at h
  split at h
  · assumption
  · cases h

theorem ok_inj {α : Type} {a b : α} : (Except.ok a : C α) = .ok b ↔ a = b := by
  constructor
  · exact fun h => Except.ok.inj h
  · exact fun h => by rw [h]

theorem Mat.blk3_wr_inv {α : Type} {A B : Mat α} {S n : Nat} {f : Nat → Nat → α} {i j s : Nat} {a : α}
    (h : (A.blk3 S n f i j s).wr (i * S + s) j a = .ok B) (ha : f (i * S + s) j = a) :
    B = A.blk3 S n f i j (s + 1) := by
  have h1 := Mat.wr_lt h
  rw [Mat.blk3_rows, Mat.blk3_cols] at h1
  rw [Mat.blk3_wr h1.1 h1.2 ha] at h
  exact (Except.ok.inj h).symm

theorem Mat.blk_wr_inv {α : Type} {A B : Mat α} {n : Nat} {f : Nat → Nat → α} {i j : Nat} {a : α}
    (h : (A.blk 1 n f i j).wr i j a = .ok B) (ha : f i j = a) :
    B = A.blk 1 n f i (j + 1) := by
  have h1 := Mat.wr_lt h
  rw [Mat.blk_rows, Mat.blk_cols] at h1
  rw [Mat.blk_wr h1.1 h1.2 ha] at h
  exact (Except.ok.inj h).symm

theorem Vec.over_wr_inv {α : Type} {v w : Vec α} {i : Nat} {f : Nat → α}
    (h : (v.over i f).wr i (f i) = .ok w) : w = v.over (i + 1) f := by
  have h1 := Vec.wr_lt h
  rw [Vec.over_size] at h1
  rw [Vec.over_wr h1] at h
  exact (Except.ok.inj h).symm

theorem maskOf_inv {strict : Bool} {k : Nat} {c : Int} (h : maskOf strict k = .ok c) : k ≤ 30 := by
  unfold maskOf at h
  rw [bind_eq_ok] at h
  obtain ⟨a, h1, h2⟩ := h
  unfold shlI at h1
  split at h1
  · next hk =>
    rw [if_neg (by norm_num)] at h1
    split at h1
    · rw [ok_inj] at h1
      by_contra hc
      have : k = 31 := by omega
      subst this
      rw [subI_eq_ok] at h2
      subst h1
      exact absurd h2.1 (by decide)
    · cases h1
  · cases h1

theorem digit_inv {strict : Bool} {w d : Int} {sh sp : Nat} (h : digit strict w sh sp = .ok d) :
    d = dg w sh sp := by
  have h' := h
  unfold digit at h'
  rw [bind_eq_ok] at h'
  obtain ⟨a, h1, h'⟩ := h'
  rw [bind_eq_ok] at h'
  obtain ⟨b, h2, h3⟩ := h'
  rw [digit_ok (shrI_eq_ok.1 h1).1 (maskOf_inv h2)] at h
  exact (Except.ok.inj h).symm

theorem dWriteDiff_inv {strict : Bool} {split : List Nat} {shift : Vec Nat} {mat : Vec Int}
    {m n : Nat} {gd gd' : Gd} (h : dWriteDiff strict split shift mat m n gd = .ok gd') :
    gd' = gdDiff split shift mat m n gd := by
  set S := split.length with hSdef
  set fp : Nat → Nat → Int := fun t j => cellP (mat.get (n * (t / S) + j))
      (shift.get (t % S)) (split.getD (t % S) 0) with hfp
  set fm : Nat → Nat → Int := fun t j => cellM (mat.get (n * (t / S) + j))
      (shift.get (t % S)) (split.getD (t % S) 0) with hfm
  unfold dWriteDiff at h
  refine (loop_inv (fun i => (⟨gd.p.blk S n fp i 0, gd.m.blk S n fm i 0,
    gd.sumW.over i fun i => ∑ j ∈ range n, mat.get (n * i + j)⟩ : Gd)) ?_ ?_ h).trans ?_
  · simp [Mat.blk_zero, Vec.over_zero]
  · intro i hi t ht
    rw [bind_eq_ok] at ht
    obtain ⟨r, h1, h2⟩ := ht
    have hr := loop_inv (fun j => ((⟨gd.p.blk S n fp i j, gd.m.blk S n fm i j,
        gd.sumW.over i fun i => ∑ j ∈ range n, mat.get (n * i + j)⟩ : Gd),
          ∑ j ∈ range j, mat.get (n * i + j))) (by simp) ?_ h1
    · subst hr
      dsimp only at h2
      rw [bind_eq_ok] at h2
      obtain ⟨sw, h3, h4⟩ := h2
      have := Vec.over_wr_inv (f := fun i => ∑ j ∈ range n, mat.get (n * i + j)) h3
      subst this
      rw [ok_inj] at h4
      rw [← h4, Mat.blk_row, Mat.blk_row]
    · intro j hj u hu
      simp only [bind_eq_ok, Vec.rd_eq_ok, addI_eq_ok, ok_inj] at hu
      obtain ⟨w, ⟨_, hw⟩, sum, ⟨_, hsum⟩, g, hg, hu⟩ := hu
      subst hw hsum hu
      have := loop_inv (fun s => (⟨gd.p.blk3 S n fp i j s, gd.m.blk3 S n fm i j s,
          gd.sumW.over i fun i => ∑ j ∈ range n, mat.get (n * i + j)⟩ : Gd))
          (by simp [Mat.blk3_zero]) ?_ hg
      · rw [this]
        simp only [← hSdef, Mat.blk3_end, sum_range_succ]
      · intro s hs g' hg'
        have hs' : s < S := hs
        have e1 : fp (i * S + s) j = cellP (mat.get (n * i + j)) (shift.get s) (split.getD s 0) := by
          simp only [hfp]; rw [blk_div hs', blk_mod hs']
        have e2 : fm (i * S + s) j = cellM (mat.get (n * i + j)) (shift.get s) (split.getD s 0) := by
          simp only [hfm]; rw [blk_div hs', blk_mod hs']
        rw [bind_eq_ok] at hg'
        obtain ⟨sh, h3, hg'⟩ := hg'
        rw [Vec.rd_eq_ok] at h3
        obtain ⟨_, rfl⟩ := h3
        split at hg'
        · next hw0 =>
          simp only [bind_eq_ok, ok_inj] at hg'
          obtain ⟨d, h4, p, h5, q, h6, rfl⟩ := hg'
          have h4 := digit_inv h4
          rw [Mat.blk3_wr_inv h5 (by rw [e1, cellP, if_pos hw0, h4]),
            Mat.blk3_wr_inv h6 (by rw [e2, cellM, if_pos hw0])]
        · next hw0 =>
          simp only [bind_eq_ok, ok_inj, negI_eq_ok] at hg'
          obtain ⟨p, h5, a, ⟨_, rfl⟩, d, h4, q, h6, rfl⟩ := hg'
          have h4 := digit_inv h4
          rw [Mat.blk3_wr_inv h5 (by rw [e1, cellP, if_neg hw0]),
            Mat.blk3_wr_inv h6 (by rw [e2, cellM, if_neg hw0, h4])]
  · simp only [Mat.blk_end]
    rfl

/-- Offset added by `d_write_offs`; `u32sub` is the unsigned `W_BIT - 1`. -/
theorem shl_one_inv {strict : Bool} {k : Nat} {c : Int} (h : shlI strict 1 k = .ok c) :
    k < 32 ∧ c = wrap32 (2 ^ k) := by
  unfold shlI at h
  split at h
  · next hk =>
    rw [if_neg (by norm_num), one_mul] at h
    split at h
    · exact ⟨hk, (Except.ok.inj h).symm⟩
    · cases h
  · cases h

theorem dWriteOffs_inv {strict : Bool} {wBit : Nat} {split : List Nat} {shift : Vec Nat}
    {mat : Vec Int} {m n : Nat} {gd gd' : Gd} (hW : 1 ≤ wBit) (hW' : wBit ≤ 31)
    (h : dWriteOffs strict wBit split shift mat m n gd = .ok gd') :
    gd' = gdOffs wBit split shift mat m n gd := by
  set S := split.length with hSdef
  set fp : Nat → Nat → Int := fun t j => dg (mat.get (n * (t / S) + j) + 2 ^ (wBit - 1))
      (shift.get (t % S)) (split.getD (t % S) 0) with hfp
  unfold dWriteOffs at h
  refine (loop2_inv (fun i j => ({ gd with p := gd.p.blk S n fp i j } : Gd)) ?_ ?_ ?_ h).trans ?_
  · simp [Mat.blk_zero]
  · intro i _; simp only [Mat.blk_row]
  · intro i j hi hj t ht
    rw [u32sub_one hW, shl_one (by omega)] at ht
    simp only [bind_eq_ok, Vec.rd_eq_ok, addI_eq_ok, ok_inj] at ht
    obtain ⟨x, ⟨_, rfl⟩, o, rfl, w, ⟨_, rfl⟩, ht⟩ := ht
    have := loop_inv (fun s => ({ gd with p := gd.p.blk3 S n fp i j s } : Gd))
          (by simp [Mat.blk3_zero]) ?_ ht
    · rw [this]; simp only [← hSdef, Mat.blk3_end]
    · intro s hs g' hg'
      have hs' : s < S := hs
      have e1 : fp (i * S + s) j = dg (mat.get (n * i + j) + 2 ^ (wBit - 1)) (shift.get s)
          (split.getD s 0) := by
        simp only [hfp]; rw [blk_div hs', blk_mod hs']
      simp only [bind_eq_ok, Vec.rd_eq_ok, ok_inj] at hg'
      obtain ⟨sh, ⟨_, rfl⟩, d, h4, p, h5, rfl⟩ := hg'
      have h4 := digit_inv h4
      rw [Mat.blk3_wr_inv h5 (by rw [e1, h4])]
  · simp only [Mat.blk_end]
    rfl

section
variable {mat : Vec Int} {m n : Nat} {gd gd' : Gd}

/-- All weights of the block lie in the alphabet of the encoder. -/
def AllW (P : Int → Prop) (mat : Vec Int) (m n : Nat) : Prop :=
  ∀ i j, i < m → j < n → P (mat.get (n * i + j))

theorem loop_all {σ : Type} {n : Nat} {f : Nat → σ → C σ} {s t : σ} {P : Nat → Prop}
    (hs : ∀ i, i < n → ∀ s t, f i s = .ok t → P i)
    (h : loop n f s = .ok t) : ∀ i, i < n → P i := by
  induction n generalizing t with
  | zero => intro i hi; omega
  | succ n ih =>
    rw [loop_succ, bind_eq_ok] at h
    obtain ⟨u, h1, h2⟩ := h
    intro i hi
    rcases Nat.lt_succ_iff_lt_or_eq.1 hi with h | rfl
    · exact ih (fun i hi => hs i (by omega)) h1 i h
    · exact hs i (by omega) u t h2

theorem dWriteDiffBnn_inv (h : dWriteDiffBnn mat m n gd = .ok gd') :
    gd' = gdPM mat m n gd ∧ AllW IsBin mat m n := by
  constructor
  · set fp : Nat → Nat → Int := fun i j => if mat.get (n * i + j) = 1 then 1 else 0 with hfp
    set fm : Nat → Nat → Int := fun i j => if mat.get (n * i + j) = -1 then 1 else 0 with hfm
    unfold dWriteDiffBnn at h
    refine (loop_inv (fun i => (⟨gd.p.blk 1 n fp i 0, gd.m.blk 1 n fm i 0,
      gd.sumW.over i fun i => ∑ j ∈ range n, mat.get (n * i + j)⟩ : Gd)) ?_ ?_ h).trans ?_
    · simp [Mat.blk_zero, Vec.over_zero]
    · intro i hi t ht
      rw [bind_eq_ok] at ht
      obtain ⟨r, h1, h2⟩ := ht
      have hr := loop_inv (fun j => ((⟨gd.p.blk 1 n fp i j, gd.m.blk 1 n fm i j,
          gd.sumW.over i fun i => ∑ j ∈ range n, mat.get (n * i + j)⟩ : Gd),
            ∑ j ∈ range j, mat.get (n * i + j))) (by simp) ?_ h1
      · subst hr
        dsimp only at h2
        rw [bind_eq_ok] at h2
        obtain ⟨sw, h3, h4⟩ := h2
        have := Vec.over_wr_inv (f := fun i => ∑ j ∈ range n, mat.get (n * i + j)) h3
        subst this
        rw [ok_inj] at h4
        rw [← h4, Mat.blk_row, Mat.blk_row]
      · intro j hj u hu
        simp only [bind_eq_ok, Vec.rd_eq_ok, addI_eq_ok] at hu
        obtain ⟨w, ⟨_, hw⟩, sum, ⟨_, hsum⟩, hu⟩ := hu
        split at hu
        · next hw1 =>
          simp only [bind_eq_ok, ok_inj] at hu
          obtain ⟨p, h5, q, h6, rfl⟩ := hu
          subst hw hsum
          rw [Mat.blk_wr_inv h5 (by simp [hfp, hw1]), Mat.blk_wr_inv h6 (by simp [hfm, hw1]),
            sum_range_succ]
        · split at hu
          · next hw0 hw1 =>
            simp only [bind_eq_ok, ok_inj, negI_eq_ok] at hu
            obtain ⟨p, h5, a, ⟨_, rfl⟩, q, h6, rfl⟩ := hu
            subst hw hsum
            rw [Mat.blk_wr_inv h5 (by simp [hfp, hw1]), Mat.blk_wr_inv h6 (by simp [hfm, hw1]),
              sum_range_succ]
          · cases hu
    · simp only [Mat.blk_end, Nat.mul_one]
      rfl
  · unfold dWriteDiffBnn at h
    intro i j hi hj
    refine loop_all (P := fun i => ∀ j, j < n → IsBin (mat.get (n * i + j))) ?_ h i hi j hj
    intro i hi s t ht
    rw [bind_eq_ok] at ht
    obtain ⟨r, h1, _⟩ := ht
    refine loop_all ?_ h1
    intro j hj s t ht
    simp only [bind_eq_ok, Vec.rd_eq_ok, addI_eq_ok] at ht
    obtain ⟨w, ⟨_, hw⟩, sum, _, hu⟩ := ht
    rw [hw]
    split at hu
    · next h => exact Or.inl h
    · split at hu
      · next h => exact Or.inr h
      · cases hu

theorem dWriteDiffTnn_inv (h : dWriteDiffTnn mat m n gd = .ok gd') :
    gd' = gdPM mat m n gd ∧ AllW IsTern mat m n := by
  constructor
  · set fp : Nat → Nat → Int := fun i j => if mat.get (n * i + j) = 1 then 1 else 0 with hfp
    set fm : Nat → Nat → Int := fun i j => if mat.get (n * i + j) = -1 then 1 else 0 with hfm
    unfold dWriteDiffTnn at h
    refine (loop_inv (fun i => (⟨gd.p.blk 1 n fp i 0, gd.m.blk 1 n fm i 0,
      gd.sumW.over i fun i => ∑ j ∈ range n, mat.get (n * i + j)⟩ : Gd)) ?_ ?_ h).trans ?_
    · simp [Mat.blk_zero, Vec.over_zero]
    · intro i hi t ht
      rw [bind_eq_ok] at ht
      obtain ⟨r, h1, h2⟩ := ht
      have hr := loop_inv (fun j => ((⟨gd.p.blk 1 n fp i j, gd.m.blk 1 n fm i j,
          gd.sumW.over i fun i => ∑ j ∈ range n, mat.get (n * i + j)⟩ : Gd),
            ∑ j ∈ range j, mat.get (n * i + j))) (by simp) ?_ h1
      · subst hr
        dsimp only at h2
        rw [bind_eq_ok] at h2
        obtain ⟨sw, h3, h4⟩ := h2
        have := Vec.over_wr_inv (f := fun i => ∑ j ∈ range n, mat.get (n * i + j)) h3
        subst this
        rw [ok_inj] at h4
        rw [← h4, Mat.blk_row, Mat.blk_row]
      · intro j hj u hu
        simp only [bind_eq_ok, Vec.rd_eq_ok, addI_eq_ok] at hu
        obtain ⟨w, ⟨_, hw⟩, sum, ⟨_, hsum⟩, hu⟩ := hu
        split at hu
        · next hw1 =>
          simp only [bind_eq_ok, ok_inj] at hu
          obtain ⟨p, h5, q, h6, rfl⟩ := hu
          subst hw hsum
          rw [Mat.blk_wr_inv h5 (by simp [hfp, hw1]), Mat.blk_wr_inv h6 (by simp [hfm, hw1]),
            sum_range_succ]
        · split at hu
          · next hw0 hw1 =>
            simp only [bind_eq_ok, ok_inj, negI_eq_ok] at hu
            obtain ⟨p, h5, a, ⟨_, rfl⟩, q, h6, rfl⟩ := hu
            subst hw hsum
            rw [Mat.blk_wr_inv h5 (by simp [hfp, hw1]), Mat.blk_wr_inv h6 (by simp [hfm, hw1]),
              sum_range_succ]
          · split at hu
            · next hw0 hw1 hw2 =>
              simp only [bind_eq_ok, ok_inj] at hu
              obtain ⟨p, h5, q, h6, rfl⟩ := hu
              subst hw hsum
              rw [Mat.blk_wr_inv h5 (by simp [hfp, hw2]), Mat.blk_wr_inv h6 (by simp [hfm, hw2]),
                sum_range_succ]
            · cases hu
    · simp only [Mat.blk_end, Nat.mul_one]
      rfl
  · unfold dWriteDiffTnn at h
    intro i j hi hj
    refine loop_all (P := fun i => ∀ j, j < n → IsTern (mat.get (n * i + j))) ?_ h i hi j hj
    intro i hi s t ht
    rw [bind_eq_ok] at ht
    obtain ⟨r, h1, _⟩ := ht
    refine loop_all ?_ h1
    intro j hj s t ht
    simp only [bind_eq_ok, Vec.rd_eq_ok, addI_eq_ok] at ht
    obtain ⟨w, ⟨_, hw⟩, sum, _, hu⟩ := ht
    rw [hw]
    split at hu
    · next h => exact Or.inl h
    · split at hu
      · next h => exact Or.inr (Or.inl h)
      · split at hu
        · next h => exact Or.inr (Or.inr h)
        · cases hu

theorem dWriteBnn3_inv (h : dWriteBnn3 mat m n gd = .ok gd') : gd' = gdBnn3 mat m n gd := by
  unfold dWriteBnn3 at h
  refine (loop2_inv (fun i j => ({ gd with
    p := gd.p.blk 1 n (fun i j => (mat.get (n * i + j) + 1) / 2) i j } : Gd)) ?_ ?_ ?_ h).trans ?_
  · simp [Mat.blk_zero]
  · intro i _; simp only [Mat.blk_row]
  · intro i j hi hj t ht
    simp only [bind_eq_ok, Vec.rd_eq_ok, addI_eq_ok, shrI_eq_ok, ok_inj] at ht
    obtain ⟨w, ⟨_, rfl⟩, a, ⟨_, rfl⟩, d, ⟨_, rfl⟩, p, h5, rfl⟩ := ht
    rw [Mat.blk_wr_inv h5 (by simp)]
  · simp only [Mat.blk_end, Nat.mul_one]; rfl

theorem dWriteBnn4_inv (h : dWriteBnn4 mat m n gd = .ok gd') : gd' = gdBnn4 mat m n gd := by
  unfold dWriteBnn4 at h
  refine (loop2_inv (fun i j => ({ gd with
    p := gd.p.blk 1 n (fun i j => (mat.get (n * i + j) - 1).tdiv (-2)) i j } : Gd)) ?_ ?_ ?_
    h).trans ?_
  · simp [Mat.blk_zero]
  · intro i _; simp only [Mat.blk_row]
  · intro i j hi hj t ht
    simp only [bind_eq_ok, Vec.rd_eq_ok, subI_eq_ok, ok_inj] at ht
    obtain ⟨w, ⟨_, rfl⟩, a, ⟨_, rfl⟩, p, h5, rfl⟩ := ht
    rw [Mat.blk_wr_inv h5 (by simp)]
  · simp only [Mat.blk_end, Nat.mul_one]; rfl

theorem dWriteTcTnn_inv {split : List Nat} {offset : Bool}
    (h : dWriteTcTnn split offset mat m n gd = .ok gd') :
    gd' = gdTc offset mat m n gd := by
  unfold dWriteTcTnn at h
  split at h
  swap
  · cases h
  refine (loop2_inv (fun i j => ({ gd with
    p := gd.p.blk 1 n (fun i j => (mat.get (n * i + j) + offset.toNat) % 2) i j
    m := gd.m.blk 1 n (fun i j => (mat.get (n * i + j) + offset.toNat) / 2 % 2) i j } : Gd))
    ?_ ?_ ?_ h).trans ?_
  · simp [Mat.blk_zero]
  · intro i _; simp only [Mat.blk_row]
  · intro i j hi hj t ht
    simp only [bind_eq_ok, Vec.rd_eq_ok, and32_one, shr_and_two] at ht
    obtain ⟨w, ⟨_, rfl⟩, a, ha, p, h5, d, hd, q, h6, ht⟩ := ht
    have : a = mat.get (n * i + j) + offset.toNat := by
      cases offset with
      | false => simpa using (Except.ok.inj ha).symm
      | true => rw [if_pos rfl, addI_eq_ok] at ha; exact ha.2.symm
    subst this
    rw [ok_inj] at hd ht
    subst hd
    rw [← ht, Mat.blk_wr_inv h5 rfl, Mat.blk_wr_inv h6 rfl]
  · simp only [Mat.blk_end, Nat.mul_one]; rfl

end

end Acs
