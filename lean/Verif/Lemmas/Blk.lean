import Verif.Lemmas.Basic

/-! # Closed forms of the matrices inside nested write loops -/

namespace Acs

/-- `A` with its leading `T × n` block replaced by `f`. -/
def Mat.over {α : Type} (A : Mat α) (T n : Nat) (f : Nat → Nat → α) : Mat α :=
  ⟨A.rows, A.cols, fun t j => if t < T ∧ j < n then f t j else A.get t j⟩

section
variable {α : Type}

@[simp] theorem Vec.over_size (v : Vec α) (T : Nat) (f : Nat → α) : (v.over T f).size = v.size := rfl
@[simp] theorem Mat.over_rows (A : Mat α) (T n : Nat) (f : Nat → Nat → α) :
    (A.over T n f).rows = A.rows := rfl
@[simp] theorem Mat.over_cols (A : Mat α) (T n : Nat) (f : Nat → Nat → α) :
    (A.over T n f).cols = A.cols := rfl

theorem Vec.over_get (v : Vec α) (T : Nat) (f : Nat → α) (k : Nat) :
    (v.over T f).get k = if k < T then f k else v.get k := rfl
theorem Mat.over_get (A : Mat α) (T n : Nat) (f : Nat → Nat → α) (t j : Nat) :
    (A.over T n f).get t j = if t < T ∧ j < n then f t j else A.get t j := rfl

theorem Vec.over_lt {v : Vec α} {T : Nat} {f : Nat → α} {k : Nat} (h : k < T) :
    (v.over T f).get k = f k := if_pos h
theorem Vec.over_ge {v : Vec α} {T : Nat} {f : Nat → α} {k : Nat} (h : T ≤ k) :
    (v.over T f).get k = v.get k := if_neg (by omega)
theorem Mat.over_in {A : Mat α} {T n : Nat} {f : Nat → Nat → α} {t j : Nat} (h : t < T) (h' : j < n) :
    (A.over T n f).get t j = f t j := if_pos ⟨h, h'⟩
theorem Mat.over_out {A : Mat α} {T n : Nat} {f : Nat → Nat → α} {t j : Nat} (h : ¬ (t < T ∧ j < n)) :
    (A.over T n f).get t j = A.get t j := if_neg h

theorem Vec.over_zero (v : Vec α) (f : Nat → α) : v.over 0 f = v :=
  Vec.ext' (by rfl) fun _ => Vec.over_ge (Nat.zero_le _)

theorem Vec.over_wr {v : Vec α} {i : Nat} {f : Nat → α} (h : i < v.size) :
    (v.over i f).wr i (f i) = .ok (v.over (i + 1) f) := by
  rw [Vec.wr_ok (v := v.over i f) h]
  congr 1
  refine Vec.ext' (by rfl) fun k => ?_
  simp only [Vec.over]
  rcases lt_trichotomy k i with h | h | h
  · rw [if_neg (by omega), if_pos h, if_pos (by omega)]
  · subst h; rw [if_pos rfl, if_pos (by omega)]
  · rw [if_neg (by omega), if_neg (by omega), if_neg (by omega)]

/-- `A` after a loop over row blocks of height `S` has treated all columns `< n` of the blocks `< i`
and the columns `< j` of block `i`. -/
def Mat.blk (A : Mat α) (S n : Nat) (f : Nat → Nat → α) (i j : Nat) : Mat α :=
  ⟨A.rows, A.cols, fun t k =>
    if (t < i * S ∧ k < n) ∨ (i * S ≤ t ∧ t < i * S + S ∧ k < j) then f t k else A.get t k⟩

/-- ... and moreover the first `s` cells of column `j` in block `i`. -/
def Mat.blk3 (A : Mat α) (S n : Nat) (f : Nat → Nat → α) (i j s : Nat) : Mat α :=
  ⟨A.rows, A.cols, fun t k =>
    if (t < i * S ∧ k < n) ∨ (i * S ≤ t ∧ t < i * S + S ∧ k < j) ∨
      (i * S ≤ t ∧ t < i * S + s ∧ k = j) then f t k else A.get t k⟩

@[simp] theorem Mat.blk_rows (A : Mat α) (S n : Nat) (f : Nat → Nat → α) (i j : Nat) :
    (A.blk S n f i j).rows = A.rows := rfl
@[simp] theorem Mat.blk_cols (A : Mat α) (S n : Nat) (f : Nat → Nat → α) (i j : Nat) :
    (A.blk S n f i j).cols = A.cols := rfl
@[simp] theorem Mat.blk3_rows (A : Mat α) (S n : Nat) (f : Nat → Nat → α) (i j s : Nat) :
    (A.blk3 S n f i j s).rows = A.rows := rfl
@[simp] theorem Mat.blk3_cols (A : Mat α) (S n : Nat) (f : Nat → Nat → α) (i j s : Nat) :
    (A.blk3 S n f i j s).cols = A.cols := rfl

theorem Mat.blk_zero (A : Mat α) (S n : Nat) (f : Nat → Nat → α) : A.blk S n f 0 0 = A :=
  Mat.ext' (by rfl) (by rfl) fun t k => if_neg (by omega)

theorem Mat.blk_row (A : Mat α) (S n : Nat) (f : Nat → Nat → α) (i : Nat) :
    A.blk S n f (i + 1) 0 = A.blk S n f i n := by
  refine Mat.ext' (by rfl) (by rfl) fun t k => ?_
  simp only [Mat.blk, Nat.succ_mul]
  refine if_congr ?_ rfl rfl
  omega

theorem Mat.blk_end (A : Mat α) (S n : Nat) (f : Nat → Nat → α) (m : Nat) :
    A.blk S n f m 0 = A.over (m * S) n f := by
  refine Mat.ext' (by rfl) (by rfl) fun t k => ?_
  simp only [Mat.blk, Mat.over]
  refine if_congr ?_ rfl rfl
  omega

theorem Mat.blk3_zero (A : Mat α) (S n : Nat) (f : Nat → Nat → α) (i j : Nat) :
    A.blk3 S n f i j 0 = A.blk S n f i j := by
  refine Mat.ext' (by rfl) (by rfl) fun t k => ?_
  simp only [Mat.blk, Mat.blk3]
  refine if_congr ?_ rfl rfl
  omega

theorem Mat.blk3_end (A : Mat α) (S n : Nat) (f : Nat → Nat → α) (i j : Nat) :
    A.blk3 S n f i j S = A.blk S n f i (j + 1) := by
  refine Mat.ext' (by rfl) (by rfl) fun t k => ?_
  simp only [Mat.blk, Mat.blk3]
  refine if_congr ?_ rfl rfl
  omega

theorem Mat.blk3_wr {A : Mat α} {S n : Nat} {f : Nat → Nat → α} {i j s : Nat} {a : α}
    (hr : i * S + s < A.rows) (hc : j < A.cols) (ha : f (i * S + s) j = a) :
    (A.blk3 S n f i j s).wr (i * S + s) j a = .ok (A.blk3 S n f i j (s + 1)) := by
  rw [Mat.wr_ok (A := A.blk3 S n f i j s) hr hc]
  congr 1
  refine Mat.ext' (by rfl) (by rfl) fun t k => ?_
  simp only [Mat.blk3]
  by_cases h : t = i * S + s ∧ k = j
  · rw [if_pos h, if_pos (by omega), h.1, h.2, ha]
  · rw [if_neg h]
    refine if_congr ?_ rfl rfl
    omega

theorem Mat.blk_wr {A : Mat α} {n : Nat} {f : Nat → Nat → α} {i j : Nat} {a : α}
    (hr : i < A.rows) (hc : j < A.cols) (ha : f i j = a) :
    (A.blk 1 n f i j).wr i j a = .ok (A.blk 1 n f i (j + 1)) := by
  have := Mat.blk3_wr (A := A) (S := 1) (n := n) (f := f) (i := i) (j := j) (s := 0) (a := a)
    (by omega) hc (by simpa using ha)
  rw [Mat.blk3_zero, Nat.mul_one, Nat.add_zero] at this
  rw [this, ← Mat.blk3_end]

/-- A matrix entry inside the part not yet treated keeps its value. -/
theorem Mat.blk_get_cur {A : Mat α} {n : Nat} {f : Nat → Nat → α} {i j : Nat} :
    (A.blk 1 n f i j).get i j = A.get i j := if_neg (by omega)

theorem blk_div {i S s : Nat} (h : s < S) : (i * S + s) / S = i := by
  rw [Nat.add_comm, Nat.add_mul_div_right _ _ (by omega), Nat.div_eq_of_lt h, Nat.zero_add]

theorem blk_mod {i S s : Nat} (h : s < S) : (i * S + s) % S = s := by
  rw [Nat.add_comm, Nat.add_mul_mod_self_right, Nat.mod_eq_of_lt h]

theorem blk_lt {i m S s : Nat} (hi : i < m) (h : s < S) : i * S + s < m * S := by
  have : (i + 1) * S ≤ m * S := Nat.mul_le_mul_right S hi
  rw [Nat.succ_mul] at this
  omega

theorem idx_lt {i j m n : Nat} (hi : i < m) (hj : j < n) : n * i + j < m * n := by
  rw [Nat.mul_comm n i]; exact blk_lt hi hj

end

end Acs
