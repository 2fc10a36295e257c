import Verif.SpecNumpy
import Verif.Lemmas.SessionInv

/-! Lemmas about arrays passed from Python. -/

namespace Acs

open Spec

variable {a : NpArray} {i j : Nat}

theorem rowByRow_pos (h : RowByRow a) (hi : i < a.rows) (hj : j < a.cols) :
    (a.offs : Int) + i * a.sr + j * a.sc = ((a.offs + (a.cols * i + j) : Nat) : Int) := by
  have h1 : (i : Int) * a.sr = a.cols * i := by
    rcases h.1 with h | h
    · have : i = 0 := by omega
      simp [this]
    · rw [h, mul_comm]
  have h2 : (j : Int) * a.sc = j := by
    rcases h.2 with h | h
    · have : j = 0 := by omega
      simp [this]
    · rw [h, mul_one]
  rw [h1, h2]
  push_cast
  ring

theorem rowByRow_elem (h : RowByRow a) (hi : i < a.rows) (hj : j < a.cols) :
    elem a i j = a.mem.get (a.offs + (a.cols * i + j)) := by
  unfold elem
  rw [rowByRow_pos h hi hj, Int.toNat_natCast]

theorem rowByRow_size (hm : InMem a) (h : RowByRow a) : a.rows * a.cols ≤ a.mem.size - a.offs := by
  rcases Nat.eq_zero_or_pos a.rows with h0 | h0
  · simp [h0]
  rcases Nat.eq_zero_or_pos a.cols with h1 | h1
  · simp [h1]
  have := (hm (a.rows - 1) (a.cols - 1) (by omega) (by omega)).2
  rw [rowByRow_pos h (by omega) (by omega)] at this
  have e : a.rows * a.cols = a.cols * (a.rows - 1) + (a.cols - 1) + 1 := by
    obtain ⟨r, hr⟩ := Nat.exists_eq_succ_of_ne_zero h0.ne'
    rw [hr, Nat.succ_mul, Nat.succ_sub_one, mul_comm]
    omega
  omega

theorem shown_size (h : AsShown a) : a.rows * a.cols ≤ a.pass.size := by
  obtain ⟨hm, h⟩ := h
  unfold NpArray.pass
  split
  · next hb =>
    rw [if_pos hb] at h
    exact rowByRow_size hm h
  · split <;> exact le_rfl

theorem shown_get (h : AsShown a) (hi : i < a.rows) (hj : j < a.cols) :
    a.pass.get (a.cols * i + j) = elem a i j := by
  obtain ⟨hm, h⟩ := h
  unfold NpArray.pass
  split
  · next hb =>
    rw [if_pos hb] at h
    exact (rowByRow_elem h hi hj).symm
  · next hb =>
    rw [if_neg hb] at h
    split
    · show a.item _ _ = _
      rw [Nat.mul_add_div (by omega), Nat.div_eq_of_lt hj, Nat.mul_add_mod, Nat.mod_eq_of_lt hj]
      rfl
    · next hs =>
      rcases h with h | h
      · have h0 : i = 0 := by omega
        have h1 : a.rows = 1 := by omega
        show a.item _ _ = _
        rw [h0, h1, Nat.mod_one, Nat.div_one, Nat.mul_zero, Nat.zero_add]
        rfl
      · exact absurd h hs

end Acs
