import Verif.Lemmas.Write

/-! # Digit expansions -/

namespace Acs

open Finset

/-- Suffix sums: entry `s` is the sum of the entries after `s`. -/
def sufs : List Nat → List Nat
  | [] => []
  | _ :: t => t.sum :: sufs t

@[simp] theorem sufs_length (l : List Nat) : (sufs l).length = l.length := by
  induction l with
  | nil => rfl
  | cons a t ih => simp [sufs, ih]

theorem shiftsFrom_eq (l : List Nat) (h : l.sum ≤ 2147483647) :
    shiftsFrom (l.sum : Int) l = sufs l := by
  induction l with
  | nil => rfl
  | cons a t ih =>
    simp only [List.sum_cons] at h
    have h1 : (((a :: t).sum : Nat) : Int) - (a : Int) = (t.sum : Int) := by
      rw [List.sum_cons]; push_cast; ring
    rw [shiftsFrom, sufs, h1, wrap32_id (by constructor <;> omega), ih (by omega)]
    congr 1
    omega

theorem sufs_le (l : List Nat) (s : Nat) : (sufs l).getD s 0 ≤ l.sum := by
  induction l generalizing s with
  | nil => simp [sufs]
  | cons a t ih =>
    cases s with
    | zero => simp [sufs]
    | succ s => simp only [sufs, List.getD_cons_succ, List.sum_cons]; exact (ih s).trans (by omega)

theorem emod_split (a : Int) (s T : Nat) :
    a / 2 ^ T % 2 ^ s * 2 ^ T + a % 2 ^ T = a % 2 ^ (s + T) := by
  have hT : (0 : Int) < 2 ^ T := by positivity
  have hs : (0 : Int) < 2 ^ s := by positivity
  have h1 : a = 2 ^ T * (a / 2 ^ T) + a % 2 ^ T := (Int.mul_ediv_add_emod _ _).symm
  have h2 : a / 2 ^ T = 2 ^ s * (a / 2 ^ T / 2 ^ s) + a / 2 ^ T % 2 ^ s :=
    (Int.mul_ediv_add_emod _ _).symm
  set q := a / 2 ^ T
  set r := a % 2 ^ T
  set u := q / 2 ^ s
  set v := q % 2 ^ s
  have hr0 : 0 ≤ r := Int.emod_nonneg _ hT.ne'
  have hr1 : r < 2 ^ T := Int.emod_lt_of_pos _ hT
  have hv0 : 0 ≤ v := Int.emod_nonneg _ hs.ne'
  have hv1 : v < 2 ^ s := Int.emod_lt_of_pos _ hs
  have h3 : a = (v * 2 ^ T + r) + 2 ^ (s + T) * u := by rw [pow_add]; rw [h1, h2]; ring
  rw [h3, Int.add_mul_emod_self_left]
  symm
  apply Int.emod_eq_of_lt
  · positivity
  · have : (v + 1) * 2 ^ T ≤ 2 ^ s * 2 ^ T := mul_le_mul_of_nonneg_right (by omega) hT.le
    rw [pow_add]; linarith

/-- The digits of `a` for any split of the bits recombine to `a` modulo the total width. -/
theorem digits_sum (l : List Nat) (a : Int) :
    ∑ s ∈ range l.length, dg a ((sufs l).getD s 0) (l.getD s 0) * 2 ^ ((sufs l).getD s 0)
      = a % 2 ^ l.sum := by
  induction l with
  | nil => simp [Int.emod_one]
  | cons b t ih =>
    rw [List.length_cons, sum_range_succ']
    simp only [sufs, List.getD_cons_succ, List.getD_cons_zero, List.sum_cons]
    rw [ih, dg, add_comm, emod_split]

theorem dg_nonneg (a : Int) (sh sp : Nat) : 0 ≤ dg a sh sp := Int.emod_nonneg _ (by positivity)
theorem dg_lt (a : Int) (sh sp : Nat) : dg a sh sp < 2 ^ sp := Int.emod_lt_of_pos _ (by positivity)

end Acs
