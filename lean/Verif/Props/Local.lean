import Verif.Lemmas.Local
import Verif.Lemmas.Numpy
import Verif.Lemmas.Frame
import Verif.Props.Numpy

/-! # Calls do not look behind their operands (C105) -/

set_option linter.unusedSectionVars false

namespace Acs.Props

open Spec

section
variable {K : Type} [Field K] [LinearOrder K] [IsStrictOrderedRing K] [FloorRing K]
variable {E : Env K} {w : World K} {mat mat' vec vec' res res' : Vec Int} {m n : Nat} {l : String}

/-- C105, `cpy_mtrx`: in every state of the library the outcome - result, exception or crash - is determined by the first
`m * n` numbers of the buffer. -/
theorem C105_write (h : SameFront (m * n) mat mat') (hm : m < 2147483648 ∧ n < 2147483648) :
    cpyMtrx E mat m n w = cpyMtrx E mat' m n w := by
  unfold cpyMtrx
  rw [toSize_cast hm.1, toSize_cast hm.2]
  cases w.xbar with
  | none => rfl
  | some x =>
    dsimp only
    rw [xWrite_local h]

/-- C105, `exe_mvm`: the outcome is determined by the first `m` numbers of the result buffer and the first `n` inputs; the
matrix that is passed does not matter. -/
theorem C105_mvm (hr : SameFront m res res') (hv : SameFront n vec vec') (hm : m < 2147483648 ∧ n < 2147483648) :
    (∃ e, exeMvm E res vec mat m n l w = .error e ∧ exeMvm E res' vec' mat' m n l w = .error e) ∨
    ∃ w' r r' k, exeMvm E res vec mat m n l w = .ok (w', r, k) ∧ exeMvm E res' vec' mat' m n l w = .ok (w', r', k) ∧
      SameFront m r r' := by
  unfold exeMvm
  rw [toSize_cast hm.1, toSize_cast hm.2]
  cases w.xbar with
  | none => exact .inr ⟨_, _, _, _, rfl, rfl, hr⟩
  | some x =>
    dsimp only
    split
    · exact .inr ⟨_, _, _, _, rfl, rfl, hr⟩
    · exact alike_lift (xMvm_local hr hv)

/-- C105, the Python interface. -/
theorem C105_mvm_python (hr : SameFront m res res') (hv : SameFront n vec vec') (hm : m < 2147483648 ∧ n < 2147483648) :
    (∃ e, exeMvmPb E res vec mat m n w = .error e ∧ exeMvmPb E res' vec' mat' m n w = .error e) ∨
    ∃ w' r r' k, exeMvmPb E res vec mat m n w = .ok (w', r, k) ∧ exeMvmPb E res' vec' mat' m n w = .ok (w', r', k) ∧
      SameFront m r r' := by
  unfold exeMvmPb
  rw [toSize_cast hm.1, toSize_cast hm.2]
  cases w.xbar with
  | none => exact .inl ⟨_, rfl, rfl⟩
  | some x => exact alike_lift (xMvm_local hr hv)

/-! ## Arrays passed from Python, on every crossbar -/

theorem shown_front {a : NpArray} (h : AsShown a) : SameFront (a.rows * a.cols) a.pass (shownVec a) := by
  refine ⟨shown_size h, le_rfl, fun k hk => ?_⟩
  have hc : 0 < a.cols := Nat.pos_of_ne_zero fun h0 => by rw [h0, Nat.mul_zero] at hk; exact absurd hk (Nat.not_lt_zero k)
  have h1 : k / a.cols < a.rows := Nat.div_lt_of_lt_mul (by rwa [Nat.mul_comm])
  have h2 := shown_get h h1 (Nat.mod_lt k hc)
  rw [Nat.div_add_mod] at h2
  exact h2

/-- C103, writes on any crossbar: the call is the call with the elements that numpy shows, row by row. -/
theorem C103_write_any_partial {a : NpArray} (ha : AsShown a) (hr : a.rows = m) (hc : a.cols = n)
    (hm : m < 2147483648 ∧ n < 2147483648) : npCpyMtrx E a m n w = cpyMtrx E (shownVec a) m n w := by
  subst hr hc
  exact C105_write (shown_front ha) hm

/-- C103, multiplications on any crossbar: the call stops as the call with the elements that numpy shows, or leaves the same
state and returns the same code, and the result array shows the same results. -/
theorem C103_mvm_any_partial {res vec mat : NpArray} (hx : AsShown vec) (hx1 : vec.rows = 1) (hxn : vec.cols = n)
    (hr : InMem res) (hrr : RowByRow res) (hrt : res.int32 = true) (hr1 : res.rows = 1) (hrm : res.cols = m)
    (hm : m < 2147483648 ∧ n < 2147483648) (mat' : Vec Int) :
    (∃ e, npExeMvm E res vec mat m n w = .error e ∧ exeMvmPb E (shownVec res) (shownVec vec) mat' m n w = .error e) ∨
    ∃ w' res' r k, npExeMvm E res vec mat m n w = .ok (w', res', k) ∧
      exeMvmPb E (shownVec res) (shownVec vec) mat' m n w = .ok (w', r, k) ∧ ∀ i, i < m → elem res' 0 i = r.get i := by
  subst hrm hxn
  have hR : AsShown res := ⟨hr, by rw [if_pos hrt]; exact hrr⟩
  have f1 := shown_front hR
  have f2 := shown_front hx
  rw [hr1, one_mul] at f1
  rw [hx1, one_mul] at f2
  rcases C105_mvm_python (E := E) (w := w) (mat := mat.pass) (mat' := mat') f1 f2 hm with
    ⟨e, h1, h2⟩ | ⟨w', r, r', k, h1, h2, h3⟩
  · refine .inl ⟨e, ?_, h2⟩
    unfold npExeMvm
    rw [h1]
    rfl
  · refine .inr ⟨w', res.back r, r', k, ?_, h2, fun i hi => ?_⟩
    · unfold npExeMvm
      rw [h1]
      rfl
    · rw [← h3.2.2 i hi]
      unfold NpArray.back
      rw [if_pos hrt]
      have hb : RowByRow { res with mem := ⟨res.mem.size, fun k => if res.offs ≤ k then r.get (k - res.offs) else
        res.mem.get k⟩ } := hrr
      refine (rowByRow_elem hb (by show 0 < res.rows; omega) hi).trans ?_
      show (if res.offs ≤ res.offs + (res.cols * 0 + i) then r.get (res.offs + (res.cols * 0 + i) - res.offs) else _) = _
      rw [if_pos (by omega)]
      congr 1
      omega

end

namespace Ex'

/-- Two results on a noisy analog crossbar; `mat`, `vec` and `res` may be longer than needed. -/
def frontRun (mat vec res : List Int) : R ℚ (Int × Int) := do
  let w ← setConfig Ex.env (.good (Ex.analog .bnn1 [("HRS_NOISE", .int 1), ("LRS_NOISE", .int 1)])) world0
  let w ← cpyMtrx Ex.env (Vec.ofList mat) (2 : Nat) (3 : Nat) w
  let r ← exeMvm Ex.env (Vec.ofList res) (Vec.ofList vec) (Vec.ofList []) (2 : Nat) (3 : Nat) "" w.1
  .ok (r.2.1.get 0, r.2.1.get 1)

end Ex'

/-- Buffers that go on behind the operands: the calls return, with the same results. -/
example : SameFront 6 (Vec.ofList [1, -1, 1, -1, -1, 1]) (Vec.ofList [1, -1, 1, -1, -1, 1, 77]) ∧
    SameFront 3 (Vec.ofList [1, 1, -1]) (Vec.ofList [1, 1, -1, 5, 6]) ∧ SameFront 2 (Vec.ofList [4, 0]) (Vec.ofList [4, 0, 9]) :=
  ⟨⟨by decide, by decide, by decide⟩, ⟨by decide, by decide, by decide⟩, ⟨by decide, by decide, by decide⟩⟩

example : Ex.goes (Ex'.frontRun [1, -1, 1, -1, -1, 1] [1, 1, -1] [4, 0]) (fun p => decide (p = (2, -3))) = true ∧
    Ex.goes (Ex'.frontRun [1, -1, 1, -1, -1, 1, 77] [1, 1, -1, 5, 6] [4, 0, 9]) (fun p => decide (p = (2, -3))) = true := by
  constructor <;> decide +kernel

/-- The hypotheses of the theorems about arrays: a matrix of 64-bit integers and slices of `int32` arrays. -/
example : AsShown { Ex'.square with int32 := false } ∧ AsShown Ex'.unit ∧
    InMem { Ex'.zeros32 with mem := Vec.ofList [5, 0, 0], offs := 1 } ∧
    RowByRow { Ex'.zeros32 with mem := Vec.ofList [5, 0, 0], offs := 1 } := by
  have k : ∀ a : NpArray, (∀ i < a.rows, ∀ j < a.cols, 0 ≤ (a.offs : Int) + i * a.sr + j * a.sc ∧
      (a.offs : Int) + i * a.sr + j * a.sc < a.mem.size) → InMem a := fun a h i j hi hj => h i hi j hj
  exact ⟨⟨k _ (by decide), .inr (by decide)⟩, Ex'.square_shown.2.1, k _ (by decide), .inl le_rfl, .inr rfl⟩

end Acs.Props
