import Verif.Lemmas.AWriteIff
import Verif.Lemmas.SessionInv
import Verif.Props.Return
import Verif.Props.ExApi

/-! # Which writes an analog crossbar carries out (C101) -/

set_option linter.unusedSectionVars false

namespace Acs.Props

open Spec Finset

section
variable {K : Type} [Field K] [LinearOrder K] [IsStrictOrderedRing K] [FloorRing K]
variable {E : Env K} {w w' : World K} {hs : List Op} {mat : Vec Int} {m n : Nat}

/-- C101.  A write to an analog crossbar without wire resistance is carried out exactly when the matrix fits, its buffer holds
all weights, and the mapping can store them; noise and read disturb have no say in this. -/
theorem C101_write (h : Settled E hs w) (hok : CfgOk w.cfg) (hdo : w.cfg.digitalOnly = false) (hp : w.cfg.parasitics = false)
    (hst : w.cfg.mode.isInt = true → ExactArith E ∧ ∀ s ∈ w.cfg.split, 0 < s)
    (hm : m < 2147483648 ∧ n < 2147483648) (h32 : Int32s mat) :
    (∃ w', cpyMtrx E mat m n w = .ok (w', 0)) ↔
      Accepted w.cfg m n ∧ m * n ≤ mat.size ∧ Programmable w.cfg (entry mat n) m n := by
  obtain ⟨x, hx, hr⟩ := settled_runs h
  have key : Accepted w.cfg m n → _ := fun hd => xWrite_iff_a hok (runs_shape hr) (runs_cells hok hr) hp hdo hd h32
    fun hi => iStep_some_a (hst hi).1 hok (runs_shape hr) hi (hst hi).2
  constructor
  · rintro ⟨w', h1⟩
    rcases cpyMtrx_inv h1 with ⟨_, h2, _⟩ | ⟨y, y', h2, h3, _, h4, _⟩
    · cases h2
    have hd : Accepted w.cfg m n := by
      unfold tooBig at h3
      rw [toU32_cast hm.1, toU32_cast hm.2] at h3
      exact ⟨by omega, by omega, by omega⟩
    rw [hx] at h2
    cases h2
    rw [toSize_cast hm.1, toSize_cast hm.2] at h4
    exact ⟨hd, (key hd).1 ⟨_, h4⟩⟩
  · rintro ⟨hd, h1⟩
    obtain ⟨x', h2⟩ := (key hd).2 h1
    refine ⟨{ w with xbar := some x' }, ?_⟩
    unfold cpyMtrx
    rw [hx]
    simp only
    rw [if_neg (not_tooBig hd hm), toSize_cast hm.1, toSize_cast hm.2, h2]
    rfl

/-- C101.  Every other write of a matrix that fits ends the program. -/
theorem C101_lost (h : Settled E hs w) (hok : CfgOk w.cfg) (hdo : w.cfg.digitalOnly = false) (hp : w.cfg.parasitics = false)
    (hst : w.cfg.mode.isInt = true → ExactArith E ∧ ∀ s ∈ w.cfg.split, 0 < s)
    (hm : m < 2147483648 ∧ n < 2147483648) (h32 : Int32s mat) (hd : Accepted w.cfg m n)
    (hb : ¬(m * n ≤ mat.size ∧ Programmable w.cfg (entry mat n) m n)) : ∃ f, cpyMtrx E mat m n w = .error f := by
  cases e : cpyMtrx E mat m n w with
  | error f => exact ⟨f, rfl⟩
  | ok r =>
    exfalso
    obtain ⟨w', z⟩ := r
    rcases cpyMtrx_inv e with ⟨_, h2, h3⟩ | ⟨_, _, _, _, h2, _⟩
    · obtain ⟨x, hx, _⟩ := settled_runs h
      rcases h3 with h3 | h3
      · rw [hx] at h3
        cases h3
      · exact not_tooBig hd hm h3
    · subst h2
      exact hb ((C101_write h hok hdo hp hst hm h32).1 ⟨_, e⟩).2

/-- C101.  What an analog crossbar stores, a digital one stores as well; the converse fails in two mappings only. -/
theorem C101_digital {cfg : Cfg K} {W : Nat → Nat → Int} :
    (Programmable cfg W m n → Writable cfg W m n) ∧
    (cfg.mode ≠ .bnn3 → cfg.mode ≠ .bnn4 → Writable cfg W m n → Programmable cfg W m n) := by
  unfold Programmable Writable
  cases cfg.mode <;> refine ⟨fun h => ?_, fun h1 h2 h => ?_⟩ <;> first
    | exact h
    | exact absurd rfl h1
    | exact absurd rfl h2
    | exact fun i j k1 k2 => by have := h i j k1 k2; omega

end

namespace Ex'

/-- Weights 2, 0 and 3, 1. -/
def evenMat : Vec Int := Vec.ofList [2, 0]
def threeMat : Vec Int := Vec.ofList [3, 1]

end Ex'

/-- `BNN_III` with ideal cells: 2 and 0 are stored (as 1 and -1), 3 ends the program; a digital crossbar takes it. -/
example : ∃ w wd, setConfig Ex.env (.good (Ex.analog .bnn3 [("W_BIT", .int 0), ("SPLIT", .arr [.int 0])])) world0 = .ok w ∧
    (∃ w', cpyMtrx Ex.env Ex'.evenMat (1 : Nat) (2 : Nat) w = .ok (w', 0)) ∧
    (∃ f, cpyMtrx Ex.env Ex'.threeMat (1 : Nat) (2 : Nat) w = .error f) ∧
    setConfig Ex.env (.good (digitalFile .bnn3)) world0 = .ok wd ∧
    ∃ w', cpyMtrx Ex.env Ex'.threeMat (1 : Nat) (2 : Nat) wd = .ok (w', 0) := by
  obtain ⟨w, h, h1⟩ := Ex.goes_spec (x := setConfig Ex.env (.good (Ex.analog .bnn3 [("W_BIT", .int 0),
    ("SPLIT", .arr [.int 0])])) world0) (p := fun w => w.cfg.mode == .bnn3 && w.cfg.digitalOnly == false &&
      w.cfg.parasitics == false && w.cfg.M == 2 && w.cfg.N == 3 && w.cfg.split == [0]) (by decide +kernel)
  simp only [Bool.and_eq_true, beq_iff_eq] at h1
  obtain ⟨⟨⟨⟨⟨h1, h2⟩, h3⟩, h4⟩, h5⟩, h6⟩ := h1
  obtain ⟨wd, d, d1, d2, d3, d4⟩ := Ex'.return_loaded .bnn3
  have hs : Settled Ex.env [] w := .load h
  have hok : CfgOk w.cfg := by unfold CfgOk; rw [h1]; exact h6
  have hi : w.cfg.mode.isInt = true → ExactArith Ex.env ∧ ∀ s ∈ w.cfg.split, 0 < s := fun e => by rw [h1] at e; cases e
  have hd : Accepted w.cfg 1 2 := ⟨by omega, by omega, by decide⟩
  refine ⟨w, wd, h, (C101_write hs hok h2 h3 hi (by decide) (Ex'.int32s_ofList (by decide))).2 ⟨hd, by decide, ?_⟩,
    C101_lost hs hok h2 h3 hi (by decide) (Ex'.int32s_ofList (by decide)) hd ?_, d,
    (C99_write (.load d) ?_ d2 (by decide) (Ex'.int32s_ofList (by decide))).2 ⟨⟨by omega, by omega, by decide⟩, by decide, ?_⟩⟩
  · unfold Programmable
    rw [h1]
    have k : ∀ i < 1, ∀ j < 2, -1 ≤ entry Ex'.evenMat 2 i j ∧ entry Ex'.evenMat 2 i j ≤ 2 := by decide
    exact fun i j k1 k2 => k i k1 j k2
  · rintro ⟨_, k⟩
    unfold Programmable at k
    rw [h1] at k
    exact absurd (k 0 0 (by decide) (by decide)).2 (by decide)
  · have hb : BitsOk wd.cfg := by
      rcases (session_inv (.load d)).1.loaded with ⟨e, _⟩ | ⟨c, e⟩
      · rw [e] at d1; cases d1
      · exact (applyConfig_ok e).2.2.1
    unfold CfgOk
    rw [d1]
    refine hb.2.2 ?_ ?_ ?_ <;> rw [d1] <;> decide
  · unfold Writable
    rw [d1]
    have k : ∀ i < 1, ∀ j < 2, entry Ex'.threeMat 2 i j ≠ 2147483647 := by decide
    exact fun i j k1 k2 => k i k1 j k2

end Acs.Props
