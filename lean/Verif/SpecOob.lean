import Verif.SpecRd
import Mathlib.Data.Real.Basic

/-!
# Specification vocabulary: leaving the range of the read disturb model
-/

namespace Acs.Spec

variable {K : Type} [Field K] [LinearOrder K] [IsStrictOrderedRing K] [FloorRing K]

/-- Wear of a cell that was switched `c` times, with the roundings of a C++ program that keeps the two
constants in `float` and computes in `double`. -/
def wearFl (E : Env K) (c : Nat) : K :=
  E.f64 (E.f32 (E.f64 (3 / 1000)) * E.f64 (E.pow (E.f64 c) (E.f32 (E.f64 (41 / 100)))))

/-- The multiplication `s` asks the disturb model about `c` switching cycles: an update is due, and `c`
is the counter of a cell in LRS of the first array, or of the second array in a differential mapping, or
with `SOFTWARE` mitigation the number of times the crossbar was programmed. -/
def Asks (cfg : Cfg K) (s : Step K) (c : Nat) : Prop :=
  isMvm s.op ∧ updateDue cfg s.pre ∧ ∃ rd, s.pre.rd = some rd ∧
    ((∃ r k, r < cfg.R ∧ k < cfg.N ∧ s.pre.mapper.core.gd.p.get r k = 1 ∧ rd.cycP.get r k = c) ∨
     (cfg.mode.isDiff = true ∧
       ∃ r k, r < cfg.R ∧ k < cfg.N ∧ s.pre.mapper.core.gd.m.get r k = 1 ∧ rd.cycM.get r k = c) ∨
     (cfg.strategy = .software ∧ c = s.pre.writes + s.pre.refX))

/-- A multiplication of the history, at which an update was due, found a cell in LRS that had been
switched at least `L` times.  Without mitigation this is all that can go out of range. -/
def WornOut (cfg : Cfg K) (L : Nat) (h : List Op) : Prop :=
  ∃ h1 o h2 r k, h = h1 ++ o :: h2 ∧ isMvm o ∧ (mvmsSinceWrite h2 + 1) % cfg.updFreq = 0 ∧
    r < cfg.R ∧ k < cfg.N ∧
    ((cellAfter (fun w => encP cfg w 0) h2 r k = 1 ∧ L ≤ switched (fun w => encP cfg w 0) h2 r k) ∨
     (cfg.mode.isDiff = true ∧ cellAfter (fun w => encM cfg w 0) h2 r k = 1 ∧
       L ≤ switched (fun w => encM cfg w 0) h2 r k))

/-- A rounding of real numbers with a small relative error, for numbers that are neither very small nor very
large.  Rounding to single and to double precision has much smaller errors. -/
def Close (f : ℝ → ℝ) : Prop := ∀ a, 1 / 1000 ≤ a → a ≤ 10 ^ 7 → |f a - a| ≤ a / 10 ^ 5

end Acs.Spec
