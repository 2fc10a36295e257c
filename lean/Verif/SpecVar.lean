import Verif.Spec

/-! # Vocabulary of C83 and C84: variation of cells -/

namespace Acs.Spec

variable {K : Type}

/-- The same configuration without cycle-to-cycle variation. -/
def still (cfg : Cfg K) : Cfg K := { cfg with c2c := false }

/-- All calls are about blocks inside the crossbar. -/
def Inside (cfg : Cfg K) : List Op → Prop
  | [] => True
  | .write _ m n :: ops => (m ≤ cfg.M ∧ n ≤ cfg.N) ∧ Inside cfg ops
  | .mvm _ _ _ m n _ :: ops => (m ≤ cfg.M ∧ n ≤ cfg.N) ∧ Inside cfg ops

/-- Build a crossbar and use it. -/
def life [Field K] [LinearOrder K] [IsStrictOrderedRing K] [FloorRing K] (E : Env K) (cfg : Cfg K) (rng : Nat)
    (hists : List (String × Hist K)) (ops : List Op) : C (Xbar K × List (Vec Int)) := do
  let x ← mkXbar E cfg rng hists
  exec E cfg x ops

/-- Cycle-to-cycle variation makes no difference to the life of a crossbar. -/
def NoC2c [Field K] [LinearOrder K] [IsStrictOrderedRing K] [FloorRing K] (E : Env K) (cfg : Cfg K) : Prop :=
  ∀ rng hists ops, Inside cfg ops → life E cfg rng hists ops = life E (still cfg) rng hists ops

/-- All analog effects that draw random numbers have size zero. -/
def ZeroNoise [Zero K] (cfg : Cfg K) : Prop := cfg.hrsNoise = 0 ∧ cfg.lrsNoise = 0

end Acs.Spec
