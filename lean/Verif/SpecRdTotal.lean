import Verif.SpecRd
import Verif.SpecAdcNoise

/-!
# Specification vocabulary: when the disturb formula has a value
-/

namespace Acs.Spec

variable {K : Type} [Field K] [LinearOrder K] [IsStrictOrderedRing K] [FloorRing K]

/-- Number of cells in use: two arrays in the differential mappings, otherwise one. -/
def cellCount (cfg : Cfg K) : Nat := (if cfg.mode.isDiff then 2 else 1) * (cfg.R * cfg.N)

/-- A multiplication of an `m × n` block after the history `h` cannot meet an unread cell without
transition time: either no cell can be worn out yet, or the block covers everything that was written. -/
def Spared (E : Env K) (cfg : Cfg K) (h : List Op) (m n : Nat) : Prop :=
  0 < transition E cfg.vRead (writesIn h + mvmsIn h) ∨ ∀ i j, (lastWrite h i j).isSome → i < m ∧ j < n

/-- Settings under which the disturb step returns: updates happen, a read takes time, and the number of
refreshed cells, an `int32_t`, cannot overflow. -/
structure DisturbOk (cfg : Cfg K) : Prop where
  freq : cfg.updFreq ≠ 0
  time : 0 < cfg.tRead
  count : cfg.strategy = .cellBased → cellCount cfg ≤ 2147483647

/-- Every multiplication of a session is `Spared`. -/
def AllSpared (E : Env K) (cfg : Cfg K) (h ops : List Op) : Prop := EveryMvm (fun h _ _ m n _ => Spared E cfg h m n) h ops

end Acs.Spec
