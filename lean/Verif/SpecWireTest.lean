import Verif.SpecShipped
import Verif.SpecWireInt

/-!
# The calls of `cpp/test/lib/parasitics_tests.cpp`

Every test loads the analog file of a mapping and switches the wires on with an update.
-/

namespace Acs.Spec

section
variable {K : Type} [Field K] [LinearOrder K]

/-- The text that the tests pass to `update_config`.  Members are sorted by name. -/
def wireUpdate (v r : Json K) : Json K := .obj [("V_read", v), ("parasitics", .bool true), ("w_res", r)]

/-- What the wires take at most from the current of `n` cells in a crossbar of the files: 32 segments of `R` Ohm, 30 µA
per cell and `V` Volt. -/
def testLoss (V R : K) (n : Nat) : K := 28800 * n ^ 2 * R / (-V * 1000000)

/-- So much can get lost without an effect on the results. -/
def lossLimit : Mode → K
  | .bnn3 | .bnn4 => 6 / 5
  | _ => 6

/-- So little gets lost in every multiplication. -/
def AllShort (md : Mode) (V R : K) : List Op → List Op → Prop :=
  EveryMvm fun _ _ _ _ n _ => testLoss V R n ≤ lossLimit md

end

/-- Error of the results of the integer mappings per µA. -/
def lossUnits : Mode → ℚ
  | .iDiffWDiff1 | .iDiffWDiff2 => 38964 / 5
  | .iOffsWDiff => 52122 / 5
  | .iUintWOffs => 2601
  | _ => 5202

/-- Error of the results of the integer mappings. -/
def lossError (md : Mode) (V R : ℚ) (n : Nat) : ℚ :=
  lossUnits md * (testLoss V R n + 1 / 1000) + if md = .iUintWOffs then 25 / 2 else 0

end Acs.Spec
