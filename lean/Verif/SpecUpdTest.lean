import Verif.SpecGet
import Verif.SpecSame

/-!
# The claims of the variability test and of the tests of updates

cpp/test/lib/var_tests.cpp and int-bindings/test/config_update_test.py.
-/

namespace Acs.Spec

/-- Mappings that keep a weight in a pair of cells: the first for +1 and the second for -1. -/
def Pairs : Mode → Prop
  | .bnn1 | .bnn2 | .bnn5 | .bnn6 | .tnn1 | .tnn2 | .tnn3 => True
  | _ => False

/-- The assertion of the test: the first cell of a pair carries more current for +1, and less for -1. -/
def SignsShow {K : Type} [LT K] (v : Int) (p m : K) : Prop := (v = 1 → m < p) ∧ (v = -1 → p < m)

/-- Two arrays of the same size that are not equal (`not np.array_equal`). -/
def Differ {α : Type} (A B : Mat α) : Prop := ∃ r j, r < A.rows ∧ j < A.cols ∧ A.get r j ≠ B.get r j

end Acs.Spec
