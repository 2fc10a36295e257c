import Verif.Model.SimpleHist

/-!
# Reference notions for histograms of integers
-/

namespace Acs.Spec

/-- `Collected mn mx vs g`: histogram `g` for the integers `mn … mx` has been given the values `vs`, in any
number of updates. -/
inductive Collected (mn mx : Int) : List Int → SHist → Prop
  | new {g : SHist} (h : mkSimple mn mx = .ok g) : Collected mn mx [] g
  | more {vs new : List Int} {g g' : SHist} (h : Collected mn mx vs g) (h' : g.update new = .ok g') :
      Collected mn mx (vs ++ new) g'

/-- Arithmetic mean. -/
def meanOf (K : Type) [Field K] (vs : List Int) : K := ((vs.sum : Int) : K) / vs.length

/-- Mean squared distance from the mean. -/
def varianceOf (K : Type) [Field K] (vs : List Int) : K :=
  (vs.map fun v : Int => ((v : K) - meanOf K vs) ^ 2).sum / vs.length

end Acs.Spec
