import Verif.Spec
import Verif.Model.Profile
import Mathlib.Data.Finset.Card

/-!
# Reference notions for profiling

Bins as intervals of the real line, and how often a value was seen.
-/

namespace Acs.Spec

open Finset

section
variable {K : Type} [Field K] [LinearOrder K]

/-- The values that are counted in bin `k` of a histogram that starts at `mn` and has bins of width `b`: the
bins are centred at the multiples of the width. -/
def InBin (mn b : K) (k : Nat) (v : K) : Prop :=
  mn + k * b - b / 2 ≤ v ∧ v < mn + k * b + b / 2 ∧ mn - b / 2 < v

instance (mn b : K) (k : Nat) (v : K) : Decidable (InBin mn b k v) :=
  inferInstanceAs (Decidable (_ ∧ _))

/-- How many of the values `f 0 … f (len - 1)` belong to bin `k`. -/
def tally (mn b : K) (f : Nat → K) (len k : Nat) : Nat :=
  ((range len).filter fun i => InBin mn b k (f i)).card

end

/-- Number of values counted in a histogram. -/
def total {K : Type} (h : Hist K) : Int := ∑ k ∈ range h.data.size, h.data.get k

/-- Number of values counted for a layer. -/
def seen {K : Type} (hs : List (String × Hist K)) (l : String) : Int :=
  match hs.lookup l with
  | none => 0
  | some h => total h

/-- How many values per row of a multiplication go to the profiler: none in the integer mappings. -/
def profiled : Mode → Nat
  | .iDiffWDiff1 | .iDiffWDiff2 | .iOffsWDiff | .iTcWDiff | .iUintWDiff | .iUintWOffs => 0
  | .bnn1 | .bnn2 | .bnn5 | .bnn6 | .tnn1 => 1
  | .bnn3 | .bnn4 | .tnn2 | .tnn3 => 2
  | .tnn4 | .tnn5 => 4

/-- How many values of layer `l` a sequence of calls profiles. -/
def sampled {K : Type} (cfg : Cfg K) (l : String) : List Op → Nat
  | [] => 0
  | .write .. :: t => sampled cfg l t
  | .mvm _ _ _ m _ l' :: t => (if l' = l then profiled cfg.mode * m else 0) + sampled cfg l t

section
variable {K : Type} [Field K] [LinearOrder K] [IsStrictOrderedRing K] [FloorRing K]

/-- `Filled E mn mx b vs g`: histogram `g` for the range `mn … mx` with bins of width `b` has been given the
values `vs`, in any number of updates. -/
inductive Filled (E : Env K) (mn mx b : K) : List K → Hist K → Prop
  | new {g : Hist K} (h : mkHist E mn mx b = .ok g) : Filled E mn mx b [] g
  | more {vs : List K} {g g' : Hist K} {vals : Vec K} {len : Nat} (h : Filled E mn mx b vs g)
      (h' : g.update E vals len = .ok g') : Filled E mn mx b (vs ++ (List.range len).map vals.get) g'

end

end Acs.Spec
