import Verif.SpecHist
import Verif.SpecApi

/-!
# The global objects of the library

The converter profile and the random generator belong to the library, not to the crossbar.
-/

namespace Acs.Spec

variable {K : Type}

/-- The converter profile of the library. -/
def profileOf (w : World K) : List (String × Hist K) :=
  match w.xbar with
  | none => w.hists
  | some x => x.mapper.aux.hists

/-- How many samples the library has drawn from its random generator. -/
def drawn (w : World K) : Nat :=
  match w.xbar with
  | none => w.rng
  | some x => x.mapper.aux.rng

/-- Calls about the configuration. -/
def configures : Call K → Prop
  | .setConfig _ | .update _ | .updatePb _ => True
  | .write .. | .mvm .. | .mvmPb .. => False

section
variable [Field K] [LinearOrder K] [IsStrictOrderedRing K] [FloorRing K]

/-- How many values of layer `l` a multiplication of layer `l'` with `m` rows shows to the profiler in state `w`. -/
def shown (w : World K) (l l' : String) (m : Nat) : Nat :=
  if w.cfg.adcProfile = true ∧ w.cfg.digitalOnly = false ∧ l' = l then profiled w.cfg.mode * m else 0

/-- `Shown E l k w`: on the way from loading the library to the state `w`, the multiplications showed `k` values of
layer `l` to the profiler, each according to the configuration at its time. -/
inductive Shown (E : Env K) (l : String) : Nat → World K → Prop
  | boot {f : File K} {w : World K} (h : boot E f = .ok w) : Shown E l 0 w
  | configure {k : Nat} {w w' : World K} {c : Call K} (h : Shown E l k w) (hc : configures c)
      (h' : after E w c = .ok w') : Shown E l k w'
  | write {k : Nat} {w w' : World K} {mat : Vec Int} {m n : Int} (h : Shown E l k w)
      (h' : after E w (.write mat m n) = .ok w') : Shown E l k w'
  | mvm {k : Nat} {w w' : World K} {res vec mat r : Vec Int} {m : Nat} {n : Int} {l' : String} (h : Shown E l k w)
      (hm : m < 2147483648) (h' : exeMvm E res vec mat m n l' w = .ok (w', r, 0)) :
      Shown E l (k + shown w l l' m) w'
  | rejected {k : Nat} {w w' : World K} {res vec mat r : Vec Int} {m n : Int} {l' : String} (h : Shown E l k w)
      (h' : exeMvm E res vec mat m n l' w = .ok (w', r, -1)) : Shown E l k w'
  | mvmPb {k : Nat} {w w' : World K} {res vec mat r : Vec Int} {m : Nat} {n : Int} {z : Int} (h : Shown E l k w)
      (hm : m < 2147483648) (h' : exeMvmPb E res vec mat m n w = .ok (w', r, z)) :
      Shown E l (k + shown w l "Unknown" m) w'

end

end Acs.Spec
