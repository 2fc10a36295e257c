import Verif.SpecNoise

/-! # Deviating cells and a real converter -/

namespace Acs.Spec

open Finset

/-- How often a number occurs in the input. -/
def count (x : Vec Int) (n : Nat) (v : Int) : Int := ∑ j ∈ range n, if x.get j = v then 1 else 0

/-- The conversions of a row of a binary or ternary mapping: the factor in units of one over the resistance
window, and how many cells the converted current flows through. -/
def readout (md : Mode) (x : Vec Int) (n : Nat) : List (Int × Int) :=
  let up := count x n 1
  let dn := count x n (-1)
  match md with
  | .bnn1 => [(2, 2 * up)]
  | .bnn2 => [(2, 2 * dn)]
  | .bnn3 | .bnn4 => [(2, up), (2, dn)]
  | .bnn5 => [(2, up + dn)]
  | .bnn6 | .tnn1 => [(1, 2 * (up + dn))]
  | .tnn2 => [(1, 2 * (up + dn)), (2, 2 * dn)]
  | .tnn3 => [(1, 2 * count x n 0), (2, 2 * up)]
  | .tnn4 | .tnn5 => [(1, up), (1, dn), (2, up), (2, dn)]
  | _ => []

variable {K : Type} [Field K] [LinearOrder K]

/-- Error of a conversion before it is rounded to an integer: half a step and the deviations of the cells. -/
def deviation (cfg : Cfg K) (lo hi ε : K) (c : Int × Int) : K :=
  |(c.1 : K) / (cfg.lrs - cfg.hrs)| * (c.2 * ε + adcStep cfg lo hi / 2)

/-- Error of a row. -/
def deviationBound (cfg : Cfg K) (lo hi ε : K) (x : Vec Int) (n : Nat) : K :=
  ((readout cfg.mode x n).map fun c => deviation cfg lo hi ε c + 1 / 2).sum

/-- No error of up to `e` moves `f` across a rounding boundary. -/
def Steady (f e : K) : Prop := ∀ k : Int, e < |f - (k + 1 / 2)|

/-- BNN_III and BNN_IV subtract two converted numbers.  Both contain this fraction, the currents of the cells in the
state `HRS`. -/
def shared (cfg : Cfg K) (x : Vec Int) (n : Nat) : K := 2 * count x n (-1) * (cfg.hrs / (cfg.lrs - cfg.hrs))

/-- The rounding to integers removes errors of `e c` in the conversions `c` of a row: they are below one half, or,
where both numbers have a common fraction, too small to round it differently. -/
def Absorbs (cfg : Cfg K) (e : Int × Int → K) (x : Vec Int) (n : Nat) : Prop :=
  (integral cfg.mode ∧ ∀ c ∈ readout cfg.mode x n, e c < 1 / 2) ∨
    ((cfg.mode = .bnn3 ∨ cfg.mode = .bnn4) ∧ ∀ c ∈ readout cfg.mode x n, Steady (shared cfg x n) (e c))

/-- The rounding to integers removes all errors. -/
def Absorbed (cfg : Cfg K) (lo hi ε : K) (x : Vec Int) (n : Nat) : Prop := Absorbs cfg (deviation cfg lo hi ε) x n

/-- An analog crossbar with a binary or ternary mapping and two different resistance states, without
parasitics and profiling.  Variation, read disturb and a real converter are allowed. -/
structure Binary (cfg : Cfg K) : Prop where
  analog : cfg.digitalOnly = false
  bin : cfg.mode.isInt = false
  par : cfg.parasitics = false
  prof : cfg.adcProfile = false
  ne : cfg.hrs ≠ cfg.lrs

/-- The nominal currents of a multiplication lie in the range of the converter, and what the converter
can produce fits into the result. -/
structure Converts (cfg : Cfg K) (lo hi : K) (W : Nat → Nat → Int) (res vec : Vec Int) (m n : Nat) : Prop where
  range : ∀ i, i < m → ∀ c ∈ conversions cfg W vec n i, lo ≤ c.1 ∧ c.1 ≤ hi
  room : ∀ i, i < m → ((|res.get i| + 3 * n : Int) : K) + convPeak lo hi (conversions cfg W vec n i) ≤ 2147483647

/-- Every multiplication of `ops`, performed after the history `h`, satisfies `P`. -/
def EveryMvm (P : List Op → Vec Int → Vec Int → Nat → Nat → String → Prop) : List Op → List Op → Prop
  | _, [] => True
  | h, .write mat m n :: ops => EveryMvm P (.write mat m n :: h) ops
  | h, .mvm res vec mat m n l :: ops => P h res vec m n l ∧ EveryMvm P (.mvm res vec mat m n l :: h) ops

/-- The answers of a matrix store each of whose multiplications satisfies `G`. -/
inductive AnswersBy (G : List Op → Vec Int → Vec Int → Nat → Nat → String → Vec Int → Prop) :
    List Op → List Op → List (Vec Int) → Prop
  | nil {h : List Op} : AnswersBy G h [] []
  | write {h ops : List Op} {rs : List (Vec Int)} {mat : Vec Int} {m n : Nat}
      (a : AnswersBy G (.write mat m n :: h) ops rs) : AnswersBy G h (.write mat m n :: ops) rs
  | mvm {h ops : List Op} {rs : List (Vec Int)} {res vec mat r : Vec Int} {m n : Nat} {l : String}
      (a : G h res vec m n l r) (a' : AnswersBy G (.mvm res vec mat m n l :: h) ops rs) :
      AnswersBy G h (.mvm res vec mat m n l :: ops) (r :: rs)

/-- The answers of a matrix store whose multiplications of an input `x` with `n` columns and the label `l`
err by at most `e l x n`. -/
def AnswersUpTo (e : String → Vec Int → Nat → K) : List Op → List Op → List (Vec Int) → Prop :=
  AnswersBy fun h res vec m n l r => AddsUpTo (fun _ => e l vec n) r res (stored h) vec m n

/-- Every multiplication meets a converter whose range for its label is `rg` and contains the nominal
currents. -/
def AllConvert (cfg : Cfg K) (rg : String → K × K) : List Op → List Op → Prop :=
  EveryMvm fun h res vec m n l =>
    AdcOk cfg l (rg l).1 (rg l).2 ∧ Converts cfg (rg l).1 (rg l).2 (stored h) res vec m n

/-- The rounding to integers removes the errors of every multiplication. -/
def AllAbsorbed (cfg : Cfg K) (rg : String → K × K) (ε : K) : List Op → List Op → Prop :=
  EveryMvm fun _ _ vec _ n l => Absorbed cfg (rg l).1 (rg l).2 ε vec n

end Acs.Spec
