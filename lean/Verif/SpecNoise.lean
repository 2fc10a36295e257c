import Verif.Spec

/-! # Results of a crossbar whose cells deviate -/

namespace Acs.Spec

open Finset

/-- How often the deviation of a single cell can enter a row of the result, per column and in units of
the resistance window.  A binary or ternary mapping reads every column through one or two cells and
weighs a current with one or two. -/
def noiseGain : Mode → Nat
  | .bnn1 | .bnn2 | .tnn3 => 4
  | .tnn4 | .tnn5 => 3
  | _ => 2

/-- How many times a result entry is truncated to an integer. -/
def truncations : Mode → Nat
  | .tnn2 | .tnn3 => 2
  | _ => 1

variable {K : Type} [Field K] [LinearOrder K]

/-- Error of a row with `n` columns if no cell deviates by more than `ε`. -/
def noiseBound (cfg : Cfg K) (ε : K) (n : Nat) : K :=
  noiseGain cfg.mode * n * ε / |cfg.lrs - cfg.hrs| + truncations cfg.mode

/-- Deviation of a cell if no noise sample exceeds `ε`: cycle-to-cycle variation adds a second sample. -/
def spread (cfg : Cfg K) (ε : K) : K := if cfg.c2c then 2 * ε else ε

/-- The cells of the leading block differ by at most `ε` from the nominal current of what the matrix
store `L` holds. -/
def NearNominal (cfg : Cfg K) (ε : K) (L : Nat → Nat → Option Int) (ia : Ia K) (m n : Nat) : Prop :=
  ∀ i j w, i < m → j < n → L i j = some w →
    |ia.p.get i j - nominal cfg i (encP cfg w 0)| ≤ ε ∧ |ia.m.get i j - nominal cfg i (encM cfg w 0)| ≤ ε

/-- `r` is the buffer `res` with the product added to its first `m` entries, with an error below `e`. -/
structure AddsWithin (e : K) (r res : Vec Int) (W : Nat → Nat → Int) (x : Vec Int) (m n : Nat) : Prop where
  size : r.size = res.size
  head : ∀ i, i < m → |(r.get i : K) - ((res.get i + prod W x n i : Int) : K)| < e
  tail : ∀ i, m ≤ i → r.get i = res.get i

/-- The result with its error fits into 32 bits. -/
def NoiseRoom (cfg : Cfg K) (ε : K) (res : Vec Int) (m n : Nat) : Prop :=
  ∀ i, i < m → ((|res.get i| + 3 * n : Int) : K) + noiseGain cfg.mode * n * ε / |cfg.lrs - cfg.hrs| + 2
    ≤ 2147483647

/-- Every multiplication has room for its error. -/
def NoiseRooms (cfg : Cfg K) (ε : K) (ops : List Op) : Prop :=
  ∀ op ∈ ops, match op with | .mvm res _ _ m n _ => NoiseRoom cfg ε res m n | .write .. => True

/-- The answers of a matrix store whose multiplications with `n` columns err by less than `e n`. -/
inductive AnswersWithin (e : Nat → K) : List Op → List Op → List (Vec Int) → Prop
  | nil {h : List Op} : AnswersWithin e h [] []
  | write {h ops : List Op} {rs : List (Vec Int)} {mat : Vec Int} {m n : Nat}
      (a : AnswersWithin e (.write mat m n :: h) ops rs) : AnswersWithin e h (.write mat m n :: ops) rs
  | mvm {h ops : List Op} {rs : List (Vec Int)} {res vec mat r : Vec Int} {m n : Nat} {l : String}
      (a : AddsWithin (e n) r res (stored h) vec m n)
      (a' : AnswersWithin e (.mvm res vec mat m n l :: h) ops rs) :
      AnswersWithin e h (.mvm res vec mat m n l :: ops) (r :: rs)

/-- An analog crossbar with a binary or ternary mapping, an ideal converter and two different
resistance states, without parasitics and profiling.  Variation and read disturb are allowed. -/
structure Imperfect (cfg : Cfg K) : Prop where
  analog : cfg.digitalOnly = false
  bin : cfg.mode.isInt = false
  par : cfg.parasitics = false
  prof : cfg.adcProfile = false
  adc : cfg.adcType = .inf
  ne : cfg.hrs ≠ cfg.lrs

end Acs.Spec
