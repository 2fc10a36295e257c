import Verif.Model.Crossbar
import Mathlib.Algebra.BigOperators.Group.Finset.Defs
import Mathlib.Algebra.Order.Ring.Int

/-!
# Specification vocabulary

What a user of the simulator means by a matrix, a legal weight, a product, a history of calls.
Nothing in this file refers to a helper function of the model: it uses the data types (configuration,
mode, crossbar) and the operations whose behaviour is being specified.
-/

namespace Acs.Spec

open Finset

/-! ## Matrices and products -/

/-- Entry `(i, j)` of an `n`-column matrix stored row by row in a buffer. -/
def entry (mat : Vec Int) (n i j : Nat) : Int := mat.get (n * i + j)

/-- Row `i` of the product of an `n`-column matrix with a vector. -/
def prod (W : Nat → Nat → Int) (x : Vec Int) (n i : Nat) : Int := ∑ j ∈ range n, W i j * x.get j

/-- `r` is the buffer `res` with the product added to its first `m` entries. -/
structure Adds (r res : Vec Int) (W : Nat → Nat → Int) (x : Vec Int) (m n : Nat) : Prop where
  size : r.size = res.size
  head : ∀ i, i < m → r.get i = res.get i + prod W x n i
  tail : ∀ i, m ≤ i → r.get i = res.get i

/-! ## Legal configurations, weights, inputs -/

variable {K : Type}

/-- Slicing parameters of a sensible configuration.  Integer mappings: the slice widths add up to
`W_BIT` (which the configuration code does not check); binary and ternary mappings: the values the
configuration code installs. -/
def CfgOk (cfg : Cfg K) : Prop :=
  match cfg.mode with
  | .iDiffWDiff1 | .iDiffWDiff2 | .iOffsWDiff | .iTcWDiff | .iUintWDiff | .iUintWOffs =>
    1 ≤ cfg.wBit ∧ cfg.wBit ≤ 31 ∧ cfg.split.sum = cfg.wBit ∧ (∀ s ∈ cfg.split, s ≤ 30) ∧
      1 ≤ cfg.iBit ∧ cfg.iBit ≤ 31
  | .tnn4 | .tnn5 => cfg.split = [1, 1] ∧ cfg.wBit = 2
  | .bnn1 | .bnn2 | .bnn3 | .bnn4 | .bnn5 | .bnn6 | .tnn1 | .tnn2 | .tnn3 => cfg.split = [0]

/-- The weights a mapping can represent. -/
def LegalW (cfg : Cfg K) (w : Int) : Prop :=
  match cfg.mode with
  | .iDiffWDiff1 | .iDiffWDiff2 | .iOffsWDiff | .iTcWDiff | .iUintWDiff => |w| < 2 ^ cfg.wBit
  | .iUintWOffs => -2 ^ (cfg.wBit - 1) ≤ w ∧ w < 2 ^ (cfg.wBit - 1)
  | .bnn1 | .bnn2 | .bnn3 | .bnn4 | .bnn5 | .bnn6 => w = 1 ∨ w = -1
  | .tnn1 | .tnn2 | .tnn3 | .tnn4 | .tnn5 => w = 1 ∨ w = -1 ∨ w = 0

/-- The inputs a mapping can represent. -/
def LegalX (cfg : Cfg K) (x : Int) : Prop :=
  match cfg.mode with
  | .iDiffWDiff1 | .iDiffWDiff2 | .iOffsWDiff | .iTcWDiff =>
    -2 ^ (cfg.iBit - 1) ≤ x ∧ x < 2 ^ (cfg.iBit - 1)
  | .iUintWDiff | .iUintWOffs => 0 ≤ x ∧ x < 2 ^ cfg.iBit
  | .bnn1 | .bnn2 | .bnn3 | .bnn4 | .bnn5 | .bnn6 => x = 1 ∨ x = -1
  | .tnn1 | .tnn2 | .tnn3 | .tnn4 | .tnn5 => x = 1 ∨ x = -1 ∨ x = 0

/-- Largest magnitude a product of `n` terms and the intermediate sums of the mapping can reach. -/
def peak (cfg : Cfg K) (n : Nat) : Int :=
  match cfg.mode with
  | .iDiffWDiff1 | .iDiffWDiff2 | .iOffsWDiff | .iTcWDiff | .iUintWDiff | .iUintWOffs =>
    n * 2 ^ (cfg.wBit + cfg.iBit)
  | _ => 3 * n

/-- The `int32_t` results cannot overflow. -/
def Room (cfg : Cfg K) (res : Vec Int) (m n : Nat) : Prop :=
  ∀ i, i < m → |res.get i| + peak cfg n ≤ 2147483647

/-- Mappings that keep the row sums of the written matrix beside the cells. -/
def keepsRowSums : Mode → Prop
  | .iOffsWDiff | .bnn1 | .bnn2 | .tnn3 => True
  | _ => False

/-- Mappings whose digital multiplication left-shifts values that may be negative.  ISO C++17 leaves
this undefined, gcc defines it as multiplication by a power of two. -/
def shiftsSigned : Mode → Prop
  | .bnn1 | .bnn2 | .bnn3 | .bnn4 | .bnn5 | .bnn6 | .tnn1 => False
  | _ => True

/-- Mappings that look at the weights they are given. -/
def checksW : Mode → Prop
  | .bnn1 | .bnn2 | .bnn5 | .bnn6 | .tnn1 | .tnn2 | .tnn3 => True
  | _ => False

/-- Mappings that look at the inputs they are given. -/
def checksX : Mode → Prop
  | .bnn3 | .bnn4 | .bnn5 | .bnn6 | .tnn1 | .tnn4 | .tnn5 => True
  | _ => False

/-- The weight an integer mapping really uses when it is given `w`: the magnitude (offset mapping: the
shifted value) is cut to `W_BIT` bits. -/
def wrapW (cfg : Cfg K) (w : Int) : Int :=
  if cfg.mode = .iUintWOffs then (w + 2 ^ (cfg.wBit - 1)) % 2 ^ cfg.wBit - 2 ^ (cfg.wBit - 1)
  else if 0 ≤ w then w % 2 ^ cfg.wBit else -((-w) % 2 ^ cfg.wBit)

/-- All entries of the leading block are legal weights. -/
def LegalMat (cfg : Cfg K) (W : Nat → Nat → Int) (m n : Nat) : Prop :=
  ∀ i j, i < m → j < n → LegalW cfg (W i j)

/-- All leading inputs are legal. -/
def LegalVec (cfg : Cfg K) (x : Vec Int) (n : Nat) : Prop := ∀ j, j < n → LegalX cfg (x.get j)

/-- An `m × n` call that the dimension check of the interface accepts; `n` is an `int32_t`. -/
def Accepted (cfg : Cfg K) (m n : Nat) : Prop := m ≤ cfg.M ∧ n ≤ cfg.N ∧ n ≤ 2147483647

/-- The row sums of an integer matrix of legal weights fit into `int32_t`. -/
def SumRoom (cfg : Cfg K) (m n : Nat) : Prop :=
  cfg.mode.isInt = true → 0 < m → (n : Int) * 2 ^ cfg.wBit ≤ 2147483647

/-! ## Cell encodings -/

/-- Bit position of slice `s`: the total width of the slices after it. -/
def shiftOf (split : List Nat) (s : Nat) : Nat := (split.drop (s + 1)).sum

/-- Bits `lo .. lo + width - 1` of an integer in two's complement. -/
def bits (a : Int) (lo width : Nat) : Int := a / 2 ^ lo % 2 ^ width

/-- State of the plus cell that slice `s` of weight `w` programs. -/
def encP (cfg : Cfg K) (w : Int) (s : Nat) : Int :=
  match cfg.mode with
  | .iDiffWDiff1 | .iDiffWDiff2 | .iOffsWDiff | .iTcWDiff | .iUintWDiff =>
    if 0 ≤ w then bits w (shiftOf cfg.split s) (cfg.split.getD s 0) else 0
  | .iUintWOffs => bits (w + 2 ^ (cfg.wBit - 1)) (shiftOf cfg.split s) (cfg.split.getD s 0)
  | .bnn1 | .bnn2 | .bnn5 | .bnn6 | .tnn1 | .tnn2 | .tnn3 => if w = 1 then 1 else 0
  | .bnn3 => (w + 1) / 2
  | .bnn4 => (1 - w).tdiv 2
  | .tnn4 => bits w 0 1
  | .tnn5 => bits (w + 1) 0 1

/-- State of the minus (second) cell that slice `s` of weight `w` programs. -/
def encM (cfg : Cfg K) (w : Int) (s : Nat) : Int :=
  match cfg.mode with
  | .iDiffWDiff1 | .iDiffWDiff2 | .iOffsWDiff | .iTcWDiff | .iUintWDiff =>
    if 0 ≤ w then 0 else bits (-w) (shiftOf cfg.split s) (cfg.split.getD s 0)
  | .bnn1 | .bnn2 | .bnn5 | .bnn6 | .tnn1 | .tnn2 | .tnn3 => if w = -1 then 1 else 0
  | .iUintWOffs | .bnn3 | .bnn4 => 0
  | .tnn4 => bits w 1 1
  | .tnn5 => bits (w + 1) 1 1

/-- Matrix row and slice stored in a row of cells: integer mappings keep the slices of a row in
consecutive cell rows, the other mappings use one cell row per matrix row. -/
def rowOf (cfg : Cfg K) (r : Nat) : Nat × Nat :=
  match cfg.mode with
  | .iDiffWDiff1 | .iDiffWDiff2 | .iOffsWDiff | .iTcWDiff | .iUintWDiff | .iUintWOffs =>
    (r / cfg.split.length, r % cfg.split.length)
  | _ => (r, 0)

/-! ## Analog quantities -/

/-- Exact arithmetic: no rounding to `float` or `double`. -/
structure ExactArith (E : Env K) : Prop where
  f32 : ∀ x, E.f32 x = x
  f64 : ∀ x, E.f64 x = x

/-- Current of a cell in state `g` of cell row `r`: affine between HRS and LRS, with `2 ^ split` states
in the integer mappings and two states otherwise. -/
def nominal [Field K] (cfg : Cfg K) (r : Nat) (g : Int) : K :=
  match cfg.mode with
  | .iDiffWDiff1 | .iDiffWDiff2 | .iOffsWDiff | .iTcWDiff | .iUintWDiff | .iUintWOffs =>
    cfg.hrs + g * ((cfg.lrs - cfg.hrs) / (2 ^ cfg.split.getD (r % cfg.split.length) 0 - 1))
  | _ => cfg.hrs + g * (cfg.lrs - cfg.hrs)

/-- The highest state of the cells in row `r`. -/
def topState (cfg : Cfg K) (r : Nat) : Int :=
  match cfg.mode with
  | .iDiffWDiff1 | .iDiffWDiff2 | .iOffsWDiff | .iTcWDiff | .iUintWDiff | .iUintWOffs =>
    2 ^ cfg.split.getD (r % cfg.split.length) 0 - 1
  | _ => 1

/-- A current that differs from its nominal value `s` by one of the Gaussian samples, cut off at
zero; there is no variation if the standard deviation `sd` is not positive. -/
def Varied [AddGroup K] [LinearOrder K] (E : Env K) (sd s y : K) : Prop :=
  if sd ≤ 0 then y = s else ∃ k, y = max 0 (E.f32 (s + E.gauss k))

/-- Programming adds no variation (integer mappings never do). -/
def Quiet [LE K] [Zero K] (cfg : Cfg K) : Prop :=
  cfg.mode.isInt = false → cfg.hrsNoise ≤ 0 ∧ cfg.lrsNoise ≤ 0

/-- Standard deviation for a cell in state `g`. -/
def noiseOf (cfg : Cfg K) (g : Int) : K := if g = 0 then cfg.hrsNoise else cfg.lrsNoise

/-- Conversion range of the converter for a layer: calibrated, or the theoretical extreme currents. -/
def adcRange [Ring K] (cfg : Cfg K) (l : String) : Option (K × K) :=
  match cfg.calibMode, cfg.adcType with
  | .calib, _ => cfg.calibDict.lookup l
  | .max, .pos => some (0, cfg.N * cfg.lrs)
  | .max, .sym => some (-(cfg.N * (cfg.lrs - cfg.hrs)), cfg.N * (cfg.lrs - cfg.hrs))
  | .max, .inf => none

/-- Number of levels of a real converter. -/
def adcLevels (cfg : Cfg K) : Int :=
  match cfg.adcType with
  | .sym => 2 ^ cfg.resolution.toNat - 1
  | _ => 2 ^ cfg.resolution.toNat

/-- Distance between two levels. -/
def adcStep [Field K] (cfg : Cfg K) (lo hi : K) : K := (hi - lo) / ((adcLevels cfg - 1 : Int) : K)

/-- A usable real converter: documented resolution and a proper range. -/
structure AdcOk [Field K] [LinearOrder K] (cfg : Cfg K) (l : String) (lo hi : K) : Prop where
  real : cfg.adcType ≠ .inf
  res : (if cfg.adcType = .sym then 2 else 1) ≤ cfg.resolution
  res30 : cfg.resolution ≤ 30
  range : adcRange cfg l = some (lo, hi)
  lt : lo < hi

/-- An analog crossbar without variation, disturb, parasitics and profiling, with two different
resistance states; the slices of an integer mapping are not empty. -/
structure Ideal [LE K] [Zero K] (cfg : Cfg K) : Prop where
  analog : cfg.digitalOnly = false
  par : cfg.parasitics = false
  c2c : cfg.c2c = false
  rd : cfg.readDisturb = false
  prof : cfg.adcProfile = false
  quiet : Quiet cfg
  ne : cfg.hrs ≠ cfg.lrs
  split : cfg.mode.isInt = true → ∀ s ∈ cfg.split, 1 ≤ s

/-- The conversions that row `i` of a multiplication needs, in the absence of variation: the column
current with the offset of the mapping, and the factor that maps it to a number.  `W` is the stored
matrix, `x` the input. -/
def conversions [Field K] (cfg : Cfg K) (W : Nat → Nat → Int) (x : Vec Int) (n i : Nat) : List (K × K) :=
  let Δ := cfg.lrs - cfg.hrs
  let S := cfg.split.length
  -- plus and minus currents of slice `s` in column `j`
  let p := fun s j => nominal cfg (i * S + s) (encP cfg (W i j) s)
  let q := fun s j => nominal cfg (i * S + s) (encM cfg (W i j) s)
  -- currents through the columns selected by `v`
  let sum := fun (f : Nat → K) (v : Int → Int) => ∑ j ∈ range n, f j * (v (x.get j) : K)
  let d := fun j => p 0 j - q 0 j
  let up := fun y : Int => if y = 1 then 1 else 0
  let dn := fun y : Int => if y = -1 then 1 else 0
  let tot : K := ((∑ j ∈ range n, x.get j : Int) : K)
  -- one conversion per input bit and slice
  let slices := fun (f : Nat → Nat → K) (sg : K) (v : Int → Int) (N : Nat) =>
    (List.range N).flatMap fun b => (List.range S).map fun s =>
      (sum (f s) fun y => bits (v y) b 1,
        sg * (2 ^ (shiftOf cfg.split s + b) * (2 ^ cfg.split.getD s 0 - 1)) / Δ)
  let ds := fun s j => p s j - q s j
  match cfg.mode with
  | .iDiffWDiff1 | .iDiffWDiff2 =>
    slices ds 1 (fun y => max y 0) (cfg.iBit - 1) ++ slices ds (-1) (fun y => max (-y) 0) cfg.iBit
  | .iOffsWDiff => slices ds 1 (fun y => y + 2 ^ (cfg.iBit - 1)) (cfg.iBit + 1)
  | .iTcWDiff | .iUintWDiff => slices ds 1 id cfg.iBit
  | .iUintWOffs => slices p 1 id cfg.iBit
  | .bnn1 => [(sum d up, 2 / Δ)]
  | .bnn2 => [(-sum d dn, 2 / Δ)]
  | .bnn3 | .bnn4 => [(sum (p 0) up - tot * cfg.hrs, 2 / Δ), (sum (p 0) dn, 2 / Δ)]
  | .bnn5 => [(sum (p 0) up + sum (q 0) dn - n * cfg.hrs, 2 / Δ)]
  | .bnn6 | .tnn1 => [(sum d up - sum d dn, 1 / Δ)]
  | .tnn2 => [(sum d abs, 1 / Δ), (sum d dn, 2 / Δ)]
  | .tnn3 => [(sum d (fun y => 1 - |y|), 1 / Δ), (sum d up, 2 / Δ)]
  | .tnn4 => [(sum (p 0) up + tot * (cfg.hrs / 2), 1 / Δ), (sum (p 0) dn - tot * (cfg.hrs / 2), 1 / Δ),
      (sum (q 0) up, 2 / Δ), (sum (q 0) dn, 2 / Δ)]
  | .tnn5 => [(sum (p 0) up, 1 / Δ), (sum (p 0) dn + 3 * tot * cfg.hrs, 1 / Δ),
      (sum (q 0) up, 2 / Δ), (sum (q 0) dn, 2 / Δ)]

/-- The real converter that the configuration allows for a mapping: unsigned if all currents of the
mapping are meant to be positive, symmetric otherwise. -/
def adcFits (cfg : Cfg K) : Prop :=
  match cfg.mode with
  | .iUintWOffs | .bnn3 | .bnn4 | .bnn5 | .tnn4 | .tnn5 => cfg.adcType = .pos
  | _ => cfg.adcType = .sym

/-- The mappings whose scaled currents are integers. -/
def integral : Mode → Prop
  | .iUintWOffs | .bnn3 | .bnn4 | .tnn4 | .tnn5 => False
  | _ => True

/-- Error of some conversions: a scaled half step for the quantisation and one half for the rounding to
an integer; the offset mapping rounds once more. -/
def convBound [Field K] [LinearOrder K] (cfg : Cfg K) (lo hi : K) (l : List (K × K)) : K :=
  (l.map fun c => |c.2| * (adcStep cfg lo hi / 2) + 1 / 2).sum + if cfg.mode = .iUintWOffs then 1 / 2 else 0

/-- Largest number some conversions can produce in total. -/
def convPeak [Field K] [LinearOrder K] (lo hi : K) (l : List (K × K)) : K :=
  (l.map fun c => max |lo| |hi| * |c.2| + 1 / 2).sum

/-- `r` is the buffer `res` with the product added to its first `m` entries, up to an error of
`e i` in row `i`. -/
structure AddsUpTo [Ring K] [LinearOrder K] (e : Nat → K) (r res : Vec Int) (W : Nat → Nat → Int)
    (x : Vec Int) (m n : Nat) : Prop where
  size : r.size = res.size
  head : ∀ i, i < m → |(r.get i : K) - ((res.get i + prod W x n i : Int) : K)| ≤ e i
  tail : ∀ i, m ≤ i → r.get i = res.get i

/-! ## Histories -/

/-- A call of a crossbar method. -/
inductive Op where
  | write (mat : Vec Int) (m n : Nat)
  | mvm (res vec mat : Vec Int) (m n : Nat) (l : String)

/-- What the last write covering each position wrote; most recent call first. -/
def lastWrite : List Op → Nat → Nat → Option Int
  | [], _, _ => none
  | .write mat m n :: h, i, j => if i < m ∧ j < n then some (entry mat n i j) else lastWrite h i j
  | .mvm .. :: h, i, j => lastWrite h i j

/-- The matrix a crossbar holds for its user. -/
def stored (h : List Op) (i j : Nat) : Int := (lastWrite h i j).getD 0

/-- The call is a multiplication. -/
def isMvm : Op → Prop
  | .mvm .. => True
  | .write .. => False

/-- Every write of a history has width `n`. -/
def WidthIs (n : Nat) (h : List Op) : Prop :=
  ∀ op ∈ h, match op with | .write _ _ n' => n' = n | .mvm .. => True

variable [Field K] [LinearOrder K] [IsStrictOrderedRing K] [FloorRing K]

/-- `Runs E cfg h x`: the crossbar `x` is the result of building a crossbar for `cfg` and performing
the calls `h` (most recent first), all of which returned normally.  The calls are arbitrary. -/
inductive Runs (E : Env K) (cfg : Cfg K) : List Op → Xbar K → Prop
  | init {rng : Nat} {hists : List (String × Hist K)} {x : Xbar K}
      (h : mkXbar E cfg rng hists = .ok x) : Runs E cfg [] x
  | write {hs : List Op} {x x' : Xbar K} {mat : Vec Int} {m n : Nat} (h : Runs E cfg hs x)
      (h' : xWrite E cfg x mat m n = .ok x') : Runs E cfg (.write mat m n :: hs) x'
  | mvm {hs : List Op} {x x' : Xbar K} {res vec mat r : Vec Int} {m n : Nat} {l : String}
      (h : Runs E cfg hs x) (h' : xMvm E cfg x res vec mat m n l = .ok (x', r)) :
      Runs E cfg (.mvm res vec mat m n l :: hs) x'

/-- Perform a list of calls and collect the results of the multiplications. -/
def exec (E : Env K) (cfg : Cfg K) (x : Xbar K) : List Op → C (Xbar K × List (Vec Int))
  | [] => .ok (x, [])
  | .write mat m n :: ops => do
    let x ← xWrite E cfg x mat m n
    exec E cfg x ops
  | .mvm res vec mat m n l :: ops => do
    let (x, r) ← xMvm E cfg x res vec mat m n l
    let (x, rs) ← exec E cfg x ops
    .ok (x, r :: rs)

/-! ## The abstract matrix store -/

/-- The answers `rs` of an ideal matrix store with history `h` to the calls `ops`: every
multiplication adds the exact product with the stored matrix. -/
inductive Answers : List Op → List Op → List (Vec Int) → Prop
  | nil {h : List Op} : Answers h [] []
  | write {h ops : List Op} {rs : List (Vec Int)} {mat : Vec Int} {m n : Nat}
      (a : Answers (.write mat m n :: h) ops rs) : Answers h (.write mat m n :: ops) rs
  | mvm {h ops : List Op} {rs : List (Vec Int)} {res vec mat r : Vec Int} {m n : Nat} {l : String}
      (a : Adds r res (stored h) vec m n) (a' : Answers (.mvm res vec mat m n l :: h) ops rs) :
      Answers h (.mvm res vec mat m n l :: ops) (r :: rs)

/-- A write call with legal arguments; `w` is the width all calls have in the mappings that keep row
sums. -/
structure LegalWrite (cfg : Cfg K) (w : Nat) (mat : Vec Int) (m n : Nat) : Prop where
  dims : Accepted cfg m n
  buf : m * n ≤ mat.size
  vals : LegalMat cfg (entry mat n) m n
  sums : SumRoom cfg m n
  width : keepsRowSums cfg.mode → n = w

/-- A multiplication with legal arguments after the history `h`: it reads only written cells. -/
structure LegalMvm (cfg : Cfg K) (w : Nat) (h : List Op) (res vec : Vec Int) (m n : Nat) : Prop where
  dims : Accepted cfg m n
  resBuf : m ≤ res.size
  vecBuf : n ≤ vec.size
  vals : LegalVec cfg vec n
  room : Room cfg res m n
  written : ∀ i j, i < m → j < n → (lastWrite h i j).isSome
  width : keepsRowSums cfg.mode → n = w

/-- A list of legal calls after the history `h`. -/
def LegalOps (cfg : Cfg K) (w : Nat) : List Op → List Op → Prop
  | _, [] => True
  | h, .write mat m n :: ops => LegalWrite cfg w mat m n ∧ LegalOps cfg w (.write mat m n :: h) ops
  | h, .mvm res vec mat m n l :: ops =>
    LegalMvm cfg w h res vec m n ∧ LegalOps cfg w (.mvm res vec mat m n l :: h) ops

end Acs.Spec
