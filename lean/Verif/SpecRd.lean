import Verif.Spec

/-!
# Specification vocabulary: counters and read disturb
-/

namespace Acs.Spec

variable {K : Type}

/-! ## Counting calls -/

/-- Number of writes in a history. -/
def writesIn : List Op → Nat
  | [] => 0
  | .write .. :: h => writesIn h + 1
  | .mvm .. :: h => writesIn h

/-- Number of multiplications in a history. -/
def mvmsIn : List Op → Nat
  | [] => 0
  | .write .. :: h => mvmsIn h
  | .mvm .. :: h => mvmsIn h + 1

/-- Number of multiplications since the last write. -/
def mvmsSinceWrite : List Op → Nat
  | [] => 0
  | .write .. :: _ => 0
  | .mvm .. :: h => mvmsSinceWrite h + 1

/-- Block of the most recent write. -/
def lastBlock : List Op → Nat × Nat
  | [] => (0, 0)
  | .write _ m n :: _ => (m, n)
  | .mvm .. :: h => lastBlock h

/-- State of the cell `(i, j)` after a history, if weight `w` programs state `f w`; a new cell is in
state 0 (HRS). -/
def cellAfter (f : Int → Int) (h : List Op) (i j : Nat) : Int := ((lastWrite h i j).map f).getD 0

/-- Number of writes that switched the cell `(i, j)` from state 1 (LRS) to state 0 (HRS). -/
def switched (f : Int → Int) : List Op → Nat → Nat → Nat
  | [], _, _ => 0
  | .write mat m n :: h, i, j =>
    if cellAfter f h i j = 1 ∧ cellAfter f (.write mat m n :: h) i j = 0 then switched f h i j + 1
    else switched f h i j
  | .mvm .. :: h, i, j => switched f h i j

/-! ## Histories with the states they went through -/

variable [Field K] [LinearOrder K] [IsStrictOrderedRing K] [FloorRing K]

/-- A call with the crossbar before and after it. -/
structure Step (K : Type) where
  op : Op
  pre : Xbar K
  post : Xbar K

/-- `Runs` with all intermediate states, most recent call first. -/
inductive Traced (E : Env K) (cfg : Cfg K) : List (Step K) → Xbar K → Prop
  | init {rng : Nat} {hists : List (String × Hist K)} {x : Xbar K}
      (h : mkXbar E cfg rng hists = .ok x) : Traced E cfg [] x
  | write {t : List (Step K)} {x x' : Xbar K} {mat : Vec Int} {m n : Nat} (h : Traced E cfg t x)
      (h' : xWrite E cfg x mat m n = .ok x') : Traced E cfg (⟨.write mat m n, x, x'⟩ :: t) x'
  | mvm {t : List (Step K)} {x x' : Xbar K} {res vec mat r : Vec Int} {m n : Nat} {l : String}
      (h : Traced E cfg t x) (h' : xMvm E cfg x res vec mat m n l = .ok (x', r)) :
      Traced E cfg (⟨.mvm res vec mat m n l, x, x'⟩ :: t) x'

/-- The calls of a trace. -/
def calls (t : List (Step K)) : List Op := t.map Step.op

/-! ## Read disturb -/

/-- The disturb model was called for an update in this multiplication (`pre` is the state before). -/
def updateDue (cfg : Cfg K) (pre : Xbar K) : Prop := (pre.consec + 1) % cfg.updFreq = 0

/-- The call was a multiplication that made the software rewrite the crossbar. -/
def softRefresh (s : Step K) : Prop := isMvm s.op ∧ s.post.refX ≠ s.pre.refX

open Classical in
/-- Number of multiplications since the last write or software refresh. -/
noncomputable def mvmsSinceRenewal : List (Step K) → Nat
  | [] => 0
  | s :: t =>
    match s.op with
    | .write .. => 0
    | .mvm .. => if softRefresh s then 0 else mvmsSinceRenewal t + 1

/-- What a cell of a binary or ternary mapping carries right after it was programmed to state `g`. -/
def Programmed (E : Env K) (cfg : Cfg K) (g : Int) (y : K) : Prop :=
  (g = 0 ∨ g = 1) ∧ Varied E (noiseOf cfg g) (cfg.hrs + g * (cfg.lrs - cfg.hrs)) y

/-- A current lies outside the tolerance band around `LRS`. -/
def OutOfBand (E : Env K) (cfg : Cfg K) (y : K) : Prop :=
  y < E.fmul (E.fsub 1 cfg.tol) cfg.lrs ∨ E.fmul (E.fadd 1 cfg.tol) cfg.lrs < y

/-- The call reads the cell `(r, k)`. -/
def Reads (cfg : Cfg K) (op : Op) (r k : Nat) : Prop :=
  match op with
  | .mvm _ _ _ m n _ => r < m * cfg.S ∧ k < n
  | .write .. => False

open Classical in
/-- The call `s` refreshed a cell in state `g` with `cyc` cycles and `rds` reads so far: the cell is in
LRS, and either the software refreshed the crossbar, or the cell-based mitigation found that the current
it has after this multiplication leaves the tolerance band.  `rdFactor` is the disturb formula. -/
def RefreshOf (E : Env K) (cfg : Cfg K) (s : Step K) (g : Int) (cyc rds r k : Nat) : Prop :=
  cfg.digitalOnly = false ∧ isMvm s.op ∧ g = 1 ∧
  match cfg.strategy with
  | .off => False
  | .software => s.post.refX ≠ s.pre.refX
  | .cellBased => updateDue cfg s.pre ∧ ∃ rd f, s.pre.rd = some rd ∧
      rdFactor E cfg rd (rds + if Reads cfg s.op r k then 1 else 0) cyc = .ok f ∧
      OutOfBand E cfg (E.fmul cfg.lrs f)

/-- The call refreshed the plus cell `(r, k)`. -/
def RefreshP (E : Env K) (cfg : Cfg K) (s : Step K) (r k : Nat) : Prop :=
  ∃ rd, s.pre.rd = some rd ∧
    RefreshOf E cfg s (s.pre.mapper.core.gd.p.get r k) (rd.cycP.get r k) (rd.rdP.get r k) r k

/-- The call refreshed the minus cell `(r, k)`. -/
def RefreshM (E : Env K) (cfg : Cfg K) (s : Step K) (r k : Nat) : Prop :=
  ∃ rd, s.pre.rd = some rd ∧
    RefreshOf E cfg s (s.pre.mapper.core.gd.m.get r k) (rd.cycM.get r k) (rd.rdM.get r k) r k

open Classical in
/-- Number of calls of a trace with a property. -/
noncomputable def times (P : Step K → Prop) : List (Step K) → Nat
  | [] => 0
  | s :: t => times P t + if P s then 1 else 0

open Classical in
/-- Number of reads of the cell `(r, k)` since the last write or the last refresh `P` of the cell. -/
noncomputable def readsSince (cfg : Cfg K) (P : Step K → Prop) (r k : Nat) : List (Step K) → Nat
  | [] => 0
  | s :: t =>
    match s.op with
    | .write .. => 0
    | .mvm .. => if P s then 0 else readsSince cfg P r k t + if Reads cfg s.op r k then 1 else 0

/-- Condition on the arithmetic under which the read-disturb formula is monotone: the roundings are
monotone and keep 0 and 1, the power function and the exponential function have their usual order
properties.  Holds for the real functions with exact arithmetic and with IEEE rounding. -/
structure RdArith (E : Env K) : Prop where
  f32 : Monotone E.f32
  f64 : Monotone E.f64
  f32_zero : E.f32 0 = 0
  f64_zero : E.f64 0 = 0
  f32_one : E.f32 1 = 1
  f64_one : E.f64 1 = 1
  exp : ∀ a, 0 ≤ E.exp a
  pow_nonneg : ∀ a e, 0 ≤ a → 0 ≤ E.pow a e
  pow_mono : ∀ a b e, 0 ≤ a → a ≤ b → 0 ≤ e → E.pow a e ≤ E.pow b e
  pow_anti : ∀ a b e, 0 < a → a ≤ b → 0 ≤ e → E.pow b (-e) ≤ E.pow a (-e)
  pow_one : ∀ e, E.pow 1 e = 1

/-! ### The physical model, in exact arithmetic -/

/-- Thermal voltage `k_B T / q` at 300 K. -/
def thermal : K := 138064852 / 10 ^ 31 * 300 / (1602176634 / 10 ^ 28)

/-- Exponent of the conductance decay for a read voltage. -/
def decay (E : Env K) (v : K) : K := 68 / 10000 * E.exp (11 / 100 * |v| / thermal)

/-- Wear of a cell that was switched `c` times. -/
def wear (E : Env K) (c : Nat) : K := 3 / 1000 * E.pow c (41 / 100)

/-- Time after which the conductance of a cell starts to decay. -/
def transition (E : Env K) (v : K) (c : Nat) : K :=
  if 1 ≤ wear E c then 0
  else 155 / 10 ^ 10 * E.pow (143339 / 10 ^ 5) (1 / decay E v) * E.pow (1 - wear E c) (1 / decay E v)

/-- Factor by which `r` reads attenuate the current of a cell that was switched `c` times. -/
def attenuation (E : Env K) (cfg : Cfg K) (r c : Nat) : K :=
  if (r : K) * cfg.tRead < transition E cfg.vRead c then 1
  else if transition E cfg.vRead c = 0 then 0
  else E.pow (r * cfg.tRead / transition E cfg.vRead c) (-decay E cfg.vRead)

end Acs.Spec
