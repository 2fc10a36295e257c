import Verif.Spec

/-!
# Reference notions for parasitic wires

How the cells of a mapping are placed on word and bit lines, what an ideal column would deliver, and
the column as a chain of wire segments.
-/

namespace Acs.Spec

/-- Word lines per input. -/
def lines : Mode → Nat
  | .bnn5 | .bnn6 | .tnn1 => 2
  | _ => 1

/-- Bit lines per weight row. -/
def pair : Mode → Nat
  | .iUintWOffs | .bnn3 | .bnn4 | .bnn5 => 1
  | _ => 2

/-- Cell rows per weight row: one per slice in the integer mappings, otherwise one. -/
def slices {K : Type} (cfg : Cfg K) : Nat :=
  match cfg.mode with
  | .iDiffWDiff1 | .iDiffWDiff2 | .iOffsWDiff | .iTcWDiff | .iUintWDiff | .iUintWOffs =>
    cfg.split.length
  | _ => 1

/-- Rows of the latest write. -/
def lastRows : List Op → Option Nat
  | [] => none
  | .write _ m _ :: _ => some m
  | .mvm .. :: t => lastRows t

section
variable {K : Type}

/-- The array on the first bit line (BNN_II exchanges the two). -/
def firstArray (md : Mode) (ia : Ia K) : Mat K := if md = .bnn2 then ia.m else ia.p

/-- The array on the second bit line. -/
def secondArray (md : Mode) (ia : Ia K) : Mat K := if md = .bnn2 then ia.p else ia.m

/-- The cell at word line `r` and bit line `c`: with several lines per input or per weight row the
positive and the negative array alternate. -/
def cross (md : Mode) (p q : Nat → Nat → K) (r c : Nat) : K :=
  if (r % lines md + c % pair md) % 2 = 0 then p (c / pair md) (r / lines md)
  else q (c / pair md) (r / lines md)

/-- Word line `r` is driven: it belongs to one of the `n` inputs, and the first (second) line of an
input is driven by a nonzero entry of `vp` (`vm`). -/
def driven (md : Mode) (vp vm : Nat → Int) (n r : Nat) : Prop :=
  r / lines md < n ∧ (if r % lines md = 0 then vp else vm) (r / lines md) ≠ 0

instance (md : Mode) (vp vm : Nat → Int) (n r : Nat) : Decidable (driven md vp vm n r) :=
  inferInstanceAs (Decidable (_ ∧ _))

section
variable [Field K]

/-- What the cells of bit line `c` contribute, row by row: `x r c` if the word line is driven. -/
def onLine (md : Mode) (vp vm : Nat → Int) (n c : Nat) (x : Nat → Nat → K) (r : Nat) : K :=
  if driven md vp vm n r then x r c else 0

/-- The current of bit line `c` without wire resistance. -/
def idealCol (md : Mode) (p q : Nat → Nat → K) (vp vm : Nat → Int) (n N c : Nat) : K :=
  (Finset.range N).sum (onLine md vp vm n c (cross md p q))

/-- Conductance of a column of which the first `k` rows are in place: the conductance `g k` of the next
cell is added in parallel, then comes one wire segment of conductance `w` in series. -/
def chain (w : K) (g : Nat → K) : Nat → K
  | 0 => 0
  | k + 1 => (chain w g k + g k) * w / (chain w g k + g k + w)

/-- The current of bit line `c` through `N` wire segments of resistance `R` ohm, i.e. conductance
`10^6 / R` µS (currents are in µA), read with the voltage `-u`. -/
def wiredCol (u R : K) (md : Mode) (p q : Nat → Nat → K) (vp vm : Nat → Int) (n N c : Nat) : K :=
  u * chain (1 / R * 1000000) (onLine md vp vm n c fun r c => cross md p q r c / u) N

end

section
variable [Field K] [LinearOrder K] [IsStrictOrderedRing K] [FloorRing K]

/-- The solver of crossbar `x` holds, for a block of `m` rows and `n` columns, the conductances
`current / -V_read` of the stored cell currents and the wire conductance `10^6 / R` (both as computed
in `float`). -/
def InSync (E : Env K) (cfg : Cfg K) (x : Xbar K) (m n : Nat) : Prop :=
  ∃ s g w, x.mapper.core.par = some s ∧ s.ga = some (g, w) ∧
    w = E.f32 (E.f64 (E.f32 (1 / cfg.wRes) * 1000000)) ∧
    g.rows = cfg.N ∧ g.cols = m * slices cfg * pair cfg.mode ∧
    ∀ r c, r < cfg.N → c < m * slices cfg * pair cfg.mode →
      g.get r c = if r / lines cfg.mode < n then
        cross cfg.mode
          (fun i j => E.f32 ((firstArray cfg.mode x.mapper.core.ia).get i j / -cfg.vRead))
          (fun i j => E.f32 ((secondArray cfg.mode x.mapper.core.ia).get i j / -cfg.vRead)) r c
      else 0

/-- The numbers the solver returns, from the currents `I` of the bit lines: TNN_IV and TNN_V get every
bit line, the other mappings with two bit lines get the difference. -/
def tap (md : Mode) (I : Nat → K) (i : Nat) : K :=
  if pair md = 1 ∨ md = .tnn4 ∨ md = .tnn5 then I i else I (2 * i) - I (2 * i + 1)

/-- How many numbers it returns for `m` weight rows. -/
def taps (cfg : Cfg K) (m : Nat) : Nat :=
  if cfg.mode = .tnn4 ∨ cfg.mode = .tnn5 then 2 * m else m * slices cfg

/-- The stored currents of a block are not negative. -/
def Conducts (cfg : Cfg K) (x : Xbar K) (m n : Nat) : Prop :=
  ∀ i j, i < m * slices cfg → j < n →
    0 ≤ (firstArray cfg.mode x.mapper.core.ia).get i j ∧ 0 ≤ (secondArray cfg.mode x.mapper.core.ia).get i j

/-- The current without wire resistance of bit line `c` of crossbar `x`. -/
abbrev idealOf (cfg : Cfg K) (x : Xbar K) (vp vm : Vec Int) (n c : Nat) : K :=
  idealCol cfg.mode (firstArray cfg.mode x.mapper.core.ia).get (secondArray cfg.mode x.mapper.core.ia).get
    vp.get vm.get n cfg.N c

/-- The current with wire resistance `R`. -/
abbrev wiredOf (R : K) (cfg : Cfg K) (x : Xbar K) (vp vm : Vec Int) (n c : Nat) : K :=
  wiredCol (-cfg.vRead) R cfg.mode (firstArray cfg.mode x.mapper.core.ia).get
    (secondArray cfg.mode x.mapper.core.ia).get vp.get vm.get n cfg.N c

/-- The cell on word line `r` and bit line `c` of crossbar `x`. -/
abbrev crossing (cfg : Cfg K) (x : Xbar K) (r c : Nat) : K :=
  cross cfg.mode (firstArray cfg.mode x.mapper.core.ia).get (secondArray cfg.mode x.mapper.core.ia).get r c

/-- Two crossbars hold the same currents in a block. -/
def SameCells (cfg : Cfg K) (A B : Ia K) (m n : Nat) : Prop :=
  ∀ i j, i < m * slices cfg → j < n →
    (firstArray cfg.mode A).get i j = (firstArray cfg.mode B).get i j ∧
    (secondArray cfg.mode A).get i j = (secondArray cfg.mode B).get i j

end
end

end Acs.Spec
