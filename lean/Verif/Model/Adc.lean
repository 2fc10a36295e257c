import Verif.Model.Types

/-!
# Analog-digital converters and input profiling

cpp/src/xbar/adc.cpp and the binned histograms of cpp/src/helper/histogram.cpp.
-/

namespace Acs

section
variable {K : Type} [Field K] [LinearOrder K] [IsStrictOrderedRing K] [FloorRing K]

/-- `steps_(std::pow(2, resolution_))`, adc.cpp:19-22: conversion of the double `2^r` to `int32_t`. -/
def adcSteps (r : Int) : C Int :=
  if r < 0 then .ok 0
  else if r ≤ 30 then .ok (2 ^ r.toNat)
  else .error .badCast

/-- `ADCFactory::createADC` with the constructors, adc.cpp:91, 106, 144-147, 157-168. -/
def mkAdc (cfg : Cfg K) : C Adc := do
  let st ← adcSteps cfg.resolution
  match cfg.adcType with
  | .inf => .ok ⟨.inf, st⟩
  | .pos => .ok ⟨.pos, st⟩
  | .sym => do
    let st' ← subI st 1
    .ok ⟨.sym, st'⟩

/-- `std::numeric_limits<float>::max()`. -/
def fltMax : K := (2 ^ 24 - 1) * 2 ^ 104

/-- `maximum_max_current()`, adc.cpp:98-100, 138-140, 149-151. -/
def maxCurrent (E : Env K) (cfg : Cfg K) : AdcType → K
  | .inf => fltMax
  | .pos => E.fmul (E.ofInt cfg.N) cfg.lrs
  | .sym => E.fmul (E.ofInt cfg.N) (E.fsub cfg.lrs cfg.hrs)

/-- `maximum_min_current()`, adc.cpp:102-104, 142, 153-155. -/
def minCurrent (E : Env K) (cfg : Cfg K) : AdcType → K
  | .inf => -fltMax
  | .pos => 0
  | .sym => E.fmul (-(E.ofInt cfg.N)) (E.fsub cfg.lrs cfg.hrs)

/-- `ADC::get_currents`, adc.cpp:51-69. -/
def getCurrents (E : Env K) (cfg : Cfg K) (k : AdcType) (l : String) : C (K × K) :=
  match cfg.calibMode with
  | .max => .ok (minCurrent E cfg k, maxCurrent E cfg k)
  | .calib =>
    match cfg.calibDict.lookup l with
    | some r => .ok r
    | none => .error .exited

/-- `ADC::clip`, adc.cpp:71-73, with `std::max(a, b) = (a < b) ? b : a` and
`std::min(a, b) = (b < a) ? b : a`. -/
def clip (c mn mx : K) : K :=
  let t := if c < mn then mn else c
  if mx < t then mx else t

/-- `ADCUnsigned::convert`, adc.cpp:108-136 (also used by `ADCSigned`).  `round` returns a value that
is representable, so its result is not rounded again. -/
def convQuant (E : Env K) (cfg : Cfg K) (adc : Adc) (cur scale off : K) (l : String) : C K := do
  let r ← getCurrents E cfg adc.kind l
  let mn := r.1
  let mx := r.2
  let range := E.fsub mx mn
  let t := E.fadd cur off
  let t := clip t mn mx
  let d ← subI adc.steps 1
  let step ← E.fdiv range (E.ofInt d)
  let t := E.fsub t mn
  let q ← E.fdiv t step
  let k : K := roundAway q
  let t := E.fadd (E.fmul k step) mn
  .ok (roundAway (E.fmul t scale) : K)

/-- `ADC::convert(float, ...)`, the virtual dispatch: adc.cpp:93-96 and 108-136. -/
def conv1 (E : Env K) (cfg : Cfg K) (adc : Adc) (cur scale off : K) (l : String) : C K :=
  match adc.kind with
  | .inf => .ok (E.fmul (E.fadd cur off) scale)
  | .sym | .pos => convQuant E cfg adc cur scale off l

/-! ## Profiling -/

/-- `BinnedHistogram::BinnedHistogram`, histogram.cpp:80-95.  The conversion of `num_bins_` to the
vector length is undefined for a negative value.  `values_` is a function of the other
fields, see `Hist.label`. -/
def mkHist (E : Env K) (mn mx bin : K) : C (Hist K) := do
  let q ← E.fdiv (E.fsub mx mn) bin
  let nb := roundAway q
  if nb < 0 then .error .badCast
  else .ok ⟨mn, mx, bin, Vec.const nb.toNat 0⟩

/-- `values_[i]`, histogram.cpp:88-94: the generator adds `bin_size_` to the previous label. -/
def Hist.label (E : Env K) (h : Hist K) : Nat → C K
  | 0 => do
    let b ← E.fdiv h.bin 2
    .ok (E.fadd h.minV b)
  | i + 1 => do
    let p ← Hist.label E h i
    .ok (E.fadd p h.bin)

/-- Bin index of a value, histogram.cpp:100-104. -/
def Hist.index (E : Env K) (h : Hist K) (v : K) : C Int := do
  let q ← E.fdiv (E.fsub v h.minV) h.bin
  toI32 ((roundAway q : Int) : K)

/-- `data_[i]++`, histogram.cpp:106-107. -/
def Hist.bump (h : Hist K) (i : Int) : C (Hist K) := do
  if i < 0 then .error .oob
  else
    let d ← updAt h.data i.toNat (fun c => addI c 1)
    .ok { h with data := d }

/-- `BinnedHistogram::update`, histogram.cpp:97-108: first all indices, then all increments. -/
def Hist.update (E : Env K) (h : Hist K) (vals : Vec K) (len : Nat) : C (Hist K) := do
  let idx ← setG len (fun i => do
    let v ← vals.rd i
    h.index E v) (Vec.const len (0 : Int))
  loop len (fun i h => do
    let k ← idx.rd i
    h.bump k) h

/-- Replace the histogram of one layer in the map. -/
def setHist (hs : List (String × Hist K)) (l : String) (h : Hist K) : List (String × Hist K) :=
  match hs with
  | [] => [(l, h)]
  | (k, g) :: t => if k = l then (k, h) :: t else (k, g) :: setHist t l h

/-- The histogram of a layer, created on first use, adc.cpp:77-85, with
`WorkloadHistograms::has_histogram`, `add_histogram`, `get_histogram`, histogram.cpp:150-167.  For an
ideal converter the range `max - min` overflows to infinity and the bin count cannot be converted to
an integer. -/
def getHist (E : Env K) (cfg : Cfg K) (adc : Adc) (hs : List (String × Hist K)) (l : String) :
    C (Hist K) :=
  match hs.lookup l with
  | some h => .ok h
  | none =>
    if adc.kind = .inf then .error .badCast
    else mkHist E (minCurrent E cfg adc.kind) (maxCurrent E cfg adc.kind) (E.ofInt cfg.binSize)

/-- `ADC::profile_inputs`, adc.cpp:75-89. -/
def profileInputs (E : Env K) (cfg : Cfg K) (adc : Adc) (hs : List (String × Hist K))
    (vals : Vec K) (len : Nat) (l : String) : C (List (String × Hist K)) := do
  let h ← getHist E cfg adc hs l
  let h ← h.update E vals len
  .ok (setHist hs l h)

/-- `ADC::convert(const std::vector<float>&, ...)`, adc.cpp:24-49, for `in` and `out` the same vector
(every call in the code base is of this form, so `out` is never resized).  The elements of the
parallel `std::transform` are independent; they are processed in index order here. -/
def convVec (E : Env K) (cfg : Cfg K) (adc : Adc) (hs : List (String × Hist K)) (v : Vec K)
    (len : Nat) (scale off : K) (l : String) : C (List (String × Hist K) × Vec K) := do
  if v.size < len then .error .exited
  else
    let hs ← (if cfg.adcProfile then profileInputs E cfg adc hs v len l else .ok hs)
    let v ← updG len (fun _ c => conv1 E cfg adc c scale off l) v
    .ok (hs, v)

end

end Acs
