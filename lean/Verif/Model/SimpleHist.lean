import Verif.Model.Profile

/-!
# Histograms of integers

`SimpleHistogram` of cpp/src/helper/histogram.cpp.  Arguments of a call are `int32_t`s; the theorems say so
where it matters.
-/

namespace Acs

/-- `SimpleHistogram`, cpp/inc/helper/histogram.h:22-58. -/
structure SHist where
  minV : Int
  maxV : Int
  data : Vec Int
  values : Vec Int

/-- The generator loop, histogram.cpp:26-27: `n++` after every value, also after the last one. -/
def genValues (mn : Int) (size : Nat) : C (Vec Int × Int) :=
  loop size (fun k (st : Vec Int × Int) => do
    let v ← st.1.wr k st.2
    let n ← addI st.2 1
    .ok (v, n)) (Vec.const size 0, mn)

/-- `SimpleHistogram::SimpleHistogram`, histogram.cpp:20-28.  A negative length becomes a huge `size_t`, for which
`std::vector` throws. -/
def mkSimple (mn mx : Int) : C SHist := do
  let d ← subI mx mn
  let s ← addI d 1
  if s < 0 then .error .thrown
  else do
    let g ← genValues mn s.toNat
    .ok ⟨mn, mx, Vec.const s.toNat 0, g.1⟩

/-- All indices, histogram.cpp:33-36. -/
def simpleIdx (mn : Int) : List Int → C (List Int)
  | [] => .ok []
  | v :: vs => do
    let i ← subI v mn
    let is ← simpleIdx mn vs
    .ok (i :: is)

/-- All increments, histogram.cpp:38-39; a negative index becomes a huge `size_t`. -/
def simpleBump (d : Vec Int) : List Int → C (Vec Int)
  | [] => .ok d
  | i :: is =>
    if i < 0 then .error .oob
    else do
      let d ← updAt d i.toNat (fun c => addI c 1)
      simpleBump d is

/-- `SimpleHistogram::update`, histogram.cpp:30-40. -/
def SHist.update (h : SHist) (vals : List Int) : C SHist := do
  let is ← simpleIdx h.minV vals
  let d ← simpleBump h.data is
  .ok { h with data := d }

/-- `SimpleHistogram::get_samples`, histogram.cpp:42-45.  The reductions run in parallel, in index order
here. -/
def SHist.samples (h : SHist) : C Int :=
  loop h.data.size (fun k s => do
    let d ← h.data.rd k
    addL s d) 0

section
variable {K : Type} [Field K] [LinearOrder K] [IsStrictOrderedRing K] [FloorRing K]

/-- `SimpleHistogram::get_mean`, histogram.cpp:47-52: products and partial sums are `float`s, the quotient is a
`double` that is converted to `float`.  Without samples it is not a number. -/
def SHist.mean (E : Env K) (h : SHist) : C K := do
  let s ← loop h.data.size (fun k s => do
    let d ← h.data.rd k
    let v ← h.values.rd k
    .ok (E.fadd s (E.fmul (E.ofInt d) (E.ofInt v)))) 0
  let n ← h.samples
  if n = 0 then .error .nonfinite else .ok (E.f32 (E.f64 (s / E.f64 (n : K))))

/-- `SimpleHistogram::get_variance`, histogram.cpp:54-63. -/
def SHist.variance (E : Env K) (h : SHist) : C K := do
  let mean ← h.mean E
  let s ← loop h.data.size (fun k s => do
    let d ← h.data.rd k
    let v ← h.values.rd k
    let x := E.fsub (E.ofInt v) mean
    let t := E.f64 ((d : K) * E.f64 (x ^ 2))
    .ok (E.fadd s (E.f32 t))) 0
  let n ← h.samples
  if n = 0 then .error .nonfinite else .ok (E.f32 (E.f64 (s / E.f64 (n : K))))

/-- What `SimpleHistogram::to_json` reports. -/
structure SReport (K : Type) where
  hist : List (Int × Int)
  samples : Int
  mean : K
  var : K

/-- `SimpleHistogram::to_json`, histogram.cpp:65-78. -/
def SHist.report (E : Env K) (h : SHist) : C (SReport K) := do
  let hm ← loop h.data.size (fun k (hm : List (Int × Int)) => do
    let d ← h.data.rd k
    let v ← h.values.rd k
    .ok (insNew hm v d)) []
  let n ← h.samples
  let mean ← h.mean E
  let var ← h.variance E
  .ok ⟨hm, n, mean, var⟩

end

end Acs
