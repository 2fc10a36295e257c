import Verif.Model.Adc

/-!
# Reports about the converter inputs

The summaries of cpp/src/helper/histogram.cpp and `get_adc_profile` of cpp/src/interface_pybind.cpp.  The
JSON documents are represented by the numbers that go into them.
-/

namespace Acs

section
variable {K : Type} [Field K] [LinearOrder K] [IsStrictOrderedRing K] [FloorRing K]

/-- `BinnedHistogram::get_samples`, histogram.cpp:110-113: a sum in `int64_t`.  The reduction runs in
parallel, in index order here. -/
def Hist.samples (h : Hist K) : C Int :=
  loop h.data.size (fun k s => do
    let d ← h.data.rd k
    addL s d) 0

/-- `BinnedHistogram::get_mean`, histogram.cpp:115-120: products and partial sums are `float`s, the
quotient is a `double` that is converted to `float`.  Without samples it is not a number. -/
def Hist.mean (E : Env K) (h : Hist K) : C K := do
  let s ← loop h.data.size (fun k s => do
    let d ← h.data.rd k
    let v ← h.label E k
    .ok (E.fadd s (E.fmul (E.ofInt d) v))) 0
  let n ← h.samples
  if n = 0 then .error .nonfinite else .ok (E.f32 (E.f64 (s / E.f64 (n : K))))

/-- `BinnedHistogram::get_variance`, histogram.cpp:122-131.  The second parameter of the lambda is an
`int32_t`, which cuts off the fractional part of the label. -/
def Hist.variance (E : Env K) (h : Hist K) : C K := do
  let mean ← h.mean E
  let s ← loop h.data.size (fun k s => do
    let d ← h.data.rd k
    let v ← h.label E k
    let z ← toI32 v
    let x := E.fsub (E.ofInt z) mean
    let t := E.f64 ((d : K) * E.f64 (x ^ 2))
    .ok (E.fadd s (E.f32 t))) 0
  let n ← h.samples
  if n = 0 then .error .nonfinite else .ok (E.f32 (E.f64 (s / E.f64 (n : K))))

/-- What is reported about one layer. -/
structure Report (K : Type) where
  hist : List (K × Int)
  samples : Int
  mean : K
  var : K

/-- Insertion into a `std::map`: an existing key keeps its value.  (The order of the entries is that of
insertion; the labels increase.) -/
def insNew {α β : Type} [DecidableEq α] (m : List (α × β)) (k : α) (v : β) : List (α × β) :=
  if (m.map Prod.fst).contains k then m else m ++ [(k, v)]

/-- `BinnedHistogram::to_json`, histogram.cpp:133-144. -/
def Hist.report (E : Env K) (h : Hist K) : C (Report K) := do
  let hm ← loop h.data.size (fun k (hm : List (K × Int)) => do
    let d ← h.data.rd k
    let v ← h.label E k
    .ok (insNew hm v d)) []
  let n ← h.samples
  let mean ← h.mean E
  let var ← h.variance E
  .ok ⟨hm, n, mean, var⟩

/-- `WorkloadHistograms::to_json`, histogram.cpp:169-179, and `get_adc_profile`,
interface_pybind.cpp:482-484: one report per layer. -/
def profileReport (E : Env K) : List (String × Hist K) → C (List (String × Report K))
  | [] => .ok []
  | (l, h) :: t => do
    let r ← h.report E
    let rs ← profileReport E t
    .ok ((l, r) :: rs)

end

end Acs
