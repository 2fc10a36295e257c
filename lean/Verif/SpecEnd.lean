import Verif.SpecApi

/-! # Call sequences through the interface -/

namespace Acs.Spec

variable {K : Type} [Field K] [LinearOrder K] [FloorRing K]

/-- Serve a list of calls through `cpy_mtrx` and `exe_mvm`; yields the state, the result buffers and the
return codes. -/
def serve (E : Env K) : World K → List Op → R K (World K × List (Vec Int) × List Int)
  | w, [] => .ok (w, [], [])
  | w, .write mat m n :: ops => do
    let p ← cpyMtrx E mat (m : Int) (n : Int) w
    let q ← serve E p.1 ops
    .ok (q.1, q.2.1, p.2 :: q.2.2)
  | w, .mvm res vec mat m n l :: ops => do
    let p ← exeMvm E res vec mat (m : Int) (n : Int) l w
    let q ← serve E p.1 ops
    .ok (q.1, p.2.1 :: q.2.1, p.2.2 :: q.2.2)

/-- The dimensions of all calls fit the crossbar and are `int32_t` numbers. -/
def DimsFit (cfg : Cfg K) (ops : List Op) : Prop :=
  ∀ op ∈ ops, match op with
    | .write _ m n => Accepted cfg m n ∧ m < 2147483648
    | .mvm _ _ _ m n _ => Accepted cfg m n ∧ m < 2147483648

/-- What `serve` makes of the outcome of the crossbar alone: all codes are 0. -/
def served (w : World K) (ops : List Op) (p : Xbar K × List (Vec Int)) : World K × List (Vec Int) × List Int :=
  ({ w with xbar := some p.1 }, p.2, ops.map fun _ => 0)

/-- Height of all calls within `int32_t`. -/
def Heights (ops : List Op) : Prop :=
  ∀ op ∈ ops, match op with
    | .write _ m _ => m < 2147483648
    | .mvm _ _ _ m _ _ => m < 2147483648

end Acs.Spec
