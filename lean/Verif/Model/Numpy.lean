import Verif.Model.Api

/-!
# Arrays passed from Python

`exe_mvm_pb` and `cpy_mtrx_pb` (cpp/src/interface_pybind.cpp:278-299) take `pybind11::array_t<int32_t>` and hand
`request().ptr` to the library.  The template arguments are the defaults of pybind11: an array whose elements are `int32`
is passed as it is, whatever its strides; any other array is converted into a new one that exists during the call only
(`PyArray_FromAny` with `NPY_ARRAY_FORCECAST`, order `K`: the axis with the larger stride stays the outer one).

Simplified: arrays have one or two axes (an array with one axis is an array with one row), the elements of arrays of other
types are integers that `int32_t` can represent, and different arrays do not share memory.
-/

namespace Acs

/-- A numpy array: element type, memory of its base, position of the first element, shape and strides, counted in
elements. -/
structure NpArray where
  int32 : Bool
  mem : Vec Int
  offs : Nat
  rows : Nat
  cols : Nat
  sr : Int
  sc : Int

/-- The element that numpy shows at `[i, j]`. -/
def NpArray.item (a : NpArray) (i j : Nat) : Int := a.mem.get (a.offs + i * a.sr + j * a.sc).toNat

/-- The memory from `request().ptr` on, interface_pybind.cpp:282-288 and 296-297. -/
def NpArray.pass (a : NpArray) : Vec Int :=
  if a.int32 then ⟨a.mem.size - a.offs, fun k => a.mem.get (a.offs + k)⟩
  else if a.sc.natAbs ≤ a.sr.natAbs then ⟨a.rows * a.cols, fun k => a.item (k / a.cols) (k % a.cols)⟩
  else ⟨a.rows * a.cols, fun k => a.item (k % a.rows) (k / a.rows)⟩

/-- The array after a call that left `r` where `request().ptr` points. -/
def NpArray.back (a : NpArray) (r : Vec Int) : NpArray :=
  if a.int32 then { a with mem := ⟨a.mem.size, fun k => if a.offs ≤ k then r.get (k - a.offs) else a.mem.get k⟩ } else a

variable {K : Type} [Field K] [LinearOrder K] [FloorRing K]

/-- `cpy_mtrx_pb`, interface_pybind.cpp:294-299. -/
def npCpyMtrx (E : Env K) (mat : NpArray) (m n : Int) (w : World K) : R K (World K × Int) :=
  cpyMtrx E mat.pass m n w

/-- `exe_mvm_pb`, interface_pybind.cpp:278-292; returns the state, the array `res` afterwards and the code. -/
def npExeMvm (E : Env K) (res vec mat : NpArray) (m n : Int) (w : World K) : R K (World K × NpArray × Int) := do
  let r ← exeMvmPb E res.pass vec.pass mat.pass m n w
  .ok (r.1, res.back r.2.1, r.2.2)

end Acs
