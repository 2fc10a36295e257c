import Verif.Model.Api

/-!
# Reading back the state

The getters of cpp/src/interface_pybind.cpp that hand out matrices.  The C getters return a pointer into the
crossbar and the C++ getters a reference; here a call returns the contents at the time of the call.
-/

namespace Acs

section
variable {α β : Type}

/-- `num_matrix_elems`, interface_pybind.cpp:50-57: the lengths of the rows are added up in `uint32_t`. -/
def numElems (A : Mat α) : Nat :=
  (List.range A.rows).foldl (fun s _ => (s + A.cols) % 4294967296) 0

/-- The copy loops of the Python getters, e.g. interface_pybind.cpp:304-315.  The array is allocated without
being initialised, `fresh` is what it contains then; `conv` converts between the element types. -/
def copyOut (fresh : Nat → Nat → β) (conv : α → β) (A : Mat α) : C (Mat β) :=
  let cols := if A.rows > 0 then A.cols else 0
  loop A.rows (fun i r => loop cols (fun j (r : Mat β) => do
    let a ← A.rd i j
    r.wr i j (conv a)) r) ⟨A.rows, cols, fresh⟩

end

section
variable {K α β : Type} [Field K] [LinearOrder K] [IsStrictOrderedRing K] [FloorRing K]

/-- `get_gd_p`, `get_gd_m`, `get_ia_p`, `get_ia_m` of the C interface, interface_pybind.cpp:195-245.
`size` tells whether the pointer for the size is not null.  Returns the matrix (`none`: a null pointer) and
what is stored in `*size`. -/
def getC (size : Bool) (f : Xbar K → C (Mat α)) (w : World K) : C (Option (Mat α) × Nat) :=
  if size then do
    let A ← getter f w
    if A.rows = 0 then .ok (none, 0) else .ok (some A, numElems A)
  else .error .exited

/-- A getter of the Python interface: check for a crossbar, fetch the matrix, copy it. -/
def getPb (fresh : Nat → Nat → β) (conv : α → β) (f : Xbar K → C (Mat α)) (w : World K) : C (Mat β) := do
  let A ← getter f w
  copyOut fresh conv A

/-- `get_gd_p_pb`, interface_pybind.cpp:301-316: an array of `uint32_t`. -/
def getGdPPb (fresh : Nat → Nat → Nat) (w : World K) : C (Mat Nat) := getPb fresh toU32 Xbar.getGdP w
/-- `get_gd_m_pb`, interface_pybind.cpp:318-333. -/
def getGdMPb (fresh : Nat → Nat → Nat) (w : World K) : C (Mat Nat) := getPb fresh toU32 Xbar.getGdM w
/-- `get_ia_p_pb`, interface_pybind.cpp:335-350. -/
def getIaPPb (fresh : Nat → Nat → K) (w : World K) : C (Mat K) := getPb fresh id Xbar.getIaP w
/-- `get_ia_m_pb`, interface_pybind.cpp:352-367. -/
def getIaMPb (fresh : Nat → Nat → K) (w : World K) : C (Mat K) := getPb fresh id Xbar.getIaM w
/-- `get_cycles_p_pb`, interface_pybind.cpp:369-384. -/
def getCycPPb (fresh : Nat → Nat → Nat) (w : World K) : C (Mat Nat) :=
  getPb fresh id (Xbar.withRd Rd.cycP) w
/-- `get_cycles_m_pb`, interface_pybind.cpp:386-401. -/
def getCycMPb (fresh : Nat → Nat → Nat) (w : World K) : C (Mat Nat) :=
  getPb fresh id (Xbar.withRd Rd.cycM) w
/-- `get_consecutive_reads_p_pb`, interface_pybind.cpp:403-418. -/
def getReadsPPb (fresh : Nat → Nat → Nat) (w : World K) : C (Mat Nat) :=
  getPb fresh id (Xbar.withRd Rd.rdP) w
/-- `get_consecutive_reads_m_pb`, interface_pybind.cpp:420-435. -/
def getReadsMPb (fresh : Nat → Nat → Nat) (w : World K) : C (Mat Nat) :=
  getPb fresh id (Xbar.withRd Rd.rdM) w

/-- `rd_run_out_of_bounds`, interface_pybind.cpp:272-275, 532; `Crossbar::get_rd_run_out_of_bounds`,
crossbar.cpp:320-327; `ReadDisturb::get_run_out_of_bounds`, read_disturb.cpp:138. -/
def getRunOut (w : World K) : C Bool := getter (Xbar.withRd Rd.oob) w

end

end Acs
