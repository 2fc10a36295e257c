import Verif.Model.Config

/-!
# The library interface

cpp/src/interface_pybind.cpp together with the loading functions of cpp/src/helper/config.cpp.
`DEBUG_MODE` code, log output and the number of threads are not modelled.
-/

namespace Acs

/-- Everything that survives between two calls into the library: the configuration object with the
JSON data it was built from (config.h:61-141), the global crossbar (interface_pybind.cpp:29-33), and
the position of the random generator and the profiling histograms while there is no crossbar. -/
structure World (K : Type) where
  cfg : Cfg K
  data : Json K
  xbar : Option (Xbar K)
  rng : Nat
  hists : List (String × Hist K)

/-- A call that does not return: the program ends or its behaviour is undefined, or an exception
leaves the call (the caller may catch it and go on with the given state). -/
inductive Stop (K : Type) where
  | dead (f : Fault)
  | threw (w : World K)

/-- Result of an interface call. -/
abbrev R (K α : Type) := Except (Stop K) α

/-- Run a piece of the library inside an interface call; `w` is the state an exception leaves
behind. -/
def lift {K α : Type} (w : World K) (x : C α) : R K α :=
  match x with
  | .ok a => .ok a
  | .error .thrown => .error (.threw w)
  | .error f => .error (.dead f)

/-- The file named in a call of `set_config` (or by `CFG_FILE`). -/
inductive File (K : Type) where
  | unnamed               -- no name given and `CFG_FILE` not set
  | missing               -- cannot be opened
  | bad (left : Json K)   -- not JSON; the parser leaves `left` in `cfg_data_` before it throws
  | good (j : Json K)

/-- The text passed to `update_config`. -/
inductive Doc (K : Type) where
  | null                  -- null pointer
  | bad                   -- not JSON
  | good (j : Json K)

section
variable {K : Type} [Field K] [LinearOrder K] [IsStrictOrderedRing K] [FloorRing K]

/-- The state before the library was ever used. -/
def world0 : World K := ⟨cfg0, .null, none, 0, []⟩

/-- Drop the crossbar, keeping the random generator and the histograms, which are global objects. -/
def World.drop (w : World K) : World K :=
  match w.xbar with
  | none => w
  | some x => { w with xbar := none, rng := x.mapper.aux.rng, hists := x.mapper.aux.hists }

/-- `Config::load_cfg`, config.cpp:43-56. -/
def loadCfg (E : Env K) (f : File K) (w : World K) : R K (World K × Bool) :=
  match f with
  | .unnamed => .ok (w, false)
  | .missing => .error (.dead .exited)
  | .bad left => .error (.threw { w with data := left })
  | .good j => do
    let c ← lift { w with data := j } (applyConfig E j w.cfg)
    .ok ({ w with cfg := c, data := j }, true)

/-- `std::make_unique<nq::Crossbar>()`. -/
def newXbar (E : Env K) (w : World K) : R K (Xbar K) :=
  lift w (mkXbar E w.cfg w.drop.rng w.drop.hists)

/-- Loading of the library, interface_pybind.cpp:29-31.  An exception during initialisation
terminates the program. -/
def boot (E : Env K) (f : File K) : C (World K) :=
  let r : R K (World K) := do
    let r ← loadCfg E f world0
    if r.2 then do
      let x ← newXbar E r.1
      .ok { r.1 with xbar := some x }
    else .ok r.1
  match r with
  | .ok w => .ok w
  | .error (.dead e) => .error e
  | .error (.threw _) => .error .aborted

/-- Destruction of the current crossbar, if there is one. -/
def release (w : World K) : R K Unit :=
  match w.xbar with
  | none => .ok ()
  | some _ => lift w (destroyXbar w.cfg)

/-- `set_config`, interface_pybind.cpp:60-69. -/
def setConfig (E : Env K) (f : File K) (w : World K) : R K (World K) := do
  release w
  let r ← loadCfg E f w.drop
  let x ← newXbar E r.1
  .ok { r.1 with xbar := some x }

/-- `Config::update_cfg`, config.cpp:347-419, with the result `(config_updated, recreate_xbar)`. -/
def updateCfg (E : Env K) (j : Json K) (w : World K) : R K (World K × Bool × Bool) := do
  let s ← lift w (updKeys E j.items ⟨w.data, false, false⟩)
  if s.modified then do
    let c ← lift w (applyConfig E s.data w.cfg)
    .ok ({ w with cfg := c, data := s.data }, true, s.recreate)
  else .ok ({ w with data := s.data }, false, s.recreate)

/-- `update_config`, interface_pybind.cpp:71-105.  The new crossbar exists before the old one is
destroyed. -/
def updateConfig (E : Env K) (d : Doc K) (w : World K) : R K (World K × Int) :=
  match w.xbar with
  | none => .ok (w, -1)
  | some _ =>
    match d with
    | .null => .ok (w, -1)
    | .bad => .error (.dead .exited)
    | .good j => do
      let r ← updateCfg E j w
      if r.2.1 && r.2.2 then do
        let x ← newXbar E r.1
        release r.1
        .ok ({ r.1.drop with xbar := some x }, 0)
      else .ok (r.1, 0)

/-- `update_config_pb`, interface_pybind.cpp:437-447; `none` is the empty string. -/
def updateConfigPb (E : Env K) (d : Option (Doc K)) (w : World K) : R K (World K) :=
  match d with
  | none => .ok w
  | some d => do
    let r ← updateConfig E d w
    .ok r.1

/-- Conversion of an `int32_t` to `uint32_t`. -/
def toU32 (z : Int) : Nat := (z % 4294967296).toNat

/-- Conversion of an `int32_t` to `size_t`, done by every loop bound inside the library. -/
def toSize (z : Int) : Nat := (z % 18446744073709551616).toNat

/-- `m_matrix > CFG.M || n_matrix > CFG.N`: the comparison is unsigned. -/
def tooBig (w : World K) (m n : Int) : Prop := toU32 m > w.cfg.M ∨ toU32 n > w.cfg.N

instance (w : World K) (m n : Int) : Decidable (tooBig w m n) := inferInstanceAs (Decidable (_ ∨ _))

/-- `cpy_mtrx`, interface_pybind.cpp:157-193, and `cpy_mtrx_pb`, 294-299. -/
def cpyMtrx (E : Env K) (mat : Vec Int) (m n : Int) (w : World K) : R K (World K × Int) :=
  match w.xbar with
  | none => .ok (w, -1)
  | some x =>
    if tooBig w m n then .ok (w, -1)
    else do
      let x ← lift w (xWrite E w.cfg x mat (toSize m) (toSize n))
      .ok ({ w with xbar := some x }, 0)

/-- `exe_mvm`, interface_pybind.cpp:107-155; returns the state, the result buffer and the code. -/
def exeMvm (E : Env K) (res vec mat : Vec Int) (m n : Int) (l : String) (w : World K) :
    R K (World K × Vec Int × Int) :=
  match w.xbar with
  | none => .ok (w, res, -1)
  | some x =>
    if tooBig w m n then .ok (w, res, -1)
    else do
      let r ← lift w (xMvm E w.cfg x res vec mat (toSize m) (toSize n) l)
      .ok ({ w with xbar := some r.1 }, r.2, 0)

/-- `exe_mvm_pb`, interface_pybind.cpp:278-292: neither the crossbar nor the dimensions are
checked. -/
def exeMvmPb (E : Env K) (res vec mat : Vec Int) (m n : Int) (w : World K) :
    R K (World K × Vec Int × Int) :=
  match w.xbar with
  | none => .error (.dead .nullDeref)
  | some x => do
    let r ← lift w (xMvm E w.cfg x res vec mat (toSize m) (toSize n) "Unknown")
    .ok ({ w with xbar := some r.1 }, r.2, 0)

/-! ## Getters -/

/-- `check_xbar(); return xbar->...;`, interface_pybind.cpp:36-48, 195-275 and 301-435.  The getters
of the C interface also end the program when the pointer for the size is null. -/
def getter {α : Type} (f : Xbar K → C α) (w : World K) : C α :=
  match w.xbar with
  | none => .error .exited
  | some x => f x

/-- `xbar->...` without a check: the C++ interface, interface_pybind.cpp:450-480. -/
def getterCpp {α : Type} (f : Xbar K → C α) (w : World K) : C α :=
  match w.xbar with
  | none => .error .nullDeref
  | some x => f x

/-- `Crossbar::get_gd_p` etc., crossbar.cpp:250-264. -/
def Xbar.getGdP (x : Xbar K) : C (Mat Int) := .ok x.mapper.core.gd.p
def Xbar.getGdM (x : Xbar K) : C (Mat Int) := .ok x.mapper.core.gd.m
def Xbar.getIaP (x : Xbar K) : C (Mat K) := .ok x.mapper.core.ia.p
def Xbar.getIaM (x : Xbar K) : C (Mat K) := .ok x.mapper.core.ia.m

/-- The getters of the read-disturb model end the program when there is none, crossbar.cpp:266-302
and 321-328. -/
def Xbar.withRd {α : Type} (f : Rd K → α) (x : Xbar K) : C α :=
  match x.rd with
  | none => .error .exited
  | some rd => .ok (f rd)

/-- `Crossbar::get_write_xbar_counter` etc., crossbar.cpp:304-319. -/
def Xbar.getWrites (x : Xbar K) : C Nat := .ok x.writes
def Xbar.getMvms (x : Xbar K) : C Nat := .ok x.mvms
def Xbar.getReadNum (x : Xbar K) : C Nat := .ok x.consec
def Xbar.getRefX (x : Xbar K) : C Nat := .ok x.refX
def Xbar.getRefC (x : Xbar K) : C Nat := .ok x.refC

end

end Acs
