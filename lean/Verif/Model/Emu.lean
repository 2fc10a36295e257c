import Verif.Model.Cpp

/-!
# The emulation library

cpp/src/interface_emu.cpp.  Python registers callbacks; without a callback the library computes the product
itself.  Function pointers are functions on the state `S` of the host program and the buffers.  Simplified: a
callback does not call back into the library; the buffers do not overlap and are not null; the output of
`DEBUG_MODE` is left out.
-/

namespace Acs

/-- `mvm_c_to_py_funcptr`, interface_emu.cpp:16-18.  The callback can change the buffers `res`, `vec`, `mat`
it gets pointers to; it returns a code. -/
abbrev MvmCb (S : Type) := S → Vec Int → Vec Int → Vec Int → Int → Int → String →
  C (S × (Vec Int × Vec Int × Vec Int) × Int)

/-- `cpy_c_to_py_funcptr`, interface_emu.cpp:27-28. -/
abbrev CpyCb (S : Type) := S → Vec Int → Int → Int → String → C (S × Vec Int × Int)

/-- `update_config_c_to_py_funcptr`, interface_emu.cpp:37-38. -/
abbrev UpdCb (S : Type) := S → String → String → C (S × Int)

/-- The function pointers (interface_emu.cpp:21, 31, 41), the flags `warning_done` (lines 55, 92, 148), what
has been printed, and the state of the host. -/
structure Emu (S : Type) where
  mvmCb : Option (MvmCb S)
  cpyCb : Option (CpyCb S)
  updCb : Option (UpdCb S)
  warnMvm : Bool
  warnCpy : Bool
  warnUpd : Bool
  out : List String
  host : S

section
variable {S : Type}

/-- The state when the library is loaded. -/
def emu0 (s : S) : Emu S := ⟨none, none, none, false, false, false, [], s⟩

/-- `set_mvm_python_cb`, interface_emu.cpp:24. -/
def setMvmCb (f : Option (MvmCb S)) (w : Emu S) : Emu S := { w with mvmCb := f }
/-- `set_cpy_python_cb`, interface_emu.cpp:34. -/
def setCpyCb (f : Option (CpyCb S)) (w : Emu S) : Emu S := { w with cpyCb := f }
/-- `set_update_config_cb`, interface_emu.cpp:44-46. -/
def setUpdCb (f : Option (UpdCb S)) (w : Emu S) : Emu S := { w with updCb := f }

/-- `mat[n_matrix * m + n] * vec[n]`, interface_emu.cpp:102; index and product are `int32_t`. -/
def emuTerm (n : Int) (mat vec : Vec Int) (i j : Nat) : C Int := do
  let p ← mulI n i
  let k ← addI p j
  let y ← (if k < 0 then .error .oob else mat.rd k.toNat)
  let x ← vec.rd j
  mulI y x

/-- `exe_mvm`, interface_emu.cpp:72-124.  Returns the state, the buffers and the code. -/
def emuMvm (res vec mat : Vec Int) (m n : Int) (l : String) (w : Emu S) :
    C (Emu S × (Vec Int × Vec Int × Vec Int) × Int) :=
  match w.mvmCb with
  | none => do
    let w := if w.warnMvm then w else { w with
      out := w.out ++ ["Function pointer mvm_c_to_py not set. Emulate operation instead."]
      warnMvm := true }
    let res ← accG addI m.toNat n.toNat (emuTerm n mat vec) res
    .ok (w, (res, vec, mat), 0)
  | some f => do
    let r ← f w.host res vec mat m n l
    .ok ({ w with host := r.1 }, r.2.1, 0)

/-- `cpy_mtrx`, interface_emu.cpp:126-160. -/
def emuCpy (mat : Vec Int) (m n : Int) (l : String) (w : Emu S) : C (Emu S × Vec Int × Int) :=
  match w.cpyCb with
  | none =>
    .ok (if w.warnCpy then w else { w with
      out := w.out ++ ["Function pointer cpy_c_to_py not set. Emulate operation instead."]
      warnCpy := true }, mat, 0)
  | some f => do
    let r ← f w.host mat m n l
    .ok ({ w with host := r.1 }, r.2.1, 0)

/-- `update_config`, interface_emu.cpp:48-70. -/
def emuUpdate (json l : String) (w : Emu S) : C (Emu S × Int) :=
  match w.updCb with
  | none =>
    .ok (if w.warnUpd then w else { w with
      out := w.out ++ ["Function pointer update_config_c_to_py not set. Emulate operation instead."]
      warnUpd := true }, 0)
  | some f => do
    let r ← f w.host json l
    .ok ({ w with host := r.1 }, 0)

end

end Acs
