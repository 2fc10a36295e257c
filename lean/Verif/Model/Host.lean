import Verif.Model.Api

/-!
# Where a configuration comes from

The part of `Config::load_cfg` (cpp/src/helper/config.cpp:43-52) that picks the file: the argument, the environment
variable `CFG_FILE` and the files of the machine.  The rest of `load_cfg` is `Acs.loadCfg`.  Files do not change while a
call runs.
-/

namespace Acs

variable {K : Type}

/-- What is in a file. -/
inductive Contents (K : Type) where
  | text (left : Json K)   -- not JSON; the parser leaves `left` behind
  | json (j : Json K)

/-- The machine: `std::getenv("CFG_FILE")` (`none`: a null pointer) and the files that can be opened, by name. -/
structure Host (K : Type) where
  var : Option String
  file : String → Option (Contents K)

/-- `cfg_file && cfg_file[0] ? cfg_file : std::getenv("CFG_FILE")`, config.cpp:44-45; `none` is a null pointer. -/
def cfgPath (h : Host K) (arg : Option String) : Option String :=
  match arg with
  | none => h.var
  | some s => if s.isEmpty then h.var else some s

/-- `std::ifstream file_stream(path)` and the parser, config.cpp:46-54. -/
def openCfg (h : Host K) (path : Option String) : File K :=
  match path with
  | none => .unnamed
  | some p =>
    match h.file p with
    | none => .missing
    | some (.text left) => .bad left
    | some (.json j) => .good j

variable [Field K] [LinearOrder K] [IsStrictOrderedRing K] [FloorRing K]

/-- `Config::load_cfg`, config.cpp:43-56. -/
def loadFrom (E : Env K) (h : Host K) (arg : Option String) (w : World K) : R K (World K × Bool) :=
  loadCfg E (openCfg h (cfgPath h arg)) w

/-- `set_config`, interface_pybind.cpp:60-69. -/
def setConfigFrom (E : Env K) (h : Host K) (arg : Option String) (w : World K) : R K (World K) :=
  setConfig E (openCfg h (cfgPath h arg)) w

/-- Loading of the library, `load_cfg("")`, interface_pybind.cpp:29-31. -/
def bootOn (E : Env K) (h : Host K) : C (World K) := boot E (openCfg h (cfgPath h (some "")))

end Acs
