import Verif.Model.Crossbar

/-!
# The configuration

cpp/src/helper/config.cpp.  Text is not parsed: a document is either ill-formed or a JSON value of the
type `Json` below, which describes a `nlohmann::json` after parsing.
-/

namespace Acs

/-- A parsed `nlohmann::json` value.  `int` covers the two integer representations of the library
(values from `-2^63` to `2^64 - 1`), `num` is a `double`, and objects list their members in the order
of the keys (`std::map`), without duplicates. -/
inductive Json (K : Type) where
  | null
  | bool (b : Bool)
  | int (z : Int)
  | num (k : K)
  | str (s : String)
  | arr (l : List (Json K))
  | obj (l : List (String × Json K))

/-- Names accepted for `m_mode`, config.cpp:67-106. -/
def modeOfName (s : String) : Option Mode :=
  if s = "I_DIFF_W_DIFF_1XB" then some .iDiffWDiff1
  else if s = "I_DIFF_W_DIFF_2XB" then some .iDiffWDiff2
  else if s = "I_OFFS_W_DIFF" then some .iOffsWDiff
  else if s = "I_TC_W_DIFF" then some .iTcWDiff
  else if s = "I_UINT_W_DIFF" then some .iUintWDiff
  else if s = "I_UINT_W_OFFS" then some .iUintWOffs
  else if s = "BNN_I" then some .bnn1
  else if s = "BNN_II" then some .bnn2
  else if s = "BNN_III" then some .bnn3
  else if s = "BNN_IV" then some .bnn4
  else if s = "BNN_V" then some .bnn5
  else if s = "BNN_VI" then some .bnn6
  else if s = "TNN_I" then some .tnn1
  else if s = "TNN_II" then some .tnn2
  else if s = "TNN_III" then some .tnn3
  else if s = "TNN_IV" then some .tnn4
  else if s = "TNN_V" then some .tnn5
  else none

/-- `m_mode_to_string`, definitions.h:61-99. -/
def Mode.name : Mode → String
  | .iDiffWDiff1 => "I_DIFF_W_DIFF_1XB"
  | .iDiffWDiff2 => "I_DIFF_W_DIFF_2XB"
  | .iOffsWDiff => "I_OFFS_W_DIFF"
  | .iTcWDiff => "I_TC_W_DIFF"
  | .iUintWDiff => "I_UINT_W_DIFF"
  | .iUintWOffs => "I_UINT_W_OFFS"
  | .bnn1 => "BNN_I"
  | .bnn2 => "BNN_II"
  | .bnn3 => "BNN_III"
  | .bnn4 => "BNN_IV"
  | .bnn5 => "BNN_V"
  | .bnn6 => "BNN_VI"
  | .tnn1 => "TNN_I"
  | .tnn2 => "TNN_II"
  | .tnn3 => "TNN_III"
  | .tnn4 => "TNN_IV"
  | .tnn5 => "TNN_V"

/-- `Config::is_bnn_mapping`, config.cpp:339-341. -/
def Mode.isBnn (m : Mode) : Bool := m.family == .bnn

/-- `Config::is_tnn_mapping`, config.cpp:343-345. -/
def Mode.isTnn (m : Mode) : Bool := m.family == .tnn

/-- `json::operator==` between two integers: an unsigned value is converted to `int64_t` when it is
compared with a negative one. -/
def sameInt (a b : Int) : Bool := (a - b) % 2 ^ 64 == 0

section
variable {K : Type} [Field K] [LinearOrder K] [IsStrictOrderedRing K] [FloorRing K]

mutual
/-- `operator==(const json &, const json &)`: numbers are compared by value. -/
def Json.same (E : Env K) : Json K → Json K → Bool
  | .null, .null => true
  | .bool a, .bool b => a == b
  | .int a, .int b => sameInt a b
  | .num a, .num b => decide (a = b)
  | .int a, .num b => decide (E.f64 (a : K) = b)
  | .num a, .int b => decide (a = E.f64 (b : K))
  | .str a, .str b => a == b
  | .arr a, .arr b => Json.sameList E a b
  | .obj a, .obj b => Json.sameObj E a b
  | _, _ => false
/-- Comparison of arrays. -/
def Json.sameList (E : Env K) : List (Json K) → List (Json K) → Bool
  | [], [] => true
  | a :: as, b :: bs => Json.same E a b && Json.sameList E as bs
  | _, _ => false
/-- Comparison of objects. -/
def Json.sameObj (E : Env K) : List (String × Json K) → List (String × Json K) → Bool
  | [], [] => true
  | (k, a) :: as, (k', b) :: bs => k == k' && Json.same E a b && Json.sameObj E as bs
  | _, _ => false
end

/-- The member `key` of an object; `cfg.at(key)` throws in all other cases. -/
def Json.find (j : Json K) (key : String) : Option (Json K) :=
  match j with
  | .obj l => l.lookup key
  | _ => none

/-! ## `get<T>()`

`thrown` is the exception of the library for a value of the wrong type.  Integers are converted
modulo `2^32`; the conversion of a `double` that does not fit is undefined. -/

/-- `get<uint32_t>()`. -/
def Json.asU32 : Json K → C Nat
  | .int z => .ok (z % 4294967296).toNat
  | .bool b => .ok (if b then 1 else 0)
  | .num k => if 0 ≤ truncZ k ∧ truncZ k < 4294967296 then .ok (truncZ k).toNat else .error .badCast
  | _ => .error .thrown

/-- `get<int32_t>()` and `get<int>()`. -/
def Json.asI32 : Json K → C Int
  | .int z => .ok (wrap32 z)
  | .bool b => .ok (if b then 1 else 0)
  | .num k => toI32 k
  | _ => .error .thrown

/-- `get<float>()`. -/
def Json.asF32 (E : Env K) : Json K → C K
  | .int z => .ok (E.f32 (z : K))
  | .bool b => .ok (if b then 1 else 0)
  | .num k => .ok (E.f32 k)
  | _ => .error .thrown

/-- `get<bool>()`. -/
def Json.asBool : Json K → C Bool
  | .bool b => .ok b
  | _ => .error .thrown

/-- `get<std::string>()`. -/
def Json.asStr : Json K → C String
  | .str s => .ok s
  | _ => .error .thrown

/-- `get<std::vector<uint32_t>>()`. -/
def Json.asU32s : Json K → C (List Nat)
  | .arr l => l.mapM Json.asU32
  | _ => .error .thrown

/-- `get<std::pair<float, float>>()`: the first two elements of an array. -/
def Json.asPair (E : Env K) : Json K → C (K × K)
  | .arr (a :: b :: _) => do
    let x ← a.asF32 E
    let y ← b.asF32 E
    .ok (x, y)
  | _ => .error .thrown

/-- `get<std::map<std::string, std::pair<float, float>>>()`. -/
def Json.asDict (E : Env K) : Json K → C (List (String × (K × K)))
  | .obj l => l.mapM fun p => do
    let v ← p.2.asPair E
    .ok (p.1, v)
  | _ => .error .thrown

/-- `getConfigValue` without a default, config.cpp:27-41: a missing key or a value of the wrong type
ends the program. -/
def getReq {α : Type} (j : Json K) (key : String) (get : Json K → C α) : C α :=
  match j.find key with
  | none => .error .exited
  | some v =>
    match get v with
    | .error .thrown => .error .exited
    | r => r

/-- `getConfigValue` with a default, config.cpp:27-41: the default also replaces a value of the wrong
type. -/
def getDef {α : Type} (j : Json K) (key : String) (get : Json K → C α) (d : α) : C α :=
  match j.find key with
  | none => .ok d
  | some v =>
    match get v with
    | .error .thrown => .ok d
    | r => r

/-- `if (bad) std::exit(EXIT_FAILURE);` -/
def exitIf (bad : Prop) [Decidable bad] : C Unit := if bad then .error .exited else .ok ()

/-! ## `apply_config` -/

/-- config.cpp:60-65. -/
def applyDims (j : Json K) (c : Cfg K) : C (Cfg K) := do
  let m ← getReq j "M" Json.asU32
  let n ← getReq j "N" Json.asU32
  exitIf (m ≤ 0 ∨ n ≤ 0)
  .ok { c with M := m, N := n }

/-- config.cpp:67-106. -/
def applyMode (j : Json K) (c : Cfg K) : C (Cfg K) := do
  let s ← getReq j "m_mode" Json.asStr
  match modeOfName s with
  | none => .error .exited
  | some md => .ok { c with mode := md }

/-- Names accepted for `adc_type`, config.cpp:115-124. -/
def adcOfName (s : String) : Option AdcType :=
  if s = "INF_ADC" then some .inf
  else if s = "SYM_RANGE_ADC" then some .sym
  else if s = "POS_RANGE_ONLY_ADC" then some .pos
  else none

/-- States and converter type, config.cpp:110-129. -/
def applyStates (E : Env K) (j : Json K) (c : Cfg K) : C (Cfg K) := do
  let hrs ← getReq j "HRS" (Json.asF32 E)
  let lrs ← getReq j "LRS" (Json.asF32 E)
  let s ← getReq j "adc_type" Json.asStr
  match adcOfName s with
  | none => .error .exited
  | some a => do
    exitIf (hrs ≤ 0 ∨ lrs ≤ 0)
    .ok { c with hrs := hrs, lrs := lrs, adcType := a }

/-- Calibration mode, config.cpp:139-156. -/
def applyCalib (E : Env K) (j : Json K) (c : Cfg K) : C (Cfg K) := do
  let s ← getDef j "adc_calib_mode" Json.asStr "MAX"
  if s = "MAX" then .ok { c with calibMode := .max }
  else if s = "CALIB" then do
    let d ← getReq j "adc_calib_dict" (Json.asDict E)
    exitIf (d.isEmpty = true)
    .ok { c with calibMode := .calib, calibDict := d }
  else .error .exited

/-- Profiling, config.cpp:157-162. -/
def applyProfile (j : Json K) (c : Cfg K) : C (Cfg K) := do
  let p ← getDef j "adc_profile" Json.asBool false
  if p then do
    let b ← getDef j "adc_profile_bin_size" Json.asI32 10
    .ok { c with adcProfile := p, binSize := b }
  else .ok { c with adcProfile := p }

/-- Parameters of a real converter, config.cpp:131-163.  The test for `-1` looks at the resolution
of the previous configuration. -/
def applyAdc (E : Env K) (j : Json K) (c : Cfg K) : C (Cfg K) :=
  if c.adcType = .inf then .ok c
  else do
    exitIf (c.resolution = -1)
    let r ← getReq j "resolution" Json.asI32
    let c ← applyCalib E j { c with resolution := r }
    applyProfile j c

/-- Converters allowed for a mapping, config.cpp:165-201. -/
def adcAllowed (md : Mode) (a : AdcType) : Bool :=
  match md with
  | .iUintWOffs | .bnn3 | .bnn4 | .bnn5 | .tnn4 | .tnn5 => a == .inf || a == .pos
  | .iDiffWDiff1 | .iDiffWDiff2 | .iOffsWDiff | .iTcWDiff | .iUintWDiff | .bnn1 | .bnn2 | .bnn6
  | .tnn1 | .tnn2 | .tnn3 => a == .inf || a == .sym

/-- Variability, config.cpp:203-216. -/
def applyNoise (E : Env K) (j : Json K) (c : Cfg K) : C (Cfg K) := do
  let h ← getReq j "HRS_NOISE" (Json.asF32 E)
  let l ← getReq j "LRS_NOISE" (Json.asF32 E)
  let d2d ← getDef j "d2d_var" Json.asBool true
  let c2c ← getDef j "c2c_var" Json.asBool false
  exitIf ((c.mode.isInt && (d2d && c2c)) = true)
  .ok { c with hrsNoise := h, lrsNoise := l, d2d := d2d, c2c := c2c }

/-- Switches and read voltage, config.cpp:218-232. -/
def applyVRead (E : Env K) (j : Json K) (c : Cfg K) : C (Cfg K) := do
  let rd ← getDef j "read_disturb" Json.asBool false
  let par ← getDef j "parasitics" Json.asBool false
  if par || rd then do
    let v ← getReq j "V_read" (Json.asF32 E)
    exitIf (v ≥ 0)
    .ok { c with readDisturb := rd, parasitics := par, vRead := v }
  else .ok { c with readDisturb := rd, parasitics := par }

/-- Names accepted for the mitigation strategy, config.cpp:250-264. -/
def strategyOfName (s : String) : Option Strategy :=
  if s = "SOFTWARE" then some .software
  else if s = "CELL_BASED" then some .cellBased
  else if s = "OFF" then some .off
  else none

/-- Parameters of the mitigation strategy, config.cpp:266-288. -/
def applyMitigation (E : Env K) (j : Json K) (c : Cfg K) : C (Cfg K) :=
  match c.strategy with
  | .software => do
    let f ← getReq j "read_disturb_mitigation_fp" (Json.asF32 E)
    exitIf (f < 1)
    .ok { c with fp := f }
  | .cellBased => do
    let t ← getReq j "read_disturb_update_tolerance" (Json.asF32 E)
    exitIf (t < 0 ∨ t > 1)
    .ok { c with tol := t }
  | .off => .ok c

/-- Read disturb, config.cpp:234-289. -/
def applyRd (E : Env K) (j : Json K) (c : Cfg K) : C (Cfg K) :=
  if c.readDisturb then do
    exitIf (c.mode.isInt = true)
    let t ← getReq j "t_read" (Json.asF32 E)
    let f ← getDef j "read_disturb_update_freq" Json.asU32 1
    let s ← getDef j "read_disturb_mitigation_strategy" Json.asStr "OFF"
    match strategyOfName s with
    | none => .error .exited
    | some s => applyMitigation E j { c with tRead := t, updFreq := f, strategy := s }
  else .ok c

/-- Wire resistance, config.cpp:291-297. -/
def applyPar (E : Env K) (j : Json K) (c : Cfg K) : C (Cfg K) :=
  if c.parasitics then do
    let w ← getReq j "w_res" (Json.asF32 E)
    .ok { c with wRes := w, parasitics := decide (w ≠ 0) }
  else .ok c

/-- The analog block, config.cpp:109-298. -/
def applyAnalog (E : Env K) (j : Json K) (c : Cfg K) : C (Cfg K) := do
  let c ← applyStates E j c
  let c ← applyAdc E j c
  exitIf (adcAllowed c.mode c.adcType = false)
  let c ← applyNoise E j c
  let c ← applyVRead E j c
  let c ← applyRd E j c
  applyPar E j c

/-- Operand widths and slices, config.cpp:300-324. -/
def applyBits (j : Json K) (c : Cfg K) : C (Cfg K) :=
  if c.mode.isInt then do
    let w ← getReq j "W_BIT" Json.asU32
    let i ← getReq j "I_BIT" Json.asU32
    let s ← getReq j "SPLIT" Json.asU32s
    exitIf (w ≤ 0 ∨ i ≤ 0)
    .ok { c with wBit := w, iBit := i, split := s }
  else if c.mode = .tnn4 ∨ c.mode = .tnn5 then do
    let w ← getReq j "W_BIT" Json.asU32
    let s ← getReq j "SPLIT" Json.asU32s
    exitIf (w ≠ 2)
    exitIf (s ≠ [1, 1])
    .ok { c with wBit := w, split := s }
  else .ok { c with split := [0] }

/-- `Config::apply_config`, config.cpp:58-333, applied to the JSON data `j` and the previous contents
`c` of the configuration object.  No exception can reach the `catch` at the end, so the function
never returns `false`. -/
def applyConfig (E : Env K) (j : Json K) (c : Cfg K) : C (Cfg K) := do
  let c ← applyDims j c
  let c ← applyMode j c
  let d ← getReq j "digital_only" Json.asBool
  let c := { c with digitalOnly := d }
  let c ← (if d then .ok c else applyAnalog E j c)
  let c ← applyBits j c
  let v ← getReq j "verbose" Json.asBool
  .ok { c with verbose := v }

/-- The configuration object before anything is loaded: static storage, zero-initialised
(`static Config instance`, config.cpp:19-22; config.h:61-131). -/
def cfg0 : Cfg K where
  M := 0
  N := 0
  split := []
  wBit := 0
  iBit := 0
  digitalOnly := false
  hrs := 0
  lrs := 0
  adcType := .inf
  resolution := 0
  adcProfile := false
  binSize := 0
  calibMode := .max
  calibDict := []
  mode := .iDiffWDiff1
  verbose := false
  hrsNoise := 0
  lrsNoise := 0
  d2d := false
  c2c := false
  readDisturb := false
  tRead := 0
  updFreq := 0
  strategy := .software
  fp := 0
  tol := 0
  parasitics := false
  wRes := 0
  vRead := 0

/-! ## `update_cfg` -/

/-- `Config::recreation_keys`, config.h:34-58. -/
def recreationKeys : List String :=
  ["W_BIT", "M", "N", "SPLIT", "digital_only", "HRS", "LRS", "adc_type", "resolution", "adc_profile",
   "adc_calib_mode", "adc_calib_dict", "m_mode", "HRS_NOISE", "LRS_NOISE", "read_disturb", "V_read",
   "t_read", "read_disturb_update_freq", "read_disturb_mitigation_strategy",
   "read_disturb_mitigation_fp", "read_disturb_update_tolerance", "parasitics"]

/-- Replace the member `key`, or append it. -/
def setMember (key : String) (v : Json K) : List (String × Json K) → List (String × Json K)
  | [] => [(key, v)]
  | (k, a) :: l => if k = key then (k, v) :: l else (k, a) :: setMember key v l

/-- `cfg_data_[key] = v`: a null value becomes an object, everything else throws (and `update_cfg`
ends the program).  The order of the members of `cfg_data_` is never observed, so a new member is
simply appended. -/
def Json.set (j : Json K) (key : String) (v : Json K) : C (Json K) :=
  match j with
  | .null => .ok (.obj [(key, v)])
  | .obj l => .ok (.obj (setMember key v l))
  | _ => .error .exited

/-- `updates.items()`: the members of an object, the elements of an array with their indices, a
single element with an empty key for other values, nothing for `null`. -/
def Json.items : Json K → List (String × Json K)
  | .obj l => l
  | .arr l => l.zipIdx.map fun p => (toString p.2, p.1)
  | .null => []
  | j => [("", j)]

/-- `value.is_null()`. -/
def Json.isNull : Json K → Bool
  | .null => true
  | _ => false

/-- State of the loop in `update_cfg`: `cfg_data_`, `config_modified`, `*recreate_xbar`. -/
structure Upd (K : Type) where
  data : Json K
  modified : Bool
  recreate : Bool

/-- One iteration, config.cpp:369-400. -/
def updKey (E : Env K) (s : Upd K) (key : String) (v : Json K) : C (Upd K) :=
  match s.data.find key with
  | none =>
    if v.isNull then .ok s
    else do
      let d ← s.data.set key v
      .ok ⟨d, true, s.recreate || recreationKeys.contains key⟩
  | some cur =>
    if cur.same E v then .ok s
    else do
      let d ← s.data.set key v
      .ok ⟨d, true, s.recreate || recreationKeys.contains key⟩

/-- All iterations. -/
def updKeys (E : Env K) : List (String × Json K) → Upd K → C (Upd K)
  | [], s => .ok s
  | (k, v) :: l, s => do
    let s ← updKey E s k v
    updKeys E l s

end

end Acs
