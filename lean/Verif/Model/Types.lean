import Verif.Model.Cpp

/-!
# Configuration and object state

Data types only: mapping modes, the configuration object, the state of a `Mapper`.
-/

namespace Acs

/-- `enum class MappingMode`, cpp/inc/helper/definitions.h:18-40. -/
inductive Mode where
  | iDiffWDiff1 | iDiffWDiff2 | iOffsWDiff | iTcWDiff | iUintWDiff | iUintWOffs
  | bnn1 | bnn2 | bnn3 | bnn4 | bnn5 | bnn6
  | tnn1 | tnn2 | tnn3 | tnn4 | tnn5
  deriving DecidableEq, Repr

/-- `enum class MappingType`, cpp/inc/helper/definitions.h:16. -/
inductive Family where
  | int | bnn | tnn
  deriving DecidableEq, Repr

/-- `mode_to_type`, cpp/inc/helper/definitions.h:42-59. -/
def Mode.family : Mode → Family
  | .iDiffWDiff1 | .iDiffWDiff2 | .iOffsWDiff | .iTcWDiff | .iUintWDiff | .iUintWOffs => .int
  | .bnn1 | .bnn2 | .bnn3 | .bnn4 | .bnn5 | .bnn6 => .bnn
  | .tnn1 | .tnn2 | .tnn3 | .tnn4 | .tnn5 => .tnn

/-- `Config::is_int_mapping`, cpp/src/helper/config.cpp:335-337. -/
def Mode.isInt (m : Mode) : Bool := m.family == .int

/-- The constructor argument `is_diff_weight_mapping` of each mapper class
(the `Mapper(true)`/`Mapper(false)` initialisers, e.g. int_i.cpp:21, bnn_iii.cpp:21, tnn_iv.cpp:22). -/
def Mode.isDiff : Mode → Bool
  | .iDiffWDiff1 | .iDiffWDiff2 | .iOffsWDiff | .iTcWDiff | .iUintWDiff => true
  | .iUintWOffs => false
  | .bnn1 | .bnn2 | .bnn6 => true
  | .bnn3 | .bnn4 | .bnn5 => false
  | .tnn1 | .tnn2 | .tnn3 => true
  | .tnn4 | .tnn5 => false

/-- `enum class ADCType`, cpp/inc/xbar/adc.h:25-29. -/
inductive AdcType where
  | inf | sym | pos
  deriving DecidableEq, Repr

/-- `enum ADCCalibMode`, cpp/inc/xbar/adc.h:22. -/
inductive CalibMode where
  | max | calib
  deriving DecidableEq, Repr

/-- `enum class ReadDisturbMitigationStrategy`, cpp/inc/helper/definitions.h:95-99. -/
inductive Strategy where
  | off | software | cellBased
  deriving DecidableEq, Repr

/-- The public fields of `class Config`, cpp/inc/helper/config.h:61-141.
Unsigned fields are natural numbers below `2^32`. -/
structure Cfg (K : Type) where
  M : Nat
  N : Nat
  split : List Nat
  wBit : Nat
  iBit : Nat
  digitalOnly : Bool
  hrs : K
  lrs : K
  adcType : AdcType
  resolution : Int
  adcProfile : Bool
  binSize : Int
  calibMode : CalibMode
  calibDict : List (String × (K × K))
  mode : Mode
  verbose : Bool
  hrsNoise : K
  lrsNoise : K
  d2d : Bool
  c2c : Bool
  readDisturb : Bool
  tRead : K
  updFreq : Nat
  strategy : Strategy
  fp : K
  tol : K
  parasitics : Bool
  wRes : K
  vRead : K

/-- `CFG.SPLIT.size()`. -/
def Cfg.S {K : Type} (c : Cfg K) : Nat := c.split.length

/-- Rows of the cell arrays, `CFG.M * CFG.SPLIT.size()`. -/
def Cfg.R {K : Type} (c : Cfg K) : Nat := c.M * c.S

/-- State of an `ADC` object: its class, and `resolution_`, `steps_` fixed at construction
(cpp/inc/xbar/adc.h:66-67). -/
structure Adc where
  kind : AdcType
  steps : Int
  deriving DecidableEq, Repr

/-- State of a `ParasiticSolver` that survives between calls, cpp/inc/xbar/parasitics.h.
`vd_`, `ga_mat_gated_` and `ga_col_acc_` are completely overwritten (`assign`) at the start of every
computation and are locals in the model. `ga` holds `ga_mat_` and the common value of all entries of `ga_wire_`; `none` means that
`set_conductance_matrix` was never called (both vectors are empty). -/
structure Solver (K : Type) where
  mXbar : Nat
  nXbar : Nat
  wRes : K
  vRead : K
  mode : Mode
  ga : Option (Mat K × K)

/-- The digital cell states `gd_p_`, `gd_m_` (`M * SPLIT.size()` rows, `N` columns) and the row sums
`sum_w_`, cpp/inc/mapping/mapper.h:77-80. -/
structure Gd where
  p : Mat Int
  m : Mat Int
  sumW : Vec Int

/-- The analog cell states `ia_p_`, `ia_m_`, `ia_p_orig_`, `ia_m_orig_`,
cpp/inc/mapping/mapper.h:83-86. -/
structure Ia (K : Type) where
  p : Mat K
  m : Mat K
  pO : Mat K
  mO : Mat K

/-- The part of a `Mapper` that a multiplication only reads, cpp/inc/mapping/mapper.h:70-92.
`iStep` entries are `none` when the division in the constructor is by zero (an infinity in C++). -/
structure Core (K : Type) where
  /-- which subclass of `Mapper` this object is, mapper.cpp:79-119 -/
  mode : Mode
  isDiff : Bool
  gd : Gd
  shift : Vec Nat
  ia : Ia K
  iStep : Vec (Option K)
  numSeg : Nat
  iMM : K
  /-- `delta_` of `MapperIntV`, int_v.h; `none` when the division is by zero -/
  delta : Option K
  adc : Adc
  par : Option (Solver K)

/-- `BinnedHistogram`, cpp/inc/helper/histogram.h: limits, bin width and counts. -/
structure Hist (K : Type) where
  minV : K
  maxV : K
  bin : K
  data : Vec Int

/-- The part of a `Mapper` that a multiplication writes: the scratch vectors of the subclasses
(`vd_p_`/`vd_`, `vd_m_`, `vd_slice_`, `tmp_out_int_`, `tmp_out_fp_`, `tmp_out_`, `tmp_out_p_`,
`tmp_out_m_`, `tmp_out_lsb_`, `tmp_out_msb_`, `res_fp_`), the position in the random stream and the
profiling histograms (global objects in C++, threaded through the state here). -/
structure Aux (K : Type) where
  vdP : Vec Int
  vdM : Vec Int
  vdSlice : Vec Int
  tmpInt : Vec Int
  tmpFp : Vec K
  tmp : Vec K
  tmpP : Vec K
  tmpM : Vec K
  tmpLsb : Vec K
  tmpMsb : Vec K
  resFp : Vec K
  rng : Nat
  hists : List (String × Hist K)

/-- A mapper object. -/
structure Mapper (K : Type) where
  core : Core K
  aux : Aux K

end Acs
