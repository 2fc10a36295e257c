import Verif.SpecApi

/-!
# What a configuration file says

Which value a member of a JSON document denotes, and when a configuration holds the values of a document.
-/

namespace Acs.Spec

variable {K : Type} [Field K] [LinearOrder K] [IsStrictOrderedRing K] [FloorRing K]

/-- `x` is `k` without its fractional part. -/
def Cut (k : K) (x : Int) : Prop :=
  (0 ≤ k → (x : K) ≤ k ∧ k < x + 1) ∧ (k < 0 → (x : K) - 1 < k ∧ k ≤ x)

/-- The value stands for the `uint32_t` number `n`: integers modulo 2^32, other numbers without their fractional
part, truth values as 0 and 1. -/
def NatIs (v : Json K) (n : Nat) : Prop :=
  n < 4294967296 ∧ match v with
  | .int z => (4294967296 : Int) ∣ z - n
  | .num k => Cut k n
  | .bool b => n = if b then 1 else 0
  | _ => False

/-- The value stands for the `int32_t` number `x`. -/
def IntIs (v : Json K) (x : Int) : Prop :=
  (-2147483648 ≤ x ∧ x < 2147483648) ∧ match v with
  | .int z => (4294967296 : Int) ∣ z - x
  | .num k => Cut k x
  | .bool b => x = if b then 1 else 0
  | _ => False

/-- The value stands for the `float` number `x`. -/
def NumIs (E : Env K) (v : Json K) (x : K) : Prop :=
  match v with
  | .int z => x = E.f32 (z : K)
  | .num k => x = E.f32 k
  | .bool b => x = if b then 1 else 0
  | _ => False

def BoolIs (v : Json K) (b : Bool) : Prop := v = .bool b

def StrIs (v : Json K) (s : String) : Prop := v = .str s

/-- A list of `uint32_t` numbers. -/
def NatsAre (v : Json K) (l : List Nat) : Prop := ∃ a, v = .arr a ∧ List.Forall₂ NatIs a l

/-- Pairs of `float` numbers with names. -/
def DictIs (E : Env K) (v : Json K) (l : List (String × (K × K))) : Prop :=
  ∃ m, v = .obj m ∧ List.Forall₂ (fun p q => q.1 = p.1 ∧
    ∃ a b r, p.2 = .arr (a :: b :: r) ∧ NumIs E a q.2.1 ∧ NumIs E b q.2.2) m l

/-- The document gives the value `x` for `key`. -/
def Gives {α : Type} (j : Json K) (key : String) (P : Json K → α → Prop) (x : α) : Prop :=
  ∃ v, j.find key = some v ∧ P v x

/-- Values that count as numbers, truth values and names. -/
def Numeric : Json K → Prop
  | .int _ | .num _ | .bool _ => True
  | _ => False

def Truth : Json K → Prop
  | .bool _ => True
  | _ => False

def Name : Json K → Prop
  | .str _ => True
  | _ => False

/-- The document gives the value `x` for `key`, or nothing of the right type and `x` is the default `d`. -/
def GivesOr {α : Type} (j : Json K) (key : String) (T : Json K → Prop) (P : Json K → α → Prop) (d x : α) : Prop :=
  Gives j key P x ∨ ((∀ v, j.find key = some v → ¬T v) ∧ x = d)

/-- Names of converters, calibration modes and strategies in configuration files. -/
def adcName : AdcType → String
  | .inf => "INF_ADC"
  | .sym => "SYM_RANGE_ADC"
  | .pos => "POS_RANGE_ONLY_ADC"

def calibName : CalibMode → String
  | .max => "MAX"
  | .calib => "CALIB"

def strategyName : Strategy → String
  | .off => "OFF"
  | .software => "SOFTWARE"
  | .cellBased => "CELL_BASED"

/-- The converter parameters of `c` are those of the document. -/
structure FromDocAdc (E : Env K) (j : Json K) (c : Cfg K) : Prop where
  resolution : Gives j "resolution" IntIs c.resolution
  calib : GivesOr j "adc_calib_mode" Name StrIs "MAX" (calibName c.calibMode)
  dict : c.calibMode = .calib → Gives j "adc_calib_dict" (DictIs E) c.calibDict
  profile : GivesOr j "adc_profile" Truth BoolIs false c.adcProfile
  bin : c.adcProfile = true → GivesOr j "adc_profile_bin_size" Numeric IntIs 10 c.binSize

/-- The read-disturb parameters of `c` are those of the document. -/
structure FromDocRd (E : Env K) (j : Json K) (c : Cfg K) : Prop where
  tRead : Gives j "t_read" (NumIs E) c.tRead
  freq : GivesOr j "read_disturb_update_freq" Numeric NatIs 1 c.updFreq
  strategy : GivesOr j "read_disturb_mitigation_strategy" Name StrIs "OFF" (strategyName c.strategy)
  fp : c.strategy = .software → Gives j "read_disturb_mitigation_fp" (NumIs E) c.fp
  tol : c.strategy = .cellBased → Gives j "read_disturb_update_tolerance" (NumIs E) c.tol

/-- The analog parameters of `c` are those of the document; wires without resistance are no parasitics. -/
structure FromDocAnalog (E : Env K) (j : Json K) (c : Cfg K) : Prop where
  hrs : Gives j "HRS" (NumIs E) c.hrs
  lrs : Gives j "LRS" (NumIs E) c.lrs
  adcType : Gives j "adc_type" StrIs (adcName c.adcType)
  adc : c.adcType ≠ .inf → FromDocAdc E j c
  hrsNoise : Gives j "HRS_NOISE" (NumIs E) c.hrsNoise
  lrsNoise : Gives j "LRS_NOISE" (NumIs E) c.lrsNoise
  d2d : GivesOr j "d2d_var" Truth BoolIs true c.d2d
  c2c : GivesOr j "c2c_var" Truth BoolIs false c.c2c
  readDisturb : GivesOr j "read_disturb" Truth BoolIs false c.readDisturb
  rd : c.readDisturb = true → FromDocRd E j c
  par : ∃ p, GivesOr j "parasitics" Truth BoolIs false p ∧ (p = true → Gives j "w_res" (NumIs E) c.wRes) ∧
    (c.parasitics = true ↔ p = true ∧ c.wRes ≠ 0) ∧
    (p = true ∨ c.readDisturb = true → Gives j "V_read" (NumIs E) c.vRead ∧ c.vRead < 0)

/-- The parameters of `c` that have a meaning are those of the document. -/
structure FromDoc (E : Env K) (j : Json K) (c : Cfg K) : Prop where
  M : Gives j "M" NatIs c.M
  N : Gives j "N" NatIs c.N
  mode : Gives j "m_mode" StrIs c.mode.name
  digital : Gives j "digital_only" BoolIs c.digitalOnly
  verbose : Gives j "verbose" BoolIs c.verbose
  analog : c.digitalOnly = false → FromDocAnalog E j c
  wBit : c.mode.family = .int ∨ c.mode = .tnn4 ∨ c.mode = .tnn5 → Gives j "W_BIT" NatIs c.wBit
  iBit : c.mode.family = .int → Gives j "I_BIT" NatIs c.iBit
  split : c.mode.family = .int ∨ c.mode = .tnn4 ∨ c.mode = .tnn5 → Gives j "SPLIT" NatsAre c.split

/-- The constraints on the values of an accepted document. -/
def Admissible (c : Cfg K) : Prop :=
  0 < c.M ∧ 0 < c.N ∧ BitsOk c ∧ (c.digitalOnly = false → AnalogOk c)

end Acs.Spec
