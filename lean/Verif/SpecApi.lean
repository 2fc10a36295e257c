import Verif.Spec
import Verif.Model.Api

/-!
# Vocabulary for statements about whole sessions

Calls, reachable states, what an accepted configuration has to satisfy, and the history of a
crossbar.  Independent of the lemma files.
-/

namespace Acs.Spec

open Acs

variable {K : Type} [Field K] [LinearOrder K] [IsStrictOrderedRing K] [FloorRing K]

/-- The calls of the C and Python interfaces that can change the state. -/
inductive Call (K : Type) where
  | setConfig (f : File K)
  | update (d : Doc K)
  | updatePb (d : Option (Doc K))
  | write (mat : Vec Int) (m n : Int)
  | mvm (res vec mat : Vec Int) (m n : Int) (l : String)
  | mvmPb (res vec mat : Vec Int) (m n : Int)

/-- The state after a call. -/
def after (E : Env K) (w : World K) : Call K → R K (World K)
  | .setConfig f => setConfig E f w
  | .update d => Prod.fst <$> updateConfig E d w
  | .updatePb d => updateConfigPb E d w
  | .write mat m n => Prod.fst <$> cpyMtrx E mat m n w
  | .mvm res vec mat m n l => Prod.fst <$> exeMvm E res vec mat m n l w
  | .mvmPb res vec mat m n => Prod.fst <$> exeMvmPb E res vec mat m n w

/-- The states a program can be in between two calls.  `exc` says whether the program may go on after
an exception. -/
inductive Reach (E : Env K) (exc : Bool) : World K → Prop
  | boot {f : File K} {w : World K} (h : boot E f = .ok w) : Reach E exc w
  | step {w w' : World K} {c : Call K} (h : Reach E exc w) (h' : after E w c = .ok w') :
      Reach E exc w'
  | caught {w w' : World K} {c : Call K} (h : Reach E exc w) (he : exc = true)
      (h' : after E w c = .error (.threw w')) : Reach E exc w'

/-! ## Configurations -/

/-- Mappings whose cells are read in pairs, so that column currents can have both signs. -/
def signedCurrents : Mode → Prop
  | .iDiffWDiff1 | .iDiffWDiff2 | .iOffsWDiff | .iTcWDiff | .iUintWDiff => True
  | .bnn1 | .bnn2 | .bnn6 | .tnn1 | .tnn2 | .tnn3 => True
  | .iUintWOffs | .bnn3 | .bnn4 | .bnn5 | .tnn4 | .tnn5 => False

/-- The converter fits the sign of the currents. -/
def AdcMatches (cfg : Cfg K) : Prop :=
  cfg.adcType = .inf ∨ (cfg.adcType = .sym ∧ signedCurrents cfg.mode) ∨
    (cfg.adcType = .pos ∧ ¬signedCurrents cfg.mode)

/-- The documented constraints on the operand widths. -/
def BitsOk (cfg : Cfg K) : Prop :=
  (cfg.mode.family = .int → 0 < cfg.wBit ∧ 0 < cfg.iBit) ∧
  (cfg.mode = .tnn4 ∨ cfg.mode = .tnn5 → cfg.wBit = 2 ∧ cfg.split = [1, 1]) ∧
  (cfg.mode.family ≠ .int → cfg.mode ≠ .tnn4 → cfg.mode ≠ .tnn5 → cfg.split = [0])

/-- The documented constraints on the analog parameters. -/
structure AnalogOk (cfg : Cfg K) : Prop where
  states : 0 < cfg.hrs ∧ 0 < cfg.lrs
  adc : AdcMatches cfg
  calib : cfg.adcType ≠ .inf → cfg.calibMode = .calib → cfg.calibDict ≠ []
  vRead : cfg.readDisturb = true ∨ cfg.parasitics = true → cfg.vRead < 0
  family : cfg.readDisturb = true → cfg.mode.family ≠ .int
  software : cfg.readDisturb = true → cfg.strategy = .software → 1 ≤ cfg.fp
  cell : cfg.readDisturb = true → cfg.strategy = .cellBased → 0 ≤ cfg.tol ∧ cfg.tol ≤ 1
  variability : cfg.mode.family = .int → ¬(cfg.d2d = true ∧ cfg.c2c = true)
  wires : cfg.parasitics = true → cfg.wRes ≠ 0

/-- The documented constraint on the resolution of a real converter. -/
def ResolutionOk (cfg : Cfg K) : Prop := cfg.adcType ≠ .inf → 0 < cfg.resolution

/-- The parameters a crossbar is built from and used with; `d` agrees with `c` in everything that has
a meaning in the configuration `c`. -/
structure SameEffective (c d : Cfg K) : Prop where
  dims : d.M = c.M ∧ d.N = c.N
  mode : d.mode = c.mode
  digital : d.digitalOnly = c.digitalOnly
  verbose : d.verbose = c.verbose
  split : d.split = c.split
  wBit : c.mode.family = .int ∨ c.mode = .tnn4 ∨ c.mode = .tnn5 → d.wBit = c.wBit
  iBit : c.mode.family = .int → d.iBit = c.iBit
  states : c.digitalOnly = false → d.hrs = c.hrs ∧ d.lrs = c.lrs
  adcType : c.digitalOnly = false → d.adcType = c.adcType
  adc : c.digitalOnly = false → c.adcType ≠ .inf →
    d.resolution = c.resolution ∧ d.calibMode = c.calibMode
  dict : c.digitalOnly = false → c.adcType ≠ .inf → c.calibMode = .calib → d.calibDict = c.calibDict
  bin : c.digitalOnly = false → c.adcType ≠ .inf → c.adcProfile = true → d.binSize = c.binSize
  noise : c.digitalOnly = false → d.hrsNoise = c.hrsNoise ∧ d.lrsNoise = c.lrsNoise
  vari : c.digitalOnly = false → d.d2d = c.d2d ∧ d.c2c = c.c2c
  par : c.digitalOnly = false → d.parasitics = c.parasitics
  vRead : c.digitalOnly = false → c.readDisturb = true ∨ c.parasitics = true → d.vRead = c.vRead
  rd : c.digitalOnly = false → c.readDisturb = true →
    d.tRead = c.tRead ∧ d.updFreq = c.updFreq ∧ d.strategy = c.strategy
  fp : c.digitalOnly = false → c.readDisturb = true → c.strategy = .software → d.fp = c.fp
  tol : c.digitalOnly = false → c.readDisturb = true → c.strategy = .cellBased → d.tol = c.tol
  wRes : c.digitalOnly = false → c.parasitics = true → d.wRes = c.wRes

/-! ## Updates -/

/-- The update changes the value of this key. -/
def Changes (E : Env K) (data upd : Json K) (key : String) : Prop :=
  ∃ v, (key, v) ∈ upd.items ∧
    match data.find key with
    | none => v.isNull = false
    | some cur => cur.same E v = false

/-- The keys a crossbar is built from: dimensions, mapping, slicing, cell states, converter, noise,
read disturb and the switch for parasitics. -/
def structural (key : String) : Prop :=
  key ∈ ["W_BIT", "M", "N", "SPLIT", "digital_only", "HRS", "LRS", "adc_type", "resolution",
    "adc_profile", "adc_calib_mode", "adc_calib_dict", "m_mode", "HRS_NOISE", "LRS_NOISE",
    "read_disturb", "V_read", "t_read", "read_disturb_update_freq",
    "read_disturb_mitigation_strategy", "read_disturb_mitigation_fp",
    "read_disturb_update_tolerance", "parasitics"]

/-- No key is given twice (JSON objects are stored in a `std::map`). -/
def DistinctKeys (j : Json K) : Prop := (j.items.map Prod.fst).Nodup

/-! ## The crossbar and its configuration -/

/-- The dimensions, mapping and slicing of the crossbar (its cells, currents, row sums, solver and
read-disturb counters) are those of the configuration. -/
structure Matches (cfg : Cfg K) (x : Xbar K) : Prop where
  mode : x.mapper.core.mode = cfg.mode
  gdP : x.mapper.core.gd.p.rows = cfg.M * cfg.split.length ∧ x.mapper.core.gd.p.cols = cfg.N
  gdM : x.mapper.core.gd.m.rows = cfg.M * cfg.split.length ∧ x.mapper.core.gd.m.cols = cfg.N
  sums : x.mapper.core.gd.sumW.size = cfg.M
  iaP : x.mapper.core.ia.p.rows = cfg.M * cfg.split.length ∧ x.mapper.core.ia.p.cols = cfg.N
  iaM : x.mapper.core.ia.m.rows = cfg.M * cfg.split.length ∧ x.mapper.core.ia.m.cols = cfg.N
  solver : ∀ s, x.mapper.core.par = some s → s.mXbar = cfg.M ∧ s.nXbar = cfg.N ∧ s.mode = cfg.mode
  rd : cfg.readDisturb = true → ∃ r, x.rd = some r ∧
    r.cycP.rows = cfg.M * cfg.split.length ∧ r.cycP.cols = cfg.N ∧
    r.cycM.rows = cfg.M * cfg.split.length ∧ r.cycM.cols = cfg.N

/-- `x` was just built for `cfg`. -/
def Fresh (E : Env K) (cfg : Cfg K) (x : Xbar K) : Prop :=
  ∃ rng hists, mkXbar E cfg rng hists = .ok x

/-- `Session E h w`: in the state `w` the crossbar has served exactly the calls `h` (most recent
first) since it was built.  Updates that keep the crossbar, rejected calls and everything that
happened before the crossbar was built do not appear in `h`. -/
inductive Session (E : Env K) : List Op → World K → Prop
  | load {w w' : World K} {j : Json K} (h : setConfig E (.good j) w = .ok w') : Session E [] w'
  | rebuild {hs : List Op} {w w' : World K} {j : Json K} (h : Session E hs w)
      (hc : ∃ k, structural k ∧ Changes E w.data j k) (hk : DistinctKeys j)
      (h' : updateConfig E (.good j) w = .ok (w', 0)) : Session E [] w'
  | keep {hs : List Op} {w w' : World K} {j : Json K} (h : Session E hs w)
      (hc : ∀ k, structural k → ¬Changes E w.data j k) (hk : DistinctKeys j)
      (h' : updateConfig E (.good j) w = .ok (w', 0)) : Session E hs w'
  | write {hs : List Op} {w w' : World K} {mat : Vec Int} {m n : Nat} (h : Session E hs w)
      (hm : m < 2147483648 ∧ n < 2147483648)
      (h' : cpyMtrx E mat m n w = .ok (w', 0)) : Session E (.write mat m n :: hs) w'
  | mvm {hs : List Op} {w w' : World K} {res vec mat r : Vec Int} {m n : Nat} {l : String}
      (h : Session E hs w) (hm : m < 2147483648 ∧ n < 2147483648)
      (h' : exeMvm E res vec mat m n l w = .ok (w', r, 0)) :
      Session E (.mvm res vec mat m n l :: hs) w'

/-- A session without updates that keep the crossbar. -/
inductive Settled (E : Env K) : List Op → World K → Prop
  | load {w w' : World K} {j : Json K} (h : setConfig E (.good j) w = .ok w') : Settled E [] w'
  | rebuild {w w' : World K} {j : Json K} (hc : ∃ k, structural k ∧ Changes E w.data j k)
      (hk : DistinctKeys j) (h' : updateConfig E (.good j) w = .ok (w', 0)) : Settled E [] w'
  | write {hs : List Op} {w w' : World K} {mat : Vec Int} {m n : Nat} (h : Settled E hs w)
      (hm : m < 2147483648 ∧ n < 2147483648)
      (h' : cpyMtrx E mat m n w = .ok (w', 0)) : Settled E (.write mat m n :: hs) w'
  | mvm {hs : List Op} {w w' : World K} {res vec mat r : Vec Int} {m n : Nat} {l : String}
      (h : Settled E hs w) (hm : m < 2147483648 ∧ n < 2147483648)
      (h' : exeMvm E res vec mat m n l w = .ok (w', r, 0)) :
      Settled E (.mvm res vec mat m n l :: hs) w'

end Acs.Spec
