import Verif.SpecLoad
import Verif.SpecRd
import Verif.SpecEnd
import Mathlib.Analysis.SpecialFunctions.Pow.Real

/-!
# The tests of the read disturb model

Configuration files, golden model and calls of `int-bindings/test/read_disturb_*_test.py`.
-/

namespace Acs.Spec

/-- `cpp/test/lib/configs/analog/READ_DISTURB.json`, `READ_DISTURB_MITIGATION_SW.json` and
`READ_DISTURB_MITIGATION_HW.json`.  Members are sorted by name. -/
noncomputable def disturbFile : Strategy → Json ℝ
  | .off =>
    .obj [("HRS", .num 5), ("HRS_NOISE", .num 0), ("LRS", .num 30), ("LRS_NOISE", .num 0), ("M", .int 1), ("N", .int 1),
      ("V_read", .num (-4 / 10)), ("adc_type", .str "INF_ADC"), ("digital_only", .bool false), ("m_mode", .str "BNN_I"),
      ("read_disturb", .bool true), ("t_read", .num (100 / 10 ^ 9)), ("verbose", .bool false)]
  | .software =>
    .obj [("HRS", .num 5), ("HRS_NOISE", .num 0), ("LRS", .num 30), ("LRS_NOISE", .num 0), ("M", .int 1), ("N", .int 1),
      ("V_read", .num (-4 / 10)), ("adc_type", .str "INF_ADC"), ("digital_only", .bool false), ("m_mode", .str "BNN_I"),
      ("read_disturb", .bool true), ("read_disturb_mitigation_fp", .num 1),
      ("read_disturb_mitigation_strategy", .str "SOFTWARE"), ("t_read", .num (100 / 10 ^ 9)), ("verbose", .bool false)]
  | .cellBased =>
    .obj [("HRS", .num 5), ("HRS_NOISE", .num 0), ("LRS", .num 30), ("LRS_NOISE", .num 0), ("M", .int 1), ("N", .int 1),
      ("V_read", .num (-4 / 10)), ("adc_type", .str "INF_ADC"), ("digital_only", .bool false), ("m_mode", .str "BNN_I"),
      ("read_disturb", .bool true), ("read_disturb_mitigation_strategy", .str "CELL_BASED"),
      ("read_disturb_update_tolerance", .num 0), ("t_read", .num (100 / 10 ^ 9)), ("verbose", .bool false)]

/-! ## `ReadDisturbGoldenModel(-0.4, 100e-9)` of `int-bindings/test/helper/rd_model.py` -/

/-- `self.p`; `self.exp_tt` is `1 / self.p`. -/
noncomputable def goldenP : ℝ :=
  0.0068 * Real.exp (0.11 * |(-0.4 : ℝ)| / (1.38064852e-23 * 300 / 1.602176634e-19))

/-- `transition_time`. -/
noncomputable def goldenTransition (N : Nat) : ℝ :=
  1.55e-8 * (1.43339 : ℝ) ^ (1 / goldenP) * (1 - 0.003 * (N : ℝ) ^ (0.41 : ℝ)) ^ (1 / goldenP)

/-- `G_scaling`. -/
noncomputable def goldenScaling (t : ℝ) (N : Nat) : ℝ :=
  if t < goldenTransition N then 1 else (t / goldenTransition N) ^ (-goldenP)

/-! ## The calls -/

/-- A buffer for the 1 × 1 matrix with the weight `v`. -/
def Holds (mat : Vec Int) (v : Int) : Prop := 1 ≤ mat.size ∧ mat.get 0 = v

/-- Most recent call first: the cell pair is programmed `n` times to +1 and then to -1, and read any number of times
between and after these rounds. -/
inductive Cycled : Nat → List Op → Prop
  | nil : Cycled 0 []
  | round {n : Nat} {h : List Op} {a b : Vec Int} (c : Cycled n h) (ha : Holds a 1) (hb : Holds b (-1)) :
      Cycled (n + 1) (.write b 1 1 :: .write a 1 1 :: h)
  | mvm {n : Nat} {h : List Op} {res vec mat : Vec Int} {l : String} (c : Cycled n h) (hn : 0 < n)
      (h1 : 1 ≤ res.size) (h2 : |res.get 0| ≤ 2 ^ 30) (h3 : 1 ≤ vec.size) (h4 : vec.get 0 = 1 ∨ vec.get 0 = -1) :
      Cycled n (.mvm res vec mat 1 1 l :: h)

/-- A getter returns a 1 × 1 array with the entry `v`. -/
def Cell {α : Type} (g : C (Mat α)) (v : α) : Prop := ∃ B, g = .ok B ∧ B.rows = 1 ∧ B.cols = 1 ∧ B.get 0 0 = v

end Acs.Spec
