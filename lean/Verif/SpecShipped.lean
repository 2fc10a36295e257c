import Verif.SpecLoad
import Verif.SpecRoundAdc
import Verif.SpecEnd

/-!
# The configuration files of the repository

The contents of `cpp/test/lib/configs/digital/*.json` and of the files in `cpp/test/lib/configs/analog` that are named
after a mapping.  Members are sorted by name.
-/

namespace Acs.Spec

/-- The converter that a file in `analog` asks for. -/
def shippedAdc : Mode → AdcType
  | .iUintWOffs | .bnn3 | .bnn4 | .bnn5 | .tnn4 | .tnn5 => .pos
  | _ => .sym

section
variable {K : Type}

/-- `digital/BNN_I.json` etc.  (`digital/TNN_V_split.json` is the same as `digital/TNN_IV_split.json`.) -/
def digitalFile (md : Mode) : Json K :=
  match md with
  | .iDiffWDiff1 | .iDiffWDiff2 | .iOffsWDiff | .iTcWDiff | .iUintWDiff | .iUintWOffs =>
    .obj [("I_BIT", .int 8), ("M", .int 32), ("N", .int 32), ("SPLIT", .arr [.int 1, .int 3, .int 4]), ("W_BIT", .int 8),
      ("digital_only", .bool true), ("m_mode", .str md.name), ("verbose", .bool false)]
  | .tnn4 | .tnn5 =>
    .obj [("M", .int 32), ("N", .int 32), ("SPLIT", .arr [.int 1, .int 1]), ("W_BIT", .int 2),
      ("digital_only", .bool true), ("m_mode", .str md.name), ("verbose", .bool false)]
  | .bnn1 | .bnn2 | .bnn3 | .bnn4 | .bnn5 | .bnn6 | .tnn1 | .tnn2 | .tnn3 =>
    .obj [("M", .int 32), ("N", .int 32), ("digital_only", .bool true), ("m_mode", .str md.name), ("verbose", .bool false)]

/-- `analog/BNN_I.json` etc. -/
def analogFile [OfNat K 0] [OfNat K 5] [OfNat K 30] (md : Mode) : Json K :=
  match md with
  | .iDiffWDiff1 | .iDiffWDiff2 | .iOffsWDiff | .iTcWDiff | .iUintWDiff | .iUintWOffs =>
    .obj [("HRS", .num 5), ("HRS_NOISE", .num 0), ("I_BIT", .int 8), ("LRS", .num 30), ("LRS_NOISE", .num 0),
      ("M", .int 32), ("N", .int 32), ("SPLIT", .arr [.int 1, .int 3, .int 4]), ("W_BIT", .int 8),
      ("adc_type", .str (adcName (shippedAdc md))), ("digital_only", .bool false), ("m_mode", .str md.name),
      ("resolution", .int 20), ("verbose", .bool false)]
  | .tnn4 | .tnn5 =>
    .obj [("HRS", .num 5), ("HRS_NOISE", .num 0), ("LRS", .num 30), ("LRS_NOISE", .num 0),
      ("M", .int 32), ("N", .int 32), ("SPLIT", .arr [.int 1, .int 1]), ("W_BIT", .int 2),
      ("adc_type", .str (adcName (shippedAdc md))), ("digital_only", .bool false), ("m_mode", .str md.name),
      ("resolution", .int 20), ("verbose", .bool false)]
  | .bnn1 | .bnn2 | .bnn3 | .bnn4 | .bnn5 | .bnn6 | .tnn1 | .tnn2 | .tnn3 =>
    .obj [("HRS", .num 5), ("HRS_NOISE", .num 0), ("LRS", .num 30), ("LRS_NOISE", .num 0),
      ("M", .int 32), ("N", .int 32),
      ("adc_type", .str (adcName (shippedAdc md))), ("digital_only", .bool false), ("m_mode", .str md.name),
      ("resolution", .int 20), ("verbose", .bool false)]

/-- `config.json`. -/
def configFile [Neg K] [OfNat K 0] [OfNat K 5] [OfNat K 30] [OfNat K 34500] : Json K :=
  .obj [("HRS", .num 5), ("I_BIT", .int 8), ("LRS", .num 30), ("M", .int 32), ("N", .int 32), ("NOISE", .num 0),
    ("SPLIT", .arr [.int 1, .int 3, .int 4]), ("W_BIT", .int 8), ("adc_type", .str "INF_ADC"), ("digital_only", .bool false),
    ("m_mode", .str "I_DIFF_W_DIFF_1XB"), ("max_adc_curr", .num 34500), ("min_adc_curr", .num (-34500)),
    ("resolution", .int 20), ("verbose", .bool false)]

/-- The mappings whose analog files give exact results. -/
def sharp : Mode → Prop
  | .bnn1 | .bnn2 | .bnn3 | .bnn4 | .bnn5 | .bnn6 | .tnn1 | .tnn2 | .tnn3 => True
  | _ => False

/-- Error of the results of the integer mappings in exact arithmetic. -/
def exactUnits : Mode → Nat
  | .iOffsWDiff => 3
  | .iUintWOffs => 13
  | _ => 1

/-- Error of the results of the integer mappings in single precision. -/
def singleUnits : Mode → Nat
  | .iDiffWDiff1 | .iDiffWDiff2 => 72
  | .iOffsWDiff => 93
  | .iUintWOffs => 62
  | _ => 47

/-- Every multiplication adds to a buffer of numbers up to `b`. -/
def SmallBuffers (b : Int) : List Op → List Op → Prop :=
  EveryMvm fun _ res _ m _ _ => ∀ i, i < m → |res.get i| ≤ b

end

/-- After any call of `set_config` with the analog file of a mapping, in single precision, every legal sequence of calls
is answered with the exact products. -/
def ExactFile (md : Mode) : Prop :=
  ∀ (E : Env ℚ) (w w' : World ℚ) (k : Nat) (ops : List Op), Ieee E → E.strict = false →
    setConfig E (.good (analogFile md)) w = .ok w' → LegalOps w'.cfg k [] ops → SmallBuffers (2 ^ 20) [] ops →
    ∃ w'' rs, serve E w' ops = .ok (w'', rs, ops.map fun _ => 0) ∧ Answers [] ops rs

end Acs.Spec
