import Verif.Lemmas.ShippedInt
import Verif.Lemmas.ShippedLoad
import Verif.Props.RoundInt
import Verif.Props.Build
import Verif.Props.Load
import Verif.Props.EndToEnd

/-!
# C85: the configuration files of the repository
-/

set_option linter.unusedSectionVars false

namespace Acs.Props

open Finset Spec

/-! ## Loading -/

section
variable {K : Type} [Field K] [LinearOrder K] [IsStrictOrderedRing K] [FloorRing K]
variable {E : Env K} {w w' : World K} {ops : List Op} {k : Nat} {md : Mode}

/-- C85.  `config.json` is rejected: it has no member `HRS_NOISE`. -/
theorem C85_config_json : ¬∃ w', setConfig E (.good configFile) w = .ok w' := by
  rintro ⟨w', h⟩
  have F := C76_loaded h
  have hd : w'.cfg.digitalOnly = false := (Json.bool.inj (Gives.eq F.digital (v := .bool false) rfl)).symm
  obtain ⟨v, hv, _⟩ := (F.analog hd).hrsNoise
  cases hv

/-- C85.  A digital file is accepted unless the configuration before left a broken resolution or read-disturb model
behind. -/
theorem C85_digital_accepted (hr : Releasable w) (hres : w.cfg.resolution ≤ 30)
    (hd : w.cfg.readDisturb = true → DecayDefined E w.cfg.vRead) (hgcc : shiftsSigned md → E.strict = false) :
    ∃ w', setConfig E (.good (digitalFile md)) w = .ok w' :=
  C81_set_config.2 ⟨hr, _, digital_fromDoc, digital_admissible, (fun h => by cases h), digital_buildable hgcc hres hd⟩

/-- C85.  An analog file is accepted unless the configuration before left the resolution -1 behind, if the numbers in
it are represented exactly. -/
theorem C85_analog_accepted (h0 : E.f32 0 = 0) (h5 : E.f32 5 = 5) (h30 : E.f32 30 = 30) (hr : Releasable w)
    (hres : w.cfg.resolution ≠ -1) : ∃ w', setConfig E (.good (analogFile md)) w = .ok w' :=
  C81_set_config.2 ⟨hr, _, analog_fromDoc h0 h5 h30, analog_admissible, fun _ _ => hres, analog_buildable⟩

/-- C85.  After any successful call of `set_config` with a digital file, every legal sequence of calls is answered with
the exact products. -/
theorem C85_digital (h : setConfig E (.good (digitalFile md)) w = .ok w') (hgcc : shiftsSigned md → E.strict = false)
    (hl : LegalOps w'.cfg k [] ops) : ∃ w'' rs, serve E w' ops = .ok (w'', rs, ops.map fun _ => 0) ∧ Answers [] ops rs := by
  have D := digital_shipped (C76_loaded h)
  exact C66_digital (.load h) D.ok D.digital (by rw [D.mode]; exact hgcc) hl (legal_heights (by rw [D.M]; decide) hl)

end

section
variable {E : Env ℚ} {w w' : World ℚ} {ops : List Op} {k : Nat} {md : Mode}

theorem ieee_shipped (hE : Ieee E) (h : setConfig E (.good (analogFile md)) w = .ok w') : AnalogShipped md w'.cfg :=
  analog_shipped (by rw [hE.f32]; exact_mod_cast rnd32_int (z := 0) (by decide))
    (by rw [hE.f32]; exact_mod_cast rnd32_int (z := 5) (by decide))
    (by rw [hE.f32]; exact_mod_cast rnd32_int (z := 30) (by decide)) (C76_loaded h)

/-- C85.  In single precision the analog files of the binary mappings and of TNN_I, TNN_II and TNN_III give the exact
products. -/
theorem C85_sharp (hs : sharp md) : ExactFile md := by
  intro E w w' k ops hE hgcc h hl hb
  have A := ieee_shipped hE h
  obtain ⟨x, hx, hr⟩ := settled_runs (.load h)
  obtain ⟨x', rs, h1, h2⟩ := shipped_sharp hE A hs (fresh_ok (.load h) A.ok).1 hr .nil hl hb
  exact ⟨_, rs, serve_ok hx (dimsFit hl (legal_heights (by rw [A.M]; decide) hl)) h1, h2⟩

/-- C85.  In single precision the analog files of the integer mappings give the products up to a few units. -/
theorem C85_integer (hE : Ieee E) (h : setConfig E (.good (analogFile md)) w = .ok w') (hf : md.family = .int)
    (hgcc : md = .iOffsWDiff → E.strict = false) (hl : LegalOps w'.cfg k [] ops) (hb : SmallBuffers (2 ^ 20) [] ops) :
    ∃ w'' rs, serve E w' ops = .ok (w'', rs, ops.map fun _ => 0) ∧
      AnswersUpTo (fun _ _ _ => (singleUnits md : ℚ)) [] ops rs := by
  have A := ieee_shipped hE h
  obtain ⟨x, hx, hr⟩ := settled_runs (.load h)
  obtain ⟨x', rs, h1, h2⟩ := shipped_single hE A hf (by rw [A.mode]; exact hgcc) hr .nil hl hb
  exact ⟨_, rs, serve_ok hx (dimsFit hl (legal_heights (by rw [A.M]; decide) hl)) h1, h2⟩

/-- C85.  Without rounding there remains one unit, three with offset inputs and 13 with offset weights. -/
theorem C85_integer_exact (hE : ExactArith E) (h : setConfig E (.good (analogFile md)) w = .ok w') (hf : md.family = .int)
    (hgcc : md = .iOffsWDiff → E.strict = false) (hl : LegalOps w'.cfg k [] ops) (hb : SmallBuffers (2 ^ 20) [] ops) :
    ∃ w'' rs, serve E w' ops = .ok (w'', rs, ops.map fun _ => 0) ∧
      AnswersUpTo (fun _ _ _ => (exactUnits md : ℚ)) [] ops rs := by
  have A := analog_shipped (hE.f32 _) (hE.f32 _) (hE.f32 _) (C76_loaded h)
  obtain ⟨f1, f2, f3⟩ := A.int hf
  obtain ⟨q1, q2, q3, _⟩ := C70_exact (lo := 0) (hi := 0) (A := 0) hE (cfg := w'.cfg) (by rw [f1]; decide)
    (by rw [A.hrs, A.lrs]; norm_num) (by rw [f3]; decide)
  obtain ⟨x, hx, hr⟩ := settled_runs (.load h)
  obtain ⟨x', rs, h1, h2⟩ := shipped_exact hE A hf q2 q3 q1 (by rw [A.mode]; exact hgcc) hr .nil hl hb
  exact ⟨_, rs, serve_ok hx (dimsFit hl (legal_heights (by rw [A.M]; decide) hl)) h1, h2⟩

end

/-! ## Wrong results -/

namespace Ex'

/-- A row of `n` equal weights, and its product with `n` equal inputs. -/
def row (n : Nat) (a b : Int) : List Op :=
  [.write ⟨n, fun _ => a⟩ 1 n, .mvm ⟨1, fun _ => 0⟩ ⟨n, fun _ => b⟩ ⟨n, fun _ => a⟩ 1 n ""]

theorem row_legal {c : Cfg ℚ} {n : Nat} {a b : Int} (hM : c.M = 32) (hN : c.N = 32) (hn : n ≤ 32) (ha : LegalW c a)
    (hb : LegalX c b) (hw : c.mode.family = .int → c.wBit = 8 ∧ c.iBit = 8) : LegalOps c n [] (row n a b) := by
  have hd : Accepted c 1 n := ⟨by rw [hM]; decide, by rw [hN]; exact hn, by omega⟩
  have hn' : (n : Int) ≤ 32 := by exact_mod_cast hn
  have pw : ∀ k, k ≤ 16 → (n : Int) * 2 ^ k ≤ 32 * 2 ^ 16 := fun k hk =>
    mul_le_mul hn' (pow_le_pow_right₀ (by norm_num) hk) (by positivity) (by norm_num)
  refine ⟨⟨hd, by simp, fun _ _ _ _ => ha, fun h _ => (pw _ (by rw [(hw (isInt_iff.1 h)).1]; decide)).trans (by norm_num), fun _ => rfl⟩,
    ⟨hd, le_refl _, le_refl _, fun _ _ => hb, fun i _ => ?_, fun i j hi hj => by simp [lastWrite, hi, hj], fun _ => rfl⟩, trivial⟩
  show |(0 : Int)| + peak c n ≤ 2147483647
  rw [abs_zero, zero_add]
  unfold peak
  cases hm : c.mode <;> simp only
  all_goals first
    | omega
    | exact (pw _ (by rw [(hw (by rw [hm]; rfl)).1, (hw (by rw [hm]; rfl)).2])).trans (by norm_num)

theorem row_small {n : Nat} {a b : Int} : SmallBuffers (2 ^ 20) [] (row n a b) :=
  ⟨fun _ _ => by show |(0 : Int)| ≤ _; norm_num, trivial⟩

/-- The file of a mapping gives `z` for such a product. -/
def gives (E : Env ℚ) (md : Mode) (n : Nat) (a b z : Int) : Bool :=
  Ex.goes (setConfig E (.good (analogFile md)) world0) fun w => Ex.goes (serve E w (row n a b)) fun p =>
    p.2.1.all fun r => r.get 0 = z

/-- Wrong results of single precision. -/
theorem wrong : gives Ex.fenv .iDiffWDiff1 32 64 (-128) (-262143) ∧ gives Ex.fenv .iDiffWDiff2 32 64 (-128) (-262143) ∧
    gives Ex.fenv .iTcWDiff 32 64 (-128) (-262143) ∧ gives Ex.fenv .iUintWDiff 32 64 128 262143 ∧
    gives Ex.fenv .iOffsWDiff 32 64 0 (-1) ∧ gives Ex.fenv .iUintWOffs 2 1 255 511 ∧
    gives Ex.fenv .tnn4 4 1 1 3 ∧ gives Ex.fenv .tnn5 1 1 1 0 := by
  decide +kernel

/-- A result other than the product refutes the file. -/
theorem refuted {md : Mode} {n : Nat} {a b z : Int} (hz : z ≠ n * (a * b)) (hn : n ≤ 32)
    (h : gives Ex.fenv md n a b z = true)
    (hl : ∀ c : Cfg ℚ, AnalogShipped md c → LegalW c a ∧ LegalX c b) : ¬ExactFile md := by
  intro hx
  obtain ⟨w, h1, h2⟩ := Ex.goes_spec h
  obtain ⟨p, h3, h4⟩ := Ex.goes_spec h2
  have A := ieee_shipped Ex.fenv_ieee h1
  obtain ⟨w'', rs, h5, h6⟩ := hx _ _ _ _ _ Ex.fenv_ieee rfl h1
    (row_legal A.M A.N hn (hl _ A).1 (hl _ A).2 fun hf => ⟨(A.int (A.mode ▸ hf)).1, (A.int (A.mode ▸ hf)).2.1⟩) row_small
  rw [h3] at h5
  obtain rfl := Except.ok.inj h5
  cases h6 with
  | write h6 =>
    cases h6 with
    | mvm h6 h7 =>
      cases h7
      have e := h6.head 0 (by decide)
      simp only [List.all_cons, List.all_nil, Bool.and_true, decide_eq_true_eq] at h4
      rw [h4] at e
      have : prod (stored [.write ⟨n, fun _ => a⟩ 1 n]) ⟨n, fun _ => b⟩ n 0 = n * (a * b) := by
        unfold prod
        rw [Finset.sum_congr rfl fun j hj => show _ = a * b by
          simp [stored, lastWrite, entry, Finset.mem_range.1 hj]]
        simp
      rw [this] at e
      exact hz (by simpa using e)

end Ex'

/-- C85.  These are the only analog files with exact results. -/
theorem C85_exact_iff {md : Mode} : ExactFile md ↔ sharp md := by
  refine ⟨fun h => ?_, C85_sharp⟩
  obtain ⟨k1, k2, k3, k4, k5, k6, k7, k8⟩ := Ex'.wrong
  have leg : ∀ {md : Mode} {a b : Int}, (∀ c : Cfg ℚ, c.mode = md → c.wBit = 8 → c.iBit = 8 → LegalW c a ∧ LegalX c b) →
      md.family = .int → ∀ c : Cfg ℚ, AnalogShipped md c → LegalW c a ∧ LegalX c b := fun h hf c A =>
    h c A.mode (A.int hf).1 (A.int hf).2.1
  cases md
  case iDiffWDiff1 =>
    exact Ex'.refuted (by decide) (by decide) k1 (leg (fun c h1 h2 h3 => by
      simp only [LegalW, LegalX, h1, h2, h3]; decide) rfl) h
  case iDiffWDiff2 =>
    exact Ex'.refuted (by decide) (by decide) k2 (leg (fun c h1 h2 h3 => by
      simp only [LegalW, LegalX, h1, h2, h3]; decide) rfl) h
  case iTcWDiff =>
    exact Ex'.refuted (by decide) (by decide) k3 (leg (fun c h1 h2 h3 => by
      simp only [LegalW, LegalX, h1, h2, h3]; decide) rfl) h
  case iUintWDiff =>
    exact Ex'.refuted (by decide) (by decide) k4 (leg (fun c h1 h2 h3 => by
      simp only [LegalW, LegalX, h1, h2, h3]; decide) rfl) h
  case iOffsWDiff =>
    exact Ex'.refuted (by decide) (by decide) k5 (leg (fun c h1 h2 h3 => by
      simp only [LegalW, LegalX, h1, h2, h3]; decide) rfl) h
  case iUintWOffs =>
    exact Ex'.refuted (by decide) (by decide) k6 (leg (fun c h1 h2 h3 => by
      simp only [LegalW, LegalX, h1, h2, h3]; decide) rfl) h
  case tnn4 =>
    exact Ex'.refuted (by decide) (by decide) k7 (fun c A => by simp only [LegalW, LegalX, A.mode]; decide) h
  case tnn5 =>
    exact Ex'.refuted (by decide) (by decide) k8 (fun c A => by simp only [LegalW, LegalX, A.mode]; decide) h
  all_goals trivial

/-- C85.  The errors of TNN_IV and TNN_V grow with the number of columns: 25 instead of 32 and -45 instead of -32. -/
theorem C85_ternary_errors : Ex'.gives Ex.fenv .tnn4 32 1 1 25 ∧ Ex'.gives Ex.fenv .tnn5 32 1 (-1) (-45) := by
  decide +kernel

/-! ## Instances -/

/-- A new process accepts every file. -/
theorem C85_new_process (md : Mode) : (∃ w, boot Ex.fenv (.good (digitalFile md)) = .ok w) ∧
    ∃ w, boot Ex.fenv (.good (analogFile md)) = .ok w :=
  ⟨C81_boot.2 ⟨_, digital_fromDoc, digital_admissible, digital_buildable (fun _ => rfl) (by decide) fun h => by cases h⟩,
    C81_boot.2 ⟨_, analog_fromDoc (by decide +kernel) (by decide +kernel) (by decide +kernel), analog_admissible,
      analog_buildable⟩⟩

/-- The hypotheses of `C85_digital_accepted` and `C85_digital`. -/
example : ∃ w w' rs, setConfig Ex.env (.good (digitalFile .iDiffWDiff1)) world0 = .ok w ∧
    serve Ex.env w (Ex'.row 32 127 (-128)) = .ok (w', rs, [0, 0]) ∧ Answers [] (Ex'.row 32 127 (-128)) rs := by
  obtain ⟨w, h⟩ := C85_digital_accepted (E := Ex.env) (w := world0) (md := .iDiffWDiff1) (.inl rfl) (by decide)
    (fun h => by cases h) (fun _ => rfl)
  have D := digital_shipped (C76_loaded h)
  obtain ⟨f1, f2, _⟩ := D.int rfl
  obtain ⟨w', rs, h1, h2⟩ := C85_digital h (fun _ => rfl) (Ex'.row_legal (n := 32) (a := 127) (b := -128) D.M D.N (by decide)
    (by simp only [LegalW, D.mode, f1]; decide) (by simp only [LegalX, D.mode, f2]; decide) fun _ => ⟨f1, f2⟩)
  exact ⟨w, w', rs, h, h1, h2⟩

/-- The hypotheses of `C85_analog_accepted` and `C85_integer`. -/
example : ∃ w w' rs, setConfig Ex.fenv (.good (analogFile .iTcWDiff)) world0 = .ok w ∧
    serve Ex.fenv w (Ex'.row 32 127 (-128)) = .ok (w', rs, [0, 0]) ∧
    AnswersUpTo (fun _ _ _ => (47 : ℚ)) [] (Ex'.row 32 127 (-128)) rs := by
  obtain ⟨w, h⟩ := C85_analog_accepted (E := Ex.fenv) (w := world0) (md := .iTcWDiff) (by decide +kernel) (by decide +kernel)
    (by decide +kernel) (.inl rfl) (by decide)
  have D := ieee_shipped Ex.fenv_ieee h
  obtain ⟨f1, f2, _⟩ := D.int rfl
  obtain ⟨w', rs, h1, h2⟩ := C85_integer Ex.fenv_ieee h rfl (fun h => by cases h) (Ex'.row_legal (n := 32) (a := 127) (b := -128)
    D.M D.N (by decide) (by simp only [LegalW, D.mode, f1]; decide) (by simp only [LegalX, D.mode, f2]; decide)
    fun _ => ⟨f1, f2⟩) Ex'.row_small
  exact ⟨w, w', rs, h, h1, h2⟩

/-- The hypotheses of `C85_integer_exact`. -/
example : ∃ w w' rs, setConfig Ex.env (.good (analogFile .iTcWDiff)) world0 = .ok w ∧
    serve Ex.env w (Ex'.row 32 127 (-128)) = .ok (w', rs, [0, 0]) ∧
    AnswersUpTo (fun _ _ _ => (1 : ℚ)) [] (Ex'.row 32 127 (-128)) rs := by
  obtain ⟨w, h⟩ := C85_analog_accepted (E := Ex.env) (w := world0) (md := .iTcWDiff) rfl rfl rfl (.inl rfl) (by decide)
  have D := analog_shipped rfl rfl rfl (C76_loaded h)
  obtain ⟨f1, f2, _⟩ := D.int rfl
  obtain ⟨w', rs, h1, h2⟩ := C85_integer_exact Ex.env_exact h rfl (fun h => by cases h) (Ex'.row_legal (n := 32) (a := 127) (b := -128)
    D.M D.N (by decide) (by simp only [LegalW, D.mode, f1]; decide) (by simp only [LegalX, D.mode, f2]; decide)
    fun _ => ⟨f1, f2⟩) Ex'.row_small
  rw [show ((exactUnits .iTcWDiff : Nat) : ℚ) = 1 from Nat.cast_one] at h2
  exact ⟨w, w', rs, h, h1, h2⟩

/-- The hypotheses of `ExactFile`. -/
example : ∃ w w' rs, setConfig Ex.fenv (.good (analogFile .bnn4)) world0 = .ok w ∧
    serve Ex.fenv w (Ex'.row 32 1 (-1)) = .ok (w', rs, [0, 0]) ∧ Answers [] (Ex'.row 32 1 (-1)) rs := by
  obtain ⟨w, h⟩ := C85_analog_accepted (E := Ex.fenv) (w := world0) (md := .bnn4) (by decide +kernel) (by decide +kernel)
    (by decide +kernel) (.inl rfl) (by decide)
  have D := ieee_shipped Ex.fenv_ieee h
  obtain ⟨w', rs, h1, h2⟩ := C85_sharp (md := .bnn4) trivial _ _ _ _ _ Ex.fenv_ieee rfl h (Ex'.row_legal (n := 32) (a := 1) (b := -1)
    D.M D.N (by decide) (by simp only [LegalW, D.mode]; decide) (by simp only [LegalX, D.mode]; decide)
    fun h => by rw [D.mode] at h; cases h) Ex'.row_small
  exact ⟨w, w', rs, h, h1, h2⟩

end Acs.Props
