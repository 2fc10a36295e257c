import Verif.Lemmas.FloatRun
import Verif.Props.Analog

/-!
# C20: the ideal analog crossbar in single precision

`Ieee E` rounds every `float` operation to binary32 and every `double` operation to binary64.
-/

namespace Acs.Props

open Finset Spec

/-- C20 for one mode, as the property states it: write and multiply on a crossbar with an ideal
converter and parameters that are `float` numbers. -/
def FloatClaim (md : Mode) : Prop :=
  ∀ (E : Env ℚ) (cfg : Cfg ℚ) (x : Xbar ℚ) (mat vec res : Vec Int) (m n : Nat), Ieee E → E.strict = false →
    cfg.mode = md → CfgOk cfg → Ideal cfg → cfg.adcType = .inf → 0 ≤ cfg.hrs → cfg.hrs ≤ cfg.lrs →
    rnd32 cfg.hrs = cfg.hrs → rnd32 cfg.lrs = cfg.lrs → Runs E cfg [] x → Accepted cfg m n → m * n ≤ mat.size →
    LegalMat cfg (entry mat n) m n → SumRoom cfg m n → n ≤ vec.size → LegalVec cfg vec n → m ≤ res.size →
    Room cfg res m n →
    ∃ x1 x2 r, xWrite E cfg x mat m n = .ok x1 ∧ xMvm E cfg x1 res vec mat m n "" = .ok (x2, r) ∧
      Adds r res (entry mat n) vec m n

end Acs.Props

namespace Acs.Ex

open Spec

/-- The environment of the examples with IEEE rounding. -/
def fenv : Env ℚ := { env with f32 := rnd32, f64 := rnd64 }

theorem fenv_ieee : Ieee fenv := ⟨fun _ => rfl, fun _ => rfl⟩

/-- One weight, two input bits and an ideal converter. -/
def fone (md : Mode) (h l : ℚ) : Cfg ℚ := { one md h l 8 with adcType := .inf, iBit := 2, N := 2 }

theorem fone_ok (md : Mode) (h l : ℚ) : CfgOk (fone md h l) := by
  cases md <;> simp [CfgOk, fone, one, posCfg, acfg, cfg, Mode.isInt, Mode.family]

theorem fone_ideal (md : Mode) {h l : ℚ} (hl : h ≠ l) : Ideal (fone md h l) :=
  let i := one_ideal md hl 8
  ⟨rfl, rfl, rfl, rfl, rfl, quiet md, hl, i.split⟩

/-- Result of the `1 × 1` product of `w` and `v`, starting from a zero buffer. -/
def frun (c : Cfg ℚ) (w v : Int) : C Int := do
  let x ← mkXbar fenv c 0 []
  let x1 ← xWrite fenv c x (single w) 1 1
  let p ← xMvm fenv c x1 (single 0) (single v) (single w) 1 1 ""
  .ok (p.2.get 0)

theorem frun_spec {c : Cfg ℚ} {w v k : Int} (h : okAnd (frun c w v) (· == k) = true) : ∃ x, Runs fenv c [] x ∧
    ∀ x1 x2 r, xWrite fenv c x (single w) 1 1 = .ok x1 →
      xMvm fenv c x1 (single 0) (single v) (single w) 1 1 "" = .ok (x2, r) → r.get 0 = k := by
  obtain ⟨k', h1, h2⟩ := okAnd_spec h
  unfold frun at h1
  simp only [bind_eq_ok] at h1
  obtain ⟨x, hx, x1, hx1, p, hp, e⟩ := h1
  refine ⟨x, .init hx, fun y1 y2 r e1 e2 => ?_⟩
  rw [hx1] at e1
  rw [← ok_inj.1 e1, hp] at e2
  have e3 := ok_inj.1 e2
  have e4 := ok_inj.1 e
  rw [e3] at e4
  rw [e4]
  simpa using h2

end Acs.Ex

namespace Acs.Props

open Finset Spec

/-- Refutation by one `1 × 1` product. -/
theorem float_false {md : Mode} {a b : ℚ} {w v k : Int} (ha : 0 ≤ a) (hab : a < b) (fa : rnd32 a = a) (fb : rnd32 b = b)
    (hw : LegalW (Ex.fone md a b) w) (hv : LegalX (Ex.fone md a b) v)
    (hrun : Ex.okAnd (Ex.frun (Ex.fone md a b) w v) (· == k) = true) (hne : k ≠ w * v) : ¬FloatClaim md := fun hc => by
  obtain ⟨x, hx, hk⟩ := Ex.frun_spec hrun
  obtain ⟨x1, x2, r, h1, h2, h3⟩ := hc Ex.fenv _ x (Ex.single w) (Ex.single v) (Ex.single 0) 1 1 Ex.fenv_ieee rfl rfl
    (Ex.fone_ok ..) (Ex.fone_ideal _ hab.ne) rfl ha hab.le fa fb hx
    (by cases md <;> exact ⟨le_refl 1, by show 1 ≤ 2; decide, by show 1 ≤ 2147483647; decide⟩) (le_refl 1)
    (fun i j hi hj => by
      obtain rfl : i = 0 := by omega
      obtain rfl : j = 0 := by omega
      exact hw)
    (by cases md <;> (intro _; simp [Ex.fone, Ex.one, Ex.posCfg, Ex.acfg, Ex.cfg, Mode.isInt, Mode.family]))
    (le_refl 1)
    (fun j hj => by
      obtain rfl : j = 0 := by omega
      exact hv) (le_refl 1)
    (fun i hi => by
      obtain rfl : i = 0 := by omega
      cases md <;> simp [Ex.fone, Ex.one, Ex.posCfg, Ex.acfg, Ex.cfg, peak, Ex.single, Vec.ofList])
  have h4 := h3.head 0 (by decide)
  rw [hk x1 x2 r h1 h2] at h4
  apply hne
  rw [h4]
  simp [prod, entry, Ex.single, Vec.ofList]

set_option maxRecDepth 10000 in
/-- C20 is false in every mode: with parameters that are small integers (a large HRS for
`I_UINT_W_OFFS`) some `1 × 1` product is wrong. -/
theorem C20_false (md : Mode) : ¬FloatClaim md := by
  cases md
  · exact float_false (a := 5) (b := 46) (w := 1) (v := 1) (k := 0) (by norm_num) (by norm_num) (by decide +kernel)
      (by decide +kernel) (by show |(1 : Int)| < 2 ^ 2; decide) ⟨by decide, by decide⟩ (by decide +kernel) (by decide)
  · exact float_false (a := 5) (b := 46) (w := 1) (v := 1) (k := 0) (by norm_num) (by norm_num) (by decide +kernel)
      (by decide +kernel) (by show |(1 : Int)| < 2 ^ 2; decide) ⟨by decide, by decide⟩ (by decide +kernel) (by decide)
  · exact float_false (a := 5) (b := 46) (w := 1) (v := 1) (k := -1) (by norm_num) (by norm_num) (by decide +kernel)
      (by decide +kernel) (by show |(1 : Int)| < 2 ^ 2; decide) ⟨by decide, by decide⟩ (by decide +kernel) (by decide)
  · exact float_false (a := 5) (b := 46) (w := 1) (v := 1) (k := 0) (by norm_num) (by norm_num) (by decide +kernel)
      (by decide +kernel) (by show |(1 : Int)| < 2 ^ 2; decide) ⟨by decide, by decide⟩ (by decide +kernel) (by decide)
  · exact float_false (a := 5) (b := 46) (w := 1) (v := 1) (k := 0) (by norm_num) (by norm_num) (by decide +kernel)
      (by decide +kernel) (by show |(1 : Int)| < 2 ^ 2; decide) ⟨by decide, by decide⟩ (by decide +kernel) (by decide)
  · exact float_false (a := 16777216) (b := 16777218) (w := 1) (v := 1) (k := 2) (by norm_num) (by norm_num) (by decide +kernel)
      (by decide +kernel) ⟨by decide, by decide⟩ ⟨by decide, by decide⟩ (by decide +kernel) (by decide)
  · exact float_false (a := 5) (b := 46) (w := 1) (v := 1) (k := 0) (by norm_num) (by norm_num) (by decide +kernel)
      (by decide +kernel) (Or.inl rfl) (Or.inl rfl) (by decide +kernel) (by decide)
  · exact float_false (a := 1) (b := 42) (w := 1) (v := -1) (k := 0) (by norm_num) (by norm_num) (by decide +kernel)
      (by decide +kernel) (Or.inl rfl) (Or.inr rfl) (by decide +kernel) (by decide)
  · exact float_false (a := 5) (b := 46) (w := 1) (v := 1) (k := 0) (by norm_num) (by norm_num) (by decide +kernel)
      (by decide +kernel) (Or.inl rfl) (Or.inl rfl) (by decide +kernel) (by decide)
  · exact float_false (a := 1) (b := 26) (w := -1) (v := -1) (k := 0) (by norm_num) (by norm_num) (by decide +kernel)
      (by decide +kernel) (Or.inr rfl) (Or.inr rfl) (by decide +kernel) (by decide)
  · exact float_false (a := 5) (b := 46) (w := 1) (v := 1) (k := 0) (by norm_num) (by norm_num) (by decide +kernel)
      (by decide +kernel) (Or.inl rfl) (Or.inl rfl) (by decide +kernel) (by decide)
  · exact float_false (a := 5) (b := 46) (w := 1) (v := 1) (k := 0) (by norm_num) (by norm_num) (by decide +kernel)
      (by decide +kernel) (Or.inl rfl) (Or.inl rfl) (by decide +kernel) (by decide)
  · exact float_false (a := 5) (b := 46) (w := 1) (v := 1) (k := 0) (by norm_num) (by norm_num) (by decide +kernel)
      (by decide +kernel) (Or.inl rfl) (Or.inl rfl) (by decide +kernel) (by decide)
  · exact float_false (a := 5) (b := 46) (w := 1) (v := 1) (k := 0) (by norm_num) (by norm_num) (by decide +kernel)
      (by decide +kernel) (Or.inl rfl) (Or.inl rfl) (by decide +kernel) (by decide)
  · exact float_false (a := 5) (b := 46) (w := 1) (v := 1) (k := 0) (by norm_num) (by norm_num) (by decide +kernel)
      (by decide +kernel) (Or.inl rfl) (Or.inl rfl) (by decide +kernel) (by decide)
  · exact float_false (a := 5) (b := 46) (w := 1) (v := 1) (k := 0) (by norm_num) (by norm_num) (by decide +kernel)
      (by decide +kernel) (Or.inl rfl) (Or.inl rfl) (by decide +kernel) (by decide)
  · exact float_false (a := 2) (b := 7) (w := 1) (v := 1) (k := 0) (by norm_num) (by norm_num) (by decide +kernel)
      (by decide +kernel) (Or.inl rfl) (Or.inl rfl) (by decide +kernel) (by decide)

/-! ## Where it holds -/

variable {E : Env ℚ} {cfg : Cfg ℚ} {x : Xbar ℚ} {w : Nat} {B H e : Int} {q : Nat}

/-- C20, binary and ternary mappings.  The full statement is `FloatClaim`, which is false.  Here HRS is
`H * 2 ^ e` and LRS is a power of two away from it, `LRS - HRS = 2 ^ (e + q)`, and the numbers stay
below `B` with `B * (|H| + 2 ^ (q + 1)) ≤ 2 ^ 24`.  Then every legal sequence of calls returns the exact
products: no operation rounds.  Missing: other parameters, where results may be off. -/
theorem C20_bnn_tnn_partial (hE : Ieee E) (hb : cfg.mode.isInt = false) (hok : CfgOk cfg) (hid : Ideal cfg)
    (hinf : cfg.adcType = .inf) (hh : cfg.hrs = H * 2 ^ e) (hd : cfg.lrs - cfg.hrs = 2 ^ (e + q)) (he : -148 ≤ e)
    (heq : e + q ≤ 149) (hB1 : 1 ≤ B) (hB : B * (|H| + 2 ^ (q + 1)) ≤ 2 ^ 24) {rng : Nat}
    {hists : List (String × Hist ℚ)} (hx : mkXbar E cfg rng hists = .ok x) {ops : List Op}
    (hl : LegalOps cfg w [] ops)
    (hP : EachMvm (fun res m n => 16 * (n : Int) + 16 ≤ B ∧ ∀ i, i < m → |res.get i| + 16 * n ≤ B) ops) :
    ∃ x' rs, exec E cfg x ops = .ok (x', rs) ∧ Answers [] ops rs :=
  exec_bin32 hE hb hok hid hinf hh hd he heq hB1 hB (.init hx) .nil hl hP

/-- C20, integer mappings with pairs of cells.  All slices have `p` bits and one state is worth
`2 ^ (e + q)`; results stay below `2 ^ 24`.  Missing: slices of different widths, other parameters (see
`C20_false`; C70 bounds the error) and `I_UINT_W_OFFS` (see C70). -/
theorem C20_int_partial (hE : Ieee E) (hi : cfg.mode.isInt = true) (hm : cfg.mode ≠ .iUintWOffs)
    (hgcc : cfg.mode = .iOffsWDiff → E.strict = false) (hok : CfgOk cfg) (hid : Ideal cfg)
    (hinf : cfg.adcType = .inf) {p : Nat} (hp : 1 ≤ p) (hp24 : p ≤ 24) (hsp : ∀ s ∈ cfg.split, s = p)
    (hh : cfg.hrs = H * 2 ^ e) (hd : cfg.lrs - cfg.hrs = (2 ^ p - 1) * 2 ^ (e + q)) (he : -149 ≤ e)
    (heq : e + q ≤ 149) (h24 : |H| + (2 ^ p - 1) * 2 ^ q ≤ 2 ^ 24) {rng : Nat}
    {hists : List (String × Hist ℚ)} (hx : mkXbar E cfg rng hists = .ok x) {ops : List Op}
    (hl : LegalOps cfg w [] ops)
    (hP : EachMvm (fun res m n => ∀ i, i < m → |res.get i| + n * 2 ^ (cfg.wBit + cfg.iBit) ≤ 2 ^ 24) ops) :
    ∃ x' rs, exec E cfg x ops = .ok (x', rs) ∧ Answers [] ops rs :=
  exec_int32 hE hi hm hgcc hok hid hinf hp hp24 hsp hh hd he heq h24 (.init hx) .nil hl hP

end Acs.Props

namespace Acs.Ex

open Spec

/-- One weight is written and used twice, the second time on top of 100. -/
def fops (w v : Int) : List Op :=
  [.write (single w) 1 1, .mvm (single 0) (single v) (single w) 1 1 "", .mvm (single 100) (single v) (single w) 1 1 ""]

theorem fops_legal {md : Mode} {h l : ℚ} {w v : Int} (hw : LegalW (fone md h l) w) (hv : LegalX (fone md h l) v) :
    LegalOps (fone md h l) 1 [] (fops w v) := by
  have hd : Accepted (fone md h l) 1 1 := by
    cases md <;> exact ⟨le_refl 1, by show 1 ≤ 2; decide, by show 1 ≤ 2147483647; decide⟩
  have hr : ∀ z : Int, |z| ≤ 100 → Room (fone md h l) (single z) 1 1 := fun z hz i hi => by
    obtain rfl : i = 0 := by omega
    have e1 : (single z).get 0 = z := rfl
    rw [e1]
    have e2 : peak (fone md h l) 1 ≤ 16 := by
      cases md <;> simp [peak, fone, one, posCfg, acfg, cfg]
    omega
  have hx : LegalVec (fone md h l) (single v) 1 := fun j hj => by
    obtain rfl : j = 0 := by omega
    exact hv
  refine ⟨⟨hd, le_refl 1, fun i j hi hj => ?_, ?_, fun _ => rfl⟩,
    ⟨hd, le_refl 1, le_refl 1, hx, hr 0 (by decide), fun i j hi hj => ?_, fun _ => rfl⟩,
    ⟨hd, le_refl 1, le_refl 1, hx, hr 100 (by decide), fun i j hi hj => ?_, fun _ => rfl⟩, trivial⟩
  · obtain rfl : i = 0 := by omega
    obtain rfl : j = 0 := by omega
    exact hw
  · cases md <;> (intro _; simp [fone, one, posCfg, acfg, cfg, Mode.isInt, Mode.family])
  · simp [lastWrite, hi, hj]
  · simp [lastWrite, hi, hj]

theorem ffresh (md : Mode) (hm : md = .tnn4 ∨ md = .iTcWDiff) : ∃ x, mkXbar fenv (fone md 5 9) 0 [] = .ok x := by
  rcases hm with rfl | rfl
  · obtain ⟨x, h, -⟩ := okAnd_spec (x := mkXbar fenv (fone .tnn4 5 9) 0 []) (p := fun _ => true) (by decide +kernel)
    exact ⟨x, h⟩
  · obtain ⟨x, h, -⟩ := okAnd_spec (x := mkXbar fenv (fone .iTcWDiff 5 9) 0 []) (p := fun _ => true)
      (by decide +kernel)
    exact ⟨x, h⟩

end Acs.Ex

namespace Acs.Props

open Spec

/-- HRS = 5, LRS = 9 in `TNN_IV`. -/
example : ∃ x x' rs, mkXbar Ex.fenv (Ex.fone .tnn4 5 9) 0 [] = .ok x ∧
    exec Ex.fenv (Ex.fone .tnn4 5 9) x (Ex.fops (-1) 1) = .ok (x', rs) ∧ Answers [] (Ex.fops (-1) 1) rs := by
  obtain ⟨x, hx⟩ := Ex.ffresh .tnn4 (Or.inl rfl)
  obtain ⟨x', rs, h⟩ := C20_bnn_tnn_partial (w := 1) (B := 1000000) (H := 5) (e := 0) (q := 2) Ex.fenv_ieee rfl
    (Ex.fone_ok ..) (Ex.fone_ideal _ (by norm_num)) rfl
    (by show (5 : ℚ) = _; norm_num) (by show (9 : ℚ) - 5 = _; norm_num) (by decide) (by decide) (by decide) (by decide) hx
    (Ex.fops_legal (Or.inr (Or.inl rfl)) (Or.inl rfl)) ⟨by decide, by decide, trivial⟩
  exact ⟨x, x', rs, hx, h⟩

/-- HRS = 5, LRS = 9 in `I_TC_W_DIFF`, with two slices of one bit. -/
example : ∃ x x' rs, mkXbar Ex.fenv (Ex.fone .iTcWDiff 5 9) 0 [] = .ok x ∧
    exec Ex.fenv (Ex.fone .iTcWDiff 5 9) x (Ex.fops 3 (-2)) = .ok (x', rs) ∧ Answers [] (Ex.fops 3 (-2)) rs := by
  obtain ⟨x, hx⟩ := Ex.ffresh .iTcWDiff (Or.inr rfl)
  obtain ⟨x', rs, h⟩ := C20_int_partial (w := 1) (H := 5) (e := 0) (q := 2) (p := 1) Ex.fenv_ieee rfl (by decide)
    (fun _ => rfl) (Ex.fone_ok ..) (Ex.fone_ideal _ (by norm_num)) rfl (by decide) (by decide) (by decide)
    (by show (5 : ℚ) = _; norm_num) (by show (9 : ℚ) - 5 = _; norm_num) (by decide) (by decide) (by decide) hx
    (Ex.fops_legal (v := -2) (by show |(3 : Int)| < 2 ^ 2; decide) ⟨by decide, by decide⟩) ⟨by decide, by decide, trivial⟩
  exact ⟨x, x', rs, hx, h⟩

end Acs.Props
