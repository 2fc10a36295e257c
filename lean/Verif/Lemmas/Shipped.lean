import Verif.Lemmas.Load
import Verif.Lemmas.FlAdc32
import Verif.Lemmas.InRange
import Verif.Lemmas.EndToEnd
import Verif.SpecShipped

/-! # What the configuration files of the repository give -/

set_option linter.unusedSectionVars false

namespace Acs

open Finset Spec

section
variable {K : Type} [Field K] [LinearOrder K] [IsStrictOrderedRing K] [FloorRing K]
variable {E : Env K} {c : Cfg K} {md : Mode} {j : Json K}

theorem Gives.eq {α : Type} {P : Json K → α → Prop} {x : α} {k : String} {v : Json K} (h : Gives j k P x)
    (hv : j.find k = some v) : P v x := by
  obtain ⟨u, h1, h2⟩ := h
  rw [hv, Option.some.injEq] at h1
  exact h1 ▸ h2

theorem GivesOr.none {α : Type} {T : Json K → Prop} {P : Json K → α → Prop} {d x : α} {k : String}
    (h : GivesOr j k T P d x) (hv : j.find k = none) : x = d := by
  rcases h with ⟨u, h1, _⟩ | ⟨_, h⟩
  · rw [hv] at h1
    cases h1
  · exact h

theorem natIs_int {z n : Nat} (h : NatIs (.int z : Json K) n) (hz : z < 4294967296) : n = z := by
  obtain ⟨h1, h2⟩ := h
  have : (4294967296 : Int) ∣ (z : Int) - n := h2
  omega

theorem intIs_int {z : Nat} {n : Int} (h : IntIs (.int z : Json K) n) (hz : z < 2147483648) : n = z := by
  obtain ⟨h1, h2⟩ := h
  have : (4294967296 : Int) ∣ (z : Int) - n := h2
  omega

theorem natsAre_list {l l' : List Nat} (hl : ∀ z ∈ l, z < 4294967296)
    (h : List.Forall₂ NatIs (l.map fun z => (.int z : Json K)) l') : l' = l := by
  induction l generalizing l' with
  | nil => cases h; rfl
  | cons z l ih =>
    cases h with
    | cons h1 h2 => rw [natIs_int h1 (hl _ (by simp)), ih (fun z hz => hl z (by simp [hz])) h2]

theorem mode_name {a b : Mode} (h : a.name = b.name) : a = b := by
  revert h
  cases a <;> cases b <;> decide

theorem adc_name {a b : AdcType} (h : adcName a = adcName b) : a = b := by
  revert h
  cases a <;> cases b <;> decide

/-- The meaning of a file in `digital`. -/
structure DigitalShipped (md : Mode) (c : Cfg K) : Prop where
  M : c.M = 32
  N : c.N = 32
  mode : c.mode = md
  digital : c.digitalOnly = true
  verbose : c.verbose = false
  int : md.family = .int → c.wBit = 8 ∧ c.iBit = 8 ∧ c.split = [1, 3, 4]
  split : md = .tnn4 ∨ md = .tnn5 → c.wBit = 2 ∧ c.split = [1, 1]

theorem digital_shipped (h : FromDoc E (digitalFile md) c) : DigitalShipped md c := by
  have hm : c.mode = md := by
    have := Gives.eq h.mode (v := .str md.name) (by cases md <;> rfl)
    exact mode_name (Json.str.inj this).symm
  refine ⟨?_, ?_, hm, ?_, ?_, fun hf => ⟨?_, ?_, ?_⟩, fun hf => ⟨?_, ?_⟩⟩
  · exact natIs_int (z := 32) (Gives.eq h.M (by cases md <;> rfl)) (by decide)
  · exact natIs_int (z := 32) (Gives.eq h.N (by cases md <;> rfl)) (by decide)
  · exact (Json.bool.inj (Gives.eq h.digital (v := .bool true) (by cases md <;> rfl))).symm
  · exact (Json.bool.inj (Gives.eq h.verbose (v := .bool false) (by cases md <;> rfl))).symm
  · exact natIs_int (z := 8) (Gives.eq (h.wBit (.inl (hm ▸ hf))) (by cases md <;> first | rfl | cases hf)) (by decide)
  · exact natIs_int (z := 8) (Gives.eq (h.iBit (hm ▸ hf)) (by cases md <;> first | rfl | cases hf)) (by decide)
  · obtain ⟨a, e, h1⟩ := Gives.eq (h.split (.inl (hm ▸ hf))) (v := .arr [.int 1, .int 3, .int 4])
      (by cases md <;> first | rfl | cases hf)
    obtain rfl := Json.arr.inj e
    exact natsAre_list (l := [1, 3, 4]) (by decide) h1
  · exact natIs_int (z := 2) (Gives.eq (h.wBit (.inr (hm ▸ hf))) (by rcases hf with rfl | rfl <;> rfl)) (by decide)
  · obtain ⟨a, e, h1⟩ := Gives.eq (h.split (.inr (hm ▸ hf))) (v := .arr [.int 1, .int 1])
      (by rcases hf with rfl | rfl <;> rfl)
    obtain rfl := Json.arr.inj e
    exact natsAre_list (l := [1, 1]) (by decide) h1

/-- The meaning of a file in `analog`, for numbers that single precision represents. -/
structure AnalogShipped (md : Mode) (c : Cfg K) : Prop where
  M : c.M = 32
  N : c.N = 32
  mode : c.mode = md
  digital : c.digitalOnly = false
  verbose : c.verbose = false
  hrs : c.hrs = 5
  lrs : c.lrs = 30
  adc : c.adcType = shippedAdc md
  res : c.resolution = 20
  calib : c.calibMode = .max
  prof : c.adcProfile = false
  hrsNoise : c.hrsNoise = 0
  lrsNoise : c.lrsNoise = 0
  c2c : c.c2c = false
  rd : c.readDisturb = false
  par : c.parasitics = false
  int : md.family = .int → c.wBit = 8 ∧ c.iBit = 8 ∧ c.split = [1, 3, 4]
  split : md = .tnn4 ∨ md = .tnn5 → c.wBit = 2 ∧ c.split = [1, 1]

theorem shippedAdc_real (md : Mode) : shippedAdc md ≠ .inf := by cases md <;> decide

theorem analog_shipped (h0 : E.f32 0 = 0) (h5 : E.f32 5 = 5) (h30 : E.f32 30 = 30)
    (h : FromDoc E (analogFile md) c) : AnalogShipped md c := by
  have hm : c.mode = md := by
    have := Gives.eq h.mode (v := .str md.name) (by cases md <;> rfl)
    exact mode_name (Json.str.inj this).symm
  have hd : c.digitalOnly = false := (Json.bool.inj (Gives.eq h.digital (v := .bool false) (by cases md <;> rfl))).symm
  have ha := h.analog hd
  have ht : c.adcType = shippedAdc md :=
    adc_name (Json.str.inj (Gives.eq ha.adcType (v := .str (adcName (shippedAdc md))) (by cases md <;> rfl))).symm
  have hc := ha.adc (by rw [ht]; exact shippedAdc_real md)
  refine ⟨?_, ?_, hm, hd, ?_, ?_, ?_, ht, ?_, ?_, ?_, ?_, ?_, ?_, ?_, ?_, fun hf => ⟨?_, ?_, ?_⟩, fun hf => ⟨?_, ?_⟩⟩
  · exact natIs_int (z := 32) (Gives.eq h.M (by cases md <;> rfl)) (by decide)
  · exact natIs_int (z := 32) (Gives.eq h.N (by cases md <;> rfl)) (by decide)
  · exact (Json.bool.inj (Gives.eq h.verbose (v := .bool false) (by cases md <;> rfl))).symm
  · exact Eq.trans (Gives.eq ha.hrs (v := .num 5) (by cases md <;> rfl)) h5
  · exact Eq.trans (Gives.eq ha.lrs (v := .num 30) (by cases md <;> rfl)) h30
  · exact intIs_int (z := 20) (Gives.eq hc.resolution (by cases md <;> rfl)) (by decide)
  · have := GivesOr.none hc.calib (by cases md <;> rfl)
    revert this
    cases c.calibMode <;> decide
  · exact GivesOr.none hc.profile (by cases md <;> rfl)
  · exact Eq.trans (Gives.eq ha.hrsNoise (v := .num 0) (by cases md <;> rfl)) h0
  · exact Eq.trans (Gives.eq ha.lrsNoise (v := .num 0) (by cases md <;> rfl)) h0
  · exact GivesOr.none ha.c2c (by cases md <;> rfl)
  · exact GivesOr.none ha.readDisturb (by cases md <;> rfl)
  · obtain ⟨p, h1, _, h3, _⟩ := ha.par
    have hp := GivesOr.none h1 (by cases md <;> rfl)
    cases hq : c.parasitics with
    | false => rfl
    | true =>
      have := (h3.1 hq).1
      rw [hp] at this
      cases this
  · exact natIs_int (z := 8) (Gives.eq (h.wBit (.inl (hm ▸ hf))) (by cases md <;> first | rfl | cases hf)) (by decide)
  · exact natIs_int (z := 8) (Gives.eq (h.iBit (hm ▸ hf)) (by cases md <;> first | rfl | cases hf)) (by decide)
  · obtain ⟨a, e, h1⟩ := Gives.eq (h.split (.inl (hm ▸ hf))) (v := .arr [.int 1, .int 3, .int 4])
      (by cases md <;> first | rfl | cases hf)
    obtain rfl := Json.arr.inj e
    exact natsAre_list (l := [1, 3, 4]) (by decide) h1
  · exact natIs_int (z := 2) (Gives.eq (h.wBit (.inr (hm ▸ hf))) (by rcases hf with rfl | rfl <;> rfl)) (by decide)
  · obtain ⟨a, e, h1⟩ := Gives.eq (h.split (.inr (hm ▸ hf))) (v := .arr [.int 1, .int 1])
      (by rcases hf with rfl | rfl <;> rfl)
    obtain rfl := Json.arr.inj e
    exact natsAre_list (l := [1, 1]) (by decide) h1

variable {w : Nat} {h ops : List Op}

theorem legal_everyMvm (hh : HistOk c w h) (hl : LegalOps c w h ops) :
    EveryMvm (fun h res vec m n _ => HistOk c w h ∧ LegalMvm c w h res vec m n) h ops := by
  induction ops generalizing h with
  | nil => trivial
  | cons op ops ih =>
    cases op with
    | write => exact ih (hh.write hl.1) hl.2
    | mvm => exact ⟨⟨hh, hl.1⟩, ih hh.mvm hl.2⟩

theorem legal_heights (hM : c.M < 2147483648) (hl : LegalOps c w h ops) : Heights ops := by
  induction ops generalizing h with
  | nil => exact fun op ho => by cases ho
  | cons op ops ih =>
    intro op' ho
    rcases List.mem_cons.1 ho with rfl | ho
    · cases op' with
      | write => exact lt_of_le_of_lt hl.1.dims.1 hM
      | mvm => exact lt_of_le_of_lt hl.1.dims.1 hM
    · have : LegalOps c w (op :: h) ops := by
        cases op with
        | write => exact hl.2
        | mvm => exact hl.2
      exact ih this op' ho

theorem DigitalShipped.ok (h : DigitalShipped md c) (hf : c.mode.family = .int) : CfgOk c := by
  obtain ⟨h1, h2, h3⟩ := h.int (h.mode ▸ hf)
  unfold CfgOk
  rw [h1, h2, h3]
  cases hm : c.mode <;> first | decide | (rw [hm] at hf; cases hf)

theorem AnalogShipped.ok (h : AnalogShipped md c) (hf : c.mode.family = .int) : CfgOk c := by
  obtain ⟨h1, h2, h3⟩ := h.int (h.mode ▸ hf)
  unfold CfgOk
  rw [h1, h2, h3]
  cases hm : c.mode <;> first | decide | (rw [hm] at hf; cases hf)

/-- Range of the converters. -/
def shippedRange (md : Mode) : K × K := if shippedAdc md = .sym then (-800, 800) else (0, 960)

theorem AnalogShipped.adcOk (h : AnalogShipped md c) (l : String) :
    AdcOk c l (shippedRange md).1 (shippedRange (K := K) md).2 := by
  have hr := shippedAdc_real md
  refine ⟨by rw [h.adc]; exact hr, by rw [h.adc, h.res]; split <;> decide, by rw [h.res]; decide, ?_, ?_⟩
  · unfold adcRange shippedRange
    rw [h.calib, h.adc, h.N, h.hrs, h.lrs]
    cases ha : shippedAdc md
    · exact absurd ha hr
    · norm_num
    · rw [if_neg (by decide)]
      norm_num
  · unfold shippedRange
    split <;> norm_num

theorem AnalogShipped.fits (h : AnalogShipped md c) : adcFits c := by
  unfold adcFits
  rw [h.mode, h.adc]
  cases md <;> rfl

theorem AnalogShipped.step (h : AnalogShipped md c) :
    adcStep c (shippedRange md).1 (shippedRange md).2 = if shippedAdc md = .sym then (1600 / 1048574 : K) else 960 / 1048575 := by
  have hr := shippedAdc_real md
  have h20 : Int.toNat 20 = 20 := rfl
  unfold adcStep adcLevels shippedRange
  rw [h.adc, h.res, h20]
  cases ha : shippedAdc md
  · exact absurd ha hr
  · norm_num
  · simp only [if_neg (show ¬AdcType.pos = AdcType.sym by decide)]
    norm_num

theorem AnalogShipped.inRange (h : AnalogShipped md c) (h45 : md ≠ .tnn4 ∧ md ≠ .tnn5) {W : Nat → Nat → Int} {vec : Vec Int}
    {m n i : Nat} (hn : n ≤ c.N) (hW : LegalMat c W m n) (hx : LegalVec c vec n) (hi : i < m) :
    ∀ k ∈ conversions c W vec n i, (shippedRange md).1 ≤ k.1 ∧ k.1 ≤ (shippedRange md).2 :=
  conversions_in_range (by rw [h.hrs]; norm_num) (by rw [h.hrs, h.lrs]; norm_num) h.calib h.fits (h.adcOk "").range hn
    (fun hm => by
      rw [h.mode] at hm
      exact absurd hm (by rw [not_or]; exact h45)) hW hx hi

end

theorem steady_shipped {k : Int} {e : ℚ} (he : e < 1 / 10) : Steady (2 * (k : ℚ) * (5 / (30 - 5))) e := fun j => by
  refine he.trans_le ?_
  have e1 : (2 * (k : ℚ) * (5 / (30 - 5)) - (j + 1 / 2)) = ((4 * k - 10 * j - 5 : Int) : ℚ) / 10 := by
    push_cast
    ring
  rw [e1, abs_div, abs_of_nonneg (by norm_num : (0 : ℚ) ≤ 10)]
  refine div_le_div_of_nonneg_right ?_ (by norm_num)
  have : (1 : Int) ≤ |4 * k - 10 * j - 5| := by
    rcases abs_cases (4 * k - 10 * j - 5) with ⟨e, _⟩ | ⟨e, _⟩ <;> rw [e] <;> omega
  exact_mod_cast this

/-- Binary and ternary files compute the exact products in single precision. -/
theorem shipped_sharp {E : Env ℚ} {c : Cfg ℚ} {md : Mode} (hE : Ieee E) (h : AnalogShipped md c) (hs : sharp md)
    (hok : CfgOk c) {x : Xbar ℚ} {w : Nat} {hist ops : List Op} (hr : Runs E c hist x) (hh : HistOk c w hist)
    (hl : LegalOps c w hist ops) (hB : SmallBuffers (2 ^ 20) hist ops) :
    ∃ x' rs, exec E c x ops = .ok (x', rs) ∧ Answers hist ops rs := by
  have h45 : md ≠ .tnn4 ∧ md ≠ .tnn5 := ⟨by rintro rfl; exact hs, by rintro rfl; exact hs⟩
  have hbin : c.mode.isInt = false := by
    rw [h.mode]
    cases md <;> first | rfl | exact hs.elim
  have key := EveryMvm.and (legal_everyMvm hh hl) hB
  have hst := h.step
  have size : ∀ n : Nat, n ≤ 32 → (9 * (n : ℚ) ^ 2 + 240 * n + 30) * (6 / 5) + 100 * (192 / 5) + 4 ≤ 24156 := fun n hn => by
    have : (n : ℚ) ≤ 32 := by exact_mod_cast hn
    have h0 : (0 : ℚ) ≤ n := Nat.cast_nonneg n
    nlinarith
  refine exec_single_adc (ρ := 6 / 5) (μ := 192 / 5) (rg := fun _ => shippedRange md) hE hok
    ⟨h.digital, hbin, h.par, h.prof, by rw [h.hrs, h.lrs]; norm_num⟩ h.rd h.hrsNoise.le h.lrsNoise.le
    (by rw [h.hrs]; norm_num) (by rw [h.lrs]; norm_num) (by rw [h.hrs, h.lrs]; norm_num) (by rw [h.hrs, h.lrs]; norm_num)
    (by rw [h.hrs, h.lrs]; norm_num) hr hh hl (everyMvm_imp (fun g res vec m n l k => ⟨h.adcOk l, ?_, ?_⟩) key) ?_
  · refine ⟨by rw [h.res]; decide, by rw [h.N]; decide, ?_, ?_, ?_, ?_⟩
    · rw [hst, h.hrs, h.lrs]
      split <;> norm_num
    · rw [hst]
      split <;> norm_num
    · rw [h.hrs, h.lrs]
      unfold shippedRange
      split <;> norm_num
    · unfold shippedRange
      split <;> norm_num
  · have hn : n ≤ 32 := h.N ▸ k.1.2.dims.2.1
    exact ⟨fun i hi => h.inRange h45 k.1.2.dims.2.1 (fun i j hi hj => ((legal_of k.1.1 k.1.2).val hi hj).1) k.1.2.vals hi,
      (size n hn).trans (by norm_num), k.2⟩
  · have cases' : integral c.mode ∨ c.mode = .bnn3 ∨ c.mode = .bnn4 := by
      rw [h.mode]
      cases md <;> first | exact .inl trivial | exact .inr (.inl rfl) | exact .inr (.inr rfl) | exact hs.elim
    rcases cases' with hm | hm
    · exact .inl hm
    · refine .inr ⟨hm, everyMvm_imp (fun g res vec m n l k => ?_) key⟩
      have hn : n ≤ 32 := h.N ▸ k.1.2.dims.2.1
      unfold shared
      rw [h.hrs, h.lrs]
      refine steady_shipped ?_
      unfold singleError
      rw [hst, h.hrs, h.lrs]
      have := size n hn
      split <;> norm_num at this ⊢ <;> linarith

end Acs
