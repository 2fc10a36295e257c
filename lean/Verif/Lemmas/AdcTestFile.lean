import Verif.Lemmas.AdcTest
import Verif.Lemmas.ShippedLoad
import Verif.Lemmas.SaturateShipped

/-! # The files of the converter tests -/

set_option linter.unusedSectionVars false

namespace Acs

open Finset Spec

section
variable {K : Type} [Field K] [LinearOrder K] [IsStrictOrderedRing K] [FloorRing K]
variable {E : Env K} {c : Cfg K} {md : Mode} {b : Int}

/-- The meaning of a document of the tests. -/
structure AdcTestSet (md : Mode) (b : Int) (c : Cfg K) : Prop where
  M : c.M = 3
  N : c.N = 5
  mode : c.mode = md
  digital : c.digitalOnly = false
  hrs : c.hrs = 5
  lrs : c.lrs = 30
  adc : c.adcType = shippedAdc md
  res : c.resolution = b
  calib : c.calibMode = .max
  prof : c.adcProfile = false
  c2c : c.c2c = false
  rd : c.readDisturb = false
  par : c.parasitics = false
  wBit : c.wBit = 8
  iBit : c.iBit = 1
  split : c.split = [8]

theorem adcTest_set (h5 : E.f32 5 = 5) (h30 : E.f32 30 = 30) (hi : md.isInt = true) (hb : 1 ≤ b ∧ b ≤ 30)
    (h : FromDoc E (adcTestFile md b) c) : AdcTestSet md b c := by
  have hf : md.family = .int := by cases md <;> first | rfl | cases hi
  have hm : c.mode = md := by
    have := Gives.eq h.mode (v := .str md.name) (by cases md <;> rfl)
    exact mode_name (Json.str.inj this).symm
  have hd : c.digitalOnly = false := (Json.bool.inj (Gives.eq h.digital (v := .bool false) (by cases md <;> rfl))).symm
  have ha := h.analog hd
  have ht : c.adcType = shippedAdc md :=
    adc_name (Json.str.inj (Gives.eq ha.adcType (v := .str (adcName (shippedAdc md))) (by cases md <;> rfl))).symm
  have hc := ha.adc (by rw [ht]; exact shippedAdc_real md)
  refine ⟨?_, ?_, hm, hd, ?_, ?_, ht, ?_, ?_, ?_, ?_, ?_, ?_, ?_, ?_, ?_⟩
  · exact natIs_int (z := 3) (Gives.eq h.M (by cases md <;> rfl)) (by decide)
  · exact natIs_int (z := 5) (Gives.eq h.N (by cases md <;> rfl)) (by decide)
  · exact Eq.trans (Gives.eq ha.hrs (v := .num 5) (by cases md <;> rfl)) h5
  · exact Eq.trans (Gives.eq ha.lrs (v := .num 30) (by cases md <;> rfl)) h30
  · obtain ⟨z, rfl⟩ : ∃ z : Nat, b = z := ⟨b.toNat, by omega⟩
    exact intIs_int (z := z) (Gives.eq hc.resolution (by cases md <;> rfl)) (by omega)
  · have := GivesOr.none hc.calib (by cases md <;> rfl)
    revert this
    cases c.calibMode <;> decide
  · exact GivesOr.none hc.profile (by cases md <;> rfl)
  · exact GivesOr.none ha.c2c (by cases md <;> rfl)
  · exact GivesOr.none ha.readDisturb (by cases md <;> rfl)
  · obtain ⟨p, h1, _, h3, _⟩ := ha.par
    have hp := GivesOr.none h1 (by cases md <;> rfl)
    cases hq : c.parasitics with
    | false => rfl
    | true =>
      have := (h3.1 hq).1
      rw [hp] at this
      cases this
  · exact natIs_int (z := 8) (Gives.eq (h.wBit (.inl (hm ▸ hf))) (by cases md <;> rfl)) (by decide)
  · exact natIs_int (z := 1) (Gives.eq (h.iBit (hm ▸ hf)) (by cases md <;> rfl)) (by decide)
  · obtain ⟨a, e, h1⟩ := Gives.eq (h.split (.inl (hm ▸ hf))) (v := .arr [.int 8]) (by cases md <;> rfl)
    obtain rfl := Json.arr.inj e
    exact natsAre_list (l := [8]) (by decide) h1

theorem pyRound_ge (y : K) : y - 1 ≤ pyRound y := by
  have := (Int.lt_floor_add_one y).le
  unfold pyRound
  split <;> push_cast <;> linarith

theorem pyRound_le (y : K) : (pyRound y : K) ≤ y + 1 := by
  have := Int.floor_le y
  unfold pyRound
  split <;> push_cast <;> linarith

namespace AdcTestSet
variable (D : AdcTestSet md b c)
include D

theorem int (hi : md.isInt = true) : c.mode.isInt = true := by rw [D.mode]; exact hi

theorem ok (hi : md.isInt = true) : CfgOk c := by
  unfold CfgOk
  rw [D.wBit, D.iBit, D.split, D.mode]
  cases md <;> first | decide | cases hi

theorem ideal (hi : md.isInt = true) : Ideal c where
  analog := D.digital
  par := D.par
  c2c := D.c2c
  rd := D.rd
  prof := D.prof
  quiet := fun h => by rw [D.int hi] at h; cases h
  ne := by rw [D.hrs, D.lrs]; norm_num
  split := fun _ => by rw [D.split]; decide

theorem one (hi : md.isInt = true) (hb : (if shippedAdc md = .sym then 2 else 1) ≤ b ∧ b ≤ 30) : OneSlice c where
  int := D.int hi
  width := by rw [D.wBit]; decide
  split := by rw [D.split, D.wBit]
  input := D.iBit
  calib := D.calib
  adc := by
    unfold adcFits
    rw [D.mode, D.adc]
    cases md <;> rfl
  low := by rw [D.hrs]; norm_num
  high := by rw [D.hrs, D.lrs]; norm_num
  cols := by rw [D.N]; decide
  res := by rw [D.adc, D.res]; exact hb.1
  res30 := by rw [D.res]; exact hb.2

/-- 51 units. -/
theorem whole (hi : md.isInt = true) (hb : (if shippedAdc md = .sym then 2 else 1) ≤ b ∧ b ≤ 30) : WholeLeakage c :=
  ⟨51, by rw [(D.one hi hb).leak, D.wBit, D.hrs, D.lrs]; norm_num⟩

theorem delta : c.lrs - c.hrs = 25 := by rw [D.lrs, D.hrs]; norm_num

theorem error_le (hi : md.isInt = true) (hb : (if shippedAdc md = .sym then 2 else 1) ≤ b ∧ b ≤ 30) :
    testError c ≤ 765 ∧ 0 ≤ testError c := by
  unfold testError testDelta
  rw [D.adc, D.delta, D.wBit, D.N, D.lrs, D.res]
  split
  · next ht =>
    rw [if_pos ht] at hb
    have h1 : (2 : K) ^ 2 ≤ 2 ^ b.toNat := pow_le_pow_right₀ (by norm_num) (by omega)
    have h2 : (0 : K) < 2 ^ b.toNat - 2 := by linarith
    constructor
    · rw [show (2 * ((5 : Nat) : K) * 25 / (2 ^ b.toNat - 2) / 2 / (25 / (2 ^ 8 - 1))) = 1275 / (2 ^ b.toNat - 2) by
        push_cast; field_simp; norm_num, div_le_iff₀ h2]
      linarith
    · positivity
  · next ht =>
    rw [if_neg ht] at hb
    have h1 : (2 : K) ^ 1 ≤ 2 ^ b.toNat := pow_le_pow_right₀ (by norm_num) (by omega)
    have h2 : (0 : K) < 2 ^ b.toNat - 1 := by linarith
    constructor
    · rw [show (((5 : Nat) : K) * 30 / (2 ^ b.toNat - 1) / 2 / (25 / (2 ^ 8 - 1))) = 765 / (2 ^ b.toNat - 1) by
        push_cast; field_simp; norm_num, div_le_iff₀ h2]
      linarith
    · positivity

/-- Everything fits into the results if the buffers are small. -/
theorem room (hi : md.isInt = true) (hb : (if shippedAdc md = .sym then 2 else 1) ≤ b ∧ b ≤ 30) {W : Nat → Nat → Int}
    {res vec : Vec Int} {m n : Nat} (hn : n ≤ c.N) (hW : LegalMat c W m n) (hx : LegalVec c vec n)
    (hr : ∀ i, i < m → |res.get i| ≤ 2 ^ 20) : ReadRoom c (maxRange c).1 (maxRange c).2 W res vec m n := by
  have H := D.one hi hb
  have hn' : (n : Int) ≤ 5 := by rw [D.N] at hn; exact_mod_cast hn
  constructor
  · intro i hi'
    have h1 : |res.get i| + peak c n ≤ 2 ^ 20 + 5 * 2 ^ 9 := by
      have : peak c n = n * 2 ^ 9 := by
        unfold peak
        rw [D.wBit, D.iBit, D.mode]
        cases md <;> first | rfl | cases hi
      rw [this]
      have := hr i hi'
      omega
    have h2 : convPeak (maxRange c).1 (maxRange c).2 (conversions c W vec n i) ≤ 10000 := by
      have ha : max |(maxRange c).1| |(maxRange c).2| ≤ 150 := by
        unfold maxRange
        split
        · rw [D.N, D.delta]; norm_num
        · rw [D.N, D.lrs]; norm_num
      have ha0 : 0 ≤ max |(maxRange c).1| |(maxRange c).2| := le_max_of_le_left (abs_nonneg _)
      have hm := D.mode
      have key : ∀ cs : List (K × K), cs.length ≤ 2 → (∀ x ∈ cs, |x.2| ≤ 21) →
          convPeak (maxRange c).1 (maxRange c).2 cs ≤ 10000 := by
        intro cs hl hc
        have hs : convPeak (maxRange c).1 (maxRange c).2 cs ≤ (cs.length : K) * 4000 := by
          unfold convPeak
          clear hl
          induction cs with
          | nil => simp
          | cons a cs ih =>
            rw [List.map_cons, List.sum_cons, List.length_cons]
            have h3 := ih fun x hx => hc x (List.mem_cons_of_mem _ hx)
            have h4 := hc a List.mem_cons_self
            have h5 := mul_le_mul ha h4 (abs_nonneg _) (by norm_num)
            push_cast
            linarith
        have : (cs.length : K) ≤ 2 := by exact_mod_cast hl
        linarith
      refine key _ ?_ ?_
      · simp only [conversions, D.mode, D.iBit, D.split]
        cases md <;> first | (cases hi; done) | simp [List.range_succ]
      · simp only [conversions, D.mode, D.iBit, D.split, D.delta]
        cases md <;> first | (cases hi; done) | (simp [List.range_succ, shiftOf, abs_of_pos]; norm_num [abs_of_pos])
    have h3 : ((|res.get i| + peak c n : Int) : K) ≤ ((2 ^ 20 + 5 * 2 ^ 9 : Int) : K) := Int.cast_le.2 h1
    refine (add_le_add h3 h2).trans ?_
    norm_num
  · intro hm i hi'
    obtain ⟨h1, h2⟩ := (H.rowOffs hm hn hW hx hi').1
    obtain ⟨he, he0⟩ := D.error_le hi hb
    have hc : |prod W vec n i| ≤ 5 * 128 := by
      unfold LegalMat LegalW at hW
      unfold LegalVec LegalX at hx
      simp only [hm, D.wBit, D.iBit] at hW hx
      refine (abs_sum_le_sum_abs _ _).trans ((sum_le_card_nsmul _ _ 128 fun j hj => ?_).trans ?_)
      · have h3 := hW i j hi' (mem_range.1 hj)
        have h4 := hx j (mem_range.1 hj)
        rcases (by omega : vec.get j = 0 ∨ vec.get j = 1) with e | e <;> rw [e]
        · simp
        · rw [mul_one, abs_le]; omega
      · rw [card_range, nsmul_eq_mul]
        have : ((n : Nat) : Int) ≤ 5 := hn'
        omega
    have p1 := pyRound_ge ((prod W vec n i : K) - testError c)
    have p2 := pyRound_le ((prod W vec n i : K) + testError c)
    have h1' : ((pyRound ((prod W vec n i : K) - testError c) - 1 : Int) : K)
        ≤ rowResult c (maxRange c).1 (maxRange c).2 W vec n i := Int.cast_le.2 h1
    have h2' : (rowResult c (maxRange c).1 (maxRange c).2 W vec n i : K)
        ≤ ((pyRound ((prod W vec n i : K) + testError c) + 1 : Int) : K) := Int.cast_le.2 h2
    push_cast at h1' h2'
    have hc' : |(prod W vec n i : K)| ≤ 640 := by
      have : ((|prod W vec n i| : Int) : K) ≤ ((5 * 128 : Int) : K) := Int.cast_le.2 hc
      rw [Int.cast_abs] at this
      norm_num at this
      exact this
    rw [abs_le] at hc'
    have h4 : |(rowResult c (maxRange c).1 (maxRange c).2 W vec n i : K)| ≤ 2000 := by
      rw [abs_le]
      constructor <;> linarith
    have h5 : |rowResult c (maxRange c).1 (maxRange c).2 W vec n i| ≤ 2000 := by
      have : ((|rowResult c (maxRange c).1 (maxRange c).2 W vec n i| : Int) : K) ≤ ((2000 : Int) : K) := by
        rw [Int.cast_abs]; exact_mod_cast h4
      exact Int.cast_le.1 this
    have := hr i hi'
    omega

end AdcTestSet

/-! ## Answers -/

section
variable {cfg : Cfg K} {w : Nat} {h ops : List Op} {rs : List (Vec Int)} {d : Int}

theorem answers_tested (hO : OneSlice cfg) (hd : cfg.mode = .iUintWOffs → d = 1 ∨ d = 0 ∧ WholeLeakage cfg)
    (hd' : cfg.mode ≠ .iUintWOffs → d = 0) (hh : HistOk cfg w h) (hl : LegalOps cfg w h ops)
    (ha : AnswersRead cfg (fun _ => maxRange cfg) h ops rs) : AnswersTested cfg d h ops rs := by
  have key := legal_everyMvm hh hl
  clear hh hl
  unfold AnswersTested
  unfold AnswersRead at ha
  induction ha with
  | nil => exact .nil
  | write _ ih => exact .write (ih key)
  | mvm a _ ih =>
    obtain ⟨⟨k1, k2⟩, k3⟩ := key
    refine .mvm ⟨a.size, fun i hi => ?_, a.tail⟩ (ih k3)
    rw [a.head i hi, add_sub_cancel_left]
    have hW : LegalMat cfg (stored _) _ _ := fun i j hi hj => ((legal_of k1 k2).val hi hj).1
    by_cases hm : cfg.mode = .iUintWOffs
    · obtain ⟨e1, e2⟩ := hO.rowOffs hm k2.dims.2.1 hW k2.vals hi
      rcases hd hm with rfl | ⟨rfl, hl⟩
      exacts [e1, e2 hl]
    · rw [hd' hm]
      exact hO.row hm k2.dims.2.1 hW k2.vals hi

theorem AdcTestSet.readable (D : AdcTestSet md b cfg) (hi : md.isInt = true)
    (hb : (if shippedAdc md = .sym then 2 else 1) ≤ b ∧ b ≤ 30) (hh : HistOk cfg w h) (hl : LegalOps cfg w h ops)
    (hB : SmallBuffers (2 ^ 20) h ops) : AllReadable cfg (fun _ => maxRange cfg) h ops :=
  everyMvm_imp (fun _ _ _ _ _ _ k => ⟨oneSlice_ok (D.one hi hb), D.room hi hb k.1.2.dims.2.1
    (fun _ _ hi hj => ((legal_of k.1.1 k.1.2).val hi hj).1) k.1.2.vals k.2⟩) (EveryMvm.and (legal_everyMvm hh hl) hB)

end

/-! ## Loading -/

def adcTestCfg (md : Mode) (b : Int) : Cfg K :=
  { cfg0 with
    M := 3
    N := 5
    mode := md
    hrs := 5
    lrs := 30
    adcType := shippedAdc md
    resolution := b
    d2d := true
    wBit := 8
    iBit := 1
    split := [8] }

theorem adcTest_fromDoc (h0 : E.f32 0 = 0) (h5 : E.f32 5 = 5) (h30 : E.f32 30 = 30) (hb : 1 ≤ b ∧ b ≤ 30) :
    FromDoc E (adcTestFile md b) (adcTestCfg md b) where
  M := ⟨.int (3 : Nat), by cases md <;> rfl, nat_is (z := 3) (by decide)⟩
  N := ⟨.int (5 : Nat), by cases md <;> rfl, nat_is (z := 5) (by decide)⟩
  mode := ⟨_, by cases md <;> rfl, rfl⟩
  digital := ⟨_, by cases md <;> rfl, rfl⟩
  verbose := ⟨_, by cases md <;> rfl, rfl⟩
  analog := fun _ =>
    { hrs := ⟨.num 5, by cases md <;> rfl, h5.symm⟩
      lrs := ⟨.num 30, by cases md <;> rfl, h30.symm⟩
      adcType := ⟨_, by cases md <;> rfl, rfl⟩
      adc := fun _ =>
        { resolution := ⟨.int b, by cases md <;> rfl,
            ⟨(by omega : (-2147483648 : Int) ≤ b ∧ b < 2147483648), (by simp : (4294967296 : Int) ∣ b - b)⟩⟩
          calib := find_or (by cases md <;> rfl)
          dict := fun h => by cases h
          profile := find_or (by cases md <;> rfl)
          bin := fun h => by cases h }
      hrsNoise := ⟨.num 0, by cases md <;> rfl, h0.symm⟩
      lrsNoise := ⟨.num 0, by cases md <;> rfl, h0.symm⟩
      d2d := find_or (by cases md <;> rfl)
      c2c := find_or (by cases md <;> rfl)
      readDisturb := find_or (by cases md <;> rfl)
      rd := fun h => by cases h
      par := ⟨false, find_or (by cases md <;> rfl), (fun h => by cases h), ⟨(fun h => by cases h), fun h => by cases h.1⟩,
        fun h => by rcases h with h | h <;> cases h⟩ }
  wBit := fun _ => ⟨.int (8 : Nat), by cases md <;> rfl, nat_is (by decide)⟩
  iBit := fun _ => ⟨.int (1 : Nat), by cases md <;> rfl, nat_is (by decide)⟩
  split := fun _ => ⟨.arr (([8] : List Nat).map fun z => .int (z : Nat)), by cases md <;> rfl,
    nats_are (l := [8]) (by decide)⟩

theorem adcTest_admissible (hi : md.isInt = true) (hb : 1 ≤ b) : Admissible (adcTestCfg md b : Cfg K) :=
  have bits : BitsOk (adcTestCfg md b : Cfg K) := by
    cases md <;> first | (exact absurd hi (by decide)) | (simp [BitsOk, adcTestCfg]; try rfl)
  ⟨(by decide : 0 < 3), (by decide : 0 < 5), bits, fun _ =>
    { states := ⟨by show (0 : K) < 5; norm_num, by show (0 : K) < 30; norm_num⟩
      adc := by cases md <;> simp [AdcMatches, adcTestCfg, shippedAdc, signedCurrents]
      calib := fun _ h => by cases h
      vRead := fun h => by rcases h with h | h <;> cases h
      family := fun h => by cases h
      software := fun h => by cases h
      cell := fun h => by cases h
      variability := fun _ h => by cases h.2
      wires := fun h => by cases h }⟩

theorem adcTest_buildable {old : Cfg K} (hb : b ≤ 30) : Buildable E old (adcTestCfg md b) where
  resolution := by
    unfold usedResolution
    split
    · next h => exact absurd (h.resolve_left (fun h => by cases h)) (shippedAdc_real md)
    · exact hb
  wires := fun _ h => by cases h
  slices := fun _ => show ∀ s ∈ [8], s ≤ 30 by decide
  offset := fun hm => by
    obtain rfl : md = .iUintWOffs := hm
    show ∀ s, s < [8].length → SliceFits _ s
    intro s hs
    obtain rfl : s = 0 := by simpa using hs
    show SliceFits (adcTestCfg .iUintWOffs b : Cfg K) 0
    unfold SliceFits wrappedShift
    simp [adcTestCfg, pow32]
  current := fun _ h => by cases h
  disturb := fun h => by cases h

end

end Acs
