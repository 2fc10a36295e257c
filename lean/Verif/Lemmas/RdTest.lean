import Verif.Lemmas.ShippedLoad
import Verif.Lemmas.ApplyDoc
import Verif.Lemmas.Oob
import Verif.Lemmas.Wear
import Verif.SpecRdTest
import Verif.SpecNoise
import Verif.SpecRdTotal
import Verif.Props.Build
import Verif.Props.Disturb

/-! # The files and calls of the read disturb tests -/

set_option linter.unusedSectionVars false

namespace Acs

open Finset Spec Props

/-! ## What the files give -/

noncomputable def disturbCfg (st : Strategy) : Cfg ℝ :=
  { cfg0 with
    M := 1
    N := 1
    mode := .bnn1
    hrs := 5
    lrs := 30
    adcType := .inf
    d2d := true
    readDisturb := true
    vRead := -4 / 10
    tRead := 100 / 10 ^ 9
    updFreq := 1
    strategy := st
    fp := 1
    tol := 0
    split := [0] }

section
variable {E : Env ℝ} {st : Strategy} {c : Cfg ℝ}

theorem disturb_fromDoc (hE : ExactArith E) : FromDoc E (disturbFile st) (disturbCfg st) where
  M := ⟨.int (1 : Nat), by cases st <;> rfl, nat_is (z := 1) (by decide)⟩
  N := ⟨.int (1 : Nat), by cases st <;> rfl, nat_is (z := 1) (by decide)⟩
  mode := ⟨_, by cases st <;> rfl, rfl⟩
  digital := ⟨_, by cases st <;> rfl, rfl⟩
  verbose := ⟨_, by cases st <;> rfl, rfl⟩
  analog := fun _ =>
    { hrs := ⟨.num 5, by cases st <;> rfl, (hE.f32 _).symm⟩
      lrs := ⟨.num 30, by cases st <;> rfl, (hE.f32 _).symm⟩
      adcType := ⟨_, by cases st <;> rfl, rfl⟩
      adc := fun h => absurd rfl h
      hrsNoise := ⟨.num 0, by cases st <;> rfl, (hE.f32 _).symm⟩
      lrsNoise := ⟨.num 0, by cases st <;> rfl, (hE.f32 _).symm⟩
      d2d := find_or (by cases st <;> rfl)
      c2c := find_or (by cases st <;> rfl)
      readDisturb := .inl ⟨.bool true, by cases st <;> rfl, rfl⟩
      rd := fun _ =>
        { tRead := ⟨.num (100 / 10 ^ 9), by cases st <;> rfl, (hE.f32 _).symm⟩
          freq := find_or (by cases st <;> rfl)
          strategy := by
            cases st
            · exact find_or rfl
            · exact .inl ⟨_, rfl, rfl⟩
            · exact .inl ⟨_, rfl, rfl⟩
          fp := fun h => by
            obtain rfl : st = .software := h
            exact ⟨.num 1, rfl, (hE.f32 _).symm⟩
          tol := fun h => by
            obtain rfl : st = .cellBased := h
            exact ⟨.num 0, rfl, (hE.f32 _).symm⟩ }
      par := ⟨false, find_or (by cases st <;> rfl), (fun h => by cases h), ⟨(fun h => by cases h), fun h => by cases h.1⟩,
        fun _ => ⟨⟨.num (-4 / 10), by cases st <;> rfl, (hE.f32 _).symm⟩, show (-4 / 10 : ℝ) < 0 by norm_num⟩⟩ }
  wBit := fun h => by rcases h with h | h | h <;> cases h
  iBit := fun h => by cases h
  split := fun h => by rcases h with h | h | h <;> cases h

theorem disturb_admissible : Admissible (disturbCfg st) :=
  ⟨(by decide : 0 < 1), (by decide : 0 < 1), ⟨(fun h => by cases h), (fun h => by rcases h with h | h <;> cases h), fun _ _ _ => rfl⟩, fun _ =>
    { states := ⟨by show (0 : ℝ) < 5; norm_num, by show (0 : ℝ) < 30; norm_num⟩
      adc := .inl rfl
      calib := fun h => absurd rfl h
      vRead := fun _ => by show (-4 / 10 : ℝ) < 0; norm_num
      family := fun _ h => by cases h
      software := fun _ _ => le_refl (1 : ℝ)
      cell := fun _ _ => ⟨le_refl (0 : ℝ), zero_le_one⟩
      variability := fun h => by cases h
      wires := fun h => by cases h }⟩

theorem disturb_buildable {old : Cfg ℝ} (hr : old.resolution ≤ 30) (hd : DecayDefined E (-4 / 10)) :
    Buildable E old (disturbCfg st) where
  resolution := by
    unfold usedResolution
    rw [if_pos (.inr rfl)]
    exact hr
  wires := fun _ h => by cases h
  slices := fun h => by rcases h with h | h <;> cases h
  offset := fun h => by cases h
  current := fun _ h => by cases h
  disturb := fun _ => hd

/-- The meaning of a file. -/
structure DisturbSet (st : Strategy) (c : Cfg ℝ) : Prop where
  M : c.M = 1
  N : c.N = 1
  mode : c.mode = .bnn1
  split : c.split = [0]
  analog : c.digitalOnly = false
  hrs : c.hrs = 5
  lrs : c.lrs = 30
  adc : c.adcType = .inf
  hrsNoise : c.hrsNoise = 0
  lrsNoise : c.lrsNoise = 0
  c2c : c.c2c = false
  rd : c.readDisturb = true
  par : c.parasitics = false
  vRead : c.vRead = -4 / 10
  tRead : c.tRead = 100 / 10 ^ 9
  freq : c.updFreq = 1
  strategy : c.strategy = st
  fp : st = .software → c.fp = 1
  tol : st = .cellBased → c.tol = 0

theorem strategy_name {a b : Strategy} (h : strategyName a = strategyName b) : a = b := by
  revert h
  cases a <;> cases b <;> decide

theorem disturbed (hE : ExactArith E) (F : FromDoc E (disturbFile st) c) (hok : CfgOk c) : DisturbSet st c := by
  have num : ∀ {k : String} {v y : ℝ}, Gives (disturbFile st) k (NumIs E) y → (disturbFile st).find k = some (.num v) →
      y = v := fun h hv => (Gives.eq h hv : _ = E.f32 _).trans (hE.f32 _)
  have hm : c.mode = .bnn1 := by
    have := Gives.eq F.mode (v := .str Mode.bnn1.name) (by cases st <;> rfl)
    exact mode_name (Json.str.inj this).symm
  have hd : c.digitalOnly = false := (Json.bool.inj (Gives.eq F.digital (v := .bool false) (by cases st <;> rfl))).symm
  have A := F.analog hd
  have hrd : c.readDisturb = true := by
    obtain ⟨v, h1, h2⟩ | ⟨h1, _⟩ := A.readDisturb
    · have : v = .bool true := by
        rw [show (disturbFile st).find "read_disturb" = some (.bool true) by cases st <;> rfl, Option.some.injEq] at h1
        exact h1.symm
      subst this
      exact (Json.bool.inj h2).symm
    · exact absurd trivial (h1 (.bool true) (by cases st <;> rfl))
  have B := A.rd hrd
  have hst : c.strategy = st := by
    have key : ∀ {s : String}, (disturbFile st).find "read_disturb_mitigation_strategy" = some (.str s) →
        strategyName c.strategy = s := by
      intro s hs
      obtain h | ⟨h, _⟩ := B.strategy
      · exact (Json.str.inj (Gives.eq h hs)).symm
      · exact absurd trivial (h _ hs)
    cases st
    · exact strategy_name (GivesOr.none B.strategy rfl)
    · exact strategy_name (key rfl)
    · exact strategy_name (key rfl)
  obtain ⟨p, p1, p2, p3, p4⟩ := A.par
  have hp : p = false := GivesOr.none p1 (by cases st <;> rfl)
  subst hp
  exact
    { M := natIs_int (z := 1) (Gives.eq F.M (by cases st <;> rfl)) (by decide)
      N := natIs_int (z := 1) (Gives.eq F.N (by cases st <;> rfl)) (by decide)
      mode := hm
      split := by unfold CfgOk at hok; rw [hm] at hok; exact hok
      analog := hd
      hrs := num A.hrs (by cases st <;> rfl)
      lrs := num A.lrs (by cases st <;> rfl)
      adc := adc_name (Json.str.inj (Gives.eq A.adcType (v := .str (adcName .inf)) (by cases st <;> rfl))).symm
      hrsNoise := num A.hrsNoise (by cases st <;> rfl)
      lrsNoise := num A.lrsNoise (by cases st <;> rfl)
      c2c := GivesOr.none A.c2c (by cases st <;> rfl)
      rd := hrd
      par := by
        cases h : c.parasitics
        · rfl
        · exact absurd (p3.1 h).1 (by simp)
      vRead := num (p4 (.inr hrd)).1 (by cases st <;> rfl)
      tRead := num B.tRead (by cases st <;> rfl)
      freq := GivesOr.none B.freq (by cases st <;> rfl)
      strategy := hst
      fp := fun h => num (B.fp (hst.trans h)) (by rw [h]; rfl)
      tol := fun h => num (B.tol (hst.trans h)) (by rw [h]; rfl) }

end

/-! ## The calls -/

section
variable {K : Type} [Field K] [LinearOrder K] [IsStrictOrderedRing K] [FloorRing K]
variable {E : Env K} {cfg : Cfg K} {x x' : Xbar K} {rs : List (Vec Int)} {h ops : List Op} {w : Nat}

theorem exec_history (hr : Runs E cfg h x) (he : exec E cfg x ops = .ok (x', rs)) :
    Runs E cfg (ops.reverse ++ h) x' := by
  induction ops generalizing x h rs with
  | nil =>
    rw [exec, ok_inj] at he
    cases he
    exact hr
  | cons op ops ih =>
    cases op with
    | write mat m n =>
      rw [exec, bind_eq_ok] at he
      obtain ⟨y, h1, h2⟩ := he
      have := ih (.write hr h1) h2
      rwa [List.reverse_cons, List.append_assoc]
    | mvm res vec mat m n l =>
      rw [exec, bind_eq_ok] at he
      obtain ⟨y, h1, h2⟩ := he
      rw [bind_eq_ok] at h2
      obtain ⟨z, h2, h3⟩ := h2
      rw [ok_inj, Prod.mk.injEq] at h3
      have := ih (.mvm hr h1) (rs := z.2) (by rw [h2, ← h3.1])
      rwa [List.reverse_cons, List.append_assoc]

theorem legal_snoc {op : Op} : LegalOps cfg w h (ops ++ [op]) ↔ LegalOps cfg w h ops ∧ LegalOps cfg w (ops.reverse ++ h) [op] := by
  induction ops generalizing h with
  | nil => simp [LegalOps]
  | cons o ops ih =>
    cases o <;> simp only [List.cons_append, LegalOps, ih, List.reverse_cons, List.append_assoc, and_assoc, List.nil_append]

theorem everyMvm_snoc {P : List Op → Vec Int → Vec Int → Nat → Nat → String → Prop} {op : Op} :
    EveryMvm P h (ops ++ [op]) ↔ EveryMvm P h ops ∧ EveryMvm P (ops.reverse ++ h) [op] := by
  induction ops generalizing h with
  | nil => simp [EveryMvm]
  | cons o ops ih =>
    cases o <;> simp only [List.cons_append, EveryMvm, ih, List.reverse_cons, List.append_assoc, and_assoc, List.nil_append]

end

section
variable {c : Cfg ℝ} {st : Strategy} {n : Nat} {h : List Op}

theorem cycled_written (hc : Cycled n h) (hn : 0 < n) : lastWrite h 0 0 = some (-1) := by
  induction hc with
  | nil => cases hn
  | round _ _ hb _ => simpa [lastWrite, entry] using hb.2
  | mvm _ h' _ _ _ _ ih => exact ih h'

theorem cycled_first (hc : Cycled 0 h) : h = [] := by
  generalize hz : 0 = z at hc
  induction hc with
  | nil => rfl
  | round => omega
  | mvm _ h' => omega

theorem cycled_last (hc : Cycled n h) : lastWrite h 0 0 = if n = 0 then none else some (-1) := by
  split
  · next h0 => subst h0; rw [cycled_first hc]; rfl
  · next h0 => exact cycled_written hc (by omega)

theorem cycled_only (hc : Cycled n h) {i j : Nat} (hs : (lastWrite h i j).isSome) : i < 1 ∧ j < 1 := by
  induction hc with
  | nil => cases hs
  | round _ _ _ ih =>
    simp only [lastWrite] at hs
    split at hs
    · assumption
    · exact ih hs
  | mvm _ _ _ _ _ _ ih => exact ih hs

theorem cycled_writes (hc : Cycled n h) : writesIn h = 2 * n := by
  induction hc with
  | nil => rfl
  | round _ _ _ ih => simp only [writesIn, ih]; omega
  | mvm _ _ _ _ _ _ ih => simpa only [writesIn] using ih

theorem cycled_switched (hm : c.mode = .bnn1) (hc : Cycled n h) :
    switched (fun w => encP c w 0) h 0 0 = n ∧ switched (fun w => encM c w 0) h 0 0 = n - 1 := by
  induction hc with
  | nil => exact ⟨rfl, rfl⟩
  | @round n h a b hc ha hb ih =>
    have e := cycled_last hc
    have ea : entry a 1 0 0 = 1 := by simpa [entry] using ha.2
    have eb : entry b 1 0 0 = -1 := by simpa [entry] using hb.2
    have p1 : encP c 1 0 = 1 ∧ encP c (-1) 0 = 0 := by simp [encP, hm]
    have m1 : encM c 1 0 = 0 ∧ encM c (-1) 0 = 1 := by simp [encM, hm]
    simp only [switched, cellAfter, lastWrite, e, ih.1, ih.2, ea, eb]
    by_cases h0 : n = 0
    · subst h0; simp [p1.1, p1.2, m1.1]
    · simp [h0, p1.1, p1.2, m1.1, m1.2]; omega
  | mvm _ _ _ _ _ _ ih => simpa only [switched] using ih

theorem cycled_cells (hm : c.mode = .bnn1) (hc : Cycled n h) (hn : 0 < n) :
    cellAfter (fun w => encP c w 0) h 0 0 = 0 ∧ cellAfter (fun w => encM c w 0) h 0 0 = 1 := by
  simp [cellAfter, cycled_written hc hn, encP, encM, hm]

theorem cycled_legal (D : DisturbSet st c) (hc : Cycled n h) : LegalOps c 1 [] h.reverse := by
  have acc : Accepted c 1 1 := ⟨D.M.ge, D.N.ge, by decide⟩
  have wr : ∀ {a : Vec Int} {v : Int}, Holds a v → v = 1 ∨ v = -1 → LegalWrite c 1 a 1 1 := fun ha hv =>
    { dims := acc
      buf := ha.1
      vals := fun i j hi hj => by
        obtain rfl : i = 0 := by omega
        obtain rfl : j = 0 := by omega
        simpa [LegalW, D.mode, entry, ha.2] using hv
      sums := fun h => by rw [D.mode] at h; cases h
      width := fun _ => rfl }
  induction hc with
  | nil => trivial
  | round _ ha hb ih =>
    rw [List.reverse_cons, List.reverse_cons]
    exact legal_snoc.2 ⟨legal_snoc.2 ⟨ih, wr ha (.inl rfl), trivial⟩, wr hb (.inr rfl), trivial⟩
  | mvm hc hn h1 h2 h3 h4 ih =>
    rw [List.reverse_cons]
    refine legal_snoc.2 ⟨ih, ⟨acc, h1, h3, fun j hj => ?_, fun i hi => ?_, fun i j hi hj => ?_, fun _ => rfl⟩, trivial⟩
    · obtain rfl : j = 0 := by omega
      simpa [LegalX, D.mode] using h4
    · obtain rfl : i = 0 := by omega
      simp only [peak, D.mode]
      norm_num at h2 ⊢
      omega
    · obtain rfl : i = 0 := by omega
      obtain rfl : j = 0 := by omega
      rw [List.append_nil, List.reverse_reverse, cycled_written hc hn]
      rfl

theorem cycled_spared {E : Env ℝ} (hc : Cycled n h) : AllSpared E c [] h.reverse := by
  induction hc with
  | nil => trivial
  | round _ ha hb ih =>
    rw [List.reverse_cons, List.reverse_cons]
    exact everyMvm_snoc.2 ⟨everyMvm_snoc.2 ⟨ih, trivial⟩, trivial⟩
  | mvm hc hn h1 h2 h3 h4 ih =>
    rw [List.reverse_cons]
    refine everyMvm_snoc.2 ⟨ih, .inr fun i j hs => ?_, trivial⟩
    rw [List.append_nil, List.reverse_reverse] at hs
    exact cycled_only hc hs

theorem cycled_rooms (D : DisturbSet st c) {ε : ℝ} (hε : ε ≤ 30) (hc : Cycled n h) : NoiseRooms c ε h.reverse := by
  intro op ho
  rw [List.mem_reverse] at ho
  induction hc with
  | nil => cases ho
  | round _ _ _ ih =>
    rcases List.mem_cons.1 ho with rfl | ho
    · trivial
    rcases List.mem_cons.1 ho with rfl | ho
    · trivial
    · exact ih ho
  | @mvm _ _ res _ _ _ _ _ _ h2 _ _ ih =>
    rcases List.mem_cons.1 ho with rfl | ho
    · intro i hi
      obtain rfl : i = 0 := by omega
      rw [D.mode, D.hrs, D.lrs]
      have : ((|res.get 0| : Int) : ℝ) ≤ 2 ^ 30 := by exact_mod_cast h2
      have e : |(30 : ℝ) - 5| = 25 := by norm_num
      rw [e]
      simp only [noiseGain]
      push_cast at this ⊢
      linarith
    · exact ih ho

/-- What comes before a multiplication. -/
theorem cycled_before (hc : Cycled n h) {h1 h2 : List Op} {o : Op} (e : h = h1 ++ o :: h2) (ho : isMvm o) :
    (∃ k, 0 < k ∧ k ≤ n ∧ Cycled k h2) ∧ ∃ res vec mat l, o = .mvm res vec mat 1 1 l := by
  induction hc generalizing h1 with
  | nil => simp at e
  | @round n h a b hc _ _ ih =>
    cases h1 with
    | nil => cases e; cases ho
    | cons o1 h1 =>
      rw [List.cons_append, List.cons.injEq] at e
      cases h1 with
      | nil => cases e.2; cases ho
      | cons o2 h1 =>
        rw [List.cons_append, List.cons.injEq] at e
        obtain ⟨⟨k, k1, k2, k3⟩, k4⟩ := ih e.2.2
        exact ⟨⟨k, k1, by omega, k3⟩, k4⟩
  | mvm hc hn _ _ _ _ ih =>
    cases h1 with
    | nil => cases e; exact ⟨⟨_, hn, le_refl _, hc⟩, _, _, _, _, rfl⟩
    | cons o1 h1 =>
      rw [List.cons_append, List.cons.injEq] at e
      exact ih e.2

end

/-! ## The golden model -/

section
variable {gauss : Nat → ℝ} {strict : Bool} {junk : Int}

/-- Real numbers without rounding. -/
noncomputable abbrev exactReal (gauss : Nat → ℝ) (strict : Bool) (junk : Int) : Env ℝ :=
  realEnv _root_.id _root_.id gauss strict junk

theorem exactReal_exact : ExactArith (exactReal gauss strict junk) := ⟨fun _ => rfl, fun _ => rfl⟩

theorem exactReal_arith : RdArith (exactReal gauss strict junk) :=
  C32_real_functions _ _ _ monotone_id monotone_id rfl rfl rfl rfl

theorem golden_p : decay (exactReal gauss strict junk) (-4 / 10) = goldenP := by
  unfold decay goldenP thermal
  show (68 / 10000 : ℝ) * Real.exp _ = 0.0068 * Real.exp _
  congr 2
  · norm_num
  · norm_num

/-- 1 / p is at most 27. -/
theorem goldenP_lower : 1 / 27 ≤ goldenP := by
  unfold goldenP
  have h1 : (17 / 10 : ℝ) ≤ 0.11 * |(-0.4 : ℝ)| / (1.38064852e-23 * 300 / 1.602176634e-19) := by
    rw [abs_of_neg (by norm_num)]
    norm_num
  have h2 := Real.sum_le_exp_of_nonneg (x := 17 / 10) (by norm_num) 9
  simp only [Finset.sum_range_succ, Finset.sum_range_zero, Nat.factorial] at h2
  have h3 := Real.exp_le_exp.2 h1
  norm_num at h2
  nlinarith

theorem goldenP_pos : 0 < goldenP := lt_of_lt_of_le (by norm_num) goldenP_lower

theorem golden_transition {c : Nat} (hc : c < 1423518) :
    transition (exactReal gauss strict junk) (-4 / 10) c = goldenTransition c ∧ 0 < goldenTransition c := by
  have hw : ¬1 ≤ wear (exactReal gauss strict junk) c := fun h => absurd ((real_wear c).1 h) (by omega)
  have e : wear (exactReal gauss strict junk) c = 0.003 * (c : ℝ) ^ (0.41 : ℝ) := by
    show (3 / 1000 : ℝ) * (c : ℝ) ^ (41 / 100 : ℝ) = _
    norm_num
  constructor
  · unfold transition
    rw [if_neg hw, golden_p, e]
    unfold goldenTransition
    show (155 / 10 ^ 10 : ℝ) * (143339 / 10 ^ 5 : ℝ) ^ (1 / goldenP) * _ ^ (1 / goldenP) = _
    norm_num
  · rw [e] at hw
    unfold goldenTransition
    have : 0 < 1 - 0.003 * (c : ℝ) ^ (0.41 : ℝ) := by linarith
    positivity

theorem worn_transition {c : Nat} (hc : 1423518 ≤ c) : transition (exactReal gauss strict junk) (-4 / 10) c = 0 :=
  if_pos ((real_wear c).2 hc)

/-- No transition time exceeds 2600 reads. -/
theorem transition_short (c : Nat) : transition (exactReal gauss strict junk) (-4 / 10) c < 2600 * (100 / 10 ^ 9) := by
  by_cases hc : c < 1423518
  · obtain ⟨h1, h2⟩ := golden_transition (gauss := gauss) (strict := strict) (junk := junk) hc
    rw [h1]
    unfold goldenTransition at h2 ⊢
    have p0 := goldenP_pos
    have hp : 1 / goldenP ≤ 27 := by
      rw [div_le_iff₀ p0]
      have := goldenP_lower
      linarith
    have b1 : (1.43339 : ℝ) ^ (1 / goldenP) ≤ 16700 := by
      refine (Real.rpow_le_rpow_of_exponent_le (by norm_num) hp).trans ?_
      rw [show (27 : ℝ) = ((27 : ℕ) : ℝ) by norm_num, Real.rpow_natCast]
      norm_num
    have n1 : 0 ≤ 0.003 * (c : ℝ) ^ (0.41 : ℝ) := by positivity
    have n0 : 0 ≤ 1 - 0.003 * (c : ℝ) ^ (0.41 : ℝ) := by
      have hw : ¬1 ≤ 3 / 1000 * (c : ℝ) ^ (41 / 100 : ℝ) := fun h => absurd ((real_wear c).1 h) (by omega)
      have e : (3 / 1000 : ℝ) * (c : ℝ) ^ (41 / 100 : ℝ) = 0.003 * (c : ℝ) ^ (0.41 : ℝ) := by norm_num
      rw [e] at hw
      linarith
    have b2 : (1 - 0.003 * (c : ℝ) ^ (0.41 : ℝ)) ^ (1 / goldenP) ≤ 1 :=
      Real.rpow_le_one n0 (by linarith) (by positivity)
    have b3 : 0 ≤ (1 - 0.003 * (c : ℝ) ^ (0.41 : ℝ)) ^ (1 / goldenP) := Real.rpow_nonneg n0 _
    have b4 : (1.43339 : ℝ) ^ (1 / goldenP) * (1 - 0.003 * (c : ℝ) ^ (0.41 : ℝ)) ^ (1 / goldenP) ≤ 16700 * 1 :=
      mul_le_mul b1 b2 b3 (by norm_num)
    rw [mul_assoc]
    norm_num at b4 ⊢
    linarith
  · rw [worn_transition (by omega)]
    norm_num

end

section
variable {gauss : Nat → ℝ} {strict : Bool} {junk : Int} {c : Cfg ℝ} {st : Strategy}

theorem golden_scaling (D : DisturbSet st c) {r n : Nat} (hn : n < 1423518) :
    attenuation (exactReal gauss strict junk) c r n = goldenScaling (r * 1e-7) n := by
  obtain ⟨h1, h2⟩ := golden_transition (gauss := gauss) (strict := strict) (junk := junk) hn
  unfold attenuation goldenScaling
  rw [D.vRead, D.tRead, h1, if_neg (ne_of_gt h2), golden_p]
  have e : (100 / 10 ^ 9 : ℝ) = 1e-7 := by norm_num
  rw [e]
  rfl

theorem worn_scaling (D : DisturbSet st c) {r n : Nat} (hn : 1423518 ≤ n) :
    attenuation (exactReal gauss strict junk) c r n = 0 := by
  unfold attenuation
  rw [D.vRead, D.tRead, worn_transition hn, if_pos rfl, if_neg]
  rw [not_lt]
  positivity

theorem att_nonneg (D : DisturbSet st c) {r n : Nat} : 0 ≤ attenuation (exactReal gauss strict junk) c r n := by
  by_cases hn : n < 1423518
  · rw [golden_scaling D hn]
    have h2 := (golden_transition (gauss := gauss) (strict := strict) (junk := junk) hn).2
    unfold goldenScaling
    split
    · exact zero_le_one
    · positivity
  · rw [worn_scaling D (by omega)]

/-- After 2600 reads a cell has lost current. -/
theorem strained (D : DisturbSet st c) {r n : Nat} (hr : 2600 ≤ r) :
    attenuation (exactReal gauss strict junk) c r n < 1 := by
  by_cases hn : n < 1423518
  · obtain ⟨h1, h2⟩ := golden_transition (gauss := gauss) (strict := strict) (junk := junk) hn
    have h3 := transition_short (gauss := gauss) (strict := strict) (junk := junk) n
    have hr' : (2600 : ℝ) ≤ r := by exact_mod_cast hr
    have h4 : transition (exactReal gauss strict junk) (-4 / 10) n < (r : ℝ) * (100 / 10 ^ 9) := by
      refine h3.trans_le ?_
      gcongr
    unfold attenuation
    rw [D.vRead, D.tRead, if_neg (not_lt.2 h4.le), if_neg (by rw [h1]; exact ne_of_gt h2), golden_p]
    rw [h1] at h4 ⊢
    show _ ^ (-goldenP) < 1
    exact Real.rpow_lt_one_of_one_lt_of_neg ((one_lt_div h2).2 h4) (neg_neg_of_pos goldenP_pos)
  · rw [worn_scaling D (by omega)]
    norm_num

end

/-! ## Converters that are not asked for keep the switch for profiling -/

section
variable {K : Type} [Field K] [LinearOrder K] [IsStrictOrderedRing K] [FloorRing K]
variable {E : Env K} {w w' : World K} {j : Json K}

theorem inf_profile (h : setConfig E (.good j) w = .ok w') (hd : w'.cfg.digitalOnly = false) (ha : w'.cfg.adcType = .inf) :
    w'.cfg.adcProfile = w.cfg.adcProfile := by
  obtain ⟨_, x, _, _, ⟨h4, _⟩ | ⟨j', e, _, h5⟩⟩ := setConfig_inv h
  · cases h4
  cases e
  obtain ⟨s⟩ := applyConfig_inv h5
  have h4 : s.c4.adcProfile = s.c3.adcProfile ∧ s.c4.adcType = s.c3.adcType ∧ s.c4.digitalOnly = s.c3.digitalOnly :=
    ⟨via Cfg.adcProfile (applyBits_frame s.bits) rfl, via Cfg.adcType (applyBits_frame s.bits) rfl,
      via Cfg.digitalOnly (applyBits_frame s.bits) rfl⟩
  have h1 : s.c2.adcProfile = w.cfg.adcProfile := by
    obtain ⟨_, _, _, _, _, _, e1⟩ := applyDims_inv s.dims
    obtain ⟨_, _, _, _, e2⟩ := applyMode_inv s.mode
    rw [e2, e1]
  rw [s.out] at hd ha ⊢
  show s.c4.adcProfile = _
  have hd : s.c4.digitalOnly = false := hd
  have ha : s.c4.adcType = .inf := ha
  rw [h4.1, ← h1]
  rw [h4.2.2] at hd
  rw [h4.2.1] at ha
  have an := s.analog
  split at an
  · next hg =>
    rw [ok_inj] at an
    rw [← an] at hd
    rw [hg] at hd
    cases hd
  · obtain ⟨t⟩ := applyAnalog_inv an
    have a1 := t.adcPart
    have a2 := t.statesPart
    simp only [Cfg.adcPart, Cfg.statesPart, Prod.mk.injEq] at a1 a2
    rw [a1.2.2.2.1]
    rcases applyAdc_inv t.adc with ⟨_, e⟩ | ⟨h', _⟩
    · rw [e]
      exact via Cfg.adcProfile (applyStates_frame t.states) rfl
    · exact absurd (a2.2.2.symm.trans ha) h'

end

/-! ## Refreshes -/

section
variable {gauss : Nat → ℝ} {strict : Bool} {junk : Int} {c : Cfg ℝ} {st : Strategy}
variable {t : List (Step ℝ)} {x : Xbar ℝ} {n : Nat}

theorem DisturbSet.bin (D : DisturbSet st c) : c.mode.isInt = false := by rw [D.mode]; rfl

theorem DisturbSet.ok (D : DisturbSet st c) : CfgOk c := by
  unfold CfgOk
  rw [D.mode]
  exact D.split

theorem DisturbSet.R (D : DisturbSet st c) : c.R = 1 := by
  unfold Cfg.R Cfg.S
  rw [D.M, D.split]
  rfl

theorem DisturbSet.S (D : DisturbSet st c) : c.S = 1 := by
  unfold Cfg.S
  rw [D.split]
  rfl

/-- The cells before a multiplication. -/
theorem cycled_step (D : DisturbSet st c) (ht : Traced (exactReal gauss strict junk) c t x) (hc : Cycled n (calls t))
    {t1 t2 : List (Step ℝ)} {s : Step ℝ} (e : t = t1 ++ s :: t2) (hs : isMvm s.op) :
    s.pre.mapper.core.gd.p.get 0 0 = 0 ∧ s.pre.mapper.core.gd.m.get 0 0 = 1 ∧ Reads c s.op 0 0 := by
  obtain ⟨⟨k, k1, _, k2⟩, res, vec, mat, l, k3⟩ := cycled_before hc (h1 := calls t1) (h2 := calls t2) (o := s.op)
    (by rw [e]; simp [calls]) hs
  subst e
  have h2 := traced_suffix ht
  have g1 := runs_gdP D.ok h2.runs 0 0
  have g2 := runs_gdM D.ok h2.runs 0 0
  rw [rowOf_bin D.bin] at g1 g2
  obtain ⟨c1, c2⟩ := cycled_cells D.mode k2 k1
  refine ⟨g1.trans c1, g2.trans c2, ?_⟩
  rw [k3]
  show 0 < 1 * c.S ∧ 0 < 1
  rw [D.S]
  decide

/-- The plus cell is never refreshed. -/
theorem plus_spared (D : DisturbSet st c) (ht : Traced (exactReal gauss strict junk) c t x) (hc : Cycled n (calls t))
    {s : Step ℝ} (hs : s ∈ t) : ¬RefreshP (exactReal gauss strict junk) c s 0 0 := by
  rintro ⟨rd, _, h⟩
  obtain ⟨t1, t2, e, _⟩ := traced_split ht hs
  have := (cycled_step D ht hc e h.2.1).1
  rw [h.2.2.1] at this
  cases this

theorem times_none {P : Step ℝ → Prop} {t : List (Step ℝ)} (h : ∀ s ∈ t, ¬P s) : times P t = 0 := by
  induction t with
  | nil => rfl
  | cons s t ih =>
    simp only [times, ih fun s hs => h s (List.mem_cons_of_mem _ hs), if_neg (h s List.mem_cons_self)]

theorem reads_none {P : Step ℝ → Prop} {t : List (Step ℝ)} (h : ∀ s ∈ t, ¬P s)
    (hr : ∀ t1 s t2, t = t1 ++ s :: t2 → isMvm s.op → Reads c s.op 0 0) :
    readsSince c P 0 0 t = mvmsSinceWrite (calls t) := by
  induction t with
  | nil => rfl
  | cons s t ih =>
    have ih := ih (fun s hs => h s (List.mem_cons_of_mem _ hs)) fun t1 s' t2 e => hr (s :: t1) s' t2 (by rw [e]; rfl)
    have h0 := h s List.mem_cons_self
    have h1 := hr [] s t rfl
    show readsSince c P 0 0 (s :: t) = mvmsSinceWrite (s.op :: calls t)
    unfold readsSince
    cases ho : s.op with
    | write => rfl
    | mvm =>
      rw [ho] at h1
      simp only [mvmsSinceWrite, if_neg h0, if_pos (h1 trivial), ih]

/-- Cycle counters of the two cells. -/
theorem cycled_counters (D : DisturbSet st c) (ht : Traced (exactReal gauss strict junk) c t x) (hc : Cycled n (calls t))
    {rd : Rd ℝ} (hx : x.rd = some rd) :
    rd.cycP.get 0 0 = n ∧ rd.cycM.get 0 0 = n - 1 + x.refC ∧
      x.refC = times (fun s => c.mode.isDiff = true ∧ RefreshM (exactReal gauss strict junk) c s 0 0) t := by
  have r0 : 0 < c.R := by rw [D.R]; decide
  have n0 : 0 < c.N := by rw [D.N]; decide
  obtain ⟨a, b⟩ := traced_cycles D.ok D.rd ht hx r0 n0
  obtain ⟨_, e⟩ := traced_wear D.ok D.rd ht hx
  obtain ⟨s1, s2⟩ := cycled_switched D.mode hc
  have z := times_none fun s hs => plus_spared D ht hc hs
  have e : x.refC = times (fun s => c.mode.isDiff = true ∧ RefreshM (exactReal gauss strict junk) c s 0 0) t := by
    rw [e]
    unfold allRefreshes overCells
    rw [D.R, D.N]
    simp [z]
  rw [rowOf_bin D.bin] at a b
  dsimp only at a b
  rw [z, s1] at a
  rw [s2, ← e] at b
  exact ⟨a, b, e⟩

open Classical in
/-- With tolerance 0 the minus cell is refreshed before 2600 reads. -/
theorem cell_refreshed (D : DisturbSet .cellBased c) (ht : Traced (exactReal gauss strict junk) c t x)
    (hc : Cycled n (calls t)) :
    readsSince c (fun s => RefreshM (exactReal gauss strict junk) c s 0 0) 0 0 t < 2600 ∧
    mvmsSinceWrite (calls t) ≤ 2600 * times (fun s => RefreshM (exactReal gauss strict junk) c s 0 0) t +
      readsSince c (fun s => RefreshM (exactReal gauss strict junk) c s 0 0) 0 0 t := by
  have hr : ∀ t1 s t2, t = t1 ++ s :: t2 → isMvm s.op → s.pre.mapper.core.gd.m.get 0 0 = 1 ∧ Reads c s.op 0 0 :=
    fun t1 s t2 e hs => (cycled_step D ht hc e hs).2
  clear hc
  induction ht with
  | init => exact ⟨by show 0 < 2600; decide, Nat.zero_le _⟩
  | write _ _ ih => exact ⟨by show 0 < 2600; decide, Nat.zero_le _⟩
  | @mvm t x x' res vec mat out m k l ht h' ih =>
    obtain ⟨i1, i2⟩ := ih fun t1 s' t2 e => hr (_ :: t1) s' t2 (by rw [e]; rfl)
    obtain ⟨g1, g2⟩ := hr [] _ t rfl trivial
    dsimp only at g1 g2
    set P : Step ℝ → Prop := fun s => RefreshM (exactReal gauss strict junk) c s 0 0 with hP
    set s : Step ℝ := ⟨.mvm res vec mat m k l, x, x'⟩ with hs
    have e1 : mvmsSinceWrite (calls (s :: t)) = mvmsSinceWrite (calls t) + 1 := rfl
    have e2 : readsSince c P 0 0 (s :: t) = if P s then 0 else readsSince c P 0 0 t + 1 := by
      show (if P s then 0 else readsSince c P 0 0 t + if Reads c (.mvm res vec mat m k l) 0 0 then 1 else 0) = _
      rw [if_pos g2]
    rw [e1, e2]
    show _ ∧ _ ≤ 2600 * (times P t + if P s then 1 else 0) + _
    by_cases hp : P s
    · rw [if_pos hp, if_pos hp]
      omega
    · rw [if_neg hp, if_neg hp]
      refine ⟨?_, by omega⟩
      by_contra hlt
      apply hp
      obtain ⟨rd, hx, _⟩ := (runs_shape ht.runs).rd D.rd
      have hrd := (traced_reads D.rd D.analog D.strategy ht hx (r := 0) (k := 0) (by rw [D.R]; decide)
        (by rw [D.N]; decide)).2 (by rw [D.mode]; rfl)
      refine ⟨rd, hx, D.analog, trivial, g1, ?_⟩
      rw [D.strategy]
      refine ⟨?_, rd, _, hx, (C32_factor_formula exactReal_exact D.rd ht.runs hx _ _).2 ?_, ?_⟩
      · unfold updateDue
        rw [D.freq, Nat.mod_one]
      · rintro ⟨_, h0⟩
        rw [if_pos g2, D.tRead] at h0
        push_cast at h0
        have : (0 : ℝ) ≤ rd.rdM.get 0 0 := Nat.cast_nonneg _
        rcases mul_eq_zero.1 h0 with h0 | h0
        · linarith
        · norm_num at h0
      · rw [if_pos g2, hrd]
        have := strained (gauss := gauss) (strict := strict) (junk := junk) D (r := readsSince c P 0 0 t + 1)
          (n := rd.cycM.get 0 0) (by omega)
        left
        rw [D.tol rfl, D.lrs]
        show (30 : ℝ) * _ < (1 - 0) * 30
        linarith

end

end Acs
