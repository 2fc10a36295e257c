import Verif.Lemmas.FlAdc
import Verif.Lemmas.FlIeee

/-! # A real converter in binary32 -/

set_option linter.unusedSectionVars false

namespace Acs

open Finset Spec

theorem readout_count {md : Mode} {vec : Vec Int} {n : Nat} : ∀ c ∈ readout md vec n, c.2 ≤ 2 * n := by
  have h1 : ∀ v, count vec n v ≤ n := fun v => by
    have : count vec n v ≤ ∑ _j ∈ range n, (1 : Int) := sum_le_sum fun j _ => by split <;> norm_num
    simpa using this
  have h2 : count vec n 1 + count vec n (-1) ≤ n := by
    unfold count
    rw [← sum_add_distrib]
    have : ∑ j ∈ range n, ((if vec.get j = 1 then 1 else 0) + if vec.get j = -1 then 1 else 0) ≤ ∑ _j ∈ range n, (1 : Int) :=
      sum_le_sum fun j _ => by split <;> split <;> first | omega | norm_num
    simpa using this
  have k0 := h1 0
  have k1 := h1 1
  have k2 := h1 (-1)
  unfold readout
  cases md <;>
    simp only [List.forall_mem_cons, List.not_mem_nil, false_implies, implies_true, and_true] <;> omega

variable {E : Env ℚ} {cfg : Cfg ℚ} {vec res : Vec Int} {m n w : Nat} {l : String} {lo hi ρ μ : ℚ} {W : Nat → Nat → Int}
variable {rg : String → ℚ × ℚ} {x : Xbar ℚ} {h : List Op}

theorem adcRound32 (hd : 2 ^ (-80 : ℤ) ≤ |cfg.lrs - cfg.hrs|) (hS : SingleAdc cfg lo hi μ) :
    adcRound cfg lo hi prec32 ≤ 2 ^ (-24 : ℤ) * (4001 / 1000 * max |lo| |hi| + 1 / 1000 * 2 ^ (-80 : ℤ)) := by
  have hR : 0 ≤ max |lo| |hi| := (abs_nonneg _).trans (le_max_left _ _)
  have hN : (cfg.N : ℚ) ≤ 2 ^ 24 := by exact_mod_cast hS.cells
  unfold adcRound prec32
  generalize max |lo| |hi| = R at hR ⊢
  generalize (cfg.N : ℚ) = N at hN ⊢
  norm_num at hN ⊢
  linarith

theorem single_small (hd : 2 ^ (-80 : ℤ) ≤ |cfg.lrs - cfg.hrs|) (hA : AdcOk cfg l lo hi) (hS : SingleAdc cfg lo hi μ) :
    SmallConversion cfg lo hi prec32 where
  prec := by norm_num [prec32]
  tiny := by norm_num [prec32]
  res := hS.res
  cells := hS.cells
  range := by
    have h1 := adcRound32 hd hS
    have h2 := hS.near
    have h3 := hS.coarse
    have h4 : adcStep cfg lo hi ≤ hi - lo := by
      have hl := adcOk_levels hA
      refine div_le_self (sub_nonneg.2 hA.lt.le) ?_
      exact_mod_cast (by omega : 1 ≤ adcLevels cfg - 1)
    generalize max |lo| |hi| = R at h1 h2
    norm_num at h1 h2 h3 ⊢
    linarith
  step := by
    have h3 := hS.coarse
    have : 2 * prec32.η < 2 ^ (-80 : ℤ) := by norm_num [prec32]
    linarith

section
variable (hd : 2 ^ (-80 : ℤ) ≤ |cfg.lrs - cfg.hrs|) (hρ : max |cfg.hrs| |cfg.lrs| ≤ ρ * |cfg.lrs - cfg.hrs|)
variable (hS : SingleAdc cfg lo hi μ)
include hd hρ hS

theorem mu_nonneg : 0 ≤ μ := by
  have hR : 0 ≤ max |lo| |hi| := (abs_nonneg _).trans (le_max_left _ _)
  have hp : 0 < |cfg.lrs - cfg.hrs| := lt_of_lt_of_le (by positivity) hd
  exact nonneg_of_mul_nonneg_left (hR.trans hS.range) hp

theorem single_size (hs : (9 * (n : ℚ) ^ 2 + 240 * n + 30) * ρ + 100 * μ + 4 ≤ 2 ^ 22) :
    3 * n < 2 ^ 24 ∧ columnError cfg (eps32 cfg) prec32 n ≤ topCurrent cfg (eps32 cfg) := by
  have hn0 : (0 : ℚ) ≤ n := Nat.cast_nonneg n
  have hr := ratio_half hd hρ
  have hμ := mu_nonneg hd hρ hS
  have d0 := mul_le_mul_of_nonneg_left hr (by positivity : (0 : ℚ) ≤ 9 * (n : ℚ) ^ 2 + 240 * n + 30)
  have hT := (by positivity : (0 : ℚ) ≤ 2 ^ (-81 : ℤ)).trans (top_big hd)
  have hn2 : (0 : ℚ) ≤ n ^ 2 := by positivity
  constructor
  · have : (3 * n : ℚ) < 2 ^ 24 := by
      norm_num at hs ⊢
      linarith
    exact_mod_cast this
  · have h1 := columnError32 (n := n) hd
    have h2 : max |cfg.hrs| |cfg.lrs| ≤ topCurrent cfg (eps32 cfg) := by
      unfold topCurrent eps32
      have : 0 ≤ max |cfg.hrs| |cfg.lrs| * 2 ^ (-19 : ℤ) := by positivity
      linarith
    have h3 : (41 / 10 * (n : ℚ) ^ 2 + 521 / 10 * n + 123 / 10) * 2 ^ (-24 : ℤ) ≤ 1 := by
      norm_num at hs ⊢
      linarith
    have h4 := mul_le_mul_of_nonneg_right h3 hT
    linarith

theorem single_dev (hA : AdcOk cfg l lo hi) (hs : (9 * (n : ℚ) ^ 2 + 240 * n + 30) * ρ + 100 * μ + 4 ≤ 2 ^ 22)
    (c : Int × Int) (hc : c ∈ readout cfg.mode vec n) :
    roundDeviation cfg lo hi (eps32 cfg) prec32 n c ≤ singleError cfg lo hi ρ μ n := by
  have hn0 : (0 : ℚ) ≤ n := Nat.cast_nonneg n
  have hr := ratio_half hd hρ
  have hμ := mu_nonneg hd hρ hS
  have hT := (by positivity : (0 : ℚ) ≤ 2 ^ (-81 : ℤ)).trans (top_big hd)
  have hn2 : (0 : ℚ) ≤ n ^ 2 := by positivity
  have hp : 0 < |cfg.lrs - cfg.hrs| := lt_of_lt_of_le (by positivity) hd
  have hR : 0 ≤ max |lo| |hi| := (abs_nonneg _).trans (le_max_left _ _)
  obtain ⟨hs1, hc0⟩ := readout_scale c hc
  have hc2 : (c.2 : ℚ) ≤ 2 * n := by exact_mod_cast readout_count c hc
  have hst := (adcOk_step_pos hA).le
  -- deviation of the column
  have k1 : c.2 * eps32 cfg + columnError cfg (eps32 cfg) prec32 n
      ≤ 2 ^ (-24 : ℤ) * (41 / 10 * n ^ 2 + 1161 / 10 * n + 123 / 10) * (ρ * |cfg.lrs - cfg.hrs|) := by
    have h1 := columnError32 (n := n) hd
    have h2 := mul_le_mul_of_nonneg_right hc2 (by unfold eps32; positivity : 0 ≤ eps32 cfg)
    have h3 := mul_le_mul_of_nonneg_left hρ
      (by positivity : (0 : ℚ) ≤ 2 ^ (-24 : ℤ) * (41 / 10 * n ^ 2 + 1161 / 10 * n + 123 / 10))
    have e : 2 * (n : ℚ) * eps32 cfg = 2 ^ (-24 : ℤ) * (64 * n) * max |cfg.hrs| |cfg.lrs| := by
      unfold eps32
      norm_num
      ring
    rw [e] at h2
    clear e
    generalize (2 : ℚ) ^ (-24 : ℤ) = u at h1 h2 h3 ⊢
    linarith
  have hce : 0 ≤ c.2 * eps32 cfg + columnError cfg (eps32 cfg) prec32 n := by
    have : (0 : ℚ) ≤ c.2 := by exact_mod_cast hc0
    unfold columnError cellRound colRound topCurrent eps32 prec32
    positivity
  have k2 := adcRound32 hd hS
  have k3 := hS.range
  have hκ : 0 ≤ adcRound cfg lo hi prec32 := by unfold adcRound prec32; positivity
  have k5 : |(c.1 : ℚ) / (cfg.lrs - cfg.hrs)| ≤ 2 / |cfg.lrs - cfg.hrs| := by
    rw [abs_div]
    refine div_le_div_of_nonneg_right ?_ hp.le
    rcases hs1 with e | e <;> rw [e] <;> norm_num
  unfold roundDeviation singleError
  generalize c.2 * eps32 cfg + columnError cfg (eps32 cfg) prec32 n = X at k1 hce ⊢
  generalize adcRound cfg lo hi prec32 = κ at k2 hκ ⊢
  generalize max |lo| |hi| = R at hR k2 k3 ⊢
  generalize adcStep cfg lo hi = st at hst ⊢
  generalize |cfg.lrs - cfg.hrs| = D at *
  have b1 : (1 + prec32.θ) * ((1 + prec32.u) * X + st / 2 + 7 * κ) + (prec32.θ + 5 * prec32.u) * R
      ≤ D * (2 ^ (-24 : ℤ) * ((42 / 10 * n ^ 2 + 118 * n + 13) * ρ + 42 * μ + 1)) + 101 / 200 * st := by
    have hu : prec32.u = 2 ^ (-24 : ℤ) := rfl
    have hθ : prec32.θ = 2 ^ (-21 : ℤ) := rfl
    rw [hu, hθ]
    have p1 : 0 ≤ (n : ℚ) ^ 2 * (ρ * D) := by positivity
    have p2 : 0 ≤ (n : ℚ) * (ρ * D) := by positivity
    have p3 : 0 ≤ ρ * D := by positivity
    have p4 : 0 ≤ μ * D := by positivity
    norm_num at k1 k2 hd ⊢
    nlinarith
  have b2 : 0 ≤ (1 + prec32.θ) * ((1 + prec32.u) * X + st / 2 + 7 * κ) + (prec32.θ + 5 * prec32.u) * R := by
    unfold prec32
    positivity
  have b3 := mul_le_mul k5 b1 b2 (by positivity)
  have e : 2 / D * (D * (2 ^ (-24 : ℤ) * ((42 / 10 * (n : ℚ) ^ 2 + 118 * n + 13) * ρ + 42 * μ + 1)) + 101 / 200 * st)
      = 2 * (2 ^ (-24 : ℤ) * ((42 / 10 * (n : ℚ) ^ 2 + 118 * n + 13) * ρ + 42 * μ + 1)) + 101 / 100 * (st / D) := by
    field_simp
    ring
  rw [e] at b3
  have hη : prec32.η ≤ 2 ^ (-24 : ℤ) := by norm_num [prec32]
  refine (add_le_add b3 hη).trans ?_
  have p1 : 0 ≤ (n : ℚ) ^ 2 * ρ := by positivity
  have p2 : 0 ≤ (n : ℚ) * ρ := by positivity
  norm_num at hs ⊢
  linarith

theorem single_absorbed (hi' : integral cfg.mode ∨ ((cfg.mode = .bnn3 ∨ cfg.mode = .bnn4) ∧
      Steady (shared cfg vec n) (singleError cfg lo hi ρ μ n))) (hA : AdcOk cfg l lo hi)
    (hs : (9 * (n : ℚ) ^ 2 + 240 * n + 30) * ρ + 100 * μ + 4 ≤ 2 ^ 22) :
    RoundAbsorbed cfg lo hi (eps32 cfg) prec32 vec n := by
  have key := single_dev (vec := vec) hd hρ hS hA hs
  refine hi'.imp (fun h => ⟨h, fun c hc => (key c hc).trans_lt ?_⟩)
    fun h => ⟨h.1, fun c hc k => (key c hc).trans_lt (h.2 k)⟩
  have hp : 0 < |cfg.lrs - cfg.hrs| := lt_of_lt_of_le (by positivity) hd
  have k4 : adcStep cfg lo hi / |cfg.lrs - cfg.hrs| ≤ 1 / 5 := by
    rw [div_le_iff₀ hp]
    linarith [hS.fine]
  unfold singleError
  norm_num at hs ⊢
  linarith

theorem single_room (hs : (9 * (n : ℚ) ^ 2 + 240 * n + 30) * ρ + 100 * μ + 4 ≤ 2 ^ 22)
    (hbuf : ∀ i, i < m → |res.get i| ≤ 2 ^ 20) : ∀ i, i < m → ((|res.get i| + 3 * n : Int) : ℚ) +
      ((readout cfg.mode vec n).map fun c => 6 * (|(c.1 : ℚ) / (cfg.lrs - cfg.hrs)| * max |lo| |hi|) + 1).sum ≤ 2 ^ 24 := by
  intro i hi'
  have hn0 : (0 : ℚ) ≤ n := Nat.cast_nonneg n
  have hr := ratio_half hd hρ
  have hμ := mu_nonneg hd hρ hS
  have hp : 0 < |cfg.lrs - cfg.hrs| := lt_of_lt_of_le (by positivity) hd
  have hR : 0 ≤ max |lo| |hi| := (abs_nonneg _).trans (le_max_left _ _)
  have hb : ((|res.get i| : Int) : ℚ) ≤ 2 ^ 20 := by exact_mod_cast hbuf i hi'
  have d0 := mul_le_mul_of_nonneg_left hr (by positivity : (0 : ℚ) ≤ 9 * (n : ℚ) ^ 2 + 240 * n + 30)
  have hn2 : (0 : ℚ) ≤ n ^ 2 := by positivity
  have one : ∀ c ∈ readout cfg.mode vec n, 6 * (|(c.1 : ℚ) / (cfg.lrs - cfg.hrs)| * max |lo| |hi|) + 1 ≤ 12 * μ + 1 :=
    fun c hc => by
      have k5 : |(c.1 : ℚ) / (cfg.lrs - cfg.hrs)| ≤ 2 / |cfg.lrs - cfg.hrs| := by
        rw [abs_div]
        refine div_le_div_of_nonneg_right ?_ hp.le
        rcases (readout_scale c hc).1 with e | e <;> rw [e] <;> norm_num
      have := mul_le_mul k5 hS.range hR (by positivity)
      have e : 2 / |cfg.lrs - cfg.hrs| * (μ * |cfg.lrs - cfg.hrs|) = 2 * μ := by field_simp
      linarith
  have len : (readout cfg.mode vec n).length ≤ 4 := by
    unfold readout
    cases cfg.mode <;> simp
  have tot : ((readout cfg.mode vec n).map fun c => 6 * (|(c.1 : ℚ) / (cfg.lrs - cfg.hrs)| * max |lo| |hi|) + 1).sum
      ≤ 4 * (12 * μ + 1) := by
    have h3 := List.sum_le_card_nsmul _ (12 * μ + 1) fun y hy => by
      obtain ⟨c, hc, rfl⟩ := List.mem_map.1 hy
      exact one c hc
    rw [List.length_map, nsmul_eq_mul] at h3
    have h4 : ((readout cfg.mode vec n).length : ℚ) ≤ 4 := by exact_mod_cast len
    exact h3.trans (mul_le_mul_of_nonneg_right h4 (by positivity))
  push_cast at hb ⊢
  generalize ((readout cfg.mode vec n).map fun c => 6 * (|(c.1 : ℚ) / (cfg.lrs - cfg.hrs)| * max |lo| |hi|) + 1).sum = s
    at tot ⊢
  norm_num at hs hb ⊢
  linarith

theorem single_converts (hC : SingleMvm cfg lo hi ρ μ W res vec m n) :
    RoundConverts cfg lo hi (eps32 cfg) prec32 W res vec m n := by
  obtain ⟨h1, h2⟩ := single_size hd hρ hS hC.size
  exact ⟨h1, h2, hC.range, single_room hd hρ hS hC.size hC.buf⟩

end

theorem everyMvm_imp {P P' : List Op → Vec Int → Vec Int → Nat → Nat → String → Prop} {ops : List Op}
    (hP : ∀ h res vec m n l, P h res vec m n l → P' h res vec m n l) (ha : EveryMvm P h ops) : EveryMvm P' h ops := by
  induction ops generalizing h with
  | nil => trivial
  | cons op ops ih =>
    cases op with
    | write => exact ih ha
    | mvm => exact ⟨hP _ _ _ _ _ _ ha.1, ih ha.2⟩

/-- Single precision without variation and with a fine enough converter. -/
theorem exec_single_adc (hE : Ieee E) (hok : CfgOk cfg) (hI : Binary cfg)
    (hrd : cfg.readDisturb = false) (hq1 : cfg.hrsNoise ≤ 0) (hq2 : cfg.lrsNoise ≤ 0)
    (h1 : 0 ≤ cfg.hrs) (h2 : 0 ≤ cfg.lrs) (hd : 2 ^ (-80 : ℤ) ≤ |cfg.lrs - cfg.hrs|)
    (hd' : |cfg.lrs - cfg.hrs| ≤ 2 ^ (80 : ℤ)) (hρ : max cfg.hrs cfg.lrs ≤ ρ * |cfg.lrs - cfg.hrs|)
    {ops : List Op} (hr : Runs E cfg h x) (hh : HistOk cfg w h)
    (hl : LegalOps cfg w h ops) (hC : AllSingle cfg rg ρ μ h ops) (hin : SingleAbsorbs cfg rg ρ μ h ops) :
    ∃ x' rs, exec E cfg x ops = .ok (x', rs) ∧ Answers h ops rs := by
  have hρ' : max |cfg.hrs| |cfg.lrs| ≤ ρ * |cfg.lrs - cfg.hrs| := by rwa [abs_of_nonneg h1, abs_of_nonneg h2]
  have hT := (by positivity : (0 : ℚ) ≤ 2 ^ (-81 : ℤ)).trans (top_big hd)
  obtain ⟨x', rs, h3, h4⟩ := exec_roundConverted (q := prec32) (ε := eps32 cfg) (σ := 0) (rg := rg) (ieee_rounds hE)
    (ieee_scale hE hd hd') hok hI hrd h1 h2
    ⟨le_rfl, fun h => by rcases h with h | h <;> linarith⟩
    (by
      have e : spread cfg (0 : ℚ) = 0 := by unfold spread; split <;> norm_num
      rw [e, zero_add]
      exact eps32_ok hd)
    (by unfold eps32; positivity) hr hh hl
    (everyMvm_imp (fun _ _ _ _ _ _ k => ⟨k.1, single_small hd k.1 k.2.1, single_converts hd hρ' k.2.1 k.2.2⟩) hC)
  exact ⟨x', rs, h3, answersBy_roundAbsorbed h4
    (hin.elim
      (fun hin => everyMvm_imp (fun _ _ _ _ _ _ k => single_absorbed hd hρ' k.2.1 (.inl hin) k.1 k.2.2.size) hC)
      fun hin => everyMvm_imp (fun _ _ _ _ _ _ k => single_absorbed hd hρ' k.1.2.1 (.inr ⟨hin.1, k.2⟩) k.1.1 k.1.2.2.size)
        (EveryMvm.and hC hin.2))⟩

end Acs
