import Verif.Lemmas.RdTest
import Verif.Lemmas.GetInv
import Verif.Props.Counters
import Verif.Props.Oob
import Verif.Props.Load
import Verif.Props.DisturbError
import Verif.Props.DisturbTotal

/-! # The claims of the read disturb tests, for all numbers of cycles and reads (C90) -/

set_option linter.unusedSectionVars false

namespace Acs.Props

open Finset Spec

section
variable {gauss : Nat → ℝ} {strict : Bool} {junk : Int} {w w' : World ℝ} {ops : List Op} {N : Nat} {st : Strategy}

/-! ## The files -/

/-- C90.  The three files are accepted after any configuration whose resolution is at most 30. -/
theorem C90_accepted (hr : Releasable w) (hres : w.cfg.resolution ≤ 30) :
    ∃ w', setConfig (exactReal gauss strict junk) (.good (disturbFile st)) w = .ok w' :=
  C81_set_config.2 ⟨hr, _, disturb_fromDoc exactReal_exact, disturb_admissible, (fun _ h => absurd rfl h),
    disturb_buildable hres ((C81_decay exactReal_exact _).2 (by rw [golden_p]; exact ne_of_gt goldenP_pos))⟩

theorem disturb_set (h : setConfig (exactReal gauss strict junk) (.good (disturbFile st)) w = .ok w') :
    DisturbSet st w'.cfg := by
  have F := C76_loaded h
  refine disturbed exactReal_exact F (fresh_ok (.load h) fun hf => ?_).1
  have := mode_name (Json.str.inj (Gives.eq F.mode (v := .str Mode.bnn1.name) (by cases st <;> rfl))).symm
  rw [this] at hf
  cases hf

theorem imperfect (D : DisturbSet st w'.cfg) (hp : w'.cfg.adcProfile = false) : Imperfect w'.cfg :=
  ⟨D.analog, D.bin, D.par, hp, D.adc, by rw [D.hrs, D.lrs]; norm_num⟩

theorem disturbOk (D : DisturbSet st w'.cfg) : DisturbOk w'.cfg where
  freq := by rw [D.freq]; decide
  time := by rw [D.tRead]; norm_num
  count := fun _ => by
    unfold cellCount
    rw [D.R, D.N]
    split <;> decide

theorem quiet (D : DisturbSet st w'.cfg) : Quiet w'.cfg := fun _ => ⟨D.hrsNoise.le, D.lrsNoise.le⟩

/-- Answers with an error below one are exact. -/
theorem answers_exact {e : Nat → ℝ} {h : List Op} {rs : List (Vec Int)} (he : ∀ n, e n ≤ 1)
    (ha : AnswersWithin e h ops rs) : Answers h ops rs := by
  induction ha with
  | nil => exact .nil
  | write _ ih => exact .write ih
  | @mvm h ops rs res vec mat r m n l a _ ih =>
    refine .mvm ⟨a.size, fun i hi => ?_, a.tail⟩ ih
    have h1 := (a.head i hi).trans_le (he _)
    have h2 : |r.get i - (res.get i + prod (stored h) vec n i)| < (1 : Int) := by exact_mod_cast h1
    rw [Int.abs_lt_one_iff] at h2
    omega

/-- All calls of a test return. -/
theorem disturb_runs (h : setConfig (exactReal gauss strict junk) (.good (disturbFile st)) w = .ok w')
    (hp : w.cfg.adcProfile = false) (hc : Cycled N ops.reverse) :
    ∃ x rs, serve (exactReal gauss strict junk) w' ops = .ok ({ w' with xbar := some x }, rs, ops.map fun _ => 0) ∧
      Runs (exactReal gauss strict junk) w'.cfg ops.reverse x ∧ (st ≠ .off → Answers [] ops rs) := by
  have D := disturb_set h
  have hI := imperfect D ((inf_profile h D.analog D.adc).trans hp)
  obtain ⟨x, hx, hr⟩ := settled_runs (.load h)
  obtain ⟨_, x1, hx1, hm, _⟩ := setConfig_inv h
  rw [hx, Option.some.injEq] at hx1
  subst hx1
  have h1 : (0 : ℝ) ≤ w'.cfg.hrs := by rw [D.hrs]; norm_num
  have h2 : (0 : ℝ) ≤ w'.cfg.lrs := by rw [D.lrs]; norm_num
  have hl := cycled_legal D hc
  rw [List.reverse_reverse] at hl
  have room : ∀ {ε : ℝ}, ε ≤ 30 → NoiseRooms w'.cfg ε ops := fun hε => by
    have := cycled_rooms D hε hc
    rwa [List.reverse_reverse] at this
  have small : ∀ n, noiseBound w'.cfg 0 n ≤ 1 := fun n => by
    unfold noiseBound
    rw [D.mode]
    simp [truncations]
  have fin : ∀ {x' : Xbar ℝ} {rs : List (Vec Int)}, exec (exactReal gauss strict junk) w'.cfg x ops = .ok (x', rs) →
      serve (exactReal gauss strict junk) w' ops = .ok ({ w' with xbar := some x' }, rs, ops.map fun _ => 0) ∧
      Runs (exactReal gauss strict junk) w'.cfg ops.reverse x' := fun he =>
    ⟨serve_ok hx (dimsFit hl (legal_heights (by rw [D.M]; decide) hl)) he, by
      have := exec_history hr he
      rwa [List.append_nil] at this⟩
  cases st with
  | off =>
    obtain ⟨x', rs, he, _⟩ := C74_unmitigated (ε := 30) exactReal_arith exactReal_exact D.ok hI D.c2c D.rd (disturbOk D)
      D.strategy h1 h2 (by norm_num) (.inl (quiet D)) (ops := ops) (by
        have := att_nonneg (gauss := gauss) (strict := strict) (junk := junk) D (r := mvmsIn ops) (n := writesIn ops)
        rw [D.lrs]
        linarith) hm hl (room (le_refl _))
    exact ⟨x', rs, (fin he).1, (fin he).2, fun h => absurd rfl h⟩
  | software =>
    obtain ⟨x', rs, he, ha⟩ := C74_software (ε := 0) exactReal_arith exactReal_exact D.ok hI D.c2c D.rd (disturbOk D)
      D.strategy (D.fp rfl).ge h1 h2 (le_refl _) (.inl (quiet D)) (by
        rw [D.fp rfl, exactReal_arith.pow_one]
        simp) hm hl (room (by norm_num))
    exact ⟨x', rs, (fin he).1, (fin he).2, fun _ => answers_exact small ha⟩
  | cellBased =>
    have sp := cycled_spared (c := w'.cfg) (E := exactReal gauss strict junk) hc
    rw [List.reverse_reverse] at sp
    obtain ⟨x', rs, he, ha⟩ := C74_cell_based (ε := 0) exactReal_arith exactReal_exact D.ok hI D.c2c D.rd (disturbOk D)
      D.strategy h1 h2 (le_refl _) (.inl (quiet D)) (by rw [D.tol rfl]; simp) hm hl (room (by norm_num)) sp
    exact ⟨x', rs, (fin he).1, (fin he).2, fun _ => answers_exact small ha⟩

/-- The counters and the cells as the interface shows them. -/
theorem shown {x : Xbar ℝ} {h : List Op} (D : DisturbSet st w'.cfg) (hr : Runs (exactReal gauss strict junk) w'.cfg h x)
    (hx : w.xbar = some x) (hc : Cycled N h) :
    getter Xbar.getWrites w = .ok (2 * N) ∧ getter Xbar.getMvms w = .ok (mvmsIn h) ∧
    (∀ fr, Cell (getCycPPb fr w) N ∧ Cell (getCycMPb fr w) (N - 1 + x.refC)) ∧
    (∀ fr, Cell (getIaPPb fr w) (x.mapper.core.ia.p.get 0 0) ∧ Cell (getIaMPb fr w) (x.mapper.core.ia.m.get 0 0)) ∧
    ∃ rd, x.rd = some rd ∧ ∀ fr, Cell (getReadsPPb fr w) (rd.rdP.get 0 0) ∧ Cell (getReadsMPb fr w) (rd.rdM.get 0 0) := by
  obtain ⟨t, rfl, ht⟩ := runs_traced hr
  obtain ⟨c1, c2⟩ := C30_counts hr
  have hs := runs_shape hr
  obtain ⟨rd, hrd, hsh⟩ := hs.rd D.rd
  obtain ⟨k1, k2, _⟩ := cycled_counters D ht hc hrd
  have cell : ∀ {α : Type} {f : Xbar ℝ → C (Mat α)} {A : Mat α} (fr : Nat → Nat → α), f x = .ok A →
      A.Is w'.cfg.R w'.cfg.N → Cell (getPb fr _root_.id f w) (A.get 0 0) := by
    intro α f A fr hf hA
    rw [D.R, D.N] at hA
    obtain ⟨B, b1, b2, b3, b4⟩ := getPb_ok fr _root_.id hx hf hA
    exact ⟨B, b1, b2, b3 (by decide), b4 0 0 (by decide) (by decide)⟩
  have rdc : ∀ {α : Type} (f : Rd ℝ → α), Xbar.withRd f x = .ok (f rd) := fun f => by
    unfold Xbar.withRd
    rw [hrd]
  have get : ∀ {α : Type} (f : Xbar ℝ → C α), getter f w = f x := fun f => by
    unfold getter
    rw [hx]
  refine ⟨?_, ?_, fun fr => ⟨?_, ?_⟩, fun fr => ⟨cell fr rfl hs.core.ia.p, cell fr rfl hs.core.ia.m⟩, rd, hrd,
    fun fr => ⟨cell fr (rdc _) hsh.rdP, cell fr (rdc _) hsh.rdM⟩⟩
  · rw [get, Xbar.getWrites, c1, cycled_writes hc]
  · rw [get, Xbar.getMvms, c2]
  · rw [← k1]
    exact cell fr (rdc _) hsh.cycP
  · rw [← k2]
    exact cell fr (rdc _) hsh.cycM

theorem programmed_value {c : Cfg ℝ} {g : Int} {y : ℝ} (D : DisturbSet st c)
    (h : Programmed (exactReal gauss strict junk) c g y) : y = 5 + g * 25 := by
  obtain ⟨_, h⟩ := h
  unfold Varied at h
  rw [if_pos (by unfold noiseOf; split; exacts [D.hrsNoise.le, D.lrsNoise.le]), D.hrs, D.lrs] at h
  rw [h]
  norm_num

theorem plus_current {x : Xbar ℝ} {h : List Op} {c : Cfg ℝ} (D : DisturbSet st c)
    (hr : Runs (exactReal gauss strict junk) c h x) (hc : Cycled N h) (hN : 0 < N) : x.mapper.core.ia.p.get 0 0 = 5 := by
  rcases (C33_hrs_cells exactReal_exact D.ok D.bin D.analog D.rd hr (r := 0) (k := 0) (by rw [D.R]; decide)
    (by rw [D.N]; decide)).1 0 (cycled_cells D.mode hc hN).1 rfl with h | h
  · rw [programmed_value D h]
    norm_num
  · rw [cycled_written hc hN] at h
    cases h.1

theorem minus_state {x : Xbar ℝ} {h : List Op} {c : Cfg ℝ} (D : DisturbSet st c)
    (hr : Runs (exactReal gauss strict junk) c h x) (hc : Cycled N h) (hN : 0 < N) :
    x.mapper.core.gd.m.get 0 0 = 1 := by
  have := runs_gdM D.ok hr 0 0
  rw [rowOf_bin D.bin] at this
  exact this.trans (cycled_cells D.mode hc hN).2

theorem cycled_block {h : List Op} (hc : Cycled N h) (hN : 0 < N) : lastBlock h = (1, 1) := by
  induction hc with
  | nil => cases hN
  | round => rfl
  | mvm _ h' _ _ _ _ ih => exact ih h'

/-! ## Without mitigation -/

/-- C90, `test_lrs_change` of `read_disturb_model_test.py`.  After `N` rounds and `r` reads since the last one the
cycle counters are `N` and `N - 1`, the plus cell carries 5 and the minus cell what the golden model says. -/
theorem C90_unmitigated {h : List Op} (hs : setConfig (exactReal gauss strict junk) (.good (disturbFile .off)) w = .ok w')
    (hp : w.cfg.adcProfile = false) (hc : Cycled N h) (hN : 0 < N) :
    ∃ w'' rs, serve (exactReal gauss strict junk) w' h.reverse = .ok (w'', rs, h.reverse.map fun _ => 0) ∧
      getter Xbar.getWrites w'' = .ok (2 * N) ∧ getter Xbar.getMvms w'' = .ok (mvmsIn h) ∧
      getter Xbar.getReadNum w'' = .ok (mvmsSinceWrite h) ∧
      getter Xbar.getRefX w'' = .ok 0 ∧ getter Xbar.getRefC w'' = .ok 0 ∧
      (∀ fr, Cell (getCycPPb fr w'') N ∧ Cell (getCycMPb fr w'') (N - 1)) ∧
      (∀ fr, Cell (getIaPPb fr w'') 5 ∧
        (N ≤ 1423518 → Cell (getIaMPb fr w'') (30 * goldenScaling (mvmsSinceWrite h * 1e-7) (N - 1))) ∧
        (1423518 < N → Cell (getIaMPb fr w'') (if mvmsSinceWrite h = 0 then 30 else 0))) := by
  have D := disturb_set hs
  obtain ⟨x, rs, h1, h2, _⟩ := disturb_runs hs hp (ops := h.reverse) (by rwa [List.reverse_reverse])
  rw [List.reverse_reverse] at h2
  have get : ∀ {α : Type} (f : Xbar ℝ → C α), getter f ({ w' with xbar := some x } : World ℝ) = f x := fun f => rfl
  obtain ⟨s1, s2, s3, s4, _⟩ := shown (w := { w' with xbar := some x }) D h2 rfl hc
  obtain ⟨n1, n2⟩ := runs_no_refX (fun h => by rw [D.strategy] at h; cases h.2.2) h2
  have hR : 0 < w'.cfg.R := by rw [D.R]; decide
  have hK : 0 < w'.cfg.N := by rw [D.N]; decide
  have rc : x.refC = 0 := by
    obtain ⟨t, rfl, ht⟩ := runs_traced h2
    obtain ⟨rd, hrd, _⟩ := (runs_shape h2).rd D.rd
    rw [(cycled_counters D ht hc hrd).2.2]
    refine times_none fun s _ h => ?_
    obtain ⟨_, _, _, h⟩ := h
    unfold RefreshOf at h
    rw [D.strategy] at h
    exact h.2.2.2
  have cur : x.mapper.core.ia.m.get 0 0 = if mvmsSinceWrite h = 0 then 30 else
      30 * attenuation (exactReal gauss strict junk) w'.cfg (mvmsSinceWrite h) (N - 1) := by
    split
    · next h0 =>
      obtain ⟨v, v1, _, v2⟩ := C33_not_yet_disturbed exactReal_exact D.ok D.bin D.analog D.rd D.c2c D.strategy h2 hR hK
        (by rw [h0, Nat.zero_div]) (by rw [cycled_block hc hN]; decide)
      rw [cycled_written hc hN, Option.some.injEq] at v1
      subst v1
      have e : encM w'.cfg (-1) 0 = 1 := by simp [encM, D.mode]
      rw [programmed_value D (v2 (by rw [D.mode]; decide)), e]
      norm_num
    · next h0 =>
      have := (C33_disturbed_current_partial exactReal_exact D.ok D.bin D.analog D.rd D.c2c D.strategy h2 hR hK
        (reads := mvmsSinceWrite h) (by rw [D.freq, Nat.div_one, Nat.mul_one]) (by omega)).2 (by rw [D.mode]; rfl)
        (cycled_cells D.mode hc hN).2
      rw [this, D.lrs, (cycled_switched D.mode hc).2]
  refine ⟨_, rs, h1, s1, s2, ?_, ?_, ?_, fun fr => ?_, fun fr => ⟨?_, fun hl => ?_, fun hl => ?_⟩⟩
  · rw [get, Xbar.getReadNum, n2]
  · rw [get, Xbar.getRefX, n1]
  · rw [get, Xbar.getRefC, rc]
  · have := s3 fr
    rwa [rc, Nat.add_zero] at this
  · have := (s4 fr).1
    rwa [plus_current D h2 hc hN] at this
  · have := (s4 fr).2
    rw [cur] at this
    convert this using 1
    split
    · next h0 =>
      rw [h0]
      have := (golden_transition (gauss := gauss) (strict := strict) (junk := junk) (c := N - 1) (by omega)).2
      unfold goldenScaling
      rw [if_pos (by simpa using this), mul_one]
    · rw [golden_scaling D (by omega)]
  · have := (s4 fr).2
    rw [cur, worn_scaling D (by omega), mul_zero] at this
    exact this

/-- C90, `test_rd_model_boundaries`: up to 1423518 rounds the model stays within its range, and every read after more
rounds leaves it. -/
theorem C90_boundaries {h : List Op} (hs : setConfig (exactReal gauss strict junk) (.good (disturbFile .off)) w = .ok w')
    (hp : w.cfg.adcProfile = false) (hc : Cycled N h) :
    ∃ w'' rs, serve (exactReal gauss strict junk) w' h.reverse = .ok (w'', rs, h.reverse.map fun _ => 0) ∧
      (N ≤ 1423518 → getRunOut w'' = .ok false) ∧
      (1423518 < N → 0 < mvmsSinceWrite h → getRunOut w'' = .ok true) := by
  have D := disturb_set hs
  obtain ⟨x, rs, h1, h2, _⟩ := disturb_runs hs hp (ops := h.reverse) (by rwa [List.reverse_reverse])
  rw [List.reverse_reverse] at h2
  obtain ⟨rd, hrd, _⟩ := (runs_shape h2).rd D.rd
  have key := C89_from_calls D.ok D.bin D.analog D.rd D.strategy h2 hrd C89_limit
  have get : getRunOut ({ w' with xbar := some x } : World ℝ) = .ok rd.oob := by
    unfold getRunOut getter Xbar.withRd
    simp only [hrd]
  refine ⟨_, rs, h1, fun hl => ?_, fun hl hm => ?_⟩
  · rw [get, ok_inj, ← Bool.not_eq_true, key]
    rintro ⟨g1, o, g2, r, k, e, ho, _, hr, hk, hh⟩
    rw [D.R] at hr
    rw [D.N] at hk
    obtain rfl : r = 0 := by omega
    obtain rfl : k = 0 := by omega
    obtain ⟨⟨n, n1, n2, n3⟩, _⟩ := cycled_before hc e ho
    obtain ⟨c1, c2⟩ := cycled_cells D.mode n3 n1
    rcases hh with ⟨hh, _⟩ | ⟨_, _, hh⟩
    · rw [c1] at hh
      cases hh
    · rw [(cycled_switched D.mode n3).2] at hh
      omega
  · rw [get, ok_inj, key]
    cases hc with
    | nil => cases hm
    | round => cases hm
    | mvm hc hn =>
      refine ⟨[], _, _, 0, 0, rfl, trivial, by rw [D.freq, Nat.mod_one], by rw [D.R]; decide, by rw [D.N]; decide,
        .inr ⟨by rw [D.mode]; rfl, (cycled_cells D.mode hc hn).2, ?_⟩⟩
      rw [(cycled_switched D.mode hc).2]
      omega

/-! ## Mitigation -/

/-- C90, `read_disturb_mitigation_sw_test.py`: the currents never change, and all results are exact. -/
theorem C90_software {h : List Op} (hs : setConfig (exactReal gauss strict junk) (.good (disturbFile .software)) w = .ok w')
    (hp : w.cfg.adcProfile = false) (hc : Cycled N h) (hN : 0 < N) :
    ∃ w'' rs, serve (exactReal gauss strict junk) w' h.reverse = .ok (w'', rs, h.reverse.map fun _ => 0) ∧
      Answers [] h.reverse rs ∧
      getter Xbar.getWrites w'' = .ok (2 * N) ∧ getter Xbar.getMvms w'' = .ok (mvmsIn h) ∧
      (∃ r ≤ mvmsSinceWrite h, getter Xbar.getReadNum w'' = .ok r) ∧
      ∀ fr, Cell (getIaPPb fr w'') 5 ∧ Cell (getIaMPb fr w'') 30 := by
  have D := disturb_set hs
  obtain ⟨x, rs, h1, h2, h3⟩ := disturb_runs hs hp (ops := h.reverse) (by rwa [List.reverse_reverse])
  rw [List.reverse_reverse] at h2
  obtain ⟨s1, s2, _, s4, _⟩ := shown (w := { w' with xbar := some x }) D h2 rfl hc
  have cur : x.mapper.core.ia.m.get 0 0 = 30 := by
    rcases (C35_bound exactReal_arith exactReal_exact (D.fp rfl).ge (by rw [D.lrs]; norm_num) D.ok D.bin D.analog D.rd
      D.strategy h2 (r := 0) (k := 0) (by rw [D.M]; decide) (by rw [D.R]; decide) (by rw [D.N]; decide)).2
      (minus_state D h2 hc hN) with h | ⟨ha, hb⟩
    · rw [programmed_value D h]
      norm_num
    · rw [D.fp rfl, exactReal_arith.pow_one, D.lrs, mul_one] at ha
      rw [D.lrs] at hb
      exact le_antisymm hb ha
  refine ⟨_, rs, h1, h3 (by decide), s1, s2, ⟨x.consec, (runs_consec_le h2).1, rfl⟩, fun fr => ?_⟩
  have := s4 fr
  rwa [plus_current D h2 hc hN, cur] at this

/-- C90, `read_disturb_mitigation_hw_test.py`: the currents never change, all results are exact, the minus cell is
refreshed before every 2600 reads and the plus cell never. -/
theorem C90_cell_based {h : List Op} (hs : setConfig (exactReal gauss strict junk) (.good (disturbFile .cellBased)) w = .ok w')
    (hp : w.cfg.adcProfile = false) (hc : Cycled N h) (hN : 0 < N) :
    ∃ w'' rs k r, serve (exactReal gauss strict junk) w' h.reverse = .ok (w'', rs, h.reverse.map fun _ => 0) ∧
      Answers [] h.reverse rs ∧
      getter Xbar.getWrites w'' = .ok (2 * N) ∧ getter Xbar.getMvms w'' = .ok (mvmsIn h) ∧
      getter Xbar.getReadNum w'' = .ok (mvmsSinceWrite h) ∧ getter Xbar.getRefC w'' = .ok k ∧
      (∀ fr, Cell (getIaPPb fr w'') 5 ∧ Cell (getIaMPb fr w'') 30) ∧
      (∀ fr, Cell (getCycPPb fr w'') N ∧ Cell (getCycMPb fr w'') (N - 1 + k)) ∧
      (∀ fr, Cell (getReadsPPb fr w'') (mvmsSinceWrite h) ∧ Cell (getReadsMPb fr w'') r) ∧
      r < 2600 ∧ mvmsSinceWrite h ≤ 2600 * k + r := by
  have D := disturb_set hs
  obtain ⟨x, rs, h1, h2, h3⟩ := disturb_runs hs hp (ops := h.reverse) (by rwa [List.reverse_reverse])
  rw [List.reverse_reverse] at h2
  obtain ⟨s1, s2, s3, s4, rd, hrd, s5⟩ := shown (w := { w' with xbar := some x }) D h2 rfl hc
  have cur : x.mapper.core.ia.m.get 0 0 = 30 := by
    obtain ⟨ha, hb⟩ := (C36_every_state_partial exactReal_exact D.ok D.bin D.analog D.rd D.strategy D.lrsNoise.le
      (D.tol rfl).ge (by rw [D.lrs]; norm_num) h2 (r := 0) (k := 0) (by rw [D.R]; decide) (by rw [D.N]; decide)).2
      (minus_state D h2 hc hN)
    rw [D.tol rfl, D.lrs] at ha hb
    linarith
  obtain ⟨t, rfl, ht⟩ := runs_traced h2
  have hR : 0 < w'.cfg.R := by rw [D.R]; decide
  have hK : 0 < w'.cfg.N := by rw [D.N]; decide
  have hdf : w'.cfg.mode.isDiff = true := by rw [D.mode]; rfl
  obtain ⟨r1, r2⟩ := traced_reads D.rd D.analog D.strategy ht hrd hR hK
  have r1' := r1.trans (reads_none (fun s hs => plus_spared D ht hc hs) fun t1 s t2 e hs => (cycled_step D ht hc e hs).2.2)
  obtain ⟨b1, b2⟩ := cell_refreshed D ht hc
  rw [← r2 hdf] at b1 b2
  have rc := (cycled_counters D ht hc hrd).2.2
  simp only [hdf, true_and] at rc
  rw [← rc] at b2
  refine ⟨_, rs, x.refC, rd.rdM.get 0 0, h1, h3 (by decide), s1, s2, ?_, rfl, fun fr => ?_, s3, fun fr => ?_, b1, b2⟩
  · have := (runs_no_refX (fun h => by rw [D.strategy] at h; cases h.2.2) h2).2
    exact congrArg _ this
  · have := s4 fr
    rwa [plus_current D h2 hc hN, cur] at this
  · have := s5 fr
    rwa [r1'] at this

/-- C90.  The last two assertions of that test hold after every 5200 reads. -/
theorem C90_more_cycles {h : List Op} (hs : setConfig (exactReal gauss strict junk) (.good (disturbFile .cellBased)) w = .ok w')
    (hp : w.cfg.adcProfile = false) (hc : Cycled N h) (hN : 0 < N) (hr : 5200 ≤ mvmsSinceWrite h) :
    ∃ w'' rs p m r q, serve (exactReal gauss strict junk) w' h.reverse = .ok (w'', rs, h.reverse.map fun _ => 0) ∧
      (∀ fr, Cell (getCycPPb fr w'') p ∧ Cell (getCycMPb fr w'') m) ∧ p < m ∧
      (∀ fr, Cell (getReadsPPb fr w'') q ∧ Cell (getReadsMPb fr w'') r) ∧ r < q := by
  obtain ⟨w'', rs, k, r, h1, _, _, _, _, _, _, h2, h3, h4, h5⟩ := C90_cell_based hs hp hc hN
  exact ⟨w'', rs, N, N - 1 + k, r, mvmsSinceWrite h, h1, h2, by omega, h3, by omega⟩

end

/-! ## Instances -/

/-- A new process, and the calls of the tests: rounds and then reads. -/
theorem cycled_test (N r : Nat) (hN : 0 < N) : ∃ h, Cycled N h ∧ mvmsSinceWrite h = r ∧ mvmsIn h = r := by
  have rounds : ∀ n, ∃ h, Cycled n h ∧ mvmsSinceWrite h = 0 ∧ mvmsIn h = 0 := by
    intro n
    induction n with
    | zero => exact ⟨[], .nil, rfl, rfl⟩
    | succ n ih =>
      obtain ⟨h, h1, _, h2⟩ := ih
      exact ⟨_, .round (a := ⟨1, fun _ => 1⟩) (b := ⟨1, fun _ => -1⟩) h1 ⟨le_refl _, rfl⟩ ⟨le_refl _, rfl⟩, rfl, h2⟩
  induction r with
  | zero => exact rounds N
  | succ r ih =>
    obtain ⟨h, h1, h2, h3⟩ := ih
    exact ⟨_, .mvm (res := ⟨1, fun _ => 0⟩) (vec := ⟨1, fun _ => 1⟩) (mat := ⟨1, fun _ => -1⟩) (l := "") h1 hN (le_refl _)
      (by simp) (le_refl _) (.inl rfl), by simp [mvmsSinceWrite, h2], by simp [mvmsIn, h3]⟩

/-- The hypotheses of the theorems, for the numbers of the tests and more. -/
example (st : Strategy) : (∃ w', setConfig (exactReal (fun _ => 0) false 0) (.good (disturbFile st)) world0 = .ok w') ∧
    (world0 : World ℝ).cfg.adcProfile = false ∧ (∃ h, Cycled 1000 h ∧ mvmsSinceWrite h = 200000) ∧
    (∃ h, Cycled 1400000 h ∧ mvmsSinceWrite h = 1) ∧ ∃ h, Cycled 1500000 h ∧ mvmsSinceWrite h = 1 := by
  refine ⟨C90_accepted (.inl rfl) (by decide), rfl, ?_, ?_, ?_⟩
  · obtain ⟨h, h1, h2, _⟩ := cycled_test 1000 200000 (by decide)
    exact ⟨h, h1, h2⟩
  · obtain ⟨h, h1, h2, _⟩ := cycled_test 1400000 1 (by decide)
    exact ⟨h, h1, h2⟩
  · obtain ⟨h, h1, h2, _⟩ := cycled_test 1500000 1 (by decide)
    exact ⟨h, h1, h2⟩

end Acs.Props
