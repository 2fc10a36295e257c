import Verif.Lemmas.RdExact
import Verif.Lemmas.C2cBlind
import Verif.Props.ExRd
import Mathlib.Analysis.SpecialFunctions.Pow.Real

/-! # Read disturb (C32–C36, C39, C54) -/

set_option linter.unusedSectionVars false

namespace Acs.Props

open Acs.Spec

section
variable {K : Type} [Field K] [LinearOrder K] [IsStrictOrderedRing K] [FloorRing K]
variable {E : Env K} {cfg : Cfg K} {x x' : Xbar K} {rd rd0 : Rd K} {h : List Op}
variable {mat vec res out : Vec Int} {m n r k : Nat} {l : String}

/-! ## C32: the factor -/

/-- C32.  At any point of any history, for all read counts, cycle counts, voltages and read times, under
any monotone rounding: the factor lies between 0 and 1 and rises neither with the reads nor with the
cycles. -/
theorem C32_factor_monotone (hE : RdArith E) (hrd : cfg.readDisturb = true) (hr : Runs E cfg h x)
    (hx : x.rd = some rd) :
    (∀ {a c f}, rdFactor E cfg rd a c = .ok f → 0 ≤ f ∧ f ≤ 1) ∧
    ∀ {a b c d f g}, 0 ≤ cfg.tRead → a ≤ b → c ≤ d → rdFactor E cfg rd a c = .ok f →
      rdFactor E cfg rd b d = .ok g → g ≤ f := by
  obtain ⟨rd', h1, _, rd0, h2, e1, e2⟩ := runs_params hrd hr
  rw [hx, Option.some_inj] at h1
  subst h1
  obtain ⟨p1, p2⟩ := mkRd_nonneg hE h2
  rw [← e2] at p1
  rw [← e1] at p2
  exact ⟨fun hf => rdFactor_range hE p1 hf, fun ht ha hc hf hg => rdFactor_anti hE p1 p2 ht ha hc hf hg⟩

/-- C32.  In exact arithmetic the factor is the attenuation of the physical model, and it is undefined
only if both the stress and the transition time are zero. -/
theorem C32_factor_formula (hE : ExactArith E) (hrd : cfg.readDisturb = true) (hr : Runs E cfg h x)
    (hx : x.rd = some rd) (a c : Nat) :
    (∀ f, rdFactor E cfg rd a c = .ok f → f = attenuation E cfg a c) ∧
    (¬(transition E cfg.vRead c = 0 ∧ (a : K) * cfg.tRead = 0) →
      rdFactor E cfg rd a c = .ok (attenuation E cfg a c)) := by
  obtain ⟨rd', h1, _, hp⟩ := runs_params hrd hr
  rw [hx, Option.some_inj] at h1
  subst h1
  refine ⟨fun f hf => rdFactor_att hE hp hf, fun hd => ?_⟩
  obtain ⟨rd0, h2, e1, e2⟩ := hp
  obtain ⟨d1, d2, _⟩ := mkRd_exact hE h2
  exact rdFactor_exact hE (e2.trans d1) (e1.trans d2) a c hd

/-- The hypotheses hold on a run; three reads attenuate, one does not. -/
example : RdArith Ex.rdEnv ∧ ExactArith Ex.rdEnv ∧ (Ex.rdCfg .bnn1).readDisturb = true ∧
    attenuation Ex.rdEnv (Ex.rdCfg .bnn1) 1 0 = 1 ∧ attenuation Ex.rdEnv (Ex.rdCfg .bnn1) 3 0 < 1 ∧
    ∃ x, Runs Ex.rdEnv (Ex.rdCfg .bnn1) [Ex.mv, Ex.wOnes] x ∧ x.rd.isSome = true :=
  ⟨Ex.rdEnv_arith, Ex.rdEnv_exact, rfl, by decide +kernel, by decide +kernel,
    Ex.played [Ex.wOnes, Ex.mv] (fun x => x.rd.isSome) (by decide +kernel)⟩

/-! ## C33: no mitigation -/

/-- Cycle counters without mitigation. -/
theorem C33_cycles (hok : CfgOk cfg) (hi : cfg.mode.isInt = false) (hrd : cfg.readDisturb = true)
    (hst : cfg.strategy = .off) (hr : Runs E cfg h x) (hx : x.rd = some rd) (h1 : r < cfg.R)
    (h2 : k < cfg.N) :
    rd.cycP.get r k = switched (fun w => encP cfg w 0) h r k ∧
      rd.cycM.get r k = switched (fun w => encM cfg w 0) h r k := by
  obtain ⟨t, rfl, ht⟩ := runs_traced hr
  obtain ⟨a, b⟩ := traced_cycles hok hrd ht hx h1 h2
  have z : ∀ (P : Step K → Prop), (∀ s, ¬P s) → times P t = 0 := by
    intro P hP
    clear ht hr a b
    induction t with
    | nil => rfl
    | cons s t ih => simp only [times, ih, if_neg (hP s)]
  have nr : ∀ s g c q, ¬RefreshOf E cfg s g c q r k := by
    intro s g c q hs
    unfold RefreshOf at hs
    rw [hst] at hs
    exact hs.2.2.2
  rw [z _ (fun s ⟨_, _, hs⟩ => nr _ _ _ _ hs), rowOf_bin hi] at a
  rw [z _ (fun s ⟨_, _, _, hs⟩ => nr _ _ _ _ hs), rowOf_bin hi] at b
  exact ⟨a, b⟩

/-- C33, with the restrictions that are missing in the claim.  Mitigation off, no cycle-to-cycle
variation: after every history with at least one update since the last write, each cell in LRS of the
first array, and of the second array in the differential mappings, carries `LRS` times the attenuation
for the reads up to the last update and for its switching cycles.  The full claim covers the second array
in all mappings (false, `C33_false_for_minus`) and crossbars with cycle-to-cycle variation (false,
`C54_false_with_c2c`). -/
theorem C33_disturbed_current_partial (hE : ExactArith E) (hok : CfgOk cfg) (hi : cfg.mode.isInt = false)
    (hdo : cfg.digitalOnly = false) (hrd : cfg.readDisturb = true) (hc2 : cfg.c2c = false)
    (hst : cfg.strategy = .off) (hr : Runs E cfg h x) (h1 : r < cfg.R) (h2 : k < cfg.N) {reads : Nat}
    (hq : reads = mvmsSinceWrite h / cfg.updFreq * cfg.updFreq) (hpos : 0 < reads) :
    (cellAfter (fun w => encP cfg w 0) h r k = 1 → x.mapper.core.ia.p.get r k =
      cfg.lrs * attenuation E cfg reads (switched (fun w => encP cfg w 0) h r k)) ∧
    (cfg.mode.isDiff = true → cellAfter (fun w => encM cfg w 0) h r k = 1 → x.mapper.core.ia.m.get r k =
      cfg.lrs * attenuation E cfg reads (switched (fun w => encM cfg w 0) h r k)) := by
  have hcs := (runs_no_refX (by rw [hst]; simp) hr).2
  have h0 : 0 < x.consec / cfg.updFreq := by
    rw [hcs]
    rcases Nat.eq_zero_or_pos (mvmsSinceWrite h / cfg.updFreq) with h0 | h0
    · rw [h0, Nat.zero_mul] at hq; omega
    · exact h0
  obtain ⟨rd, hx, ha⟩ := (runs_off hok hi hdo hrd hc2 hst hr).2 h0
  obtain ⟨rd', h3, _, hp⟩ := runs_params hrd hr
  rw [hx, Option.some_inj] at h3
  subst h3
  obtain ⟨c1, c2⟩ := C33_cycles hok hi hrd hst hr hx h1 h2
  obtain ⟨a1, a2⟩ := ha r k h1 h2
  rw [hcs, ← hq] at a1 a2
  rw [c1] at a1
  rw [c2] at a2
  have g1 := runs_gdP hok hr r k
  have g2 := runs_gdM hok hr r k
  rw [rowOf_bin hi] at g1 g2
  refine ⟨fun hg => ?_, fun hd hg => ?_⟩
  · obtain ⟨f, f1, f2⟩ := a1 (g1.trans hg)
    rw [f2, rdFactor_att hE hp f1]
    unfold Env.fmul
    rw [hE.f32]
  · obtain ⟨f, f1, f2⟩ := a2 hd (g2.trans hg)
    rw [f2, rdFactor_att hE hp f1]
    unfold Env.fmul
    rw [hE.f32]

example : ∃ x, Runs Ex.rdEnv (Ex.rdCfg2 .bnn1) [Ex.mv, Ex.mv, Ex.mv, Ex.wOnes] x ∧
    (x.mapper.core.ia.p.get 0 0 == 10 * attenuation Ex.rdEnv (Ex.rdCfg2 .bnn1) 2 0
      && x.mapper.core.ia.p.get 0 0 != 10 && x.mapper.core.ia.m.get 0 0 == 5) = true :=
  Ex.played [Ex.wOnes, Ex.mv, Ex.mv, Ex.mv] (fun x =>
    x.mapper.core.ia.p.get 0 0 == 10 * attenuation Ex.rdEnv (Ex.rdCfg2 .bnn1) 2 0
      && x.mapper.core.ia.p.get 0 0 != 10 && x.mapper.core.ia.m.get 0 0 == 5) (by decide +kernel)

example : ExactArith Ex.rdEnv ∧ CfgOk (Ex.rdCfg2 .bnn1) ∧ (Ex.rdCfg2 .bnn1).mode.isInt = false ∧
    (Ex.rdCfg2 .bnn1).digitalOnly = false ∧ (Ex.rdCfg2 .bnn1).readDisturb = true ∧
    (Ex.rdCfg2 .bnn1).c2c = false ∧ (Ex.rdCfg2 .bnn1).strategy = .off ∧
    2 = mvmsSinceWrite [Ex.mv, Ex.mv, Ex.mv, Ex.wOnes] / (Ex.rdCfg2 .bnn1).updFreq *
      (Ex.rdCfg2 .bnn1).updFreq ∧
    cellAfter (fun w => encP (Ex.rdCfg2 .bnn1) w 0) [Ex.mv, Ex.mv, Ex.mv, Ex.wOnes] 0 0 = 1 :=
  ⟨Ex.rdEnv_exact, Ex.rdCfg2_ok _, rfl, rfl, rfl, rfl, rfl, rfl, rfl⟩

/-- C33.  Before the first update after a write, the cells of the written block carry what the write
programmed. -/
theorem C33_not_yet_disturbed (hE : ExactArith E) (hok : CfgOk cfg) (hi : cfg.mode.isInt = false)
    (hdo : cfg.digitalOnly = false) (hrd : cfg.readDisturb = true) (hc2 : cfg.c2c = false)
    (hst : cfg.strategy = .off) (hr : Runs E cfg h x) (h1 : r < cfg.R) (h2 : k < cfg.N)
    (hq : mvmsSinceWrite h / cfg.updFreq = 0) (hb : r < (lastBlock h).1 ∧ k < (lastBlock h).2) :
    ∃ w, lastWrite h r k = some w ∧ Programmed E cfg (encP cfg w 0) (x.mapper.core.ia.p.get r k) ∧
      (cfg.mode ≠ .bnn3 ∧ cfg.mode ≠ .bnn4 →
        Programmed E cfg (encM cfg w 0) (x.mapper.core.ia.m.get r k)) := by
  have hcs := (runs_no_refX (by rw [hst]; simp) hr).2
  have hh := (runs_off hok hi hdo hrd hc2 hst hr).1
  have ho := runs_origCur hok hi hdo hr
  have hw : ∃ w, lastWrite h r k = some w := by
    clear hr hh ho hq hcs
    induction h with
    | nil => exact absurd hb.1 (Nat.not_lt_zero _)
    | cons op h ih =>
      cases op with
      | write mat m n => exact ⟨_, if_pos hb⟩
      | mvm res vec mat m n l => exact ih hb
  obtain ⟨w, hw⟩ := hw
  have g1 := runs_gdP hok hr r k
  have g2 := runs_gdM hok hr r k
  rw [rowOf_bin hi] at g1 g2
  unfold cellAfter at g1 g2
  rw [hw] at g1 g2
  refine ⟨w, hw, ?_, fun hm => ?_⟩
  · have h3 := set_programmed hE hi (ho.p r k)
    rw [hw, g1] at h3
    rcases hh.p r k h1 h2 with h4 | ⟨_, h4⟩
    · rw [h4]; exact h3.resolve_right (by simp)
    · exact absurd hb (h4.2 (by rw [hcs]; exact hq))
  · have h3 := set_programmed hE hi (ho.m hm r k)
    rw [hw, g2] at h3
    rcases hh.m r k h1 h2 with h4 | ⟨_, _, h4⟩
    · rw [h4]; exact h3.resolve_right (by simp)
    · exact absurd hb (h4.2 (by rw [hcs]; exact hq))

example : ∃ x, Runs Ex.rdEnv (Ex.rdCfg2 .bnn1) [Ex.mv, Ex.wOnes] x ∧
    (x.mapper.core.ia.p.get 0 0 == 10 && mvmsSinceWrite [Ex.mv, Ex.wOnes] / (Ex.rdCfg2 .bnn1).updFreq == 0
      && lastBlock [Ex.mv, Ex.wOnes] == (2, 3)) = true :=
  Ex.played [Ex.wOnes, Ex.mv] (fun x => x.mapper.core.ia.p.get 0 0 == 10 &&
    mvmsSinceWrite [Ex.mv, Ex.wOnes] / (Ex.rdCfg2 .bnn1).updFreq == 0
      && lastBlock [Ex.mv, Ex.wOnes] == (2, 3)) (by decide +kernel)

/-- C33.  Under every mitigation, with or without cycle-to-cycle variation: cells in HRS, and all cells of
the second array in the mappings that are not differential, carry what the last programming of the cell
gave them (`HRS` if it was never programmed). -/
theorem C33_hrs_cells (hE : ExactArith E) (hok : CfgOk cfg) (hi : cfg.mode.isInt = false)
    (hdo : cfg.digitalOnly = false) (hrd : cfg.readDisturb = true) (hr : Runs E cfg h x)
    (h1 : r < cfg.R) (h2 : k < cfg.N) :
    (∀ g, cellAfter (fun w => encP cfg w 0) h r k = g → g = 0 →
      Programmed E cfg g (x.mapper.core.ia.p.get r k) ∨
        (lastWrite h r k = none ∧ x.mapper.core.ia.p.get r k = cfg.hrs)) ∧
    (∀ g, cellAfter (fun w => encM cfg w 0) h r k = g → g = 0 ∨ cfg.mode.isDiff = false →
      Programmed E cfg g (x.mapper.core.ia.m.get r k) ∨
        ((lastWrite h r k = none ∨ cfg.mode = .bnn3 ∨ cfg.mode = .bnn4) ∧
          x.mapper.core.ia.m.get r k = cfg.hrs)) := by
  have hh := runs_held hok hi hdo hrd hr
  have ho := runs_origCur hok hi hdo hr
  have g1 := runs_gdP hok hr r k
  have g2 := runs_gdM hok hr r k
  rw [rowOf_bin hi] at g1 g2
  refine ⟨fun g hg hz => ?_, fun g hg hz => ?_⟩
  · have h3 := set_programmed hE hi (ho.p r k)
    rw [g1, hg] at h3
    rcases hh.p r k h1 h2 with h4 | ⟨h4, _⟩
    · rw [h4]; exact h3
    · rw [g1, hg, hz] at h4; cases h4
  · have h5 : x.mapper.core.ia.m.get r k = x.mapper.core.ia.mO.get r k := by
      rcases hh.m r k h1 h2 with h4 | ⟨h4, h6, _⟩
      · exact h4
      · rw [g2, hg] at h4
        rcases hz with hz | hz
        · rw [hz] at h4; cases h4
        · rw [hz] at h6; cases h6
    rw [h5]
    by_cases hm : cfg.mode = .bnn3 ∨ cfg.mode = .bnn4
    · exact Or.inr ⟨Or.inr hm, ho.m' hm r k⟩
    · have h3 := set_programmed hE hi (ho.m (by rw [not_or] at hm; exact hm) r k)
      rw [g2, hg] at h3
      exact h3.imp _root_.id (And.imp_left Or.inl)

example : ∃ x, Runs Ex.rdEnv (Ex.rdCfg .bnn1) [Ex.mv, Ex.mv, Ex.mv, Ex.wOnes] x ∧
    (x.mapper.core.gd.m.get 0 0 == 0 && x.mapper.core.ia.m.get 0 0 == 5
      && x.mapper.core.ia.p.get 0 0 != 10) = true :=
  Ex.played [Ex.wOnes, Ex.mv, Ex.mv, Ex.mv] (fun x => x.mapper.core.gd.m.get 0 0 == 0
    && x.mapper.core.ia.m.get 0 0 == 5 && x.mapper.core.ia.p.get 0 0 != 10) (by decide +kernel)

end

/-- C33 is false for the second array of `BNN_V`: a cell in LRS carries the full current after three
reads, which attenuate. -/
theorem C33_false_for_minus : ∃ x, Runs Ex.rdEnv (Ex.rdCfg .bnn5) [Ex.mv, Ex.mv, Ex.mv, Ex.wNegs] x ∧
    cellAfter (fun w => encM (Ex.rdCfg .bnn5) w 0) [Ex.mv, Ex.mv, Ex.mv, Ex.wNegs] 0 0 = 1 ∧
    x.mapper.core.ia.m.get 0 0 = (Ex.rdCfg .bnn5).lrs ∧
    (Ex.rdCfg .bnn5).lrs * attenuation Ex.rdEnv (Ex.rdCfg .bnn5) 3 0 < (Ex.rdCfg .bnn5).lrs := by
  obtain ⟨x, h1, h2⟩ := Ex.played (E := Ex.rdEnv) (c := Ex.rdCfg .bnn5) [Ex.wNegs, Ex.mv, Ex.mv, Ex.mv]
    (fun x => x.mapper.core.ia.m.get 0 0 == (Ex.rdCfg .bnn5).lrs) (by decide +kernel)
  exact ⟨x, h1, rfl, by simpa using h2, by decide +kernel⟩

section
variable {K : Type} [Field K] [LinearOrder K] [IsStrictOrderedRing K] [FloorRing K]
variable {E : Env K} {cfg : Cfg K} {x x' : Xbar K} {rd rd' : Rd K} {h : List Op}
variable {mat vec res out : Vec Int} {m n r k : Nat} {l : String}

/-! ## C34: writes heal -/

/-- C34.  Whatever happened before, under every mitigation: after a write the cells of the block are
freshly programmed with the written weights, and the read counts start again — the common one, and with
cell-based mitigation those of all cells. -/
theorem C34_write_heals (hE : ExactArith E) (hok : CfgOk cfg) (hi : cfg.mode.isInt = false)
    (hdo : cfg.digitalOnly = false) (hrd : cfg.readDisturb = true) (hr : Runs E cfg h x)
    (hw : xWrite E cfg x mat m n = .ok x') :
    x'.consec = 0 ∧
    (∀ r k, r < m → k < n →
      Programmed E cfg (encP cfg (entry mat n r k) 0) (x'.mapper.core.ia.p.get r k) ∧
      (cfg.mode ≠ .bnn3 ∧ cfg.mode ≠ .bnn4 →
        Programmed E cfg (encM cfg (entry mat n r k) 0) (x'.mapper.core.ia.m.get r k))) ∧
    (cfg.strategy = .cellBased → ∃ rd', x'.rd = some rd' ∧ ∀ r k, r < cfg.R → k < cfg.N →
      rd'.rdP.get r k = 0 ∧ rd'.rdM.get r k = 0) := by
  have hs := runs_shape hr
  refine ⟨(xWrite_frame hw).2.2.2.2.1, fun r k h1 h2 => ?_, fun hst => ?_⟩
  · have hb := (cont_aWrite_ok hs hw hdo rfl).2 hi
    have g1 := runs_gdP hok (.write hr hw) r k
    have g2 := runs_gdM hok (.write hr hw) r k
    rw [rowOf_bin hi] at g1 g2
    unfold cellAfter lastWrite at g1 g2
    rw [if_pos ⟨h1, h2⟩] at g1 g2
    obtain ⟨b1, b2⟩ := block_programmed hE hi (c := { x.mapper.core with gd := x'.mapper.core.gd })
      hs.core.mode hb h1 h2
    dsimp only at b1 b2
    rw [g1] at b1
    rw [g2] at b2
    exact ⟨b1, b2⟩
  · obtain ⟨rd, hx, _⟩ := runs_params hrd hr
    obtain ⟨rd', h1, _, _, h2, _⟩ := xWrite_rd hs hrd hx hw
    exact ⟨rd', h1, h2 hst⟩

example : ∃ x, Runs Ex.rdEnv (Ex.cbCfg .bnn1) [Ex.wOnes, Ex.mv, Ex.mv, Ex.wOnes] x ∧
    (x.consec == 0 && x.mapper.core.ia.p.get 0 0 == 10) = true :=
  Ex.played [Ex.wOnes, Ex.mv, Ex.mv, Ex.wOnes] (fun x => x.consec == 0 && x.mapper.core.ia.p.get 0 0 == 10)
    (by decide +kernel)

/-- Before the second write the current was lower. -/
example : ∃ x, Runs Ex.rdEnv (Ex.cbCfg .bnn1) [Ex.mv, Ex.mv, Ex.wOnes] x ∧
    (x.consec == 2 && x.mapper.core.ia.p.get 0 0 != 10) = true :=
  Ex.played [Ex.wOnes, Ex.mv, Ex.mv] (fun x => x.consec == 2 && x.mapper.core.ia.p.get 0 0 != 10)
    (by decide +kernel)

/-! ## C35: software mitigation -/

/-- C35.  With software mitigation a multiplication refreshes the crossbar exactly if an update is due
and the stress reaches the tolerated multiple of the transition time for the number of times the crossbar
was programmed.  Then the refresh counter rises by one, the read count starts again and every cell of the
`M × N` array is freshly programmed to its state; otherwise the counters go on. -/
theorem C35_refresh (hE : ExactArith E) (hi : cfg.mode.isInt = false)
    (hdo : cfg.digitalOnly = false) (hrd : cfg.readDisturb = true) (hst : cfg.strategy = .software)
    (hr : Runs E cfg h x) (hm : xMvm E cfg x res vec mat m n l = .ok (x', out)) :
    (updateDue cfg x ∧
        cfg.fp * transition E cfg.vRead (x.writes + x.refX) ≤ ((x.consec + 1 : Nat) : K) * cfg.tRead →
      x'.refX = x.refX + 1 ∧ x'.consec = 0 ∧ ∀ r k, r < cfg.M → k < cfg.N →
        Programmed E cfg (x'.mapper.core.gd.p.get r k) (x'.mapper.core.ia.p.get r k) ∧
        (cfg.mode ≠ .bnn3 ∧ cfg.mode ≠ .bnn4 →
          Programmed E cfg (x'.mapper.core.gd.m.get r k) (x'.mapper.core.ia.m.get r k))) ∧
    (¬(updateDue cfg x ∧
        cfg.fp * transition E cfg.vRead (x.writes + x.refX) ≤ ((x.consec + 1 : Nat) : K) * cfg.tRead) →
      x'.refX = x.refX ∧ x'.consec = x.consec + 1) := by
  have hs := runs_shape hr
  obtain ⟨rd, hx, hsh, rd0, h0, e1, e2⟩ := runs_params hrd hr
  obtain ⟨y, hy, hstep⟩ := xMvm_rd hs hdo hrd hm
  obtain ⟨hu, hn, hd⟩ := rdStep_software hsh (hy.rd.trans hx) hst hstep
  rw [hy.consec] at hn hd
  rw [hy.writes, hy.refX] at hd
  have hck := check_exact (cfg := cfg) (rd := rd) hE (e1.trans (mkRd_exact hE h0).2.1) (x.consec + 1)
    (x.writes + x.refX)
  unfold updateDue
  by_cases hdue : (x.consec + 1) % cfg.updFreq = 0
  · obtain ⟨z, rd1, hk, _, h3, h4, _, hup, hno, hyes⟩ := hd hdue
    cases hc : rdCheckSoftware E cfg rd (x.consec + 1) (x.writes + x.refX) with
    | false =>
      refine ⟨fun hh => ?_, fun _ => ?_⟩
      · rw [hck.2 hh.2] at hc; cases hc
      rw [hno hc]
      exact ⟨hk.refX.trans hy.refX, hk.consec.trans hy.consec⟩
    | true =>
      refine ⟨fun _ => ?_, fun hh => absurd ⟨hdue, hck.1 hc⟩ hh⟩
      obtain ⟨rd', hw⟩ := hyes hc
      have hzs := hup.shape hy.shape
      have hb := hw.bin hzs hi
      refine ⟨?_, hw.consec, fun r k h1 h2 => ?_⟩
      · rw [hw.refX, hk.refX, hy.refX]
      · have hg := (aWrite_frame hw.prog).1
        rw [hg]
        exact block_programmed hE hi hzs.mode hb h1 h2
  · refine ⟨fun hh => absurd hh.1 hdue, fun _ => ?_⟩
    rw [hn hdue]
    exact ⟨hy.refX, hy.consec⟩

example : ∃ x x' r, Runs Ex.rdEnv (Ex.swCfg .bnn1) [Ex.mv, Ex.mv, Ex.wOnes] x ∧
    xMvm Ex.rdEnv (Ex.swCfg .bnn1) x Ex.res Ex.vec Ex.mat 2 3 "" = .ok (x', r) ∧
    (x.mapper.core.ia.p.get 0 0 != 10 && x'.refX == 1 && x'.consec == 0
      && x'.mapper.core.ia.p.get 0 0 == 10) = true :=
  Ex.stepped [Ex.wOnes, Ex.mv, Ex.mv] (fun x x' _ => x.mapper.core.ia.p.get 0 0 != 10 && x'.refX == 1
    && x'.consec == 0 && x'.mapper.core.ia.p.get 0 0 == 10) (by decide +kernel)

/-- C35, the bound: in every state of every history, a cell of the `M × N` array in LRS that the mapping
disturbs carries its programmed current or at least `LRS · fp ^ (-p)`, with the tolerated multiple `fp` of
the transition time and the exponent `p` of the decay. -/
theorem C35_bound (hA : RdArith E) (hE : ExactArith E) (hfp : 1 ≤ cfg.fp) (hl : 0 ≤ cfg.lrs)
    (hok : CfgOk cfg) (hi : cfg.mode.isInt = false) (hdo : cfg.digitalOnly = false)
    (hrd : cfg.readDisturb = true) (hst : cfg.strategy = .software) (hr : Runs E cfg h x)
    (h1 : r < cfg.M) (h1' : r < cfg.R) (h2 : k < cfg.N) :
    (x.mapper.core.gd.p.get r k = 1 → Programmed E cfg 1 (x.mapper.core.ia.p.get r k) ∨
      cfg.lrs * E.pow cfg.fp (-decay E cfg.vRead) ≤ x.mapper.core.ia.p.get r k ∧
        x.mapper.core.ia.p.get r k ≤ cfg.lrs) ∧
    (x.mapper.core.gd.m.get r k = 1 → Programmed E cfg 1 (x.mapper.core.ia.m.get r k) ∨
      cfg.lrs * E.pow cfg.fp (-decay E cfg.vRead) ≤ x.mapper.core.ia.m.get r k ∧
        x.mapper.core.ia.m.get r k ≤ cfg.lrs) := by
  obtain ⟨rd, hx, hsh, rd0, h0, e1, e2⟩ := runs_params hrd hr
  have hh := runs_soft hA hE hfp hok hi hdo hrd hst h0 hr
  have ho := runs_origCur hok hi hdo hr
  have hp := (mkRd_exact hE h0).1
  have key : ∀ y, SoftQ E cfg rd0.p y →
      cfg.lrs * E.pow cfg.fp (-decay E cfg.vRead) ≤ y ∧ y ≤ cfg.lrs := by
    rintro y ⟨f, f1, f2, rfl⟩
    unfold Env.fmul
    rw [hE.f32, ← hp]
    exact ⟨mul_le_mul_of_nonneg_left f1 hl, mul_le_of_le_one_right hl f2⟩
  have g1 := runs_gdP hok hr r k
  have g2 := runs_gdM hok hr r k
  rw [rowOf_bin hi] at g1 g2
  refine ⟨fun hg => ?_, fun hg => ?_⟩
  · rcases hh.p r k h1' h2 with h4 | ⟨_, h4⟩
    · have h3 := set_programmed hE hi (ho.p r k)
      rw [hg] at h3
      refine Or.inl (h4 ▸ h3.resolve_right fun h5 => ?_)
      rw [g1, cellAfter_none h5.1] at hg
      cases hg
    · exact Or.inr (key _ (h4 h1))
  · rcases hh.m r k h1' h2 with h4 | ⟨_, _, h4⟩
    · by_cases hm : cfg.mode = .bnn3 ∨ cfg.mode = .bnn4
      · rw [gdM_bnn34 hok hm hr] at hg; cases hg
      · have h3 := set_programmed hE hi (ho.m (by rw [not_or] at hm; exact hm) r k)
        rw [hg] at h3
        refine Or.inl (h4 ▸ h3.resolve_right fun h5 => ?_)
        rw [g2, cellAfter_none h5.1] at hg
        cases hg
    · exact Or.inr (key _ (h4 h1))

/-- The disturbed current `5.55…` is above the bound `10 / 2`. -/
example : ∃ x, Runs Ex.rdEnv (Ex.swCfg .bnn1) [Ex.mv, Ex.mv, Ex.wOnes] x ∧
    (x.mapper.core.gd.p.get 0 0 == 1 && x.mapper.core.ia.p.get 0 0 == 4443509 / 800000
      && Ex.rdEnv.pow (Ex.swCfg .bnn1).fp (-decay Ex.rdEnv (Ex.swCfg .bnn1).vRead) == 1 / 2) = true :=
  Ex.played [Ex.wOnes, Ex.mv, Ex.mv] (fun x => x.mapper.core.gd.p.get 0 0 == 1
    && x.mapper.core.ia.p.get 0 0 == 4443509 / 800000
    && Ex.rdEnv.pow (Ex.swCfg .bnn1).fp (-decay Ex.rdEnv (Ex.swCfg .bnn1).vRead) == 1 / 2) (by decide +kernel)

/-! ## C36: cell-based mitigation -/

/-- C36 with the restriction that is missing in the claim, programming without variation in LRS
(`hn`): after every multiplication at which an update is due — all of them, if the frequency is 1 — every
cell in LRS, of both arrays, is within the tolerance.  The full claim has no `hn`; it is
false without it, see `C36_false_with_noise`. -/
theorem C36_within_tolerance_partial (hE : ExactArith E) (hok : CfgOk cfg) (hi : cfg.mode.isInt = false)
    (hdo : cfg.digitalOnly = false) (hrd : cfg.readDisturb = true) (hst : cfg.strategy = .cellBased)
    (hn : cfg.lrsNoise ≤ 0) (ht : 0 ≤ cfg.tol) (hl : 0 ≤ cfg.lrs) (hr : Runs E cfg h x)
    (hm : xMvm E cfg x res vec mat m n l = .ok (x', out)) (hd : updateDue cfg x ∨ cfg.updFreq = 1)
    (h1 : r < cfg.R) (h2 : k < cfg.N) :
    (x'.mapper.core.gd.p.get r k = 1 → (1 - cfg.tol) * cfg.lrs ≤ x'.mapper.core.ia.p.get r k ∧
      x'.mapper.core.ia.p.get r k ≤ (1 + cfg.tol) * cfg.lrs) ∧
    (x'.mapper.core.gd.m.get r k = 1 → (1 - cfg.tol) * cfg.lrs ≤ x'.mapper.core.ia.m.get r k ∧
      x'.mapper.core.ia.m.get r k ≤ (1 + cfg.tol) * cfg.lrs) := by
  have hd : updateDue cfg x := hd.elim _root_.id fun h => by unfold updateDue; rw [h, Nat.mod_one]
  have hr' := Runs.mvm hr hm
  have hh := cell_due (runs_shape hr) hdo hrd hst hm hd (runs_held hok hi hdo hrd hr)
  have ho := runs_origCur hok hi hdo hr'
  have nom : (1 - cfg.tol) * cfg.lrs ≤ cfg.lrs ∧ cfg.lrs ≤ (1 + cfg.tol) * cfg.lrs := by
    have := mul_nonneg ht hl
    constructor <;> nlinarith
  have key : ∀ y, Varied E cfg.lrsNoise cfg.lrs y ∨ ¬OutOfBand E cfg y →
      (1 - cfg.tol) * cfg.lrs ≤ y ∧ y ≤ (1 + cfg.tol) * cfg.lrs := by
    rintro y (hv | hv)
    · unfold Varied at hv
      rw [if_pos hn] at hv
      rw [hv]; exact nom
    · rw [outOfBand_exact hE, not_or, not_lt, not_lt] at hv
      exact hv
  have prog : ∀ y, Programmed E cfg 1 y → Varied E cfg.lrsNoise cfg.lrs y := by
    rintro y ⟨_, hy⟩
    have e : cfg.hrs + ((1 : Int) : K) * (cfg.lrs - cfg.hrs) = cfg.lrs := by push_cast; ring
    rw [e] at hy
    exact hy
  have g1 := runs_gdP hok hr' r k
  have g2 := runs_gdM hok hr' r k
  rw [rowOf_bin hi] at g1 g2
  refine ⟨fun hg => key _ ?_, fun hg => key _ ?_⟩
  · rcases hh.p r k h1 h2 with h4 | ⟨_, h4⟩
    · have h3 := set_programmed hE hi (ho.p r k)
      rw [hg] at h3
      refine Or.inl (prog _ (h4 ▸ h3.resolve_right fun h5 => ?_))
      rw [g1, cellAfter_none h5.1] at hg
      cases hg
    · exact h4
  · rcases hh.m r k h1 h2 with h4 | ⟨_, _, h4⟩
    · by_cases hb : cfg.mode = .bnn3 ∨ cfg.mode = .bnn4
      · rw [gdM_bnn34 hok hb hr'] at hg; cases hg
      · have h3 := set_programmed hE hi (ho.m (by rw [not_or] at hb; exact hb) r k)
        rw [hg] at h3
        refine Or.inl (prog _ (h4 ▸ h3.resolve_right fun h5 => ?_))
        rw [g2, cellAfter_none h5.1] at hg
        cases hg
    · exact h4

example : ∃ x x' r, Runs Ex.rdEnv (Ex.cbCfg .bnn1) [Ex.mv, Ex.mv, Ex.wOnes] x ∧
    xMvm Ex.rdEnv (Ex.cbCfg .bnn1) x Ex.res Ex.vec Ex.mat 2 3 "" = .ok (x', r) ∧
    (x'.mapper.core.gd.p.get 0 0 == 1 && x'.refC == 6 && x'.mapper.core.ia.p.get 0 0 == 10
      && x.mapper.core.ia.p.get 0 0 != 10) = true :=
  Ex.stepped [Ex.wOnes, Ex.mv, Ex.mv] (fun x x' _ => x'.mapper.core.gd.p.get 0 0 == 1 && x'.refC == 6
    && x'.mapper.core.ia.p.get 0 0 == 10 && x.mapper.core.ia.p.get 0 0 != 10) (by decide +kernel)

example : (Ex.cbCfg .bnn1).lrsNoise ≤ 0 ∧ 0 ≤ (Ex.cbCfg .bnn1).tol ∧ 0 ≤ (Ex.cbCfg .bnn1).lrs ∧
    (Ex.cbCfg .bnn1).updFreq = 1 := by decide +kernel

/-- C36.  With variation, in any rounding: after a due multiplication a cell in LRS that the mapping
disturbs is within the band, freshly programmed, or as it was last written. -/
theorem C36_band_or_programmed (hok : CfgOk cfg) (hi : cfg.mode.isInt = false)
    (hdo : cfg.digitalOnly = false) (hrd : cfg.readDisturb = true) (hst : cfg.strategy = .cellBased)
    (hr : Runs E cfg h x) (hm : xMvm E cfg x res vec mat m n l = .ok (x', out)) (hd : updateDue cfg x)
    (h1 : r < cfg.R) (h2 : k < cfg.N) :
    (x'.mapper.core.gd.p.get r k = 1 → Varied E cfg.lrsNoise cfg.lrs (x'.mapper.core.ia.p.get r k) ∨
      ¬OutOfBand E cfg (x'.mapper.core.ia.p.get r k) ∨
      x'.mapper.core.ia.p.get r k = x'.mapper.core.ia.pO.get r k) ∧
    (x'.mapper.core.gd.m.get r k = 1 → Varied E cfg.lrsNoise cfg.lrs (x'.mapper.core.ia.m.get r k) ∨
      ¬OutOfBand E cfg (x'.mapper.core.ia.m.get r k) ∨
      x'.mapper.core.ia.m.get r k = x'.mapper.core.ia.mO.get r k) := by
  have hh := cell_due (runs_shape hr) hdo hrd hst hm hd (runs_held hok hi hdo hrd hr)
  refine ⟨fun _ => ?_, fun _ => ?_⟩
  · rcases hh.p r k h1 h2 with h4 | ⟨_, h4 | h4⟩
    · exact Or.inr (Or.inr h4)
    · exact Or.inl h4
    · exact Or.inr (Or.inl h4)
  · rcases hh.m r k h1 h2 with h4 | ⟨_, _, h4 | h4⟩
    · exact Or.inr (Or.inr h4)
    · exact Or.inl h4
    · exact Or.inr (Or.inl h4)

end

/-- Every Gaussian sample is `-9`. -/
def Ex.lowEnv : Env ℚ := { Ex.rdEnv with gauss := fun _ => -9 }

/-- C36 is false if programming varies: the refresh itself can leave a cell outside the tolerance. -/
theorem C36_false_with_noise :
    ∃ x x' r, Runs Ex.lowEnv { Ex.cbCfg .bnn1 with lrsNoise := 1 } [Ex.mv, Ex.mv, Ex.wOnes] x ∧
    xMvm Ex.lowEnv { Ex.cbCfg .bnn1 with lrsNoise := 1 } x Ex.res Ex.vec Ex.mat 2 3 "" = .ok (x', r) ∧
    (x'.mapper.core.gd.p.get 0 0 == 1 && x'.mapper.core.ia.p.get 0 0 == 1
      && decide ((1 : ℚ) < (1 - (Ex.cbCfg .bnn1).tol) * (Ex.cbCfg .bnn1).lrs)) = true :=
  Ex.stepped [Ex.wOnes, Ex.mv, Ex.mv] (fun _ x' _ => x'.mapper.core.gd.p.get 0 0 == 1
    && x'.mapper.core.ia.p.get 0 0 == 1
    && decide ((1 : ℚ) < (1 - (Ex.cbCfg .bnn1).tol) * (Ex.cbCfg .bnn1).lrs)) (by decide +kernel)

section
variable {K : Type} [Field K] [LinearOrder K] [IsStrictOrderedRing K] [FloorRing K]
variable {E : Env K} {cfg : Cfg K} {x x' : Xbar K} {rd rd' : Rd K} {h : List Op}
variable {mat vec res out : Vec Int} {m n r k : Nat} {l : String}

/-! ## C39: read disturb and cycle-to-cycle variation -/

/-- C39, the part that holds: with both effects and no mitigation, a multiplication at which an update is
due leaves the attenuated current in every cell in LRS (first array, and second array of the differential
mappings).  The full claim is that the multiplication sees these currents; that is false, see
`C39_mvm_ignores_disturb` and `C39_false`. -/
theorem C39_stored_currents_partial (hE : ExactArith E) (hok : CfgOk cfg) (hi : cfg.mode.isInt = false)
    (hdo : cfg.digitalOnly = false) (hrd : cfg.readDisturb = true) (hst : cfg.strategy = .off)
    (hr : Runs E cfg h x) (hm : xMvm E cfg x res vec mat m n l = .ok (x', out)) (hd : updateDue cfg x)
    (h1 : r < cfg.R) (h2 : k < cfg.N) :
    (x.mapper.core.gd.p.get r k = 1 → x'.mapper.core.ia.p.get r k =
      cfg.lrs * attenuation E cfg (x.consec + 1) (switched (fun w => encP cfg w 0) h r k)) ∧
    (cfg.mode.isDiff = true → x.mapper.core.gd.m.get r k = 1 → x'.mapper.core.ia.m.get r k =
      cfg.lrs * attenuation E cfg (x.consec + 1) (switched (fun w => encM cfg w 0) h r k)) := by
  have hs := runs_shape hr
  obtain ⟨rd, hx, hsh, hp⟩ := runs_params hrd hr
  obtain ⟨y, hy, hstep⟩ := xMvm_rd hs hdo hrd hm
  obtain ⟨_, _, _, rd', _, _, hu, _⟩ := rdStep_off hsh (hy.rd.trans hx) hst hstep
  rw [hy.consec] at hu
  have hu := hu hd
  obtain ⟨c1, c2⟩ := C33_cycles hok hi hrd hst hr hx h1 h2
  have hgd : y.mapper.core.gd = x.mapper.core.gd := by rw [hy.fixed]
  refine ⟨fun hg => ?_, fun hdf hg => ?_⟩
  · have := hu.p r k
    rw [hgd, if_pos ⟨h1, h2, hg⟩, c1] at this
    obtain ⟨f, f1, f2⟩ := this
    rw [f2, rdFactor_att hE hp f1]
    unfold Env.fmul
    rw [hE.f32]
  · have := hu.m (by rw [hy.shape.isDiff, hdf]) r k
    rw [hgd, if_pos ⟨h1, h2, hg⟩, c2] at this
    obtain ⟨f, f1, f2⟩ := this
    rw [f2, rdFactor_att hE hp f1]
    unfold Env.fmul
    rw [hE.f32]

/-- C39 fails for every crossbar: with cycle-to-cycle variation a multiplication behaves the same
whatever currents the cells of its block carry, so no attenuation of them can be seen. -/
theorem C39_mvm_ignores_disturb {ia : Ia K} (hdo : cfg.digitalOnly = false) (hc : cfg.c2c = true)
    (hO : ia.pO = x.mapper.core.ia.pO ∧ ia.mO = x.mapper.core.ia.mO)
    (hsz : ia.p.rows = x.mapper.core.ia.p.rows ∧ ia.p.cols = x.mapper.core.ia.p.cols ∧
      ia.m.rows = x.mapper.core.ia.m.rows ∧ ia.m.cols = x.mapper.core.ia.m.cols)
    (ho : ∀ r k, ¬(r < m ∧ k < n) → ia.p.get r k = x.mapper.core.ia.p.get r k ∧
      ia.m.get r k = x.mapper.core.ia.m.get r k) :
    xMvm E cfg { x with mapper := { x.mapper with core := { x.mapper.core with ia := ia } } } res vec mat m n l
      = xMvm E cfg x res vec mat m n l :=
  xMvm_blind hdo hc ⟨hO.1.symm, hO.2.symm, hsz.1.symm, hsz.2.1.symm, hsz.2.2.1.symm, hsz.2.2.2.symm,
    fun r k h => (ho r k h).1.symm, fun r k h => (ho r k h).2.symm⟩

end

/-- Read disturb and cycle-to-cycle variation. -/
def Ex.bothCfg (md : Mode) : Cfg ℚ := { Ex.rdCfg md with c2c := true }

/-- C39 is false: the cells carry attenuated currents, yet the multiplication returns what a crossbar
gives that was written a moment ago (11); without cycle-to-cycle variation it returns 7. -/
theorem C39_false :
    (∃ x x' r, Runs Ex.rdEnv (Ex.bothCfg .bnn1) [Ex.mv, Ex.mv, Ex.wOnes] x ∧
      xMvm Ex.rdEnv (Ex.bothCfg .bnn1) x Ex.res Ex.vec Ex.mat 2 3 "" = .ok (x', r) ∧
      (x.mapper.core.ia.p.get 0 0 == 4443509 / 800000 && r.get 0 == 11) = true) ∧
    (∃ x x' r, Runs Ex.rdEnv (Ex.bothCfg .bnn1) [Ex.wOnes] x ∧
      xMvm Ex.rdEnv (Ex.bothCfg .bnn1) x Ex.res Ex.vec Ex.mat 2 3 "" = .ok (x', r) ∧
      (x.mapper.core.ia.p.get 0 0 == 10 && r.get 0 == 11) = true) ∧
    ∃ x x' r, Runs Ex.rdEnv (Ex.rdCfg .bnn1) [Ex.mv, Ex.mv, Ex.wOnes] x ∧
      xMvm Ex.rdEnv (Ex.rdCfg .bnn1) x Ex.res Ex.vec Ex.mat 2 3 "" = .ok (x', r) ∧
      (x.mapper.core.ia.p.get 0 0 == 4443509 / 800000 && r.get 0 == 7) = true :=
  ⟨Ex.stepped [Ex.wOnes, Ex.mv, Ex.mv] (fun x _ r => x.mapper.core.ia.p.get 0 0 == 4443509 / 800000
      && r.get 0 == 11) (by decide +kernel),
    Ex.stepped [Ex.wOnes] (fun x _ r => x.mapper.core.ia.p.get 0 0 == 10 && r.get 0 == 11)
      (by decide +kernel),
    Ex.stepped [Ex.wOnes, Ex.mv, Ex.mv] (fun x _ r => x.mapper.core.ia.p.get 0 0 == 4443509 / 800000
      && r.get 0 == 7) (by decide +kernel)⟩

section
variable {K : Type} [Field K] [LinearOrder K] [IsStrictOrderedRing K] [FloorRing K]
variable {E : Env K} {cfg : Cfg K} {x x' : Xbar K} {rd rd' : Rd K} {h : List Op}
variable {mat vec res out : Vec Int} {m n r k : Nat} {l : String}

/-! ## C54: update frequency -/

/-- C54 with the restriction that is missing in the claim, no cycle-to-cycle variation (`hc2`): under
every mitigation a multiplication at which no update is due leaves all currents as they are.  The full
claim has no `hc2`, which is false (`C54_false_with_c2c`), and says that every accepted
frequency is usable, which is false for 0 (`C54_zero_unusable`). -/
theorem C54_unchanged_partial (hdo : cfg.digitalOnly = false) (hrd : cfg.readDisturb = true)
    (hc2 : cfg.c2c = false) (hr : Runs E cfg h x) (hm : xMvm E cfg x res vec mat m n l = .ok (x', out))
    (hd : ¬updateDue cfg x) : x'.mapper.core = x.mapper.core := by
  have hs := runs_shape hr
  obtain ⟨rd, hx, hsh, hp⟩ := runs_params hrd hr
  obtain ⟨y, hy, hstep⟩ := xMvm_rd hs hdo hrd hm
  have hd : ¬y.consec % cfg.updFreq = 0 := by rw [hy.consec]; exact hd
  rw [← hy.same hc2]
  cases hst : cfg.strategy with
  | off =>
    obtain ⟨_, _, _, rd', _, _, _, h1⟩ := rdStep_off hsh (hy.rd.trans hx) hst hstep
    exact h1 hd
  | software =>
    obtain ⟨_, h1, _⟩ := rdStep_software hsh (hy.rd.trans hx) hst hstep
    rw [h1 hd]
  | cellBased =>
    obtain ⟨_, _, rd1, rd', _, _, h1, _⟩ := rdStep_cell hsh hy.shape (hy.rd.trans hx) hst hstep
    rw [(h1 hd).2]

example : ∃ x x' r, Runs Ex.rdEnv (Ex.rdCfg2 .bnn1) [Ex.mv, Ex.mv, Ex.wOnes] x ∧
    xMvm Ex.rdEnv (Ex.rdCfg2 .bnn1) x Ex.res Ex.vec Ex.mat 2 3 "" = .ok (x', r) ∧
    (x.consec == 2 && x'.mapper.core.ia.p.get 0 0 == 4443509 / 800000) = true :=
  Ex.stepped [Ex.wOnes, Ex.mv, Ex.mv] (fun x x' _ => x.consec == 2
    && x'.mapper.core.ia.p.get 0 0 == 4443509 / 800000) (by decide +kernel)

/-- C54.  An update is due at the multiplications whose number since the last write or software refresh is
divisible by the frequency. -/
theorem C54_due {t : List (Step K)} (ht : Traced E cfg t x) :
    updateDue cfg x ↔ cfg.updFreq ∣ mvmsSinceRenewal t + 1 := by
  unfold updateDue
  rw [traced_consec ht, Nat.dvd_iff_mod_eq_zero]

/-- C54.  With the frequency 0 no multiplication can be carried out. -/
theorem C54_zero_unusable (hdo : cfg.digitalOnly = false) (hrd : cfg.readDisturb = true)
    (hf : cfg.updFreq = 0) (hr : Runs E cfg h x) : xMvm E cfg x res vec mat m n l ≠ .ok (x', out) := by
  intro hm
  have hs := runs_shape hr
  obtain ⟨rd, hx, hsh, hp⟩ := runs_params hrd hr
  obtain ⟨y, hy, hstep⟩ := xMvm_rd hs hdo hrd hm
  cases hst : cfg.strategy with
  | off => exact (rdStep_off hsh (hy.rd.trans hx) hst hstep).1 hf
  | software => exact (rdStep_software hsh (hy.rd.trans hx) hst hstep).1 hf
  | cellBased => exact (rdStep_cell hsh hy.shape (hy.rd.trans hx) hst hstep).1 hf

end

/-- The fault of `C54_zero_unusable` is the division by zero. -/
example : Ex.okAnd (mkXbar Ex.rdEnv { Ex.rdCfg .bnn1 with updFreq := 0 } 0 []) (fun x =>
    Ex.failsWith (xMvm Ex.rdEnv { Ex.rdCfg .bnn1 with updFreq := 0 } x Ex.res Ex.vec Ex.mat 2 3 "") .modZero)
    = true := by decide +kernel

/-- C54 is false with cycle-to-cycle variation: the third multiplication, at which no update is due,
changes the currents back. -/
theorem C54_false_with_c2c :
    ∃ x x' r, Runs Ex.rdEnv { Ex.bothCfg .bnn1 with updFreq := 2 } [Ex.mv, Ex.mv, Ex.wOnes] x ∧
    xMvm Ex.rdEnv { Ex.bothCfg .bnn1 with updFreq := 2 } x Ex.res Ex.vec Ex.mat 2 3 "" = .ok (x', r) ∧
    (x.consec == 2 && x.mapper.core.ia.p.get 0 0 == 4443509 / 800000
      && x'.mapper.core.ia.p.get 0 0 == 10) = true :=
  Ex.stepped [Ex.wOnes, Ex.mv, Ex.mv] (fun x x' _ => x.consec == 2
    && x.mapper.core.ia.p.get 0 0 == 4443509 / 800000 && x'.mapper.core.ia.p.get 0 0 == 10)
    (by decide +kernel)

/-! ## The real functions -/

/-- Real numbers with the real power and exponential functions, and any roundings. -/
noncomputable def realEnv (f32 f64 : ℝ → ℝ) (gauss : Nat → ℝ) (strict : Bool) (junk : Int) : Env ℝ where
  strict := strict
  f32 := f32
  f64 := f64
  pow := fun a e => a ^ e
  exp := Real.exp
  gauss := gauss
  junk := junk

/-- C32.  The conditions of `C32_factor_monotone` hold for the real functions under all monotone roundings
that keep 0 and 1. -/
theorem C32_real_functions {f32 f64 : ℝ → ℝ} (gauss : Nat → ℝ) (strict : Bool) (junk : Int)
    (h32 : Monotone f32) (h64 : Monotone f64) (z32 : f32 0 = 0) (z64 : f64 0 = 0) (o32 : f32 1 = 1)
    (o64 : f64 1 = 1) : RdArith (realEnv f32 f64 gauss strict junk) where
  f32 := h32
  f64 := h64
  f32_zero := z32
  f64_zero := z64
  f32_one := o32
  f64_one := o64
  exp := fun a => (Real.exp_pos a).le
  pow_nonneg := fun _ e h => Real.rpow_nonneg h e
  pow_mono := fun _ _ _ h0 h he => Real.rpow_le_rpow h0 h he
  pow_anti := fun _ _ _ h0 h he => Real.rpow_le_rpow_of_nonpos h0 h (neg_nonpos.2 he)
  pow_one := fun e => Real.one_rpow e

example : RdArith (realEnv _root_.id _root_.id (fun _ => 0) false 0) :=
  C32_real_functions _ _ _ monotone_id monotone_id rfl rfl rfl rfl

end Acs.Props
