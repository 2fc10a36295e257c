import Verif.Lemmas.RdTotal
import Verif.Props.DisturbError
import Verif.Props.AdcNoise

/-! # Sessions under read disturb return (C74) -/

set_option linter.unusedSectionVars false

namespace Acs.Props

open Finset Spec

section
variable {K : Type} [Field K] [LinearOrder K] [IsStrictOrderedRing K] [FloorRing K]
variable {E : Env K} {cfg : Cfg K} {h : List Op} {x x' : Xbar K}
variable {res vec mat out : Vec Int} {m n w : Nat} {ε : K} {l : String} {rg : String → K × K}

/-! ## Ideal converters -/

/-- C74.  Cell-based mitigation: every legal session returns, if no multiplication meets a worn-out cell outside its
block, and every answer is within the bound of C64. -/
theorem C74_cell_based (hA : RdArith E) (hE : ExactArith E) (hok : CfgOk cfg) (hI : Imperfect cfg)
    (hc2 : cfg.c2c = false) (hrd : cfg.readDisturb = true) (hD : DisturbOk cfg) (hst : cfg.strategy = .cellBased)
    (h1 : 0 ≤ cfg.hrs) (h2 : 0 ≤ cfg.lrs) (h0 : 0 ≤ ε) (hg : Quiet cfg ∨ ∀ k, |E.gauss k| ≤ ε)
    (ht : cfg.tol * cfg.lrs ≤ ε) {rng : Nat} {hists : List (String × Hist K)} (hx : mkXbar E cfg rng hists = .ok x)
    {ops : List Op} (hl : LegalOps cfg w [] ops) (hR : NoiseRooms cfg ε ops) (hsp : AllSpared E cfg [] ops) :
    ∃ x' rs, exec E cfg x ops = .ok (x', rs) ∧ AnswersWithin (noiseBound cfg ε) [] ops rs :=
  exec_disturbed_ideal (Q := fun _ => True) hA hE hok hI hc2 hrd hD h0
    (fun _ hr hd => near_cell_based hE hok hI.bin hI.analog hrd hst h1 h2 h0 hg ht hr hd) (.init hx) .nil hl hR
    (EveryMvm.mono (fun _ _ _ _ _ _ _ => trivial) (everyMvm_counts ops)) fun _ => hsp

/-- C74.  Refreshes by the software: every legal session returns, without a condition on the wear. -/
theorem C74_software (hA : RdArith E) (hE : ExactArith E) (hok : CfgOk cfg) (hI : Imperfect cfg)
    (hc2 : cfg.c2c = false) (hrd : cfg.readDisturb = true) (hD : DisturbOk cfg) (hst : cfg.strategy = .software)
    (hfp : 1 ≤ cfg.fp) (h1 : 0 ≤ cfg.hrs) (h2 : 0 ≤ cfg.lrs) (h0 : 0 ≤ ε) (hg : Quiet cfg ∨ ∀ k, |E.gauss k| ≤ ε)
    (ht : cfg.lrs * (1 - E.pow cfg.fp (-decay E cfg.vRead)) ≤ ε)
    {rng : Nat} {hists : List (String × Hist K)} (hx : mkXbar E cfg rng hists = .ok x)
    {ops : List Op} (hl : LegalOps cfg w [] ops) (hR : NoiseRooms cfg ε ops) :
    ∃ x' rs, exec E cfg x ops = .ok (x', rs) ∧ AnswersWithin (noiseBound cfg ε) [] ops rs :=
  exec_disturbed_ideal (Q := fun _ => True) hA hE hok hI hc2 hrd hD h0
    (fun _ hr hd => near_software hA hE hok hI.bin hI.analog hrd hst hfp h1 h2 h0 hg ht hr hd) (.init hx) .nil hl hR
    (EveryMvm.mono (fun _ _ _ _ _ _ _ => trivial) (everyMvm_counts ops)) fun h => by rw [hst] at h; cases h

/-- C74.  No mitigation: every legal session returns, and every answer is within what all reads and writes of the session
can take from the cells. -/
theorem C74_unmitigated (hA : RdArith E) (hE : ExactArith E) (hok : CfgOk cfg) (hI : Imperfect cfg)
    (hc2 : cfg.c2c = false) (hrd : cfg.readDisturb = true) (hD : DisturbOk cfg) (hst : cfg.strategy = .off)
    (h1 : 0 ≤ cfg.hrs) (h2 : 0 ≤ cfg.lrs) (h0 : 0 ≤ ε) (hg : Quiet cfg ∨ ∀ k, |E.gauss k| ≤ ε)
    {ops : List Op} (ht : cfg.lrs * (1 - attenuation E cfg (mvmsIn ops) (writesIn ops)) ≤ ε)
    {rng : Nat} {hists : List (String × Hist K)} (hx : mkXbar E cfg rng hists = .ok x)
    (hl : LegalOps cfg w [] ops) (hR : NoiseRooms cfg ε ops) :
    ∃ x' rs, exec E cfg x ops = .ok (x', rs) ∧ AnswersWithin (noiseBound cfg ε) [] ops rs :=
  exec_disturbed_ideal (Q := fun h => mvmsIn h ≤ mvmsIn ops ∧ writesIn h ≤ writesIn ops) hA hE hok hI hc2 hrd hD h0
    (fun q hr hd => (near_unmitigated' hA hE hok hI.bin hI.analog hrd hst hD.time.le h1 h2 hg ht hr q.1 q.2 hd).2)
    (.init hx) .nil hl hR
    (EveryMvm.mono (fun _ _ _ _ _ _ h => by simpa [mvmsIn, writesIn] using h) (everyMvm_counts ops))
    fun h => by rw [hst] at h; cases h

/-! ## Real converters -/

/-- C74.  Likewise with a real converter.  If the rounding absorbs the tolerance, every session returns the exact
products, however often the crossbar is read. -/
theorem C74_cell_based_converter (hA : RdArith E) (hE : ExactArith E) (hok : CfgOk cfg) (hI : Binary cfg)
    (hc2 : cfg.c2c = false) (hrd : cfg.readDisturb = true) (hD : DisturbOk cfg) (hst : cfg.strategy = .cellBased)
    (h1 : 0 ≤ cfg.hrs) (h2 : 0 ≤ cfg.lrs) (h0 : 0 ≤ ε) (hg : Quiet cfg ∨ ∀ k, |E.gauss k| ≤ ε)
    (ht : cfg.tol * cfg.lrs ≤ ε) {rng : Nat} {hists : List (String × Hist K)} (hx : mkXbar E cfg rng hists = .ok x)
    {ops : List Op} (hl : LegalOps cfg w [] ops) (hC : AllConvert cfg rg [] ops) (hsp : AllSpared E cfg [] ops) :
    ∃ x' rs, exec E cfg x ops = .ok (x', rs) ∧
      AnswersUpTo (fun l => deviationBound cfg (rg l).1 (rg l).2 ε) [] ops rs ∧
      (AllAbsorbed cfg rg ε [] ops → Answers [] ops rs) :=
  exec_disturbed_real (Q := fun _ => True) hA hE hok hI hc2 hrd hD h0
    (fun _ hr hd => near_cell_based hE hok hI.bin hI.analog hrd hst h1 h2 h0 hg ht hr hd) (.init hx) .nil hl hC
    (EveryMvm.mono (fun _ _ _ _ _ _ _ => trivial) (everyMvm_counts ops)) fun _ => hsp

/-- C74.  Refreshes by the software and a real converter. -/
theorem C74_software_converter (hA : RdArith E) (hE : ExactArith E) (hok : CfgOk cfg) (hI : Binary cfg)
    (hc2 : cfg.c2c = false) (hrd : cfg.readDisturb = true) (hD : DisturbOk cfg) (hst : cfg.strategy = .software)
    (hfp : 1 ≤ cfg.fp) (h1 : 0 ≤ cfg.hrs) (h2 : 0 ≤ cfg.lrs) (h0 : 0 ≤ ε) (hg : Quiet cfg ∨ ∀ k, |E.gauss k| ≤ ε)
    (ht : cfg.lrs * (1 - E.pow cfg.fp (-decay E cfg.vRead)) ≤ ε)
    {rng : Nat} {hists : List (String × Hist K)} (hx : mkXbar E cfg rng hists = .ok x)
    {ops : List Op} (hl : LegalOps cfg w [] ops) (hC : AllConvert cfg rg [] ops) :
    ∃ x' rs, exec E cfg x ops = .ok (x', rs) ∧
      AnswersUpTo (fun l => deviationBound cfg (rg l).1 (rg l).2 ε) [] ops rs ∧
      (AllAbsorbed cfg rg ε [] ops → Answers [] ops rs) :=
  exec_disturbed_real (Q := fun _ => True) hA hE hok hI hc2 hrd hD h0
    (fun _ hr hd => near_software hA hE hok hI.bin hI.analog hrd hst hfp h1 h2 h0 hg ht hr hd) (.init hx) .nil hl hC
    (EveryMvm.mono (fun _ _ _ _ _ _ _ => trivial) (everyMvm_counts ops)) fun h => by rw [hst] at h; cases h

/-- C74.  No mitigation and a real converter. -/
theorem C74_unmitigated_converter (hA : RdArith E) (hE : ExactArith E) (hok : CfgOk cfg) (hI : Binary cfg)
    (hc2 : cfg.c2c = false) (hrd : cfg.readDisturb = true) (hD : DisturbOk cfg) (hst : cfg.strategy = .off)
    (h1 : 0 ≤ cfg.hrs) (h2 : 0 ≤ cfg.lrs) (h0 : 0 ≤ ε) (hg : Quiet cfg ∨ ∀ k, |E.gauss k| ≤ ε)
    {ops : List Op} (ht : cfg.lrs * (1 - attenuation E cfg (mvmsIn ops) (writesIn ops)) ≤ ε)
    {rng : Nat} {hists : List (String × Hist K)} (hx : mkXbar E cfg rng hists = .ok x)
    (hl : LegalOps cfg w [] ops) (hC : AllConvert cfg rg [] ops) :
    ∃ x' rs, exec E cfg x ops = .ok (x', rs) ∧
      AnswersUpTo (fun l => deviationBound cfg (rg l).1 (rg l).2 ε) [] ops rs ∧
      (AllAbsorbed cfg rg ε [] ops → Answers [] ops rs) :=
  exec_disturbed_real (Q := fun h => mvmsIn h ≤ mvmsIn ops ∧ writesIn h ≤ writesIn ops) hA hE hok hI hc2 hrd hD h0
    (fun q hr hd => (near_unmitigated' hA hE hok hI.bin hI.analog hrd hst hD.time.le h1 h2 hg ht hr q.1 q.2 hd).2)
    (.init hx) .nil hl hC
    (EveryMvm.mono (fun _ _ _ _ _ _ h => by simpa [mvmsIn, writesIn] using h) (everyMvm_counts ops))
    fun h => by rw [hst] at h; cases h

/-! ## Worn-out cells -/

/-- C74.  The condition on the wear is needed: if an update is due while an unread LRS cell outside the block has no
transition time left, its conductance is `0 / 0`, and the multiplication does not return in the model.  The
program continues with a NaN. -/
theorem C74_unread_worn_cell {rd : Rd K} {r k : Nat} (hE : ExactArith E) (hdo : cfg.digitalOnly = false)
    (hrd : cfg.readDisturb = true) (hst : cfg.strategy = .cellBased) (hr : Runs E cfg h x) (hx : x.rd = some rd)
    (hd : updateDue cfg x) (h1 : r < cfg.R) (h2 : k < cfg.N) (hg : x.mapper.core.gd.p.get r k = 1)
    (h0 : rd.rdP.get r k = 0) (ho : ¬(r < m * cfg.S ∧ k < n)) (ht : transition E cfg.vRead (rd.cycP.get r k) = 0) :
    ∀ x' out, xMvm E cfg x res vec mat m n l ≠ .ok (x', out) := by
  intro x' out hm
  obtain ⟨y, hy, hstep⟩ := xMvm_rd (runs_shape hr) hdo hrd hm
  obtain ⟨rd', e1, hsh, rd0, e2, e3, e4⟩ := runs_params hrd hr
  rw [hx, Option.some_inj] at e1
  subst e1
  obtain ⟨_, _, rd1, _, _, k1, _, k2⟩ := rdStep_cell hsh hy.shape (hy.rd.trans hx) hst hstep
  unfold updateDue at hd
  rw [← hy.consec] at hd
  obtain ⟨c1, rd2, _, hu, _⟩ := k2 hd
  obtain ⟨e5, e6, _⟩ := updateReads_inv k1
  have hc := hu.p r k
  rw [if_pos ⟨h1, h2, by rw [hy.fixed]; exact hg⟩, e6, if_neg ho, h0] at hc
  obtain ⟨f, hf, _⟩ := hc
  have e7 : rd1.cycP = rd.cycP := by rw [e5]
  have e8 : rd1.expTt = 1 / decay E cfg.vRead := by
    rw [e5]
    exact e3.trans (mkRd_exact hE e2).2.1
  unfold rdFactor at hf
  rw [rdTime_exact hE e8, rdStress_exact hE, e7, ht] at hf
  simp at hf

end

/-! ## Concrete cases -/

theorem Ex'.disturbed_spared {E : Env ℚ} {c : Cfg ℚ} : AllSpared E c [] Ex'.disturbed := by
  refine ⟨.inr ?_, .inr ?_, .inr ?_, trivial⟩ <;>
  · intro i j hij
    simp only [lastWrite, Ex.w, Ex.mv] at hij
    by_contra hc
    rw [if_neg hc] at hij
    cases hij

/-- The hypotheses of `C74_cell_based`. -/
example {x : Xbar ℚ} (hx : mkXbar Ex.rdEnv (Ex.cbCfg .bnn1) 0 [] = .ok x) :
    ∃ x' rs, exec Ex.rdEnv (Ex.cbCfg .bnn1) x Ex'.disturbed = .ok (x', rs) ∧
      AnswersWithin (noiseBound (Ex.cbCfg .bnn1) 5) [] Ex'.disturbed rs :=
  C74_cell_based (cfg := Ex.cbCfg .bnn1) (w := 3) Ex.rdEnv_arith Ex.rdEnv_exact (Ex.cbCfg_ok _)
    ⟨rfl, rfl, rfl, rfl, rfl, by decide +kernel⟩ rfl rfl ⟨by decide, by decide +kernel, fun _ => by decide⟩ rfl
    (by decide +kernel) (by decide +kernel) (by decide +kernel)
    (.inl fun _ => by decide +kernel) (by decide +kernel) hx
    (Ex'.disturbed_legal _ (Ex.accepted .bnn1) (Ex.legal_mat .bnn1) (Ex.sum_room .bnn1)
      (Ex.legal_vec .bnn1 (by decide)) (Ex.room .bnn1))
    (Ex'.disturbed_rooms (Ex.two (by decide +kernel) (by decide +kernel))) Ex'.disturbed_spared

/-- The hypotheses of `C74_software`. -/
example {x : Xbar ℚ} (hx : mkXbar Ex.rdEnv (Ex.swCfg .bnn1) 0 [] = .ok x) :
    ∃ x' rs, exec Ex.rdEnv (Ex.swCfg .bnn1) x Ex'.disturbed = .ok (x', rs) ∧
      AnswersWithin (noiseBound (Ex.swCfg .bnn1) 5) [] Ex'.disturbed rs :=
  C74_software (cfg := Ex.swCfg .bnn1) (w := 3) Ex.rdEnv_arith Ex.rdEnv_exact (Ex.swCfg_ok _)
    ⟨rfl, rfl, rfl, rfl, rfl, by decide +kernel⟩ rfl rfl ⟨by decide, by decide +kernel, fun _ => by decide⟩ rfl
    (by decide +kernel) (by decide +kernel) (by decide +kernel) (by decide +kernel)
    (.inl fun _ => by decide +kernel) (by decide +kernel) hx
    (Ex'.disturbed_legal _ (Ex.accepted .bnn1) (Ex.legal_mat .bnn1) (Ex.sum_room .bnn1)
      (Ex.legal_vec .bnn1 (by decide)) (Ex.room .bnn1))
    (Ex'.disturbed_rooms (Ex.two (by decide +kernel) (by decide +kernel)))

/-- The hypotheses of `C74_unmitigated`. -/
example {x : Xbar ℚ} (hx : mkXbar Ex.rdEnv (Ex.rdCfg .bnn1) 0 [] = .ok x) :
    ∃ x' rs, exec Ex.rdEnv (Ex.rdCfg .bnn1) x Ex'.disturbed = .ok (x', rs) ∧
      AnswersWithin (noiseBound (Ex.rdCfg .bnn1) 7) [] Ex'.disturbed rs :=
  C74_unmitigated (cfg := Ex.rdCfg .bnn1) (w := 3) Ex.rdEnv_arith Ex.rdEnv_exact (Ex.rdCfg_ok _)
    ⟨rfl, rfl, rfl, rfl, rfl, by decide +kernel⟩ rfl rfl ⟨by decide, by decide +kernel, fun _ => by decide⟩ rfl
    (by decide +kernel) (by decide +kernel) (by decide +kernel)
    (.inl fun _ => by decide +kernel) (by decide +kernel) hx
    (Ex'.disturbed_legal _ (Ex.accepted .bnn1) (Ex.legal_mat .bnn1) (Ex.sum_room .bnn1)
      (Ex.legal_vec .bnn1 (by decide)) (Ex.room .bnn1))
    (Ex'.disturbed_rooms (Ex.two (by decide +kernel) (by decide +kernel)))

/-- The hypotheses of `C74_cell_based_converter`: the products are exact. -/
example {x : Xbar ℚ} (hx : mkXbar Ex.rdEnv (Ex'.worn .cellBased false) 0 [] = .ok x) :
    ∃ x' rs, exec Ex.rdEnv (Ex'.worn .cellBased false) x Ex'.disturbed = .ok (x', rs) ∧ Answers [] Ex'.disturbed rs := by
  obtain ⟨x', rs, h1, _, h2⟩ := C74_cell_based_converter (cfg := Ex'.worn .cellBased false) (w := 3) (ε := 1 / 5)
    (rg := fun _ => (-15, 15)) Ex.rdEnv_arith
    Ex.rdEnv_exact (Ex.acfg_ok .bnn1) (Ex'.worn_bin _ _) rfl rfl ⟨by decide, by decide +kernel, fun _ => by decide⟩ rfl
    (by decide +kernel) (by decide +kernel) (by decide +kernel) (.inl fun _ => by decide +kernel) (by decide +kernel) hx
    (Ex'.worn_legal _ _) (Ex'.disturbed_converts _ _) Ex'.disturbed_spared
  exact ⟨x', rs, h1, h2 (Ex'.disturbed_absorbed _ _)⟩

/-- The hypotheses of `C74_software_converter`. -/
example {x : Xbar ℚ} (hx : mkXbar Ex.rdEnv (Ex'.worn .software true) 0 [] = .ok x) :
    ∃ x' rs, exec Ex.rdEnv (Ex'.worn .software true) x Ex'.disturbed = .ok (x', rs) ∧ Answers [] Ex'.disturbed rs := by
  obtain ⟨x', rs, h1, _, h2⟩ := C74_software_converter (cfg := Ex'.worn .software true) (w := 3) (ε := 1 / 5)
    (rg := fun _ => (-15, 15)) Ex.rdEnv_arith
    Ex.rdEnv_exact (Ex.acfg_ok .bnn1) (Ex'.worn_bin _ _) rfl rfl ⟨by decide, by decide +kernel, fun _ => by decide⟩ rfl
    (by decide +kernel) (by decide +kernel) (by decide +kernel) (by decide +kernel) (.inl fun _ => by decide +kernel)
    (by decide +kernel) hx (Ex'.worn_legal _ _) (Ex'.disturbed_converts _ _)
  exact ⟨x', rs, h1, h2 (Ex'.disturbed_absorbed _ _)⟩

/-- The hypotheses of `C74_unmitigated_converter`. -/
example {x : Xbar ℚ} (hx : mkXbar Ex.rdEnv (Ex'.worn .off false) 0 [] = .ok x) :
    ∃ x' rs, exec Ex.rdEnv (Ex'.worn .off false) x Ex'.disturbed = .ok (x', rs) ∧
      AnswersUpTo (fun _ => deviationBound (Ex'.worn .off false) (-15) 15 4) [] Ex'.disturbed rs := by
  obtain ⟨x', rs, h1, h2, _⟩ := C74_unmitigated_converter (cfg := Ex'.worn .off false) (w := 3) (ε := 4)
    (rg := fun _ => (-15, 15)) Ex.rdEnv_arith
    Ex.rdEnv_exact (Ex.acfg_ok .bnn1) (Ex'.worn_bin _ _) rfl rfl ⟨by decide, by decide +kernel, fun _ => by decide⟩ rfl
    (by decide +kernel) (by decide +kernel) (by decide +kernel) (.inl fun _ => by decide +kernel)
    (by decide +kernel) hx (Ex'.worn_legal _ _) (Ex'.disturbed_converts _ _)
  exact ⟨x', rs, h1, h2⟩

namespace Ex'

/-- As `Ex.rdEnv`, but cells wear out in the second cycle. -/
def frailEnv : Env ℚ := { Ex.rdEnv with
  pow := fun a e => if e < 0 then 1 / a else if e = 0 then 1 else if a ≤ 1 then a else 1000 * a }

theorem frailEnv_exact : ExactArith frailEnv := ⟨fun _ => rfl, fun _ => rfl⟩

theorem frailEnv_arith : RdArith frailEnv where
  f32 := fun _ _ h => h
  f64 := fun _ _ h => h
  f32_zero := rfl
  f64_zero := rfl
  f32_one := rfl
  f64_one := rfl
  exp := fun _ => zero_le_one
  pow_nonneg := fun a e h => by
    show 0 ≤ (if e < 0 then 1 / a else if e = 0 then 1 else if a ≤ 1 then a else 1000 * a)
    split_ifs <;> positivity
  pow_mono := fun a b e h0 h he => by
    show (if e < 0 then 1 / a else if e = 0 then 1 else if a ≤ 1 then a else 1000 * a) ≤
      (if e < 0 then 1 / b else if e = 0 then 1 else if b ≤ 1 then b else 1000 * b)
    rw [if_neg (not_lt.2 he), if_neg (not_lt.2 he)]
    split_ifs <;> linarith
  pow_anti := fun a b e h0 h he => by
    show (if -e < 0 then 1 / b else if -e = 0 then 1 else if b ≤ 1 then b else 1000 * b) ≤
      (if -e < 0 then 1 / a else if -e = 0 then 1 else if a ≤ 1 then a else 1000 * a)
    rcases he.eq_or_lt with rfl | he
    · simp
    · rw [if_pos (by linarith), if_pos (by linarith)]
      exact one_div_le_one_div_of_le h0 h
  pow_one := fun e => by
    show (if e < 0 then 1 / 1 else if e = 0 then 1 else if (1 : ℚ) ≤ 1 then 1 else 1000 * 1) = (1 : ℚ)
    split_ifs <;> simp_all

/-- Two cycles of every cell and a multiplication of a part of what is stored. -/
def frail : List Op := [Ex.wOnes, Ex.wNegs, Ex.wOnes, Ex.wNegs, Ex.wOnes]

end Ex'

/-- The hypotheses of `C74_unread_worn_cell`. -/
example : ∃ x rd, Runs Ex'.frailEnv (Ex.cbCfg .bnn1) Ex'.frail.reverse x ∧ x.rd = some rd ∧
    updateDue (Ex.cbCfg .bnn1) x ∧ x.mapper.core.gd.p.get 1 2 = 1 ∧ rd.rdP.get 1 2 = 0 ∧
    ¬(1 < 1 * (Ex.cbCfg .bnn1).S ∧ 2 < 1) ∧ transition Ex'.frailEnv (Ex.cbCfg .bnn1).vRead (rd.cycP.get 1 2) = 0 := by
  obtain ⟨x, h1, h2⟩ := Ex.played (E := Ex'.frailEnv) (c := Ex.cbCfg .bnn1) Ex'.frail
    (fun x => match x.rd with
      | some rd => decide ((x.consec + 1) % (Ex.cbCfg .bnn1).updFreq = 0 ∧ x.mapper.core.gd.p.get 1 2 = 1 ∧
          rd.rdP.get 1 2 = 0 ∧ transition Ex'.frailEnv (Ex.cbCfg .bnn1).vRead (rd.cycP.get 1 2) = 0)
      | none => false) (by decide +kernel)
  cases hx : x.rd with
  | none => rw [hx] at h2; cases h2
  | some rd =>
    rw [hx] at h2
    obtain ⟨a, b, c, d⟩ := of_decide_eq_true h2
    exact ⟨x, rd, h1, hx, a, b, c, by decide, d⟩

/-- C74.  So the claim is false for cell-based mitigation without that condition: a legal session of six calls. -/
theorem C74_false_when_worn : ∃ (E : Env ℚ) (cfg : Cfg ℚ) (x : Xbar ℚ) (ops : List Op), RdArith E ∧ ExactArith E ∧
    CfgOk cfg ∧ Imperfect cfg ∧ cfg.c2c = false ∧ cfg.readDisturb = true ∧ DisturbOk cfg ∧ Quiet cfg ∧
    0 ≤ cfg.hrs ∧ 0 ≤ cfg.lrs ∧ 0 ≤ cfg.tol ∧ mkXbar E cfg 0 [] = .ok x ∧ LegalOps cfg 3 [] ops ∧
    exec E cfg x ops = .error .nonfinite := by
  obtain ⟨x, h1, h2⟩ := Ex.okAnd_spec (x := mkXbar Ex'.frailEnv (Ex.cbCfg .bnn1) 0 [])
    (p := fun x => Ex.failsWith (exec Ex'.frailEnv (Ex.cbCfg .bnn1) x (Ex'.frail ++ [.mvm Ex.res Ex.vec Ex.mat 1 3 ""]))
      .nonfinite) (by decide +kernel)
  refine ⟨_, Ex.cbCfg .bnn1, x, _, Ex'.frailEnv_arith, Ex'.frailEnv_exact, Ex.cbCfg_ok _,
    ⟨rfl, rfl, rfl, rfl, rfl, by decide +kernel⟩, rfl, rfl, ⟨by decide, by decide +kernel, fun _ => by decide⟩,
    fun _ => by decide +kernel, by decide +kernel, by decide +kernel, by decide +kernel, h1, ?_, Ex.failsWith_spec h2⟩
  have ho : LegalMat (Ex.cbCfg .bnn1) (entry Ex.ones 3) 2 3 :=
    Ex.block (P := fun i j => LegalW (Ex.cbCfg .bnn1) (entry Ex.ones 3 i j)) fun i j => by
      left; revert i j; decide
  have hn : LegalMat (Ex.cbCfg .bnn1) (entry Ex.negs 3) 2 3 :=
    Ex.block (P := fun i j => LegalW (Ex.cbCfg .bnn1) (entry Ex.negs 3 i j)) fun i j => by
      right; revert i j; decide
  have a2 : Accepted (Ex.cbCfg .bnn1) 2 3 := Ex.accepted .bnn1
  have a1 : Accepted (Ex.cbCfg .bnn1) 1 3 := ⟨by decide, by decide, by decide⟩
  refine ⟨⟨a2, by decide, ho, Ex.sum_room .bnn1, fun _ => rfl⟩, ⟨a2, by decide, hn, Ex.sum_room .bnn1, fun _ => rfl⟩,
    ⟨a2, by decide, ho, Ex.sum_room .bnn1, fun _ => rfl⟩, ⟨a2, by decide, hn, Ex.sum_room .bnn1, fun _ => rfl⟩,
    ⟨a2, by decide, ho, Ex.sum_room .bnn1, fun _ => rfl⟩,
    ⟨a1, by decide, by decide, Ex.legal_vec .bnn1 (by decide), fun i hi => Ex.room .bnn1 i (by omega), ?_, fun _ => rfl⟩,
    trivial⟩
  intro i j hi hj
  have : i < 2 := by omega
  simp [lastWrite, Ex.wOnes, this, hj]

end Acs.Props
