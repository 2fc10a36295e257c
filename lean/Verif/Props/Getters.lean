import Verif.Lemmas.GetInv
import Verif.Lemmas.ApplyDoc
import Verif.Props.Currents
import Verif.Props.Digital
import Verif.Props.EndToEnd
import Verif.Props.Counters
import Verif.Props.Wear

/-! # Reading back the state of the crossbar (C71) -/

set_option linter.unusedSectionVars false

namespace Acs.Props

open Spec Finset

section
variable {K α : Type} [Field K] [LinearOrder K] [IsStrictOrderedRing K] [FloorRing K]
variable {E : Env K} {w : World K} {hs : List Op} {x : Xbar K}

/-- C71.  The arrays of cell states that Python sees have one row per cell row and one column per input, and
show for every cell the state that the weight written last programs (zero for a cell never written). -/
theorem C71_states (h : Session E hs w) (hok : CfgOk w.cfg)
    (hv : ∀ i j v, lastWrite hs i j = some v → LegalW w.cfg v) (fresh fresh' : Nat → Nat → Nat) :
    ∃ P M, getGdPPb fresh w = .ok P ∧ getGdMPb fresh' w = .ok M ∧
      (P.rows = w.cfg.M * w.cfg.split.length ∧ P.cols = w.cfg.N ∧
        ∀ r j, r < P.rows → j < P.cols → (P.get r j : Int) = heldP w.cfg hs r j) ∧
      M.rows = w.cfg.M * w.cfg.split.length ∧ M.cols = w.cfg.N ∧
        ∀ r j, r < M.rows → j < M.cols → (M.get r j : Int) = heldM w.cfg hs r j := by
  obtain ⟨hi, x, hx⟩ := session_inv h
  have hxs := hi.xbar x hx.xbar
  have hc := hx.cells _ (SameStruct.refl _) hok
  have hR := session_rows h hok
  have u32 : ∀ z : Int, 0 ≤ z → z < 4294967296 → ((toU32 z : Nat) : Int) = z := fun z h0 h1 => by
    unfold toU32; omega
  obtain ⟨P, p1, p2, p3, p4⟩ := getPb_ok (f := Xbar.getGdP) fresh toU32 hx.xbar rfl hxs.core.gd.p
  obtain ⟨M, m1, m2, m3, m4⟩ := getPb_ok (f := Xbar.getGdM) fresh' toU32 hx.xbar rfl hxs.core.gd.m
  refine ⟨P, M, p1, m1, ⟨p2, p3 hR, fun r j hr hj => ?_⟩, m2, m3 hR, fun r j hr hj => ?_⟩
  · rw [p4 r j (by rwa [p2] at hr) (by rwa [p3 hR] at hj), hc.p]
    unfold heldP
    cases hl : lastWrite hs (rowOf w.cfg r).1 j with
    | none => rfl
    | some v =>
      have := (enc_small hok (hv _ _ _ hl) (rowOf w.cfg r).2).1
      exact u32 _ this.1 this.2
  · rw [m4 r j (by rwa [m2] at hr) (by rwa [m3 hR] at hj), hc.m]
    unfold heldM
    cases hl : lastWrite hs (rowOf w.cfg r).1 j with
    | none => rfl
    | some v =>
      have := (enc_small hok (hv _ _ _ hl) (rowOf w.cfg r).2).2
      exact u32 _ this.1 this.2

/-- C71.  The matrix that was written can be recovered from the two arrays. -/
theorem C71_weights (h : Session E hs w) (hok : CfgOk w.cfg)
    (hv : ∀ i j v, lastWrite hs i j = some v → LegalW w.cfg v) {fresh fresh' : Nat → Nat → Nat} {P M : Mat Nat}
    (hP : getGdPPb fresh w = .ok P) (hM : getGdMPb fresh' w = .ok M) {i j : Nat} {v : Int}
    (hw : lastWrite hs i j = some v) (hi : i < w.cfg.M) (hj : j < w.cfg.N) : decode w.cfg P M i j = v := by
  obtain ⟨P', M', h1, h2, ⟨h3, h4, h5⟩, h6, h7, h8⟩ := C71_states h hok hv fresh fresh'
  cases ok_inj.1 (h1.symm.trans hP)
  cases ok_inj.1 (h2.symm.trans hM)
  refine decode_enc hok (hv i j v hw) hi (fun r hr hri => ?_) fun r hr hri => ?_
  · rw [h5 r j (by rw [h3]; exact hr) (by rw [h4]; exact hj)]
    unfold heldP
    rw [hri, hw]
  · rw [h8 r j (by rw [h6]; exact hr) (by rw [h7]; exact hj)]
    unfold heldM
    rw [hri, hw]

/-- C71.  The arrays of currents show the currents of all cells. -/
theorem C71_currents (h : Session E hs w) (hok : CfgOk w.cfg) (fresh fresh' : Nat → Nat → K) :
    ∃ x P M, w.xbar = some x ∧ getIaPPb fresh w = .ok P ∧ getIaMPb fresh' w = .ok M ∧
      Shows P (w.cfg.M * w.cfg.split.length) w.cfg.N x.mapper.core.ia.p.get ∧
      Shows M (w.cfg.M * w.cfg.split.length) w.cfg.N x.mapper.core.ia.m.get := by
  obtain ⟨hi, x, hx⟩ := session_inv h
  have hxs := hi.xbar x hx.xbar
  have hR := session_rows h hok
  obtain ⟨P, p1, p2, p3, p4⟩ := getPb_ok (f := Xbar.getIaP) fresh id hx.xbar rfl hxs.core.ia.p
  obtain ⟨M, m1, m2, m3, m4⟩ := getPb_ok (f := Xbar.getIaM) fresh' id hx.xbar rfl hxs.core.ia.m
  exact ⟨x, P, M, hx.xbar, p1, m1, ⟨p2, p3 hR, p4⟩, m2, m3 hR, m4⟩

/-- C71.  In exact arithmetic, without variation and read disturb, they are the nominal currents of the states
that the weights written last program. -/
theorem C71_nominal (hE : ExactArith E) (h : Settled E hs w) (hs' : Session E hs w) (hok : CfgOk w.cfg)
    (hdo : w.cfg.digitalOnly = false) (hc2 : w.cfg.c2c = false) (hrd : w.cfg.readDisturb = false)
    (hq : Quiet w.cfg) (fresh fresh' : Nat → Nat → K) :
    ∃ P M, getIaPPb fresh w = .ok P ∧ getIaMPb fresh' w = .ok M ∧
      Shows P (w.cfg.M * w.cfg.split.length) w.cfg.N (fun r j => nominal w.cfg r (heldP w.cfg hs r j)) ∧
      Shows M (w.cfg.M * w.cfg.split.length) w.cfg.N (fun r j => nominal w.cfg r (heldM w.cfg hs r j)) := by
  obtain ⟨x, P, M, hx, h1, h2, ⟨h3, h4, h5⟩, h6, h7, h8⟩ := C71_currents hs' hok fresh fresh'
  obtain ⟨x', hx', hr⟩ := C58_session_is_run h
  rw [hx] at hx'
  cases hx'
  have hc := C05_cells_are_last_write hok hr
  have hn := C15_current_is_nominal hE hok hdo hc2 hrd hq hr
  refine ⟨P, M, h1, h2, ⟨h3, h4, fun r j hr' hj => ?_⟩, h6, h7, fun r j hr' hj => ?_⟩
  · rw [h5 r j hr' hj, (hn r j).1.1, (hc r j).1]
    rfl
  · rw [h8 r j hr' hj, (hn r j).2.1, (hc r j).2]
    rfl

/-- C71.  With read disturb, the arrays of counters show the counters of all cells. -/
theorem C71_cell_counters (h : Session E hs w) (hok : CfgOk w.cfg) (hrd : w.cfg.readDisturb = true)
    (f₁ f₂ f₃ f₄ : Nat → Nat → Nat) :
    ∃ x rd A B C D, w.xbar = some x ∧ x.rd = some rd ∧ getCycPPb f₁ w = .ok A ∧ getCycMPb f₂ w = .ok B ∧
      getReadsPPb f₃ w = .ok C ∧ getReadsMPb f₄ w = .ok D ∧
      Shows A (w.cfg.M * w.cfg.split.length) w.cfg.N rd.cycP.get ∧
      Shows B (w.cfg.M * w.cfg.split.length) w.cfg.N rd.cycM.get ∧
      Shows C (w.cfg.M * w.cfg.split.length) w.cfg.N rd.rdP.get ∧
      Shows D (w.cfg.M * w.cfg.split.length) w.cfg.N rd.rdM.get := by
  obtain ⟨hi, x, hx⟩ := session_inv h
  obtain ⟨rd, hr, hsh⟩ := (hi.xbar x hx.xbar).rd hrd
  have hR := session_rows h hok
  have hg : ∀ f : Rd K → Mat Nat, Xbar.withRd f x = .ok (f rd) := fun f => by
    unfold Xbar.withRd
    rw [hr]
  obtain ⟨A, a1, a2, a3, a4⟩ := getPb_ok f₁ id hx.xbar (hg Rd.cycP) hsh.cycP
  obtain ⟨B, b1, b2, b3, b4⟩ := getPb_ok f₂ id hx.xbar (hg Rd.cycM) hsh.cycM
  obtain ⟨C, c1, c2, c3, c4⟩ := getPb_ok f₃ id hx.xbar (hg Rd.rdP) hsh.rdP
  obtain ⟨D, d1, d2, d3, d4⟩ := getPb_ok f₄ id hx.xbar (hg Rd.rdM) hsh.rdM
  exact ⟨x, rd, A, B, C, D, hx.xbar, hr, a1, b1, c1, d1, ⟨a2, a3 hR, a4⟩, ⟨b2, b3 hR, b4⟩, ⟨c2, c3 hR, c4⟩,
    d2, d3 hR, d4⟩

/-- C71.  The two operation counters count the calls served since the crossbar was built, also across updates
that keep it. -/
theorem C71_operations (h : Session E hs w) :
    getter Xbar.getWrites w = .ok (writesIn hs) ∧ getter Xbar.getMvms w = .ok (mvmsIn hs) := by
  obtain ⟨x, hx, h1, h2⟩ := session_counts h
  unfold getter
  rw [hx]
  exact ⟨by rw [← h1]; rfl, by rw [← h2]; rfl⟩

/-- C71.  The other three counters are the multiplications since the latest write or refresh by the software, the
number of these refreshes and, with read disturb, the number of cells refreshed by either mitigation. -/
theorem C71_refreshes (h : Settled E hs w) : ∃ x t, w.xbar = some x ∧ calls t = hs ∧ Traced E w.cfg t x ∧
    getter Xbar.getReadNum w = .ok (mvmsSinceRenewal t) ∧ getter Xbar.getRefX w = .ok (times softRefresh t) ∧
    (CfgOk w.cfg → w.cfg.readDisturb = true → getter Xbar.getRefC w = .ok (allRefreshes E w.cfg t)) ∧
    (w.cfg.readDisturb = false → getter Xbar.getRefC w = .ok 0) := by
  obtain ⟨x, hx, hr⟩ := C58_session_is_run h
  obtain ⟨t, ht, htr⟩ := runs_traced hr
  have key : ∀ f : Xbar K → C Nat, getter f w = f x := fun f => by
    unfold getter
    rw [hx]
  obtain ⟨h1, h2⟩ := C30_consecutive htr
  refine ⟨x, t, hx, ht, htr, ?_, ?_, fun hok hrd => ?_, fun hrd => ?_⟩
  · rw [key, ← h1]; rfl
  · rw [key, ← h2]; rfl
  · rw [key, ← C73_refresh_counter hok hrd htr]; rfl
  · rw [key, Xbar.getRefC, C73_never (.inr (.inl hrd)) hr]

/-- C71.  The C interface hands out the same cell states, with their number, as long as it fits into 32 bits. -/
theorem C71_size (h : Session E hs w) (hok : CfgOk w.cfg)
    (hb : w.cfg.M * w.cfg.split.length * w.cfg.N < 4294967296) :
    ∃ x, w.xbar = some x ∧
      getC true Xbar.getGdP w = .ok (some x.mapper.core.gd.p, w.cfg.M * w.cfg.split.length * w.cfg.N) ∧
      getC true Xbar.getGdM w = .ok (some x.mapper.core.gd.m, w.cfg.M * w.cfg.split.length * w.cfg.N) ∧
      getC true Xbar.getIaP w = .ok (some x.mapper.core.ia.p, w.cfg.M * w.cfg.split.length * w.cfg.N) ∧
      getC true Xbar.getIaM w = .ok (some x.mapper.core.ia.m, w.cfg.M * w.cfg.split.length * w.cfg.N) := by
  obtain ⟨hi, x, hx⟩ := session_inv h
  have hxs := (hi.xbar x hx.xbar).core
  have hR := session_rows h hok
  have key : ∀ {α : Type} (f : Xbar K → C (Mat α)) (A : Mat α), f x = .ok A → A.Is w.cfg.R w.cfg.N →
      getC true f w = .ok (some A, w.cfg.M * w.cfg.split.length * w.cfg.N) := fun f A hf hA => by
    unfold getC getter
    rw [if_pos rfl, hx.xbar]
    dsimp only
    rw [hf, ok_bind, if_neg (by rw [hA.1]; omega), numElems_eq, hA.1, hA.2]
    unfold Cfg.R Cfg.S
    rw [Nat.mod_eq_of_lt hb]
  exact ⟨x, hx.xbar, key _ _ rfl hxs.gd.p, key _ _ rfl hxs.gd.m, key _ _ rfl hxs.ia.p, key _ _ rfl hxs.ia.m⟩

/-- C71.  The C getters end the program if the caller passes no place for the size. -/
theorem C71_no_size (f : Xbar K → C (Mat α)) : getC false f w = .error .exited := rfl

/-- C71.  Without a crossbar no getter returns: the C and Python getters end the program, the C++ getters
dereference a null pointer. -/
theorem C71_unloaded (hx : w.xbar = none) (f : Xbar K → C α) :
    getter f w = .error .exited ∧ getterCpp f w = .error .nullDeref := by
  unfold getter getterCpp
  rw [hx]
  exact ⟨rfl, rfl⟩

/-- C71.  Without read disturb the getters of its counters end the program (the message announces "empty/default
values"). -/
theorem C71_without_disturb (hx : w.xbar = some x) (hr : x.rd = none) (f : Rd K → α) :
    getter (Xbar.withRd f) w = .error .exited := by
  unfold getter
  rw [hx]
  dsimp only
  unfold Xbar.withRd
  rw [hr]

end

/-! ## Instances -/

namespace Ex'

/-- Load a document, write a matrix and test the state. -/
theorem wrote (E : Env ℚ) (j : Json ℚ) (mat : Vec Int) (c : Cfg ℚ) (p : World ℚ → Bool)
    (h : Ex.goes (setConfig E (.good j) world0) (fun w => Ex.goes (cpyMtrx E mat (2 : Nat) (3 : Nat) w) fun q =>
      decide (q.2 = 0) && (decide (q.1.cfg = c) && p q.1)) = true) :
    ∃ w, Settled E [.write mat 2 3] w ∧ Session E [.write mat 2 3] w ∧ w.cfg = c ∧ p w = true := by
  obtain ⟨w, h1, h2⟩ := Ex.goes_spec h
  obtain ⟨⟨w', k⟩, h3, h4⟩ := Ex.goes_spec h2
  rw [Bool.and_eq_true, Bool.and_eq_true, decide_eq_true_iff, decide_eq_true_iff] at h4
  obtain ⟨rfl, h5, h6⟩ := h4
  exact ⟨w', .write (.load h1) (by decide) h3, .write (.load h1) (by decide) h3, h5, h6⟩

end Ex'

/-- The hypotheses of `C71_states`, `C71_weights`, `C71_operations` and `C71_size`: the weight `-7` is read back
from the arrays of cell states. -/
example : ∃ w P M, Session Ex.env [.write Ex.matI 2 3] w ∧ getGdPPb (fun _ _ => 7) w = .ok P ∧
    getGdMPb (fun _ _ => 7) w = .ok M ∧ decode w.cfg P M 0 1 = -7 ∧
    getter Xbar.getWrites w = .ok 1 ∧ getter Xbar.getMvms w = .ok 0 ∧
    ∃ A, getC true Xbar.getGdP w = .ok (A, 12) := by
  obtain ⟨w, _, h1, hc, _⟩ := Ex'.wrote Ex.env (Ex.digital .iOffsWDiff) Ex.matI (Ex'.digitalCfg .iOffsWDiff)
    (fun _ => true) (by decide +kernel)
  have h2 : CfgOk w.cfg := by rw [hc]; exact Ex'.digital_ok _
  have h4 : ∀ i j v, lastWrite [.write Ex.matI 2 3] i j = some v → LegalW w.cfg v := fun i j v hv => by
    rw [hc]
    simp only [lastWrite] at hv
    split at hv
    · next hij => rw [← Option.some.inj hv]; exact Ex.legal_matI i j hij.1 hij.2
    · cases hv
  obtain ⟨P, M, h5, h6, _⟩ := C71_states h1 h2 h4 (fun _ _ => 7) (fun _ _ => 7)
  obtain ⟨x, _, h7, _⟩ := C71_size h1 h2 (by rw [hc]; decide)
  refine ⟨w, P, M, h1, h5, h6, C71_weights h1 h2 h4 h5 h6 rfl (by rw [hc]; decide) (by rw [hc]; decide),
    (C71_operations h1).1, (C71_operations h1).2, some x.mapper.core.gd.p, ?_⟩
  rw [h7, hc]
  rfl

/-- The hypotheses of `C71_currents` and `C71_nominal`. -/
example : ∃ w P, Session Ex.env [.write Ex.mat 2 3] w ∧ getIaPPb (fun _ _ => 0) w = .ok P ∧
    P.get 0 0 = 10 ∧ P.get 0 1 = 5 := by
  obtain ⟨w, h0, h1, hc, _⟩ := Ex'.wrote Ex.env (Ex.analog .tnn3) Ex.mat (Ex'.loaded .tnn3 10 0) (fun _ => true)
    (by decide +kernel)
  obtain ⟨P, _, h2, _, ⟨_, _, h3⟩, _⟩ := C71_nominal Ex.env_exact h0 h1 (by rw [hc]; exact Ex.cfg_ok .tnn3)
    (by rw [hc]; rfl) (by rw [hc]; rfl) (by rw [hc]; rfl) (by rw [hc]; exact Ex.quiet .tnn3) (fun _ _ => 0) (fun _ _ => 0)
  refine ⟨w, P, h1, h2, ?_, ?_⟩
  · rw [h3 0 0 (by rw [hc]; decide) (by rw [hc]; decide), hc]
    decide +kernel
  · rw [h3 0 1 (by rw [hc]; decide) (by rw [hc]; decide), hc]
    decide +kernel

/-- The hypotheses of `C71_cell_counters`. -/
example : ∃ w A, Session Ex.env [.write Ex.mat 2 3] w ∧ getCycPPb (fun _ _ => 7) w = .ok A ∧ A.rows = 2 := by
  obtain ⟨w, h1, h2⟩ := Ex.goes_spec (x := setConfig Ex.env (.good (Ex.disturb .bnn1)) world0)
    (p := fun w => Ex.goes (cpyMtrx Ex.env Ex.mat (2 : Nat) (3 : Nat) w) fun q => decide (q.2 = 0 ∧
      q.1.cfg.readDisturb = true ∧ q.1.cfg.M = 2 ∧ q.1.cfg.split = [0] ∧ q.1.cfg.mode = .bnn1)) (by decide +kernel)
  obtain ⟨⟨w', k⟩, h3, h4⟩ := Ex.goes_spec h2
  obtain ⟨rfl, h5, h6, h7, h8⟩ := of_decide_eq_true h4
  have hs : Session Ex.env [.write Ex.mat 2 3] w' := .write (.load h1) (by decide) h3
  obtain ⟨_, _, A, _, _, _, _, _, ha, _, _, _, hA, _⟩ := C71_cell_counters hs (by simp_all [CfgOk]) h5
    (fun _ _ => 7) (fun _ _ => 7) (fun _ _ => 7) (fun _ _ => 7)
  refine ⟨w', A, hs, ha, ?_⟩
  rw [hA.1]
  simp only at h6 h7
  rw [h6, h7]
  rfl

/-- The hypotheses of `C71_refreshes`: the third multiplication ends with a refresh of six cells. -/
example : ∃ w, Settled Ex.rdEnv [Ex.mv, Ex.mv, Ex.mv, Ex.wOnes] w ∧ w.cfg.readDisturb = true ∧ CfgOk w.cfg ∧
    getter Xbar.getReadNum w = .ok 0 ∧ getter Xbar.getRefX w = .ok 1 ∧ getter Xbar.getRefC w = .ok 6 := by
  obtain ⟨w, h0, h⟩ := Ex.goes_spec (x := setConfig Ex.rdEnv (.good (Ex.disturb .bnn1 [("V_read", .int (-1)),
      ("t_read", .num (2 / 10 ^ 8)), ("read_disturb_mitigation_strategy", .str "SOFTWARE"),
      ("read_disturb_mitigation_fp", .int 2)])) world0)
    (p := fun w => Ex.goes (cpyMtrx Ex.rdEnv Ex.ones (2 : Nat) (3 : Nat) w) fun q => decide (q.2 = 0) &&
      Ex.goes (exeMvm Ex.rdEnv Ex.res Ex.vec Ex.mat (2 : Nat) (3 : Nat) "" q.1) fun q => decide (q.2.2 = 0) &&
      Ex.goes (exeMvm Ex.rdEnv Ex.res Ex.vec Ex.mat (2 : Nat) (3 : Nat) "" q.1) fun q => decide (q.2.2 = 0) &&
      Ex.goes (exeMvm Ex.rdEnv Ex.res Ex.vec Ex.mat (2 : Nat) (3 : Nat) "" q.1) fun q => decide (q.2.2 = 0 ∧
        q.1.cfg.readDisturb = true ∧ q.1.cfg.split = [0] ∧ q.1.cfg.mode = .bnn1) &&
        (Ex.hasXbar q.1 fun x => x.consec == 0 && x.refX == 1 && x.refC == 6)) (by decide +kernel)
  obtain ⟨⟨w1, k1⟩, h1, h⟩ := Ex.goes_spec h
  rw [Bool.and_eq_true, decide_eq_true_iff] at h
  obtain ⟨rfl, h⟩ := h
  obtain ⟨⟨w2, r2, k2⟩, h2, h⟩ := Ex.goes_spec h
  rw [Bool.and_eq_true, decide_eq_true_iff] at h
  obtain ⟨rfl, h⟩ := h
  obtain ⟨⟨w3, r3, k3⟩, h3, h⟩ := Ex.goes_spec h
  rw [Bool.and_eq_true, decide_eq_true_iff] at h
  obtain ⟨rfl, h⟩ := h
  obtain ⟨⟨w4, r4, k4⟩, h4, h⟩ := Ex.goes_spec h
  rw [Bool.and_eq_true, decide_eq_true_iff] at h
  obtain ⟨⟨rfl, h5, h6, h7⟩, h⟩ := h
  obtain ⟨x, hx, h⟩ := Ex.hasXbar_spec h
  simp only [Bool.and_eq_true, beq_iff_eq] at h
  refine ⟨w4, .mvm (.mvm (.mvm (.write (.load h0) (by decide) h1) (by decide) h2) (by decide) h3) (by decide) h4, h5,
    by simp_all [CfgOk], ?_, ?_, ?_⟩ <;> unfold getter <;> rw [hx]
  · exact congrArg Except.ok h.1.1
  · exact congrArg Except.ok h.1.2
  · exact congrArg Except.ok h.2

/-- The hypotheses of `C71_unloaded`: before a configuration is loaded. -/
example : (world0 : World ℚ).xbar = none := rfl

/-- The hypotheses of `C71_without_disturb`. -/
example : ∃ w x, Session Ex.env [.write Ex.mat 2 3] w ∧ w.xbar = some x ∧ x.rd = none := by
  obtain ⟨w, _, h1, _, h2⟩ := Ex'.wrote Ex.env (Ex.analog .tnn3) Ex.mat (Ex'.loaded .tnn3 10 0)
    (fun w => Ex.hasXbar w fun x => x.rd.isNone) (by decide +kernel)
  obtain ⟨x, h3, h4⟩ := Ex.hasXbar_spec h2
  exact ⟨w, x, h1, h3, Option.isNone_iff_eq_none.1 h4⟩

/-- C71.  The legality of the weights is needed: `BNN_III` stores `-3` as the state `-1`, which Python sees as
`4294967295`. -/
theorem C71_illegal_state : ∃ w P, Session Ex.env [.write (Vec.ofList [-3, 1, 1, 1, 1, 1]) 2 3] w ∧
    getGdPPb (fun _ _ => 0) w = .ok P ∧ P.get 0 0 = 4294967295 := by
  obtain ⟨w, _, h1, _, h2⟩ := Ex'.wrote Ex.env (Ex.digital .bnn3) (Vec.ofList [-3, 1, 1, 1, 1, 1])
    (Ex'.digitalCfg .bnn3) (fun w => Ex.okAnd (getGdPPb (fun _ _ => 0) w) fun P => decide (P.get 0 0 = 4294967295))
    (by decide +kernel)
  obtain ⟨P, h3, h4⟩ := Ex.okAnd_spec h2
  exact ⟨w, P, h1, h3, of_decide_eq_true h4⟩

end Acs.Props
