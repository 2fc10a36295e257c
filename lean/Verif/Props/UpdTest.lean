import Verif.Lemmas.UpdTest
import Verif.Props.Getters
import Verif.Props.Api

/-!
# C94: the claims of the variability test and of the tests of updates

cpp/test/lib/var_tests.cpp and int-bindings/test/config_update_test.py, for all configurations, matrices and noise
samples.
-/

set_option linter.unusedSectionVars false

namespace Acs.Props

open Spec

section
variable {K : Type} [Field K] [LinearOrder K] [IsStrictOrderedRing K] [FloorRing K]
variable {E : Env K} {j v : Json K} {u w w₁ w₂ w₃ : World K} {hs : List Op} {mat : Vec Int} {m n : Nat} {ε : K}

/-! ## The variability test -/

/-- The C++ getters show the currents of the crossbar, and for every pair of cells the sign of the weight written last,
if no noise sample reaches half the distance of the two states. -/
theorem C94_signs (hE : ExactArith E) (h : Settled E hs w) (hs' : Session E hs w) (hp : Pairs w.cfg.mode)
    (hok : CfgOk w.cfg) (hdo : w.cfg.digitalOnly = false) (hrd : w.cfg.readDisturb = false)
    (hg : ∀ k, |E.gauss k| ≤ ε) (hgap : 2 * ε < w.cfg.lrs - w.cfg.hrs) :
    ∃ P M, getterCpp Xbar.getIaP w = .ok P ∧ getterCpp Xbar.getIaM w = .ok M ∧
      ∀ i k v, lastWrite hs i k = some v →
        SignsShow v (P.get i k) (M.get i k) ∧ (v = 0 → |P.get i k - M.get i k| ≤ 2 * ε) := by
  obtain ⟨hI, _⟩ := session_inv hs'
  obtain ⟨x, hx, hr⟩ := C58_session_is_run h
  have hi : w.cfg.mode.isInt = false := by
    cases hm : w.cfg.mode <;> rw [hm] at hp <;> first | rfl | exact hp.elim
  have h0 : 0 < w.cfg.hrs ∧ 0 < w.cfg.lrs := by
    rcases hI.loaded with ⟨e, _⟩ | ⟨c, e⟩
    · rw [e] at hp
      exact hp.elim
    · exact ((applyConfig_ok e).2.2.2 hdo).states
  have hε : 0 ≤ ε := (abs_nonneg _).trans (hg 0)
  have hb : ∀ sd s y, 0 ≤ s → Varied E sd s y → s - ε ≤ y ∧ y ≤ s + ε := fun sd s y h0 hv => by
    unfold Varied at hv
    split at hv
    · rw [hv]; constructor <;> linarith
    · obtain ⟨k, rfl⟩ := hv
      have := abs_le.1 (hg k)
      rw [hE.f32]
      exact ⟨le_max_of_le_right (by linarith), max_le (by linarith) (by linarith)⟩
  refine ⟨x.mapper.core.ia.p, x.mapper.core.ia.m, by unfold getterCpp; rw [hx]; rfl,
    by unfold getterCpp; rw [hx]; rfl, fun i k v hv => ?_⟩
  have hc := C16_programmed_current hE hok hi hdo hrd hr i k
  rw [hv] at hc
  obtain ⟨c1, c2⟩ := hc
  have c2 := c2.resolve_right fun e => by
    rcases e.1 with e | e <;> rw [e] at hp <;> exact hp
  have n0 : nominal w.cfg i 0 = w.cfg.hrs := nominal_zero i
  have n1 : nominal w.cfg i 1 = w.cfg.lrs := by rw [nominal_bin hi]; push_cast; ring
  have hP : encP w.cfg v 0 = if v = 1 then 1 else 0 := by
    unfold encP
    cases hm : w.cfg.mode <;> rw [hm] at hp <;> first | rfl | exact hp.elim
  have hM : encM w.cfg v 0 = if v = -1 then 1 else 0 := by
    unfold encM
    cases hm : w.cfg.mode <;> rw [hm] at hp <;> first | rfl | exact hp.elim
  rw [hP] at c1
  rw [hM] at c2
  refine ⟨⟨?_, ?_⟩, ?_⟩
  · rintro rfl
    rw [if_pos rfl, n1] at c1
    rw [if_neg (by decide), n0] at c2
    have := hb _ _ _ h0.2.le c1
    have := hb _ _ _ h0.1.le c2
    linarith
  · rintro rfl
    rw [if_neg (by decide), n0] at c1
    rw [if_pos rfl, n1] at c2
    have := hb _ _ _ h0.1.le c1
    have := hb _ _ _ h0.2.le c2
    linarith
  · rintro rfl
    rw [if_neg (by decide), n0] at c1
    rw [if_neg (by decide), n0] at c2
    have := hb _ _ _ h0.1.le c1
    have := hb _ _ _ h0.1.le c2
    rw [abs_le]
    constructor <;> linarith

/-! ## The tests of updates -/

/-- The state after the second write of the test, and the two arrays. -/
theorem update_arrays (hE : ExactArith E) (h0 : setConfig E (.good j) u = .ok w) (hok : CfgOk w.cfg)
    (hdo : w.cfg.digitalOnly = false) (hc2 : w.cfg.c2c = false) (hrd : w.cfg.readDisturb = false)
    (hq : Quiet w.cfg) (hmn : m < 2147483648 ∧ n < 2147483648)
    (h1 : cpyMtrx E mat m n w = .ok (w₁, 0)) {key : String} (hk : key = "HRS" ∨ key = "LRS")
    (hu : updateConfig E (.good (.obj [(key, v)])) w₁ = .ok (w₂, 0)) (hne : w₂.cfg ≠ w.cfg)
    (h3 : cpyMtrx E mat m n w₂ = .ok (w₃, 0)) (fresh fresh' : Nat → Nat → K) :
    ∃ A B A' B', getIaPPb fresh w₁ = .ok A ∧ getIaPPb fresh' w₃ = .ok B ∧ getIaMPb fresh w₁ = .ok A' ∧
      getIaMPb fresh' w₃ = .ok B' ∧ w₂.cfg.mode = w.cfg.mode ∧ w₂.cfg.split = w.cfg.split ∧
      (key ≠ "HRS" → w₂.cfg.hrs = w.cfg.hrs) ∧ (key ≠ "LRS" → w₂.cfg.lrs = w.cfg.lrs) ∧
      Shows A (w.cfg.M * w.cfg.split.length) w.cfg.N (fun r k => nominal w.cfg r (heldP w.cfg [.write mat m n] r k)) ∧
      Shows B (w.cfg.M * w.cfg.split.length) w.cfg.N (fun r k => nominal w₂.cfg r (heldP w.cfg [.write mat m n] r k)) ∧
      Shows A' (w.cfg.M * w.cfg.split.length) w.cfg.N (fun r k => nominal w.cfg r (heldM w.cfg [.write mat m n] r k)) ∧
      Shows B' (w.cfg.M * w.cfg.split.length) w.cfg.N (fun r k => nominal w₂.cfg r (heldM w.cfg [.write mat m n] r k)) := by
  have s1 : Settled E [.write mat m n] w₁ := .write (.load h0) hmn h1
  have t1 : Session E [.write mat m n] w₁ := .write (.load h0) hmn h1
  have e1 : w₁.cfg = w.cfg := by
    rcases cpyMtrx_inv h1 with ⟨_, h, _⟩ | ⟨_, _, _, _, _, _, rfl⟩
    · cases h
    · rfl
  have e3 : w₃.cfg = w₂.cfg := by
    rcases cpyMtrx_inv h3 with ⟨_, h, _⟩ | ⟨_, _, _, _, _, _, rfl⟩
    · cases h
    · rfl
  have hk' : key ∈ ["HRS", "LRS", "verbose"] := by rcases hk with rfl | rfl <;> decide
  obtain ⟨S, _, h4, _⟩ := update_one (session_inv t1).1 hk' hu
  rw [e1] at h4
  obtain ⟨h5, h6, h7, h8⟩ := h4 hdo
  have hch : ∃ k, structural k ∧ Changes E w₁.data (.obj [(key, v)]) k := by
    refine ⟨key, by unfold structural; rcases hk with rfl | rfl <;> decide, ?_⟩
    by_contra hn
    refine hne ?_
    rw [(C45_rebuild_iff_structural (distinct_one key v) hu).2.2.1 fun k hc => hn ?_, e1]
    obtain ⟨y, hy, hc'⟩ := id hc
    cases hy with
    | head => exact hc
    | tail _ hy => cases hy
  have s3 : Settled E [.write mat m n] w₃ := .write (.rebuild hch (distinct_one key v) hu) hmn h3
  have t3 : Session E [.write mat m n] w₃ := .write (.rebuild t1 hch (distinct_one key v) hu) hmn h3
  have hm : w₂.cfg.mode = w.cfg.mode := by rw [S.mode]; show w₁.cfg.mode = _; rw [e1]
  have hs : w₂.cfg.split = w.cfg.split := by rw [S.split]; show w₁.cfg.split = _; rw [e1]
  have hM : w₂.cfg.M = w.cfg.M := by rw [S.dims.1]; show w₁.cfg.M = _; rw [e1]
  have hN : w₂.cfg.N = w.cfg.N := by rw [S.dims.2]; show w₁.cfg.N = _; rw [e1]
  have hd1 : (w₁.tuned w₂.cfg).cfg.digitalOnly = false := (congrArg Cfg.digitalOnly e1).trans hdo
  have hm1 : (w₁.tuned w₂.cfg).cfg.mode = w.cfg.mode := by
    show w₁.cfg.mode = _
    rw [e1]
  have hw : w.cfg.mode.family = .int → w₂.cfg.wBit = w.cfg.wBit := fun e => by
    rw [S.wBit (.inl (by rw [hm1]; exact e))]; show w₁.cfg.wBit = _; rw [e1]
  have hok3 : CfgOk w₃.cfg := by
    rw [e3]
    have := cfgOk_same S (by unfold CfgOk World.tuned; dsimp only; rw [e1]; exact hok)
    exact this
  have hq3 : Quiet w₃.cfg := by
    rw [e3]
    intro e
    rw [(S.noise hd1).1, (S.noise hd1).2]
    have := hq (by rw [← hm]; exact e)
    show w₁.cfg.hrsNoise ≤ 0 ∧ w₁.cfg.lrsNoise ≤ 0
    rw [e1]
    exact this
  have hc3 : w₃.cfg.c2c = false := by
    rw [e3, (S.vari hd1).2]; exact (congrArg Cfg.c2c e1).trans hc2
  have hd3 : w₃.cfg.digitalOnly = false := by rw [e3, S.digital]; exact hd1
  obtain ⟨A, A', a1, a2, a3, a4⟩ := C71_nominal hE s1 t1 (by rw [e1]; exact hok) (by rw [e1]; exact hdo)
    (by rw [e1]; exact hc2) (by rw [e1]; exact hrd) (by rw [e1]; exact hq) fresh fresh
  obtain ⟨B, B', b1, b2, b3, b4⟩ := C71_nominal hE s3 t3 hok3 hd3 hc3 (by rw [e3, h5, hrd]) hq3 fresh' fresh'
  rw [e1] at a3 a4
  rw [e3, hM, hN, hs] at b3 b4
  have hh := held_same hm hs hw [.write mat m n]
  simp only [hh] at b3 b4
  exact ⟨A, B, A', B', a1, b1, a2, b2, hm, hs, h7, h8, a3, b3, a4, b4⟩

/-- Load a file, write a matrix, change the current of the low state, write the same matrix again: the array of
currents has changed exactly if some cell is not in its highest state (or has only one state). -/
theorem C94_hrs (hE : ExactArith E) (h0 : setConfig E (.good j) u = .ok w) (hok : CfgOk w.cfg)
    (hdo : w.cfg.digitalOnly = false) (hc2 : w.cfg.c2c = false) (hrd : w.cfg.readDisturb = false)
    (hq : Quiet w.cfg) (hmn : m < 2147483648 ∧ n < 2147483648)
    (h1 : cpyMtrx E mat m n w = .ok (w₁, 0)) (hu : updateConfig E (.good (.obj [("HRS", v)])) w₁ = .ok (w₂, 0))
    (hne : w₂.cfg.hrs ≠ w.cfg.hrs) (h3 : cpyMtrx E mat m n w₂ = .ok (w₃, 0)) (fresh fresh' : Nat → Nat → K) :
    ∃ A B A' B', getIaPPb fresh w₁ = .ok A ∧ getIaPPb fresh' w₃ = .ok B ∧ getIaMPb fresh w₁ = .ok A' ∧
      getIaMPb fresh' w₃ = .ok B' ∧
      (Differ A B ↔ ∃ r k, r < w.cfg.M * w.cfg.split.length ∧ k < w.cfg.N ∧
        (heldP w.cfg [.write mat m n] r k ≠ topState w.cfg r ∨ topState w.cfg r = 0)) ∧
      (Differ A' B' ↔ ∃ r k, r < w.cfg.M * w.cfg.split.length ∧ k < w.cfg.N ∧
        (heldM w.cfg [.write mat m n] r k ≠ topState w.cfg r ∨ topState w.cfg r = 0)) := by
  obtain ⟨A, B, A', B', a1, a2, a3, a4, hm, hs, _, hl, b1, b2, b3, b4⟩ := update_arrays hE h0 hok hdo hc2 hrd hq hmn
    h1 (.inl rfl) hu (fun e => hne (by rw [e])) h3 fresh fresh'
  have hl := hl (by decide)
  refine ⟨A, B, A', B', a1, a2, a3, a4, ?_, ?_⟩
  · rw [differ_shows b1 b2]
    simp only [nominal_hrs hm hs hl hne]
  · rw [differ_shows b3 b4]
    simp only [nominal_hrs hm hs hl hne]

/-- The same for the current of the high state: some cell is not in state zero. -/
theorem C94_lrs (hE : ExactArith E) (h0 : setConfig E (.good j) u = .ok w) (hok : CfgOk w.cfg)
    (hdo : w.cfg.digitalOnly = false) (hc2 : w.cfg.c2c = false) (hrd : w.cfg.readDisturb = false)
    (hq : Quiet w.cfg) (hmn : m < 2147483648 ∧ n < 2147483648)
    (h1 : cpyMtrx E mat m n w = .ok (w₁, 0)) (hu : updateConfig E (.good (.obj [("LRS", v)])) w₁ = .ok (w₂, 0))
    (hne : w₂.cfg.lrs ≠ w.cfg.lrs) (h3 : cpyMtrx E mat m n w₂ = .ok (w₃, 0)) (fresh fresh' : Nat → Nat → K) :
    ∃ A B A' B', getIaPPb fresh w₁ = .ok A ∧ getIaPPb fresh' w₃ = .ok B ∧ getIaMPb fresh w₁ = .ok A' ∧
      getIaMPb fresh' w₃ = .ok B' ∧
      (Differ A B ↔ ∃ r k, r < w.cfg.M * w.cfg.split.length ∧ k < w.cfg.N ∧
        (heldP w.cfg [.write mat m n] r k ≠ 0 ∧ topState w.cfg r ≠ 0)) ∧
      (Differ A' B' ↔ ∃ r k, r < w.cfg.M * w.cfg.split.length ∧ k < w.cfg.N ∧
        (heldM w.cfg [.write mat m n] r k ≠ 0 ∧ topState w.cfg r ≠ 0)) := by
  obtain ⟨A, B, A', B', a1, a2, a3, a4, hm, hs, hl, _, b1, b2, b3, b4⟩ := update_arrays hE h0 hok hdo hc2 hrd hq hmn
    h1 (.inr rfl) hu (fun e => hne (by rw [e])) h3 fresh fresh'
  have hl := hl (by decide)
  refine ⟨A, B, A', B', a1, a2, a3, a4, ?_, ?_⟩
  · rw [differ_shows b1 b2]
    simp only [nominal_lrs hm hs hl hne]
  · rw [differ_shows b3 b4]
    simp only [nominal_lrs hm hs hl hne]

/-- A matrix that does not fill the crossbar shows the change: the other cells are in state zero. -/
theorem C94_room (hok : CfgOk w.cfg) (hM : 0 < w.cfg.M) (hN : 0 < w.cfg.N) (h : m < w.cfg.M ∨ n < w.cfg.N) :
    ∃ r k, r < w.cfg.M * w.cfg.split.length ∧ k < w.cfg.N ∧
      (heldP w.cfg [.write mat m n] r k ≠ topState w.cfg r ∨ topState w.cfg r = 0) := by
  have hS : 0 < w.cfg.split.length := by
    unfold CfgOk at hok
    rcases Nat.eq_zero_or_pos w.cfg.split.length with e | e
    · rw [List.length_eq_zero_iff] at e
      rw [e] at hok
      cases hm : w.cfg.mode <;> rw [hm] at hok <;> simp at hok <;> omega
    · exact e
  have key : ∀ r k, lastWrite [.write mat m n] (rowOf w.cfg r).1 k = none →
      heldP w.cfg [.write mat m n] r k ≠ topState w.cfg r ∨ topState w.cfg r = 0 := fun r k e => by
    unfold heldP
    rw [e]
    exact (eq_or_ne (topState w.cfg r) 0).elim .inr fun e => .inl e.symm
  rcases h with h | h
  · refine ⟨(w.cfg.M - 1) * w.cfg.split.length, 0, ?_, hN, key _ _ ?_⟩
    · exact Nat.mul_lt_mul_of_pos_right (by omega) hS
    · have hr : m ≤ (rowOf w.cfg ((w.cfg.M - 1) * w.cfg.split.length)).1 := by
        have e1 : (w.cfg.M - 1) * w.cfg.split.length / w.cfg.split.length = w.cfg.M - 1 := Nat.mul_div_cancel _ hS
        have e2 : w.cfg.M - 1 ≤ (w.cfg.M - 1) * w.cfg.split.length := Nat.le_mul_of_pos_right _ hS
        unfold rowOf
        cases w.cfg.mode <;> simp only [e1] <;> omega
      simp only [lastWrite]
      rw [if_neg (by omega)]
  · refine ⟨0, n, Nat.mul_pos hM hS, h, key _ _ ?_⟩
    simp only [lastWrite]
    rw [if_neg (by omega)]

/-- After an update of `verbose` every list of calls has the same results, return codes and end as without it. -/
theorem C94_verbose (h : Settled E hs w) (hs' : Session E hs w)
    (hu : updateConfig E (.good (.obj [("verbose", v)])) w = .ok (w₂, 0)) (ops : List Op) :
    heard (serve E w₂ ops) = heard (serve E w ops) :=
  verbose_serve h (session_inv hs').1 hu ops

end

/-! ## Instances -/

/-- The hypotheses of `C94_signs`, with noise of at most 1 and states at 5 and 46. -/
example : ∃ w P M, Settled (Ex.hotEnv 1 (-1)) [.write Ex.mat 2 3] w ∧ getterCpp Xbar.getIaP w = .ok P ∧
    getterCpp Xbar.getIaM w = .ok M ∧ M.get 0 0 < P.get 0 0 := by
  obtain ⟨w, h0, h1, hc, _⟩ := Ex'.wrote (Ex.hotEnv 1 (-1)) (Ex.analog .tnn3 Ex'.noisyKeys) Ex.mat (Ex'.loaded .tnn3 46 1)
    (fun _ => true) (by decide +kernel)
  obtain ⟨P, M, h2, h3, h4⟩ := C94_signs (ε := 1) (Ex.hotEnv_exact _ _) h0 h1 (by rw [hc]; trivial)
    (by rw [hc]; exact Ex.cfg_ok .tnn3) (by rw [hc]; rfl) (by rw [hc]; rfl) (Ex.hotEnv_gauss (by norm_num) (by norm_num))
    (by rw [hc]; show (2 : ℚ) * 1 < 46 - 5; norm_num)
  exact ⟨w, P, M, h0, h2, h3, (h4 0 0 1 rfl).1.1 rfl⟩

/-- The bound on the samples is sharp: with samples of exactly half the distance the assertion can fail. -/
theorem C94_signs_false : ∃ (E : Env ℚ) (ε : ℚ) (w : World ℚ) (P M : Mat ℚ), ExactArith E ∧
    Settled E [.write Ex.mat 2 3] w ∧ Session E [.write Ex.mat 2 3] w ∧ Pairs w.cfg.mode ∧ CfgOk w.cfg ∧
    w.cfg.digitalOnly = false ∧ w.cfg.readDisturb = false ∧ (∀ k, |E.gauss k| ≤ ε) ∧
    2 * ε = w.cfg.lrs - w.cfg.hrs ∧ getterCpp Xbar.getIaP w = .ok P ∧ getterCpp Xbar.getIaM w = .ok M ∧
    lastWrite [.write Ex.mat 2 3] 0 0 = some 1 ∧ ¬SignsShow 1 (P.get 0 0) (M.get 0 0) := by
  obtain ⟨w, h0, h1, hc, h2⟩ := Ex'.wrote (Ex.hotEnv (-41 / 2) (41 / 2)) (Ex.analog .tnn3 Ex'.noisyKeys) Ex.mat
    (Ex'.loaded .tnn3 46 1)
    (fun w => Ex.hasXbar w fun x => decide (x.mapper.core.ia.p.get 0 0 ≤ x.mapper.core.ia.m.get 0 0)) (by decide +kernel)
  obtain ⟨x, hx, h2⟩ := Ex.hasXbar_spec h2
  exact ⟨_, 41 / 2, w, x.mapper.core.ia.p, x.mapper.core.ia.m, Ex.hotEnv_exact _ _, h0, h1, by rw [hc]; trivial,
    by rw [hc]; exact Ex.cfg_ok .tnn3, by rw [hc]; rfl, by rw [hc]; rfl,
    Ex.hotEnv_gauss (by norm_num [abs_le]) (by norm_num [abs_le]), by rw [hc]; show (2 : ℚ) * (41 / 2) = 46 - 5; norm_num,
    by unfold getterCpp; rw [hx]; rfl, by unfold getterCpp; rw [hx]; rfl, rfl,
    fun h => absurd (h.1 rfl) (not_lt.2 (of_decide_eq_true h2))⟩

namespace Ex'

/-- Load a document, write a matrix, update one value, write the matrix again. -/
theorem rewritten (j : Json ℚ) (mat : Vec Int) (m n : Nat) (key : String) (v : Json ℚ) (c : Cfg ℚ) (p : Cfg ℚ → Bool)
    (h : Ex.goes (setConfig Ex.env (.good j) world0) (fun w => decide (w.cfg = c) &&
      Ex.goes (cpyMtrx Ex.env mat m n w) fun q => decide (q.2 = 0) &&
      Ex.goes (updateConfig Ex.env (.good (.obj [(key, v)])) q.1) fun q => decide (q.2 = 0) && (p q.1.cfg &&
      Ex.goes (cpyMtrx Ex.env mat m n q.1) fun q => decide (q.2 = 0))) = true) :
    ∃ w w₁ w₂ w₃, setConfig Ex.env (.good j) world0 = .ok w ∧ w.cfg = c ∧ cpyMtrx Ex.env mat m n w = .ok (w₁, 0) ∧
      updateConfig Ex.env (.good (.obj [(key, v)])) w₁ = .ok (w₂, 0) ∧ p w₂.cfg = true ∧
      cpyMtrx Ex.env mat m n w₂ = .ok (w₃, 0) := by
  obtain ⟨w, h0, h⟩ := Ex.goes_spec h
  rw [Bool.and_eq_true, decide_eq_true_iff] at h
  obtain ⟨hc, h⟩ := h
  obtain ⟨⟨w₁, k₁⟩, h1, h⟩ := Ex.goes_spec h
  rw [Bool.and_eq_true, decide_eq_true_iff] at h
  obtain ⟨rfl, h⟩ := h
  obtain ⟨⟨w₂, k₂⟩, h2, h⟩ := Ex.goes_spec h
  rw [Bool.and_eq_true, Bool.and_eq_true, decide_eq_true_iff] at h
  obtain ⟨rfl, hp, h⟩ := h
  obtain ⟨⟨w₃, k₃⟩, h3, h⟩ := Ex.goes_spec h
  rw [decide_eq_true_iff] at h
  obtain rfl := h
  exact ⟨w, w₁, w₂, w₃, h0, hc, h1, h2, hp, h3⟩

end Ex'

/-- The hypotheses of `C94_hrs` and `C94_room`: a row of weights in a crossbar with two rows. -/
example : ∃ w w₁ w₂ w₃ : World ℚ, ∃ A B, setConfig Ex.env (.good (Ex.analog .bnn1)) world0 = .ok w ∧
    cpyMtrx Ex.env Ex.ones (1 : Nat) (3 : Nat) w = .ok (w₁, 0) ∧
    updateConfig Ex.env (.good (.obj [("HRS", .int 7)])) w₁ = .ok (w₂, 0) ∧
    cpyMtrx Ex.env Ex.ones (1 : Nat) (3 : Nat) w₂ = .ok (w₃, 0) ∧ getIaPPb (fun _ _ => 0) w₁ = .ok A ∧
    getIaPPb (fun _ _ => 0) w₃ = .ok B ∧ Differ A B := by
  obtain ⟨w, w₁, w₂, w₃, h0, hc, h1, hu, hp, h3⟩ := Ex'.rewritten (Ex.analog .bnn1) Ex.ones 1 3 "HRS" (.int 7)
    (Ex'.loaded .bnn1 10 0) (fun c => decide (c.hrs = 7)) (by decide +kernel)
  have hok : CfgOk w.cfg := by rw [hc]; exact Ex.cfg_ok .bnn1
  obtain ⟨A, B, _, _, a1, a2, _, _, a3, _⟩ := C94_hrs Ex.env_exact h0 hok (by rw [hc]; rfl) (by rw [hc]; rfl)
    (by rw [hc]; rfl) (by rw [hc]; exact Ex.quiet .bnn1) (by decide) h1 hu
    (by rw [of_decide_eq_true hp, hc]; show (7 : ℚ) ≠ 5; norm_num) h3 (fun _ _ => 0) (fun _ _ => 0)
  exact ⟨w, w₁, w₂, w₃, A, B, h0, h1, hu, h3, a1, a2,
    a3.2 (C94_room hok (by rw [hc]; decide) (by rw [hc]; decide) (.inl (by rw [hc]; decide)))⟩

/-- The assertion of the test is false for some matrices: in a crossbar full of ones no current changes with the current
of the low state. -/
theorem C94_hrs_false : ∃ w w₁ w₂ w₃ : World ℚ, ∃ A B, setConfig Ex.env (.good (Ex.analog .bnn1)) world0 = .ok w ∧
    cpyMtrx Ex.env Ex.ones (2 : Nat) (3 : Nat) w = .ok (w₁, 0) ∧
    updateConfig Ex.env (.good (.obj [("HRS", .int 7)])) w₁ = .ok (w₂, 0) ∧ w₂.cfg.hrs ≠ w.cfg.hrs ∧
    cpyMtrx Ex.env Ex.ones (2 : Nat) (3 : Nat) w₂ = .ok (w₃, 0) ∧ getIaPPb (fun _ _ => 0) w₁ = .ok A ∧
    getIaPPb (fun _ _ => 0) w₃ = .ok B ∧ ¬Differ A B := by
  obtain ⟨w, w₁, w₂, w₃, h0, hc, h1, hu, hp, h3⟩ := Ex'.rewritten (Ex.analog .bnn1) Ex.ones 2 3 "HRS" (.int 7)
    (Ex'.loaded .bnn1 10 0) (fun c => decide (c.hrs = 7)) (by decide +kernel)
  have hne : w₂.cfg.hrs ≠ w.cfg.hrs := by rw [of_decide_eq_true hp, hc]; show (7 : ℚ) ≠ 5; norm_num
  obtain ⟨A, B, _, _, a1, a2, _, _, a3, _⟩ := C94_hrs Ex.env_exact h0 (by rw [hc]; exact Ex.cfg_ok .bnn1) (by rw [hc]; rfl)
    (by rw [hc]; rfl) (by rw [hc]; rfl) (by rw [hc]; exact Ex.quiet .bnn1) (by decide) h1 hu hne h3
    (fun _ _ => 0) (fun _ _ => 0)
  refine ⟨w, w₁, w₂, w₃, A, B, h0, h1, hu, hne, h3, a1, a2, fun hd => ?_⟩
  obtain ⟨r, k, h4, h5, h6⟩ := a3.1 hd
  rw [hc] at h4 h5 h6
  have : ∀ r, r < 2 → ∀ k, k < 3 → ¬(heldP (Ex'.loaded .bnn1 10 0) [.write Ex.ones 2 3] r k ≠
    topState (Ex'.loaded .bnn1 10 0) r ∨ topState (Ex'.loaded .bnn1 10 0) r = 0) := by decide +kernel
  exact this r h4 k h5 h6

/-- The hypotheses of `C94_lrs`. -/
example : ∃ w w₁ w₂ w₃ : World ℚ, ∃ A B A' B', setConfig Ex.env (.good (Ex.analog .bnn1)) world0 = .ok w ∧
    cpyMtrx Ex.env Ex.ones (2 : Nat) (3 : Nat) w = .ok (w₁, 0) ∧
    updateConfig Ex.env (.good (.obj [("LRS", .int 12)])) w₁ = .ok (w₂, 0) ∧
    cpyMtrx Ex.env Ex.ones (2 : Nat) (3 : Nat) w₂ = .ok (w₃, 0) ∧ getIaPPb (fun _ _ => 0) w₁ = .ok A ∧
    getIaPPb (fun _ _ => 0) w₃ = .ok B ∧ getIaMPb (fun _ _ => 0) w₁ = .ok A' ∧
    getIaMPb (fun _ _ => 0) w₃ = .ok B' ∧ Differ A B ∧ ¬Differ A' B' := by
  obtain ⟨w, w₁, w₂, w₃, h0, hc, h1, hu, hp, h3⟩ := Ex'.rewritten (Ex.analog .bnn1) Ex.ones 2 3 "LRS" (.int 12)
    (Ex'.loaded .bnn1 10 0) (fun c => decide (c.lrs = 12)) (by decide +kernel)
  obtain ⟨A, B, A', B', a1, a2, a3, a4, a5, a6⟩ := C94_lrs Ex.env_exact h0 (by rw [hc]; exact Ex.cfg_ok .bnn1)
    (by rw [hc]; rfl) (by rw [hc]; rfl) (by rw [hc]; rfl) (by rw [hc]; exact Ex.quiet .bnn1) (by decide) h1 hu
    (by rw [of_decide_eq_true hp, hc]; show (12 : ℚ) ≠ 10; norm_num) h3 (fun _ _ => 0) (fun _ _ => 0)
  refine ⟨w, w₁, w₂, w₃, A, B, A', B', h0, h1, hu, h3, a1, a2, a3, a4, a5.2 ⟨0, 0, ?_⟩, fun hd => ?_⟩
  · rw [hc]
    decide +kernel
  · obtain ⟨r, k, h4, h5, h6⟩ := a6.1 hd
    rw [hc] at h4 h5 h6
    have : ∀ r, r < 2 → ∀ k, k < 3 → ¬(heldM (Ex'.loaded .bnn1 10 0) [.write Ex.ones 2 3] r k ≠ 0 ∧
      topState (Ex'.loaded .bnn1 10 0) r ≠ 0) := by decide +kernel
    exact this r h4 k h5 h6

/-- The hypotheses of `C94_verbose`: a noisy crossbar with a matrix. -/
example : ∃ w w₂ : World ℚ, Settled (Ex.hotEnv 1 (-1)) [.write Ex.mat 2 3] w ∧
    Session (Ex.hotEnv 1 (-1)) [.write Ex.mat 2 3] w ∧ w.cfg.verbose = false ∧
    updateConfig (Ex.hotEnv 1 (-1)) (.good (.obj [("verbose", .bool true)])) w = .ok (w₂, 0) ∧ w₂.cfg.verbose = true := by
  obtain ⟨w, h0, h1, hc, h2⟩ := Ex'.wrote (Ex.hotEnv 1 (-1)) (Ex.analog .tnn3 Ex'.noisyKeys) Ex.mat (Ex'.loaded .tnn3 46 1)
    (fun w => Ex.goes (updateConfig (Ex.hotEnv 1 (-1)) (.good (.obj [("verbose", .bool true)])) w) fun q =>
      decide (q.2 = 0 ∧ q.1.cfg.verbose = true)) (by decide +kernel)
  obtain ⟨⟨w₂, k⟩, h3, h4⟩ := Ex.goes_spec h2
  obtain ⟨rfl, h4⟩ := of_decide_eq_true h4
  exact ⟨w, w₂, h0, h1, by rw [hc]; rfl, h3, h4⟩

end Acs.Props
