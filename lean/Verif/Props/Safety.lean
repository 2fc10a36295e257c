import Verif.Lemmas.Refine
import Verif.Lemmas.Reject
import Verif.Props.Ex

/-!
# Effects, memory safety and rejected values
-/

namespace Acs.Props

open Finset Spec

variable {K : Type} [Field K] [LinearOrder K] [IsStrictOrderedRing K] [FloorRing K]
variable {E : Env K} {cfg : Cfg K} {mat mat' vec res : Vec Int} {m n m' n' w : Nat} {l : String}
variable {x x' : Xbar K} {h : List Op}

/-! ## C04: effects of a multiplication -/

/-- C04.  A multiplication that returns, in any state of a crossbar of any configuration, changes at
most the first `m` entries of the result buffer and keeps all cell states; in digital mode, and in
analog mode without read disturb and cycle-to-cycle variation, it also keeps all stored currents, the
solver and the read-disturb state.  Its only other visible effect is the count of multiplications. -/
theorem C04_mvm_effects (hr : Runs E cfg h x) {r : Vec Int}
    (hx : xMvm E cfg x res vec mat m n l = .ok (x', r)) :
    r.size = res.size ∧ (∀ i, m ≤ i → r.get i = res.get i) ∧
    x'.mapper.core.gd = x.mapper.core.gd ∧ x'.writes = x.writes ∧ x'.mvms = x.mvms + 1 ∧
    (cfg.digitalOnly = true ∨ cfg.c2c = false ∧ cfg.readDisturb = false →
      x'.mapper.core = x.mapper.core ∧ x'.rd = x.rd ∧ x'.refX = x.refX ∧ x'.refC = x.refC) :=
  ⟨(xMvm_keep (runs_shape hr) hx).size, (xMvm_keep (runs_shape hr) hx).tail, (xMvm_frame hx).1,
    (xMvm_frame hx).2.1, (xMvm_frame hx).2.2, fun hq => xMvm_core hx hq⟩

/-- An analog multiplication on one row: the other two entries of the buffer stay. -/
example : ∃ x x' r, Runs Ex.env (Ex.acfg .bnn6) [.write Ex.mat 2 3] x ∧
    xMvm Ex.env (Ex.acfg .bnn6) x Ex.res Ex.vec Ex.mat 1 3 "" = .ok (x', r) ∧
    decide (r.get 0 = 9 ∧ r.get 1 = 20 ∧ r.get 2 = 30) = true :=
  Ex.multiplied _ (by decide +kernel)

/-! ## C10: undefined behaviour -/

/-- C10, memory.  In every reachable state — any configuration with ideal wires and without profiling,
any history, any values — a write of accepted size with a buffer of the stated length neither
accesses memory out of bounds nor dereferences a null pointer. -/
theorem C10_write_memory_safe (hok : CfgOk cfg) (hp : cfg.parasitics = false) (hr : Runs E cfg h x)
    (hd : Accepted cfg m n) (hbuf : m * n ≤ mat.size) :
    xWrite E cfg x mat m n ≠ .error .oob ∧ xWrite E cfg x mat m n ≠ .error .nullDeref := by
  have hs := sat_xWrite (F := fun e => e ≠ .oob ∧ e ≠ .nullDeref) (fun e h1 h2 => ⟨h1, h2⟩)
    (runs_shape hr) (Fits.mk' fun _ => ⟨hd.1, hd.2.1, cfgOk_S_pos hok⟩) (fun _ => hbuf)
    (fun _ _ e => by rw [hp] at e; cases e)
  constructor <;> intro h <;> rw [h] at hs
  exacts [hs.1 rfl, hs.2 rfl]

/-- C10, memory: multiplications, including read disturb, variability and the converters. -/
theorem C10_mvm_memory_safe (hok : CfgOk cfg) (hp : cfg.parasitics = false)
    (hq : cfg.adcProfile = false) (hr : Runs E cfg h x)
    (hd : Accepted cfg m n) (hres : m ≤ res.size) (hvec : n ≤ vec.size) :
    xMvm E cfg x res vec mat m n l ≠ .error .oob ∧
    xMvm E cfg x res vec mat m n l ≠ .error .nullDeref := by
  have hs := sat_xMvm (F := fun e => e ≠ .oob ∧ e ≠ .nullDeref) (mat := mat) (l := l)
    (fun e h1 h2 => ⟨h1, h2⟩) (runs_shape hr) (fun _ => ⟨hd.1, hd.2.1, cfgOk_S_pos hok⟩)
    (fun _ => hres) (fun _ => hvec) (fun _ _ => ⟨hq, fun e => by rw [hp] at e; cases e⟩)
  constructor <;> intro h <;> rw [h] at hs
  exacts [hs.1 rfl, hs.2 rfl]

example : ∃ x, Runs Ex.env { Ex.acfg .tnn5 with c2c := true } [.write Ex.matT 2 3] x ∧
    Accepted { Ex.acfg .tnn5 with c2c := true } 2 3 ∧ 2 ≤ Ex.res.size ∧ 3 ≤ Ex.vec.size :=
  ⟨_, .write (.init (rng := 0) (hists := []) rfl) rfl, ⟨by decide, by decide, by decide⟩, by decide,
    by decide⟩

/-- C10, arithmetic, digital.  A digital crossbar in any reachable state accepts every legal write:
no overflow, no invalid shift, no abort. -/
theorem C10_digital_write_total (hok : CfgOk cfg) (hdo : cfg.digitalOnly = true)
    (hr : Runs E cfg h x) (hl : LegalWrite cfg w mat m n) : ∃ x', xWrite E cfg x mat m n = .ok x' :=
  xWrite_total hok (runs_shape hr) hdo hl.dims hl.buf hl.vals hl.sums

/-- C10, arithmetic, digital.  Any list of legal calls on a fresh digital crossbar runs to its end. -/
theorem C10_digital_calls_total (hok : CfgOk cfg) (hdo : cfg.digitalOnly = true)
    (hgcc : shiftsSigned cfg.mode → E.strict = false) (hr : Runs E cfg [] x) {ops : List Op}
    (hl : LegalOps cfg w [] ops) : ∃ r, exec E cfg x ops = .ok r := by
  obtain ⟨x', rs, h1, _⟩ := exec_refines hok hgcc hdo hr .nil hl
  exact ⟨_, h1⟩

theorem legal_ops_ex : LegalOps (Ex.cfg .tnn3) 3 []
    [.write Ex.mat 2 3, .mvm Ex.res Ex.vec Ex.mat 2 3 "", .mvm Ex.res Ex.vec Ex.mat 2 3 ""] := by
  have hm : ∀ h, (∀ i j, lastWrite h i j = lastWrite [.write Ex.mat 2 3] i j) →
      LegalMvm (Ex.cfg .tnn3) 3 h Ex.res Ex.vec 2 3 := fun h hh =>
    ⟨Ex.accepted _, by decide, by decide, Ex.legal_vec _ (by decide), Ex.room _, fun i j hi hj => by
      rw [hh]; simp [lastWrite, hi, hj], fun _ => rfl⟩
  exact ⟨⟨Ex.accepted _, by decide, Ex.legal_mat _, Ex.sum_room _, fun _ => rfl⟩,
    hm _ fun _ _ => rfl, hm _ fun _ _ => rfl, trivial⟩

example : ∃ x r, exec Ex.env (Ex.cfg .tnn3) x
    [.write Ex.mat 2 3, .mvm Ex.res Ex.vec Ex.mat 2 3 "", .mvm Ex.res Ex.vec Ex.mat 2 3 ""] = .ok r := by
  obtain ⟨x, hx⟩ := Ex.fresh .tnn3
  exact ⟨x, C10_digital_calls_total (Ex.cfg_ok _) rfl (fun _ => rfl) (.init hx) legal_ops_ex⟩

/-! ## C11: values outside the alphabet -/

/-- C11 for weights, as stated: in a binary or ternary mode no write with an illegal weight returns. -/
def BadWeightClaim : Prop := ∀ (E : Env ℚ) (cfg : Cfg ℚ) (h : List Op) (x x' : Xbar ℚ) (mat : Vec Int)
  (m n : Nat), cfg.mode.family ≠ .int → CfgOk cfg → Runs E cfg h x → Accepted cfg m n →
  m * n ≤ mat.size → (∃ i j, i < m ∧ j < n ∧ ¬LegalW cfg (entry mat n i j)) →
  xWrite E cfg x mat m n ≠ .ok x'

/-- It is false: BNN_III stores the weight 5 without complaint. -/
theorem C11_false_for_weights : ¬BadWeightClaim := by
  intro hc
  refine hc Ex.env (Ex.cfg .bnn3) [] _ _ (Vec.ofList [5]) 1 1 (by decide) (Ex.cfg_ok _)
    (.init (rng := 0) (hists := []) rfl) ⟨by decide, by decide, by decide⟩ (by decide)
    ⟨0, 0, by decide, by decide, ?_⟩ rfl
  show ¬((5 : Int) = 1 ∨ (5 : Int) = -1)
  decide

/-- C11 for weights, proved part: the modes BNN_I, II, V, VI and TNN_I – III abort on the first
illegal weight, at any position, digital or analog, in any state.  The headroom hypothesis excludes
weights so close to `2^31` that the row sum, computed before the check, overflows.
Missing: BNN_III, BNN_IV, TNN_IV, TNN_V, where it is false (`C11_false_for_weights`). -/
theorem C11_bad_weight_aborts_partial (hm : checksW cfg.mode) (hok : CfgOk cfg) (hr : Runs E cfg h x)
    (hd : Accepted cfg m n) (hbuf : m * n ≤ mat.size)
    (hroom : ∀ i j, i < m → j < n → |entry mat n i j| + n ≤ 2147483647)
    (hbad : ∃ i j, i < m ∧ j < n ∧ ¬LegalW cfg (entry mat n i j)) :
    xWrite E cfg x mat m n = .error .aborted := by
  obtain ⟨i, j, hi, hj, hbad⟩ := hbad
  have hs := runs_shape hr
  have hfit := Fits.row hok hd
  have key : dWriteGd E cfg x.mapper.core mat m n = .error .aborted := by
    have hb := (reject_dWriteDiffBnn (cfg := cfg) hs.core.gd hd.1 hfit.1 hd.2.1 hbuf hroom)
    have ht := (reject_dWriteDiffTnn (cfg := cfg) hs.core.gd hd.1 hfit.1 hd.2.1 hbuf hroom)
    unfold dWriteGd
    rw [hs.core.mode]
    unfold LegalW at hbad
    cases hmd : cfg.mode <;> simp only [hmd, checksW] at hm hbad ⊢
    all_goals first
      | exact hb.aborts fun _ hQ => hbad (hQ i j hi hj)
      | exact ht.aborts fun _ hQ => hbad (hQ i j hi hj)
  have hw : xWriteD E cfg x mat m n = .error .aborted := by
    have hdw : dWrite E cfg x.mapper mat m n = .error .aborted := err_bind key
    unfold xWriteD
    split <;> exact err_bind hdw
  exact err_bind hw

example : ∃ x, Runs Ex.env (Ex.acfg .tnn2) [.write Ex.matT 2 3] x ∧
    xWrite Ex.env (Ex.acfg .tnn2) x (Vec.ofList [1, 0, -1, 1, 7, 0]) 2 3 = .error .aborted := by
  have hr : Runs Ex.env (Ex.acfg .tnn2) [.write Ex.matT 2 3] _ :=
    .write (.init (rng := 0) (hists := []) rfl) rfl
  refine ⟨_, hr, C11_bad_weight_aborts_partial trivial (Ex.acfg_ok _) hr
    ⟨by decide, by decide, by decide⟩ (by decide) (Ex.block (P := fun i j =>
      |entry (Vec.ofList [1, 0, -1, 1, 7, 0]) 3 i j| + (3 : Nat) ≤ 2147483647) (by decide))
      ⟨1, 1, by decide, by decide, ?_⟩⟩
  show ¬((7 : Int) = 1 ∨ (7 : Int) = -1 ∨ (7 : Int) = 0)
  decide

/-- C11 for inputs, as stated. -/
def BadInputClaim : Prop := ∀ (E : Env ℚ) (cfg : Cfg ℚ) (h : List Op) (x x' : Xbar ℚ)
  (res vec mat r : Vec Int) (m n : Nat) (l : String), cfg.mode.family ≠ .int → CfgOk cfg →
  Runs E cfg h x → Accepted cfg m n → m ≤ res.size → n ≤ vec.size →
  (∃ j, j < n ∧ ¬LegalX cfg (vec.get j)) → xMvm E cfg x res vec mat m n l ≠ .ok (x', r)

/-- It is false: BNN_I multiplies with the input 5. -/
theorem C11_false_for_inputs : ¬BadInputClaim := by
  intro hc
  refine hc Ex.env (Ex.cfg .bnn1) [.write Ex.mat 2 3] _ _ Ex.res (Vec.ofList [5]) Ex.mat _ 1 1 ""
    (by decide) (Ex.cfg_ok _)
    (.write (.init (rng := 0) (hists := []) rfl) rfl) ⟨by decide, by decide, by decide⟩ (by decide)
    (by decide) ⟨0, by decide, ?_⟩ rfl
  show ¬((5 : Int) = 1 ∨ (5 : Int) = -1)
  decide

/-- C11 for inputs, proved part: the modes BNN_III – VI and TNN_I, IV, V abort on an illegal input, at
any position, in any state, digital or analog.  With cycle-to-cycle variation the noise step comes
first and may itself end the program.
Missing: BNN_I, BNN_II, TNN_II, TNN_III, where it is false (`C11_false_for_inputs`). -/
theorem C11_bad_input_aborts_partial (hm : checksX cfg.mode) (hok : CfgOk cfg) (hr : Runs E cfg h x)
    (hd : Accepted cfg m n) (hbuf : n ≤ vec.size)
    (hroom : ∀ j, j < n → |vec.get j| + n ≤ 2147483647)
    (hbad : ∃ j, j < n ∧ ¬LegalX cfg (vec.get j)) :
    (cfg.digitalOnly = true ∨ cfg.c2c = false →
      xMvm E cfg x res vec mat m n l = .error .aborted) ∧
    (xMvm E cfg x res vec mat m n l = .error .aborted ∨
      xMvm E cfg x res vec mat m n l = .error .exited) := by
  obtain ⟨j, hj, hbad⟩ := hbad
  have hs := runs_shape hr
  have hfit := Fits.row hok hd
  have hn' : n ≤ cfg.N := hd.2.1
  have hpm : ∀ a : Aux K, AuxShape cfg a → ¬(vec.get j = 1 ∨ vec.get j = -1) →
      encPM n vec a.vdP a.vdM = .error .aborted := fun a ha hb =>
    (reject_encPM hbuf (by rw [ha.vdP]; exact hn') (by rw [ha.vdM]; exact hn')).aborts
      fun _ hQ => hb (hQ j hj)
  have hps : ∀ a : Aux K, AuxShape cfg a → ¬(vec.get j = 1 ∨ vec.get j = -1) →
      encPMSum n vec a.vdP a.vdM = .error .aborted := fun a ha hb =>
    (reject_encPMSum hbuf (by rw [ha.vdP]; exact hn') (by rw [ha.vdM]; exact hn') hroom).aborts
      fun _ hQ => hb (hQ j hj)
  have hte : ∀ a : Aux K, AuxShape cfg a → ¬(vec.get j = 1 ∨ vec.get j = -1 ∨ vec.get j = 0) →
      encTern n vec a.vdP a.vdM = .error .aborted := fun a ha hb =>
    (reject_encTern hbuf (by rw [ha.vdP]; exact hn') (by rw [ha.vdM]; exact hn')).aborts
      fun _ hQ => hb (hQ j hj)
  obtain ⟨s, hsum⟩ := inpSum_total hbuf hd.2.2 fun k hk => by have := hroom k hk; omega
  unfold LegalX at hbad
  have hok' := hok
  unfold CfgOk at hok'
  have kd : dMvm E cfg x.mapper.core x.mapper.aux res vec m n = .error .aborted := by
    unfold dMvm
    rw [hs.core.mode]
    cases hmd : cfg.mode <;> simp only [hmd, checksX] at hm hbad hok' ⊢
    · exact err_bind (hps _ hs.aux hbad)
    · exact err_bind (hps _ hs.aux hbad)
    · exact err_bind (hpm _ hs.aux hbad)
    · exact err_bind (hpm _ hs.aux hbad)
    · exact err_bind (hte _ hs.aux hbad)
    · unfold dMvmTnnIV
      rw [if_neg (by simp [hok'.1])]
      exact err_bind (hte _ hs.aux hbad)
    · unfold dMvmTnnV
      rw [if_neg (by simp [hok'.1]), hsum, ok_bind]
      exact err_bind (hte _ hs.aux hbad)
  have ka : ∀ (c : Core K) (a : Aux K), c.mode = cfg.mode → AuxShape cfg a →
      aMvm E cfg c a res vec m n l = .error .aborted := by
    intro c a hc ha
    unfold aMvm
    rw [hc]
    cases hmd : cfg.mode <;> simp only [hmd, checksX] at hm hbad hok' ⊢
    · exact err_bind (err_bind (hps _ ha hbad))
    · exact err_bind (err_bind (hps _ ha hbad))
    · exact err_bind (hpm _ ha hbad)
    · exact err_bind (hpm _ ha hbad)
    · exact err_bind (hte _ ha hbad)
    · unfold aMvmTnnIV
      rw [if_neg (by simp [hok'.1]), hsum, ok_bind]
      exact err_bind (hte _ ha hbad)
    · unfold aMvmTnnV
      rw [if_neg (by simp [hok'.1]), hsum, ok_bind]
      exact err_bind (hte _ ha hbad)
  have k1 : cfg.digitalOnly = true ∨ cfg.c2c = false →
      xMvm E cfg x res vec mat m n l = .error .aborted := by
    intro hq
    unfold xMvm
    dsimp only
    split
    · exact err_bind kd
    · next hdo =>
      rw [if_neg (by rcases hq with h | h <;> simp_all), ok_bind]
      exact err_bind (ka _ _ hs.core.mode hs.aux)
  refine ⟨k1, ?_⟩
  by_cases hq : cfg.digitalOnly = true ∨ cfg.c2c = false
  · exact Or.inl (k1 hq)
  · rw [not_or, Bool.not_eq_true, Bool.not_eq_false] at hq
    unfold xMvm
    dsimp only
    rw [if_neg (by simp [hq.1]), if_pos hq.2]
    rcases (reject_addC2C (E := E) (mp := x.mapper) hs.core hfit.1 hd.2.1).elim with
      ⟨mp, h1, h2⟩ | ⟨e, h1, h2⟩
    · refine Or.inl ?_
      rw [h1, ok_bind]
      refine err_bind (ka _ _ (h2.2.trans hs.core.mode) ?_)
      rw [h2.1]
      exact hs.aux.rng _
    · rw [h1]
      rcases h2 with rfl | rfl
      · exact Or.inl rfl
      · exact Or.inr rfl

example : ∃ x, Runs Ex.env (Ex.acfg .tnn5) [.write Ex.matT 2 3] x ∧
    xMvm Ex.env (Ex.acfg .tnn5) x Ex.res (Vec.ofList [1, 0, 2]) Ex.mat 2 3 "" = .error .aborted := by
  have hr : Runs Ex.env (Ex.acfg .tnn5) [.write Ex.matT 2 3] _ :=
    .write (.init (rng := 0) (hists := []) rfl) rfl
  refine ⟨_, hr, (C11_bad_input_aborts_partial (by trivial) (Ex.acfg_ok _) hr
    ⟨by decide, by decide, by decide⟩ (by decide) (Ex.three (by decide) (by decide) (by decide))
      ⟨2, by decide, ?_⟩).1 (Or.inr rfl)⟩
  show ¬((2 : Int) = 1 ∨ (2 : Int) = -1 ∨ (2 : Int) = 0)
  decide

/-! ## C14: integer weights out of range -/

/-- C14, as stated: an integer crossbar that accepts a matrix multiplies with this matrix. -/
def NoSilentClaim : Prop := ∀ (E : Env ℚ) (cfg : Cfg ℚ) (h : List Op) (x x1 x2 : Xbar ℚ)
  (res vec mat r : Vec Int) (m n : Nat) (l : String), cfg.mode.family = .int → CfgOk cfg →
  cfg.digitalOnly = true → Runs E cfg h x → Accepted cfg m n → m ≤ res.size → n ≤ vec.size →
  m * n ≤ mat.size → LegalVec cfg vec n → xWrite E cfg x mat m n = .ok x1 →
  xMvm E cfg x1 res vec mat m n l = .ok (x2, r) → Adds r res (entry mat n) vec m n

/-- It is false: with `W_BIT = 3` the weight 8 is stored as 0 and multiplies as 0. -/
theorem C14_false : ¬NoSilentClaim := by
  intro hc
  have := (hc Ex.env (Ex.cfg .iUintWDiff) [] _ _ _ Ex.res (Vec.ofList [1]) (Vec.ofList [8]) _ 1 1 ""
    rfl (Ex.cfg_ok _) rfl (.init (rng := 0) (hists := []) rfl) ⟨by decide, by decide, by decide⟩
    (by decide) (by decide) (by decide) (fun j hj => by
      obtain rfl : j = 0 := by omega
      show (0 : Int) ≤ 1 ∧ (1 : Int) < 2 ^ 3
      decide) rfl rfl).head 0 (by decide)
  exact absurd this (by decide)

/-- C14, proved part: what an integer crossbar does with arbitrary weights.  If the write returns, the
multiplication is exact for the weights cut to `W_BIT` bits.
Missing: a report, which the code does not make (`C14_false`).  I_OFFS_W_DIFF, which mixes cut weights with uncut
row sums, and inputs out of range are in `C14_computed`. -/
theorem C14_weights_cut_partial (hfam : cfg.mode.family = .int) (hm : cfg.mode ≠ .iOffsWDiff)
    (hok : CfgOk cfg) (hdo : cfg.digitalOnly = true) (hgcc : E.strict = false)
    (hr : Runs E cfg h x) (hd : Accepted cfg m n) (hv : n ≤ vec.size) (hx : LegalVec cfg vec n)
    (hres : m ≤ res.size) (hroom : Room cfg res m n) {x1 : Xbar K}
    (hw : xWrite E cfg x mat m n = .ok x1) :
    ∃ x2 r, xMvm E cfg x1 res vec mat' m n l = .ok (x2, r) ∧
      Adds r res (fun i j => wrapW cfg (entry mat n i j)) vec m n := by
  have hr1 : Runs E cfg (.write mat m n :: h) x1 := .write hr hw
  have hio := intOk hok (by simp [Mode.isInt, hfam])
  have hcut : ∀ (a : Int) (s : Nat),
      bits (a % 2 ^ cfg.wBit) (shiftOf cfg.split s) (cfg.split.getD s 0) =
        bits a (shiftOf cfg.split s) (cfg.split.getD s 0) := fun a s =>
    bits_emod (by rw [← hio.sum]; exact shiftOf_add_le _ _)
  have hneg : ∀ w : Int, ¬0 ≤ w → (-w) % 2 ^ cfg.wBit = 0 ∨ ¬0 ≤ -((-w) % 2 ^ cfg.wBit) := by
    intro w _
    have : 0 ≤ (-w) % 2 ^ cfg.wBit := Int.emod_nonneg _ (by positivity)
    omega
  have hP : ∀ w s, encP cfg (wrapW cfg w) s = encP cfg w s := by
    intro w s
    have h0 : ∀ a b, bits 0 a b = 0 := fun a b => by simp [bits]
    cases hmd : cfg.mode <;> simp only [hmd, Mode.family, reduceCtorEq] at hfam
    case iUintWOffs =>
      simp only [encP, wrapW, hmd, if_true, sub_add_cancel, hcut]
    case iOffsWDiff => exact absurd hmd hm
    all_goals
      simp only [encP, wrapW, hmd, reduceCtorEq, if_false]
      by_cases hw0 : 0 ≤ w
      · rw [if_pos hw0, if_pos hw0, if_pos (Int.emod_nonneg _ (by positivity)), hcut]
      · rw [if_neg hw0, if_neg hw0]
        rcases hneg w hw0 with h | h
        · rw [h, neg_zero, if_pos le_rfl, h0]
        · rw [if_neg h]
  have hM : ∀ w s, encM cfg (wrapW cfg w) s = encM cfg w s := by
    intro w s
    have h0 : ∀ a b, bits 0 a b = 0 := fun a b => by simp [bits]
    cases hmd : cfg.mode <;> simp only [hmd, Mode.family, reduceCtorEq] at hfam
    case iUintWOffs => simp only [encM, hmd]
    case iOffsWDiff => exact absurd hmd hm
    all_goals
      simp only [encM, wrapW, hmd, reduceCtorEq, if_false]
      by_cases hw0 : 0 ≤ w
      · rw [if_pos hw0, if_pos hw0, if_pos (Int.emod_nonneg _ (by positivity))]
      · rw [if_neg hw0, if_neg hw0]
        rcases hneg w hw0 with h | h
        · rw [h, neg_zero, if_pos le_rfl, ← hcut, h, h0]
        · rw [if_neg h, neg_neg, hcut]
  have hleg : ∀ w, LegalW cfg (wrapW cfg w) := by
    intro w
    have hpos : (0 : Int) < 2 ^ cfg.wBit := by positivity
    have hpow : (2 : Int) ^ cfg.wBit = 2 ^ (cfg.wBit - 1) + 2 ^ (cfg.wBit - 1) := by
      obtain ⟨k, hk⟩ : ∃ k, cfg.wBit = k + 1 := ⟨cfg.wBit - 1, by have := hio.w1; omega⟩
      rw [hk, pow_succ, Nat.add_sub_cancel]; ring
    cases hmd : cfg.mode <;> simp only [hmd, Mode.family, reduceCtorEq] at hfam
    case iUintWOffs =>
      simp only [LegalW, wrapW, hmd, if_true]
      have h1 := Int.emod_nonneg (w + 2 ^ (cfg.wBit - 1)) hpos.ne'
      have h2 := Int.emod_lt_of_pos (w + 2 ^ (cfg.wBit - 1)) hpos
      constructor <;> linarith
    case iOffsWDiff => exact absurd hmd hm
    all_goals
      simp only [LegalW, wrapW, hmd, reduceCtorEq, if_false]
      split
      · rw [abs_of_nonneg (Int.emod_nonneg _ hpos.ne')]
        exact Int.emod_lt_of_pos _ hpos
      · rw [abs_neg, abs_of_nonneg (Int.emod_nonneg _ hpos.ne')]
        exact Int.emod_lt_of_pos _ hpos
  have hL : ∀ i j, i < m → j < n →
      (lastWrite (.write mat m n :: h) i j).map (wrapW cfg) = some (wrapW cfg (entry mat n i j)) :=
    fun i j hi hj => by simp only [lastWrite]; rw [if_pos ⟨hi, hj⟩]; rfl
  have hcells := runs_cells hok hr1
  obtain ⟨x2, r, h1, _, _, h2⟩ := xMvm_exact
    (L := fun i j => (lastWrite (.write mat m n :: h) i j).map (wrapW cfg)) (mat := mat')
    (l := l) (fun _ => hgcc) hok (runs_shape hr1) hdo
    ⟨fun r j => by
      rw [hcells.p]
      cases lastWrite (.write mat m n :: h) (rowOf cfg r).1 j with
      | none => rfl
      | some w => exact (hP _ _).symm,
    fun r j => by
      rw [hcells.m]
      cases lastWrite (.write mat m n :: h) (rowOf cfg r).1 j with
      | none => rfl
      | some w => exact (hM _ _).symm⟩
    (fun i j hi hj => ⟨_, hL i j hi hj, hleg _⟩) hd
    (fun hk => by cases hmd : cfg.mode <;> simp_all [keepsRowSums, Mode.family]) hv hres hx hroom
  exact ⟨x2, r, h1, adds_congr h2 fun i j hi hj => by rw [val, hL i j hi hj]; rfl⟩

/-- Weights 9, -10, 3 with three bits act as 1, -2, 3. -/
example : ∃ x x1, Runs Ex.env (Ex.cfg .iTcWDiff) [] x ∧
    xWrite Ex.env (Ex.cfg .iTcWDiff) x (Vec.ofList [9, -10, 3]) 1 3 = .ok x1 ∧
    wrapW (Ex.cfg .iTcWDiff) 9 = 1 ∧ wrapW (Ex.cfg .iTcWDiff) (-10) = -2 :=
  ⟨_, _, .init (rng := 0) (hists := []) rfl, rfl, by decide, by decide⟩

end Acs.Props
