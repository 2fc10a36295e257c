import Verif.Lemmas.NearXbar
import Verif.Lemmas.RdExact
import Mathlib.Tactic.Linarith

/-! # How far read disturb moves the cells from their nominal currents -/

set_option linter.unusedSectionVars false

namespace Acs

open Finset Spec

section
variable {K : Type} [Field K] [LinearOrder K] [IsStrictOrderedRing K] [FloorRing K]
variable {E : Env K} {cfg : Cfg K} {h : List Op} {x x' : Xbar K} {rd : Rd K}
variable {res vec mat : Vec Int} {m n w : Nat} {ε : K} {l : String}

/-- Cells of a crossbar with cell-based mitigation, at all times. -/
theorem runs_band (hok : CfgOk cfg) (hi : cfg.mode.isInt = false) (hdo : cfg.digitalOnly = false)
    (hrd : cfg.readDisturb = true) (hst : cfg.strategy = .cellBased) (hr : Runs E cfg h x) :
    HeldCur (fun _ _ y => Varied E cfg.lrsNoise cfg.lrs y ∨ ¬OutOfBand E cfg y)
      (fun _ _ y => Varied E cfg.lrsNoise cfg.lrs y ∨ ¬OutOfBand E cfg y) cfg x := by
  induction hr with
  | init h => exact held_init _ _ h
  | @write hs x x' mat m n hr h' ih =>
    exact (HeldCur.write hok hi hdo hr h' ih).mono (fun r k y _ _ _ hq => hq.2)
      (fun r k y _ _ _ _ hq => hq.2)
  | @mvm hs x x' res vec mat out m n l hr h' ih =>
    by_cases hd : updateDue cfg x
    · exact cell_due (runs_shape hr) hdo hrd hst h' hd ih
    · obtain ⟨y, hy, h2⟩ := xMvm_rd (runs_shape hr) hdo hrd h'
      obtain ⟨rd, hx, hsr⟩ := (runs_shape hr).rd hrd
      have hy' : y.rd = some rd := hy.rd.trans hx
      obtain ⟨_, _, rd1, rd', _, _, k3, _⟩ := rdStep_cell hsr hy.shape hy' hst h2
      unfold updateDue at hd
      rw [← hy.consec] at hd
      exact (ih.mvm hy).congr (by rw [(k3 hd).2])

/-- A current attenuated by reads and cycles that have happened. -/
def Worn (E : Env K) (cfg : Cfg K) (h : List Op) (y : K) : Prop :=
  ∃ a c, a ≤ mvmsIn h ∧ c ≤ writesIn h ∧ y = cfg.lrs * attenuation E cfg a c

theorem since_le (h : List Op) : mvmsSinceWrite h ≤ mvmsIn h := by
  induction h with
  | nil => exact le_refl _
  | cons op h ih =>
    cases op
    · exact Nat.zero_le _
    · exact Nat.succ_le_succ ih

/-- Cells of a crossbar without mitigation, at all times. -/
theorem runs_worn (hE : ExactArith E) (hok : CfgOk cfg) (hi : cfg.mode.isInt = false) (hdo : cfg.digitalOnly = false)
    (hrd : cfg.readDisturb = true) (hst : cfg.strategy = .off) (hr : Runs E cfg h x) :
    HeldCur (fun _ _ y => Worn E cfg h y) (fun _ _ y => Worn E cfg h y) cfg x := by
  induction hr with
  | init h => exact held_init _ _ h
  | @write hs x x' mat m n hr h' ih =>
    have key : ∀ y, Worn E cfg hs y → Worn E cfg (.write mat m n :: hs) y :=
      fun y ⟨a, c, h1, h2, h3⟩ => ⟨a, c, h1, Nat.le_succ_of_le h2, h3⟩
    exact (HeldCur.write hok hi hdo hr h' ih).mono (fun r k y _ _ _ hq => key y hq.2)
      (fun r k y _ _ _ _ hq => key y hq.2)
  | @mvm hs x x' res vec mat out m n l hr h' ih =>
    obtain ⟨y, hy, h2⟩ := xMvm_rd (runs_shape hr) hdo hrd h'
    obtain ⟨rd, hx, hsr, hp⟩ := runs_params hrd hr
    have hy' : y.rd = some rd := hy.rd.trans hx
    obtain ⟨_, _, _, rd', _, _, k1, k2⟩ := rdStep_off hsr hy' hst h2
    by_cases hd : y.consec % cfg.updFreq = 0
    · have hcs : y.consec ≤ mvmsIn (.mvm res vec mat m n l :: hs) := by
        rw [hy.consec]
        have h3 := (runs_consec_le hr).1
        have h4 := since_le hs
        show _ ≤ mvmsIn hs + 1
        omega
      have hcy : ∀ r k, r < cfg.R → k < cfg.N → rd.cycP.get r k ≤ writesIn hs ∧ rd.cycM.get r k ≤ writesIn hs := by
        intro r k h1 h2
        have h3 := cycles_le hok hrd (by rw [hst]; decide) hr hx h1 h2
        rw [(runs_no_refX (by rw [hst]; simp) hr).1, (runs_counts hr).1] at h3
        exact h3
      refine ((ih.mvm hy).upd (k1 hd) hy.shape.isDiff rfl).mono (fun r k w hrr hkk _ ⟨f, h3, h4⟩ => ?_)
          (fun r k w hrr hkk _ _ ⟨f, h3, h4⟩ => ?_)
      · refine ⟨_, _, hcs, (hcy r k hrr hkk).1, ?_⟩
        rw [h4, rdFactor_att hE hp h3]
        exact hE.f32 _
      · refine ⟨_, _, hcs, (hcy r k hrr hkk).2, ?_⟩
        rw [h4, rdFactor_att hE hp h3]
        exact hE.f32 _
    · refine ((ih.mvm hy).congr (k2 hd)).mono (fun r k w _ _ _ ⟨a, c, h1, h2, h3⟩ => ?_)
        (fun r k w _ _ _ _ ⟨a, c, h1, h2, h3⟩ => ?_) <;>
      exact ⟨a, c, Nat.le_succ_of_le h1, h2, h3⟩

theorem transition_nonneg (hA : RdArith E) (hE : ExactArith E) (hp : Params E cfg rd) (c : Nat) :
    0 ≤ transition E cfg.vRead c := by
  obtain ⟨rd0, h0, e1, e2⟩ := hp
  rw [← rdTime_exact hE (e1.trans (mkRd_exact hE h0).2.1)]
  exact rdTime_nonneg hA c

/-- The attenuation rises neither with the reads nor with the cycles. -/
theorem attenuation_anti (hA : RdArith E) (hE : ExactArith E) (hp : Params E cfg rd) (ht : 0 ≤ cfg.tRead)
    {a b c d : Nat} (h1 : a ≤ b) (h2 : c ≤ d) : attenuation E cfg b d ≤ attenuation E cfg a c := by
  have q := hp
  obtain ⟨rd0, h0, e1, e2⟩ := hp
  obtain ⟨p1, p2⟩ := mkRd_nonneg hA h0
  obtain ⟨d1, d2, _⟩ := mkRd_exact hE h0
  have z : ∀ a c : Nat, transition E cfg.vRead c = 0 ∧ (a : K) * cfg.tRead = 0 → attenuation E cfg a c = 0 :=
    fun a c h => by
      unfold attenuation
      rw [h.1, h.2, if_neg (lt_irrefl _), if_pos rfl]
  have nn : 0 ≤ attenuation E cfg a c := by
    by_cases hd : transition E cfg.vRead c = 0 ∧ (a : K) * cfg.tRead = 0
    · rw [z a c hd]
    · exact (rdFactor_range hA (by rw [e2]; exact p1) (rdFactor_exact hE (e2.trans d1) (e1.trans d2) a c hd)).1
  by_cases hd : transition E cfg.vRead d = 0 ∧ (b : K) * cfg.tRead = 0
  · rw [z b d hd]; exact nn
  · by_cases hc : transition E cfg.vRead c = 0 ∧ (a : K) * cfg.tRead = 0
    · have hz : transition E cfg.vRead d = 0 := by
        refine le_antisymm ?_ (transition_nonneg hA hE q d)
        rw [← hc.1]
        have := rdTime_anti (rd := rd) hA (by rw [e1]; exact p2) h2
        rwa [rdTime_exact hE (e1.trans d2), rdTime_exact hE (e1.trans d2)] at this
      unfold attenuation
      rw [hz, if_neg (not_lt.2 (mul_nonneg (Nat.cast_nonneg b) ht)), if_pos rfl]
      exact nn
    · exact rdFactor_anti hA (by rw [e2]; exact p1) (by rw [e1]; exact p2) ht h1 h2
        (rdFactor_exact hE (e2.trans d1) (e1.trans d2) a c hc) (rdFactor_exact hE (e2.trans d1) (e1.trans d2) b d hd)

theorem attenuation_range (hA : RdArith E) (hE : ExactArith E) (hp : Params E cfg rd) (a c : Nat) :
    0 ≤ attenuation E cfg a c ∧ attenuation E cfg a c ≤ 1 := by
  obtain ⟨rd0, h0, e1, e2⟩ := hp
  obtain ⟨p1, p2⟩ := mkRd_nonneg hA h0
  obtain ⟨d1, d2, _⟩ := mkRd_exact hE h0
  by_cases hd : transition E cfg.vRead c = 0 ∧ (a : K) * cfg.tRead = 0
  · have : attenuation E cfg a c = 0 := by
      unfold attenuation
      rw [hd.1, hd.2, if_neg (lt_irrefl _), if_pos rfl]
    rw [this]
    exact ⟨le_refl _, zero_le_one⟩
  · exact rdFactor_range hA (by rw [e2]; exact p1) (rdFactor_exact hE (e2.trans d1) (e1.trans d2) a c hd)

/-- Cells are near their nominal currents if the disturbed ones are. -/
theorem near_held {Q Q' : Nat → Nat → K → Prop} (hE : ExactArith E) (hok : CfgOk cfg) (hi : cfg.mode.isInt = false)
    (hdo : cfg.digitalOnly = false) (hrd : cfg.readDisturb = true) (h1 : 0 ≤ cfg.hrs) (h2 : 0 ≤ cfg.lrs) (h0 : 0 ≤ ε)
    (hg : Quiet cfg ∨ ∀ k, |E.gauss k| ≤ ε) (hr : Runs E cfg h x)
    (hd : Accepted cfg m n) (hh : HeldCur Q Q' cfg x)
    (hQ : ∀ r k y, r < m → k < n → Q r k y → |y - cfg.lrs| ≤ ε)
    (hQ' : ∀ r k y, r < m → k < n → Q' r k y → |y - cfg.lrs| ≤ ε) :
    NearNominal cfg ε (lastWrite h) x.mapper.core.ia m n := by
  have ho := runs_origCur hok hi hdo hr
  have g1 := runs_gdP hok hr
  have g2 := runs_gdM hok hr
  have hS : 1 ≤ cfg.S := by
    unfold CfgOk at hok
    unfold Cfg.S
    cases hm : cfg.mode <;> simp only [hm] at hok hi <;> first
      | (rw [hok.1]; decide)
      | (rw [hok]; decide)
      | cases hi
  have prog : ∀ {o : Option Int} {g : Int} {y : K} {w : Int} (i : Nat), Set E cfg o g y → o = some w → |y - nominal cfg i g| ≤ ε := by
    intro o g y w i hs e
    obtain ⟨hg01, hv⟩ := (set_programmed hE hi hs).resolve_right fun h => by rw [e] at h; cases h.1
    rw [nominal_bin hi]
    have hs : 0 ≤ cfg.hrs + g * (cfg.lrs - cfg.hrs) := by
      rcases hg01 with rfl | rfl
      · simpa using h1
      · simpa using h2
    unfold Varied at hv
    split at hv
    · rw [hv, sub_self, abs_zero]; exact h0
    · next hn =>
      rcases hg with hq | hg
      · refine absurd ?_ hn
        have := hq hi
        unfold noiseOf
        split
        · exact this.1
        · exact this.2
      · obtain ⟨k, rfl⟩ := hv
        rw [hE.f32]
        have h1 := abs_le.1 (hg k)
        refine abs_le.2 ?_
        rcases le_total 0 (cfg.hrs + g * (cfg.lrs - cfg.hrs) + E.gauss k) with h2 | h2
        · rw [max_eq_right h2]; constructor <;> linarith
        · rw [max_eq_left h2]; constructor <;> linarith
  intro i j w hi' hj hw
  have hR : i < cfg.R := by
    unfold Cfg.R
    exact lt_of_lt_of_le (lt_of_lt_of_le hi' hd.1) (Nat.le_mul_of_pos_right _ hS)
  have hN : j < cfg.N := lt_of_lt_of_le hj hd.2.1
  have e1 := g1 i j
  have e2 := g2 i j
  rw [rowOf_bin hi] at e1 e2
  unfold cellAfter at e1 e2
  rw [hw] at e1 e2
  change _ = encP cfg w 0 at e1
  change _ = encM cfg w 0 at e2
  have lr : nominal cfg i 1 = cfg.lrs := by rw [nominal_bin hi]; push_cast; ring
  constructor
  · rw [← e1]
    rcases hh.p i j hR hN with h4 | ⟨h4, h5⟩
    · rw [h4]; exact prog i (ho.p i j) hw
    · rw [h4, lr]; exact hQ i j _ hi' hj h5
  · rw [← e2]
    rcases hh.m i j hR hN with h4 | ⟨h4, _, h5⟩
    · rw [h4]
      by_cases hb : cfg.mode = .bnn3 ∨ cfg.mode = .bnn4
      · rw [ho.m' hb, gdM_bnn34 hok hb hr, nominal_zero, sub_self, abs_zero]; exact h0
      · exact prog i (ho.m (by rw [not_or] at hb; exact hb) i j) hw
    · rw [h4, lr]; exact hQ' i j _ hi' hj h5

/-- Cell-based mitigation keeps the cells near their nominal currents. -/
theorem near_cell_based (hE : ExactArith E) (hok : CfgOk cfg) (hi : cfg.mode.isInt = false)
    (hdo : cfg.digitalOnly = false) (hrd : cfg.readDisturb = true) (hst : cfg.strategy = .cellBased)
    (h1 : 0 ≤ cfg.hrs) (h2 : 0 ≤ cfg.lrs) (h0 : 0 ≤ ε) (hg : Quiet cfg ∨ ∀ k, |E.gauss k| ≤ ε)
    (ht : cfg.tol * cfg.lrs ≤ ε) (hr : Runs E cfg h x) (hd : Accepted cfg m n) :
    NearNominal cfg ε (lastWrite h) x.mapper.core.ia m n := by
  have key : ∀ y, Varied E cfg.lrsNoise cfg.lrs y ∨ ¬OutOfBand E cfg y → |y - cfg.lrs| ≤ ε := by
    rintro y (hv | hv)
    · unfold Varied at hv
      split at hv
      · rw [hv, sub_self, abs_zero]; exact h0
      · next hn =>
        rcases hg with hq | hg
        · exact absurd (hq hi).2 hn
        · obtain ⟨k, rfl⟩ := hv
          rw [hE.f32]
          have h1 := abs_le.1 (hg k)
          refine abs_le.2 ?_
          rcases le_total 0 (cfg.lrs + E.gauss k) with h2 | h2
          · rw [max_eq_right h2]; constructor <;> linarith
          · rw [max_eq_left h2]; constructor <;> linarith
    · rw [outOfBand_exact hE, not_or, not_lt, not_lt] at hv
      refine abs_le.2 ⟨?_, ?_⟩ <;> nlinarith
  exact near_held hE hok hi hdo hrd h1 h2 h0 hg hr hd (runs_band hok hi hdo hrd hst hr)
    (fun _ _ y _ _ hq => key y hq) fun _ _ y _ _ hq => key y hq

/-- So do refreshes by the software. -/
theorem near_software (hA : RdArith E) (hE : ExactArith E) (hok : CfgOk cfg) (hi : cfg.mode.isInt = false)
    (hdo : cfg.digitalOnly = false) (hrd : cfg.readDisturb = true) (hst : cfg.strategy = .software) (hfp : 1 ≤ cfg.fp)
    (h1 : 0 ≤ cfg.hrs) (h2 : 0 ≤ cfg.lrs) (h0 : 0 ≤ ε) (hg : Quiet cfg ∨ ∀ k, |E.gauss k| ≤ ε)
    (ht : cfg.lrs * (1 - E.pow cfg.fp (-decay E cfg.vRead)) ≤ ε) (hr : Runs E cfg h x) (hd : Accepted cfg m n) :
    NearNominal cfg ε (lastWrite h) x.mapper.core.ia m n := by
  obtain ⟨rd, _, _, rd0, h00, e1, e2⟩ := runs_params hrd hr
  have hp := (mkRd_exact hE h00).1
  have key : ∀ y, SoftQ E cfg rd0.p y → |y - cfg.lrs| ≤ ε := by
    rintro y ⟨f, f1, f2, rfl⟩
    unfold Env.fmul
    rw [hE.f32]
    rw [hp] at f1
    have := mul_le_mul_of_nonneg_left f1 h2
    have := mul_le_of_le_one_right h2 f2
    refine abs_le.2 ⟨?_, ?_⟩ <;> nlinarith
  exact near_held hE hok hi hdo hrd h1 h2 h0 hg hr hd
    (runs_soft hA hE hfp hok hi hdo hrd hst h00 hr)
    (fun _ _ y hr _ hq => key y (hq (lt_of_lt_of_le hr hd.1))) fun _ _ y hr _ hq => key y (hq (lt_of_lt_of_le hr hd.1))

/-- Without mitigation the cells lose what the reads and writes so far can take at most. -/
theorem near_unmitigated (hA : RdArith E) (hE : ExactArith E) (hok : CfgOk cfg) (hi : cfg.mode.isInt = false)
    (hdo : cfg.digitalOnly = false) (hrd : cfg.readDisturb = true) (hst : cfg.strategy = .off) (htr : 0 ≤ cfg.tRead)
    (h1 : 0 ≤ cfg.hrs) (h2 : 0 ≤ cfg.lrs) (hg : Quiet cfg ∨ ∀ k, |E.gauss k| ≤ ε)
    (ht : cfg.lrs * (1 - attenuation E cfg (mvmsIn h) (writesIn h)) ≤ ε)
    (hr : Runs E cfg h x) (hd : Accepted cfg m n) :
    0 ≤ ε ∧ NearNominal cfg ε (lastWrite h) x.mapper.core.ia m n := by
  obtain ⟨rd, _, _, hp⟩ := runs_params hrd hr
  have ar := attenuation_range hA hE hp
  have h0 : 0 ≤ ε := le_trans (mul_nonneg h2 (by linarith [(ar (mvmsIn h) (writesIn h)).2])) ht
  have key : ∀ y, Worn E cfg h y → |y - cfg.lrs| ≤ ε := by
    rintro y ⟨a, c, ha, hc, rfl⟩
    have k1 := mul_le_mul_of_nonneg_left (attenuation_anti hA hE hp htr ha hc) h2
    have k2 := mul_le_of_le_one_right h2 (ar a c).2
    refine abs_le.2 ⟨?_, ?_⟩ <;> nlinarith
  exact ⟨h0, near_held hE hok hi hdo hrd h1 h2 h0 hg hr hd (runs_worn hE hok hi hdo hrd hst hr)
    (fun _ _ y _ _ hq => key y hq) fun _ _ y _ _ hq => key y hq⟩

/-- Calls that return, if every multiplication with `P` that returns answers with `G`. -/
theorem exec_after {P : List Op → Vec Int → Vec Int → Nat → Nat → String → Prop}
    {G : List Op → Vec Int → Vec Int → Nat → Nat → String → Vec Int → Prop}
    (step : ∀ {h : List Op} {x x' : Xbar K} {res vec mat r : Vec Int} {m n : Nat} {l : String}, Runs E cfg h x →
      HistOk cfg w h → LegalMvm cfg w h res vec m n → P h res vec m n l →
      xMvm E cfg x res vec mat m n l = .ok (x', r) → G h res vec m n l r)
    {ops : List Op} {rs : List (Vec Int)} (hr : Runs E cfg h x) (hh : HistOk cfg w h) (hl : LegalOps cfg w h ops)
    (hP : EveryMvm P h ops) (he : exec E cfg x ops = .ok (x', rs)) : AnswersBy G h ops rs := by
  induction ops generalizing h x rs with
  | nil =>
    unfold exec at he
    rw [ok_inj, Prod.mk.injEq] at he
    rw [← he.2]
    exact .nil
  | cons op ops ih =>
    cases op with
    | write mat m n =>
      obtain ⟨k1, k2⟩ := hl
      unfold exec at he
      rw [bind_eq_ok] at he
      obtain ⟨x1, hx1, he⟩ := he
      exact .write (ih (.write hr hx1) (hh.write k1) k2 hP he)
    | mvm res vec mat m n l =>
      obtain ⟨k1, k2⟩ := hl
      unfold exec at he
      rw [bind_eq_ok] at he
      obtain ⟨⟨x1, r⟩, hx1, he⟩ := he
      dsimp only at he
      rw [bind_eq_ok] at he
      obtain ⟨⟨x2, rs'⟩, he, h3⟩ := he
      rw [ok_inj, Prod.mk.injEq] at h3
      obtain ⟨rfl, rfl⟩ := h3
      exact .mvm (step hr hh k1 hP.1 hx1) (ih (.mvm hr hx1) hh.mvm k2 hP.2 he)

/-- Calls that return, on a crossbar whose cells stay near their nominal currents. -/
theorem exec_near (hE : ExactArith E) (hok : CfgOk cfg) (hI : Imperfect cfg) (hc2 : cfg.c2c = false) (h0 : 0 ≤ ε)
    (near : ∀ {h : List Op} {x : Xbar K} {m n : Nat}, Runs E cfg h x → Accepted cfg m n →
      NearNominal cfg ε (lastWrite h) x.mapper.core.ia m n) {ops : List Op} {rs : List (Vec Int)} (hr : Runs E cfg h x)
    (hh : HistOk cfg w h) (hl : LegalOps cfg w h ops) (hR : NoiseRooms cfg ε ops)
    (he : exec E cfg x ops = .ok (x', rs)) : AnswersWithin (noiseBound cfg ε) h ops rs :=
  answersWithin_of (exec_after (w := w)
    (G := fun h res vec m n _ r => AddsWithin (noiseBound cfg ε n) r res (stored h) vec m n)
    (fun hr hh k1 hR0 hm => (mvm_dev hE hok hI hc2 hr (legal_of hh k1) k1.dims h0 (near hr k1.dims) k1.vecBuf k1.resBuf
      k1.vals (fun hk i _ => sums_of hr hh k1 hk i) hR0).1 _ _ hm) hr hh hl (everyMvm_rooms hR h) he)

end

end Acs
