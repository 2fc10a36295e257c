import Verif.Lemmas.RdHist

/-! # Currents under read disturb -/

set_option linter.unusedSectionVars false

namespace Acs

open Spec

section
variable {K : Type} [Field K] [LinearOrder K] [IsStrictOrderedRing K] [FloorRing K]
variable {E : Env K} {cfg : Cfg K} {x x' y : Xbar K} {rd rd' : Rd K} {t : List (Step K)} {h : List Op}
variable {mat vec res out : Vec Int} {m n r k : Nat} {l : String}

/-- Value of a disturbed LRS cell, or of a cell as it was programmed. -/
def Held (Q : Nat → Nat → K → Prop) (x : Xbar K) (A B : Mat K) (g : Mat Int) (cfg : Cfg K) : Prop :=
  ∀ r k, r < cfg.R → k < cfg.N → A.get r k = B.get r k ∨ (g.get r k = 1 ∧ Q r k (A.get r k))

/-- Currents are the programmed ones, except for disturbed LRS cells with property `Q`. -/
structure HeldCur (Q Q' : Nat → Nat → K → Prop) (cfg : Cfg K) (x : Xbar K) : Prop where
  p : Held Q x x.mapper.core.ia.p x.mapper.core.ia.pO x.mapper.core.gd.p cfg
  m : Held (fun r k y => cfg.mode.isDiff = true ∧ Q' r k y) x x.mapper.core.ia.m x.mapper.core.ia.mO
    x.mapper.core.gd.m cfg

theorem HeldCur.mono {Q Q' P P' : Nat → Nat → K → Prop} (h : HeldCur Q Q' cfg x)
    (hP : ∀ r k y, r < cfg.R → k < cfg.N → x.mapper.core.gd.p.get r k = 1 → Q r k y → P r k y)
    (hP' : ∀ r k y, r < cfg.R → k < cfg.N → cfg.mode.isDiff = true → x.mapper.core.gd.m.get r k = 1 →
      Q' r k y → P' r k y) : HeldCur P P' cfg x :=
  ⟨fun r k hr hk => (h.p r k hr hk).imp id fun ⟨a, b⟩ => ⟨a, hP r k _ hr hk a b⟩,
    fun r k hr hk => (h.m r k hr hk).imp id fun ⟨a, b, c⟩ => ⟨a, b, hP' r k _ hr hk b a c⟩⟩

theorem held_init {rng : Nat} {hs : List (String × Hist K)} (Q Q' : Nat → Nat → K → Prop)
    (h : mkXbar E cfg rng hs = .ok x) : HeldCur Q Q' cfg x := by
  have := (mkCore_inv (mkXbar_inv h).1).2.2.2.1
  refine ⟨fun r k _ _ => Or.inl ?_, fun r k _ _ => Or.inl ?_⟩ <;> rw [this]

/-- Reprogramming a block. -/
theorem HeldCur.done {Q Q' : Nat → Nat → K → Prop} {c : Core K} (ho : HeldCur Q Q' cfg x)
    (hia : c.ia = x.mapper.core.ia)
    (hgp : ∀ r k, ¬(r < m ∧ k < n) → c.gd.p.get r k = x.mapper.core.gd.p.get r k ∧
      c.gd.m.get r k = x.mapper.core.gd.m.get r k)
    (hgd : x'.mapper.core.gd = c.gd) (hb : BinDone E cfg c m n x'.mapper.core.ia) (hmd : c.mode = cfg.mode) :
    HeldCur (fun r k y => ¬(r < m ∧ k < n) ∧ Q r k y) (fun r k y => ¬(r < m ∧ k < n) ∧ Q' r k y) cfg x' := by
  refine ⟨fun r k hr hk => ?_, fun r k hr hk => ?_⟩
  · have := hb.p r k
    split at this
    · exact Or.inl this.2.symm
    · next hn =>
      have h1 := ho.p r k hr hk
      rw [Prod.mk.injEq, hia] at this
      rw [this.1, this.2, hgd, (hgp r k hn).1]
      exact h1.imp id fun ⟨a, b⟩ => ⟨a, hn, b⟩
  · have h1 := ho.m r k hr hk
    by_cases hm : c.mode = .bnn3 ∨ c.mode = .bnn4
    · have hd : cfg.mode.isDiff = false := by rw [← hmd]; rcases hm with hm | hm <;> rw [hm] <;> rfl
      rw [(hb.m' hm).1, (hb.m' hm).2, hia]
      exact Or.inl (h1.resolve_right fun ⟨_, a, _⟩ => absurd (hd.symm.trans a) (by simp))
    · have := hb.m (by rw [not_or] at hm; exact hm) r k
      split at this
      · exact Or.inl this.2.symm
      · next hn =>
        rw [Prod.mk.injEq, hia] at this
        rw [this.1, this.2, hgd, (hgp r k hn).2]
        exact h1.imp id fun ⟨a, b, c⟩ => ⟨a, b, hn, c⟩

/-- The multiplication itself. -/
theorem HeldCur.mvm {Q Q' : Nat → Nat → K → Prop} (ho : HeldCur Q Q' cfg x) (hy : MvmDone E cfg x m n y) :
    HeldCur Q Q' cfg y := by
  have hgd : y.mapper.core.gd = x.mapper.core.gd := by rw [hy.fixed]
  refine ⟨fun r k hr hk => ?_, fun r k hr hk => ?_⟩
  · have h1 := ho.p r k hr hk
    have h2 := congrArg Prod.fst (hy.ia r k)
    dsimp only at h2
    rw [h2, hgd, hy.pO]
    split
    · exact Or.inl rfl
    · exact h1
  · have h1 := ho.m r k hr hk
    have h2 := congrArg Prod.snd (hy.ia r k)
    dsimp only at h2
    rw [h2, hgd, hy.mO]
    split
    · exact Or.inl rfl
    · exact h1

/-- An update of all LRS cells. -/
theorem HeldCur.upd {Q Q' : Nat → Nat → K → Prop} {c : Core K} {rp rm : Nat → Nat → Nat}
    (ho : HeldCur Q Q' cfg x) (hu : Updated E cfg rd rp rm x.mapper.core c)
    (hd : x.mapper.core.isDiff = cfg.mode.isDiff) (hc : x'.mapper.core = c) :
    HeldCur (fun r k y => ∃ f, rdFactor E cfg rd (rp r k) (rd.cycP.get r k) = .ok f ∧ y = E.fmul cfg.lrs f)
      (fun r k y => ∃ f, rdFactor E cfg rd (rm r k) (rd.cycM.get r k) = .ok f ∧ y = E.fmul cfg.lrs f)
      cfg x' := by
  subst hc
  have hgd : x'.mapper.core.gd = x.mapper.core.gd := by rw [hu.frame]
  refine ⟨fun r k hr hk => ?_, fun r k hr hk => ?_⟩
  · have h1 := ho.p r k hr hk
    have h2 := hu.p r k
    rw [hgd, hu.pO]
    split at h2
    · next hg => exact Or.inr ⟨hg.2.2, h2⟩
    · next hg =>
      rw [h2]
      exact Or.inl (h1.resolve_right fun ⟨a, _⟩ => hg ⟨hr, hk, a⟩)
  · have h1 := ho.m r k hr hk
    rw [hgd, hu.mO]
    cases hdd : cfg.mode.isDiff
    · rw [hu.m' (hd.trans hdd)]
      exact Or.inl (h1.resolve_right fun ⟨_, a, _⟩ => absurd (hdd.symm.trans a) (by simp))
    · have h2 := hu.m (hd.trans hdd) r k
      split at h2
      · next hg => exact Or.inr ⟨hg.2.2, rfl, h2⟩
      · next hg =>
        rw [h2]
        exact Or.inl (h1.resolve_right fun ⟨a, _⟩ => hg ⟨hr, hk, a⟩)

theorem HeldCur.congr {Q Q' : Nat → Nat → K → Prop} (ho : HeldCur Q Q' cfg x)
    (h : x'.mapper.core = x.mapper.core) : HeldCur Q Q' cfg x' :=
  ⟨by rw [Held, h]; exact ho.p, by rw [Held, h]; exact ho.m⟩

/-- The refresh of the cells that left the band. -/
theorem HeldCur.refresh {Q Q' : Nat → Nat → K → Prop} {c c' : Core K}
    (ho : HeldCur Q Q' cfg x) (hxc : x.mapper.core = c) (hu : CellsRefreshed E cfg c rd c' rd')
    (hd : c.isDiff = cfg.mode.isDiff) (hc : x'.mapper.core = c') :
    HeldCur (fun r k y => Varied E cfg.lrsNoise cfg.lrs y ∨ ¬OutOfBand E cfg y ∧ Q r k y)
      (fun r k y => Varied E cfg.lrsNoise cfg.lrs y ∨ ¬OutOfBand E cfg y ∧ Q' r k y) cfg x' := by
  subst hc hxc
  have hgd : x'.mapper.core.gd = x.mapper.core.gd := by rw [hu.frame]
  refine ⟨fun r k hr hk => ?_, fun r k hr hk => ?_⟩
  · have h1 := ho.p r k hr hk
    have h2 := hu.p r k
    rw [hgd, hu.pO]
    split at h2
    · next hg => exact Or.inr ⟨hg.2.2.1, Or.inl h2.1⟩
    · next hg =>
      simp only [Prod.mk.injEq] at h2
      rw [h2.1]
      refine h1.imp id fun ⟨a, b⟩ => ⟨a, Or.inr ⟨fun hn => hg ⟨hr, hk, a, outside_iff.2 hn⟩, b⟩⟩
  · have h1 := ho.m r k hr hk
    rw [hgd, hu.mO]
    cases hdd : cfg.mode.isDiff
    · rw [(hu.m' (hd.trans hdd)).1]
      exact Or.inl (h1.resolve_right fun ⟨_, a, _⟩ => absurd (hdd.symm.trans a) (by simp))
    · have h2 := hu.m (hd.trans hdd) r k
      split at h2
      · next hg => exact Or.inr ⟨hg.2.2.1, rfl, Or.inl h2.1⟩
      · next hg =>
        simp only [Prod.mk.injEq] at h2
        rw [h2.1]
        refine h1.imp id fun ⟨a, _, b⟩ => ⟨a, rfl, Or.inr ⟨fun hn => hg ⟨hr, hk, a, outside_iff.2 hn⟩, b⟩⟩

/-- A write. -/
theorem HeldCur.write {Q Q' : Nat → Nat → K → Prop} (hok : CfgOk cfg) (hi : cfg.mode.isInt = false)
    (hdo : cfg.digitalOnly = false) (hr : Runs E cfg h x) (h' : xWrite E cfg x mat m n = .ok x')
    (ho : HeldCur Q Q' cfg x) :
    HeldCur (fun r k y => ¬(r < m ∧ k < n) ∧ Q r k y) (fun r k y => ¬(r < m ∧ k < n) ∧ Q' r k y) cfg x' := by
  have hsh := runs_shape hr
  have h1 := (cont_aWrite_ok hsh h' hdo rfl).2 hi
  exact ho.done (c := { x.mapper.core with gd := x'.mapper.core.gd }) rfl
    (fun r k hn => ⟨(write_outside hok hi hr h' r k hn).1, (write_outside hok hi hr h' r k hn).2.1⟩) rfl h1
    hsh.core.mode

/-! ## Without mitigation -/

/-- The disturbed cells of a simulation without mitigation. -/
def OffQ (E : Env K) (cfg : Cfg K) (x : Xbar K) (h : List Op) (cyc : Rd K → Mat Nat) (r k : Nat) (y : K) : Prop :=
  (0 < x.consec / cfg.updFreq → ∃ rd f, x.rd = some rd ∧
    rdFactor E cfg rd (x.consec / cfg.updFreq * cfg.updFreq) ((cyc rd).get r k) = .ok f ∧ y = E.fmul cfg.lrs f) ∧
  (x.consec / cfg.updFreq = 0 → ¬(r < (lastBlock h).1 ∧ k < (lastBlock h).2))

/-- Every LRS cell was disturbed by the last update. -/
def OffAll (E : Env K) (cfg : Cfg K) (x : Xbar K) : Prop :=
  0 < x.consec / cfg.updFreq → ∃ rd, x.rd = some rd ∧ ∀ r k, r < cfg.R → k < cfg.N →
    (x.mapper.core.gd.p.get r k = 1 → ∃ f,
      rdFactor E cfg rd (x.consec / cfg.updFreq * cfg.updFreq) (rd.cycP.get r k) = .ok f ∧
      x.mapper.core.ia.p.get r k = E.fmul cfg.lrs f) ∧
    (cfg.mode.isDiff = true → x.mapper.core.gd.m.get r k = 1 → ∃ f,
      rdFactor E cfg rd (x.consec / cfg.updFreq * cfg.updFreq) (rd.cycM.get r k) = .ok f ∧
      x.mapper.core.ia.m.get r k = E.fmul cfg.lrs f)

theorem div_succ_of_not {a b : Nat} (h : ¬(a + 1) % b = 0) : (a + 1) / b = a / b := by
  rw [Nat.succ_div, if_neg fun hd => h (Nat.mod_eq_zero_of_dvd hd), Nat.add_zero]

theorem runs_off (hok : CfgOk cfg) (hi : cfg.mode.isInt = false) (hdo : cfg.digitalOnly = false)
    (hrd : cfg.readDisturb = true) (hc2 : cfg.c2c = false) (hst : cfg.strategy = .off)
    (hr : Runs E cfg h x) :
    HeldCur (OffQ E cfg x h Rd.cycP) (OffQ E cfg x h Rd.cycM) cfg x ∧ OffAll E cfg x := by
  induction hr with
  | init h =>
    refine ⟨held_init _ _ h, fun h0 => ?_⟩
    rw [(mkXbar_inv h).2.2.2.2.2.1, Nat.zero_div] at h0
    exact absurd h0 (lt_irrefl 0)
  | @write hs x x' mat m n hr h' ih =>
    have hz : x'.consec / cfg.updFreq = 0 := by rw [(xWrite_frame h').2.2.2.2.1, Nat.zero_div]
    refine ⟨(HeldCur.write hok hi hdo hr h' ih.1).mono (fun r k y _ _ _ hq => ?_)
      (fun r k y _ _ _ _ hq => ?_), fun h0 => by omega⟩
    · exact ⟨fun h0 => by omega, fun _ => hq.1⟩
    · exact ⟨fun h0 => by omega, fun _ => hq.1⟩
  | @mvm hs x x' res vec mat out m n l hr h' ih =>
    obtain ⟨y, hy, h2⟩ := xMvm_rd (runs_shape hr) hdo hrd h'
    obtain ⟨rd, hx, hsr⟩ := (runs_shape hr).rd hrd
    have hy' : y.rd = some rd := hy.rd.trans hx
    obtain ⟨hf, hk, _, rd', k1, k2, k3, k4⟩ := rdStep_off hsr hy' hst h2
    have hcon : x'.consec = x.consec + 1 := hk.consec.trans hy.consec
    have hyc := hy.same hc2
    by_cases hd : y.consec % cfg.updFreq = 0
    · have hu := k3 hd
      rw [hyc] at hu
      have hq : x'.consec / cfg.updFreq * cfg.updFreq = y.consec := by
        rw [hk.consec]
        exact Nat.div_mul_cancel (Nat.dvd_of_mod_eq_zero hd)
      have hpos : 0 < x'.consec / cfg.updFreq := by
        rcases Nat.eq_zero_or_pos (x'.consec / cfg.updFreq) with h0 | h0
        · rw [h0, Nat.zero_mul] at hq
          have := hy.consec
          omega
        · exact h0
      have hcg : ∀ a b, rdFactor E cfg rd' a b = rdFactor E cfg rd a b :=
        fun a b => rdFactor_congr (by rw [k2]) (by rw [k2]) a b
      have hcp : rd'.cycP = rd.cycP := by rw [k2]
      have hcm : rd'.cycM = rd.cycM := by rw [k2]
      refine ⟨(ih.1.upd hu (runs_shape hr).core.isDiff rfl).mono (fun r k z _ _ _ hz => ?_)
        (fun r k z _ _ _ _ hz => ?_), fun _ => ⟨rd', k1, fun r k hr hk => ⟨fun hg => ?_, fun hdd hg => ?_⟩⟩⟩
      · obtain ⟨f, h3, h4⟩ := hz
        exact ⟨fun _ => ⟨rd', f, k1, by rw [hq, hcg, hcp]; exact h3, h4⟩, fun h0 => by omega⟩
      · obtain ⟨f, h3, h4⟩ := hz
        exact ⟨fun _ => ⟨rd', f, k1, by rw [hq, hcg, hcm]; exact h3, h4⟩, fun h0 => by omega⟩
      · have h3 := hu.p r k
        have hgd : x'.mapper.core.gd = x.mapper.core.gd := by rw [hu.frame]
        rw [if_pos ⟨hr, hk, by rw [← hgd]; exact hg⟩] at h3
        rw [hq, hcp]
        simp only [hcg]
        exact h3
      · have h3 := hu.m ((runs_shape ‹Runs E cfg hs x›).core.isDiff.trans hdd) r k
        have hgd : x'.mapper.core.gd = x.mapper.core.gd := by rw [hu.frame]
        rw [if_pos ⟨hr, hk, by rw [← hgd]; exact hg⟩] at h3
        rw [hq, hcm]
        simp only [hcg]
        exact h3
    · have e : x'.mapper.core = x.mapper.core := (k4 hd).trans hyc
      have hdiv : x'.consec / cfg.updFreq = x.consec / cfg.updFreq := by
        rw [hcon]
        rw [hy.consec] at hd
        exact div_succ_of_not hd
      have hcg : ∀ a b, rdFactor E cfg rd' a b = rdFactor E cfg rd a b :=
        fun a b => rdFactor_congr (by rw [k2]) (by rw [k2]) a b
      have hcp : rd'.cycP = rd.cycP := by rw [k2]
      have hcm : rd'.cycM = rd.cycM := by rw [k2]
      refine ⟨(ih.1.congr e).mono (fun r k z _ _ _ hz => ⟨fun h0 => ?_, fun h0 => ?_⟩)
        (fun r k z _ _ _ _ hz => ⟨fun h0 => ?_, fun h0 => ?_⟩), fun h0 => ?_⟩
      · rw [hdiv] at h0 ⊢
        obtain ⟨rd0, f, h3, h4, h5⟩ := hz.1 h0
        rw [hx, Option.some.injEq] at h3
        subst h3
        exact ⟨rd', f, k1, by rw [hcg, hcp]; exact h4, h5⟩
      · rw [hdiv] at h0
        exact hz.2 h0
      · rw [hdiv] at h0 ⊢
        obtain ⟨rd0, f, h3, h4, h5⟩ := hz.1 h0
        rw [hx, Option.some.injEq] at h3
        subst h3
        exact ⟨rd', f, k1, by rw [hcg, hcm]; exact h4, h5⟩
      · rw [hdiv] at h0
        exact hz.2 h0
      · rw [hdiv] at h0
        obtain ⟨rd0, h3, h4⟩ := ih.2 h0
        rw [hx, Option.some.injEq] at h3
        subst h3
        refine ⟨rd', k1, ?_⟩
        rw [e, hdiv, hcp, hcm]
        simp only [hcg]
        exact h4

/-! ## Software refresh -/

/-- The disturbed cells when the software refreshes. -/
def SoftQ (E : Env K) (cfg : Cfg K) (p : K) (y : K) : Prop :=
  ∃ f, E.pow cfg.fp (-p) ≤ f ∧ f ≤ 1 ∧ y = E.fmul cfg.lrs f

theorem runs_soft {rd0 : Rd K} (hE : RdArith E) (hx : ExactArith E) (hfp : 1 ≤ cfg.fp)
    (hok : CfgOk cfg) (hi : cfg.mode.isInt = false) (hdo : cfg.digitalOnly = false)
    (hrd : cfg.readDisturb = true) (hst : cfg.strategy = .software) (h0 : mkRd E cfg = .ok rd0)
    (hr : Runs E cfg h x) :
    HeldCur (fun r _ y => r < cfg.M → SoftQ E cfg rd0.p y) (fun r _ y => r < cfg.M → SoftQ E cfg rd0.p y) cfg x := by
  induction hr with
  | init h => exact held_init _ _ h
  | @write hs x x' mat m n hr h' ih =>
    exact (HeldCur.write hok hi hdo hr h' ih).mono (fun r k y _ _ _ hq => hq.2)
      (fun r k y _ _ _ _ hq => hq.2)
  | @mvm hs x x' res vec mat out m n l hr h' ih =>
    obtain ⟨y, hy, h2⟩ := xMvm_rd (runs_shape hr) hdo hrd h'
    obtain ⟨rd, hxr, hsr, rd1, h1, hp1, hp2⟩ := runs_params hrd hr
    rw [h0, ok_inj] at h1
    subst h1
    have hy' : y.rd = some rd := hy.rd.trans hxr
    obtain ⟨k0, k1, k2⟩ := rdStep_software hsr hy' hst h2
    by_cases hd : y.consec % cfg.updFreq = 0
    · obtain ⟨z, rdz, e1, e2, e3, e4, _, e5, e6, e7⟩ := k2 hd
      cases hc : rdCheckSoftware E cfg rd y.consec (y.writes + y.refX)
      · rw [e6 hc]
        have hn := mkRd_nonneg hE h0
        have hcyc : ∀ r k, r < cfg.R → k < cfg.N →
            rd.cycP.get r k ≤ y.writes + y.refX ∧ rd.cycM.get r k ≤ y.writes + y.refX := by
          intro r k hrr hkk
          rw [hy.writes, hy.refX]
          exact cycles_le hok hrd (by rw [hst]; decide) hr hxr hrr hkk
        refine ((ih.mvm hy).upd e5 hy.shape.isDiff rfl).mono (fun r k w hrr hkk _ ⟨f, h3, h4⟩ _ => ?_)
          (fun r k w hrr hkk _ _ ⟨f, h3, h4⟩ _ => ?_)
        · refine ⟨f, ?_, (rdFactor_range hE (by rw [hp2]; exact hn.1) h3).2, h4⟩
          rw [← hp2]
          exact rdFactor_software hE hx (by rw [hp2]; exact hn.1) (by rw [hp1]; exact hn.2) hfp
            (hcyc r k hrr hkk).1 hc h3
        · refine ⟨f, ?_, (rdFactor_range hE (by rw [hp2]; exact hn.1) h3).2, h4⟩
          rw [← hp2]
          exact rdFactor_software hE hx (by rw [hp2]; exact hn.1) (by rw [hp1]; exact hn.2) hfp
            (hcyc r k hrr hkk).2 hc h3
      · obtain ⟨rd', hw⟩ := e7 hc
        have hcz := e5.shape hy.shape
        have hb := hw.bin hcz hi
        refine (((ih.mvm hy).upd e5 hy.shape.isDiff rfl).done (c := z.mapper.core) rfl
          (fun _ _ _ => ⟨rfl, rfl⟩) (aWrite_frame hw.prog).1 hb hcz.mode).mono
          (fun r k w hrr hkk _ hq hm => absurd ⟨hm, hkk⟩ hq.1)
          (fun r k w hrr hkk _ _ hq hm => absurd ⟨hm, hkk⟩ hq.1)
    · rw [k1 hd]
      exact ih.mvm hy

/-! ## Cell-based refresh -/

theorem cell_due {Q Q' : Nat → Nat → K → Prop} (hs : Shape E cfg x) (hdo : cfg.digitalOnly = false)
    (hrd : cfg.readDisturb = true) (hst : cfg.strategy = .cellBased)
    (h' : xMvm E cfg x res vec mat m n l = .ok (x', out)) (hd : updateDue cfg x)
    (ho : HeldCur Q Q' cfg x) :
    HeldCur (fun _ _ y => Varied E cfg.lrsNoise cfg.lrs y ∨ ¬OutOfBand E cfg y)
      (fun _ _ y => Varied E cfg.lrsNoise cfg.lrs y ∨ ¬OutOfBand E cfg y) cfg x' := by
  obtain ⟨y, hy, h2⟩ := xMvm_rd hs hdo hrd h'
  obtain ⟨rd, hx, hsr⟩ := hs.rd hrd
  have hy' : y.rd = some rd := hy.rd.trans hx
  obtain ⟨_, _, rd1, rd', _, _, _, k4⟩ := rdStep_cell hsr hy.shape hy' hst h2
  unfold updateDue at hd
  rw [← hy.consec] at hd
  obtain ⟨c1, rd2, e1, e2, e3⟩ := k4 hd
  have h3 := (ho.mvm hy).upd (x' := { y with mapper := { y.mapper with core := c1 } }) e2 hy.shape.isDiff rfl
  have hd1 : c1.isDiff = cfg.mode.isDiff := (e2.shape hy.shape).isDiff
  exact (h3.refresh rfl e3 hd1 rfl).mono (fun _ _ _ _ _ _ h => h.imp id And.left)
    (fun _ _ _ _ _ _ _ h => h.imp id And.left)

/-- Every LRS cell of any array is in the band or freshly programmed. -/
theorem runs_held (hok : CfgOk cfg) (hi : cfg.mode.isInt = false) (hdo : cfg.digitalOnly = false)
    (hrd : cfg.readDisturb = true) (hr : Runs E cfg h x) :
    HeldCur (fun _ _ _ => True) (fun _ _ _ => True) cfg x := by
  induction hr with
  | init h => exact held_init _ _ h
  | @write hs x x' mat m n hr h' ih =>
    exact (HeldCur.write hok hi hdo hr h' ih).mono (fun r k y _ _ _ hq => trivial)
      (fun r k y _ _ _ _ hq => trivial)
  | @mvm hs x x' res vec mat out m n l hr h' ih =>
    obtain ⟨y, hy, h2⟩ := xMvm_rd (runs_shape hr) hdo hrd h'
    obtain ⟨rd, hx, hsr⟩ := (runs_shape hr).rd hrd
    have hy' : y.rd = some rd := hy.rd.trans hx
    have ihy := ih.mvm hy
    cases hst : cfg.strategy
    · obtain ⟨_, _, _, rd', _, _, k1, k2⟩ := rdStep_off hsr hy' hst h2
      by_cases hd : y.consec % cfg.updFreq = 0
      · exact (ihy.upd (k1 hd) hy.shape.isDiff rfl).mono (fun _ _ _ _ _ _ _ => trivial)
          (fun _ _ _ _ _ _ _ _ => trivial)
      · exact ihy.congr (k2 hd)
    · obtain ⟨_, k1, k2⟩ := rdStep_software hsr hy' hst h2
      by_cases hd : y.consec % cfg.updFreq = 0
      · obtain ⟨z, rd1, e1, e2, e3, e4, _, e5, e6, e7⟩ := k2 hd
        have ihz := ihy.upd e5 hy.shape.isDiff rfl
        cases hc : rdCheckSoftware E cfg rd y.consec (y.writes + y.refX)
        · rw [e6 hc]
          exact ihz.mono (fun _ _ _ _ _ _ _ => trivial) (fun _ _ _ _ _ _ _ _ => trivial)
        · obtain ⟨rd', hw⟩ := e7 hc
          have hcz := e5.shape hy.shape
          exact (ihz.done (c := z.mapper.core) rfl (fun _ _ _ => ⟨rfl, rfl⟩) (aWrite_frame hw.prog).1
            (hw.bin hcz hi) hcz.mode).mono (fun _ _ _ _ _ _ _ => trivial)
            (fun _ _ _ _ _ _ _ _ => trivial)
      · rw [k1 hd]
        exact ihy
    · by_cases hd : y.consec % cfg.updFreq = 0
      · rw [hy.consec] at hd
        exact (cell_due (runs_shape hr) hdo hrd hst h' hd ih).mono (fun _ _ _ _ _ _ _ => trivial)
          (fun _ _ _ _ _ _ _ _ => trivial)
      · obtain ⟨_, _, rd1, rd', _, _, k3, _⟩ := rdStep_cell hsr hy.shape hy' hst h2
        exact ihy.congr (by rw [(k3 hd).2])

end

end Acs
