import Verif.Lemmas.RdFactor
import Verif.Lemmas.DetXbar

/-! # Counters and read disturb over histories -/

set_option linter.unusedSectionVars false

namespace Acs

open Spec

section
variable {K : Type} [Field K] [LinearOrder K] [IsStrictOrderedRing K] [FloorRing K]
variable {E : Env K} {cfg : Cfg K} {x x' : Xbar K} {rd rd' : Rd K} {t : List (Step K)} {h : List Op}
variable {mat vec res out : Vec Int} {m n : Nat} {l : String}

theorem Spec.Traced.runs (ht : Traced E cfg t x) : Runs E cfg (calls t) x := by
  induction ht with
  | init h => exact .init h
  | write _ h' ih => exact .write ih h'
  | mvm _ h' ih => exact .mvm ih h'

theorem runs_traced (hr : Runs E cfg h x) : ∃ t, calls t = h ∧ Traced E cfg t x := by
  induction hr with
  | init h => exact ⟨[], rfl, .init h⟩
  | write _ h' ih => obtain ⟨t, rfl, ht⟩ := ih; exact ⟨_, rfl, .write ht h'⟩
  | mvm _ h' ih => obtain ⟨t, rfl, ht⟩ := ih; exact ⟨_, rfl, .mvm ht h'⟩

/-! ## Counters -/

theorem xMvm_consec (hs : Shape E cfg x) (h : xMvm E cfg x res vec mat m n l = .ok (x', out)) :
    (x'.consec = x.consec + 1 ∧ x'.refX = x.refX) ∨
      (cfg.digitalOnly = false ∧ cfg.readDisturb = true ∧ cfg.strategy = .software ∧
        (x.consec + 1) % cfg.updFreq = 0 ∧ x'.consec = 0 ∧ x'.refX = x.refX + 1) := by
  cases hdo : cfg.digitalOnly
  · cases hrd : cfg.readDisturb
    · left
      unfold xMvm at h
      dsimp only at h
      rw [hdo, hrd, if_neg (by simp), bind_eq_ok] at h
      obtain ⟨mp, h1, h⟩ := h
      rw [bind_eq_ok] at h
      obtain ⟨q, h2, h⟩ := h
      rw [bind_eq_ok] at h
      obtain ⟨mp', h3, h⟩ := h
      rw [if_neg (by simp), ok_bind, ok_inj, Prod.mk.injEq] at h
      rw [← h.1]
      exact ⟨rfl, rfl⟩
    · obtain ⟨y, hy, h⟩ := xMvm_rd hs hdo hrd h
      obtain ⟨rd, hx, hsr⟩ := hs.rd hrd
      have hy' : y.rd = some rd := hy.rd.trans hx
      cases hst : cfg.strategy
      · obtain ⟨_, k, _⟩ := rdStep_off hsr hy' hst h
        exact Or.inl ⟨k.consec.trans hy.consec, k.refX.trans hy.refX⟩
      · obtain ⟨_, k1, k2⟩ := rdStep_software hsr hy' hst h
        by_cases hd : y.consec % cfg.updFreq = 0
        · obtain ⟨z, rd1, e1, e2, e3, e4, _, e5, e6, e7⟩ := k2 hd
          cases hc : rdCheckSoftware E cfg rd y.consec (y.writes + y.refX)
          · rw [e6 hc]
            exact Or.inl ⟨e1.consec.trans hy.consec, e1.refX.trans hy.refX⟩
          · obtain ⟨rd', hw⟩ := e7 hc
            refine Or.inr ⟨rfl, rfl, rfl, by rw [← hy.consec]; exact hd, hw.consec, ?_⟩
            rw [hw.refX, e1.refX, hy.refX]
        · rw [k1 hd]
          exact Or.inl ⟨hy.consec, hy.refX⟩
      · obtain ⟨_, k, _⟩ := rdStep_cell hsr hy.shape hy' hst h
        exact Or.inl ⟨k.consec.trans hy.consec, k.refX.trans hy.refX⟩
  · left
    unfold xMvm at h
    dsimp only at h
    rw [hdo, if_pos rfl, bind_eq_ok] at h
    obtain ⟨q, h1, h⟩ := h
    rw [ok_inj, Prod.mk.injEq] at h
    rw [← h.1]
    exact ⟨rfl, rfl⟩

theorem runs_counts (hr : Runs E cfg h x) : x.writes = writesIn h ∧ x.mvms = mvmsIn h := by
  induction hr with
  | init h =>
    obtain ⟨_, _, _, h1, h2, _⟩ := mkXbar_inv h
    exact ⟨h1, h2⟩
  | write _ h' ih =>
    obtain ⟨_, _, h1, h2, _⟩ := xWrite_frame h'
    exact ⟨by rw [h1, ih.1]; rfl, by rw [h2, ih.2]; rfl⟩
  | mvm _ h' ih =>
    obtain ⟨_, h1, h2⟩ := xMvm_frame h'
    exact ⟨by rw [h1, ih.1]; rfl, by rw [h2, ih.2]; rfl⟩

/-! ## Parameters -/

/-- What stays fixed in a read-disturb object. -/
theorem xMvm_rdFrame (hs : Shape E cfg x) (hx : x.rd = some rd)
    (h : xMvm E cfg x res vec mat m n l = .ok (x', out)) :
    ∃ rd', x'.rd = some rd' ∧ rd'.expTt = rd.expTt ∧ rd'.p = rd.p := by
  cases hdo : cfg.digitalOnly
  · cases hrd : cfg.readDisturb
    · unfold xMvm at h
      dsimp only at h
      rw [hdo, hrd, if_neg (by simp), bind_eq_ok] at h
      obtain ⟨mp, h1, h⟩ := h
      rw [bind_eq_ok] at h
      obtain ⟨q, h2, h⟩ := h
      rw [bind_eq_ok] at h
      obtain ⟨mp', h3, h⟩ := h
      rw [if_neg (by simp), ok_bind, ok_inj, Prod.mk.injEq] at h
      rw [← h.1]
      exact ⟨rd, hx, rfl, rfl⟩
    · obtain ⟨y, hy, h⟩ := xMvm_rd hs hdo hrd h
      obtain ⟨rd0, hx0, hsr⟩ := hs.rd hrd
      rw [hx, Option.some.injEq] at hx0
      subst hx0
      have hy' : y.rd = some rd := hy.rd.trans hx
      cases hst : cfg.strategy
      · obtain ⟨_, _, _, rd', k1, k2, _⟩ := rdStep_off hsr hy' hst h
        exact ⟨rd', k1, by rw [k2], by rw [k2]⟩
      · obtain ⟨_, k1, k2⟩ := rdStep_software hsr hy' hst h
        by_cases hd : y.consec % cfg.updFreq = 0
        · obtain ⟨z, rd1, e1, e2, e3, e4, _, e5, e6, e7⟩ := k2 hd
          cases hc : rdCheckSoftware E cfg rd y.consec (y.writes + y.refX)
          · rw [e6 hc]
            exact ⟨rd1, e3, by rw [e4], by rw [e4]⟩
          · obtain ⟨rd', hw⟩ := e7 hc
            exact ⟨rd', hw.has, by rw [hw.rdFrame, e4], by rw [hw.rdFrame, e4]⟩
        · rw [k1 hd]
          exact ⟨rd, hy', rfl, rfl⟩
      · obtain ⟨_, k, rd1, rd', k1, k2, k3, k4⟩ := rdStep_cell hsr hy.shape hy' hst h
        have k5 := (updateReads_inv k2).1
        refine ⟨rd', k1, ?_⟩
        by_cases hd : y.consec % cfg.updFreq = 0
        · obtain ⟨c1, rd2, e1, e2, e3⟩ := k4 hd
          rw [e3.rdFrame, e1, k5]
          exact ⟨rfl, rfl⟩
        · rw [(k3 hd).1, k5]
          exact ⟨rfl, rfl⟩
  · unfold xMvm at h
    dsimp only at h
    rw [hdo, if_pos rfl, bind_eq_ok] at h
    obtain ⟨q, h1, h⟩ := h
    rw [ok_inj, Prod.mk.injEq] at h
    rw [← h.1]
    exact ⟨rd, hx, rfl, rfl⟩

theorem runs_params (hrd : cfg.readDisturb = true) (hr : Runs E cfg h x) :
    ∃ rd, x.rd = some rd ∧ RdShape cfg rd ∧ Params E cfg rd := by
  have key : ∃ rd, x.rd = some rd ∧ Params E cfg rd := by
    induction hr with
    | init h =>
      obtain ⟨_, _, h1, _⟩ := mkXbar_inv h
      unfold optRd at h1
      rw [if_pos hrd, bind_eq_ok] at h1
      obtain ⟨rd, h2, h1⟩ := h1
      exact ⟨rd, (ok_inj.1 h1).symm, rd, h2, rfl, rfl⟩
    | write hr h' ih =>
      obtain ⟨rd, hx, rd0, h0, e1, e2⟩ := ih
      obtain ⟨rd', k1, k2, _⟩ := xWrite_rd (runs_shape hr) hrd hx h'
      exact ⟨rd', k1, rd0, h0, by rw [k2]; exact e1, by rw [k2]; exact e2⟩
    | mvm hr h' ih =>
      obtain ⟨rd, hx, rd0, h0, e1, e2⟩ := ih
      obtain ⟨rd', k1, k2, k3⟩ := xMvm_rdFrame (runs_shape hr) hx h'
      exact ⟨rd', k1, rd0, h0, k2.trans e1, k3.trans e2⟩
  obtain ⟨rd, h1, h2⟩ := key
  obtain ⟨rd0, h3, h4⟩ := (runs_shape hr).rd hrd
  rw [h1, Option.some.injEq] at h3
  subst h3
  exact ⟨rd, h1, h4, h2⟩

/-! ## Cycle and read counters of the cells -/

theorem outside_iff {y : K} : rdOutside E cfg y = true ↔ OutOfBand E cfg y := by
  unfold rdOutside OutOfBand
  rw [Bool.or_eq_true, decide_eq_true_iff, decide_eq_true_iff]

/-- What a multiplication does to the cycle and read counters of one cell. -/
structure Counted (E : Env K) (cfg : Cfg K) (s : Step K) (r k : Nat) (rd rd' : Rd K) : Prop where
  cycP : [Decidable (RefreshP E cfg s r k)] →
    rd'.cycP.get r k = rd.cycP.get r k + if RefreshP E cfg s r k then 1 else 0
  cycM : [Decidable (cfg.mode.isDiff = true ∧ RefreshM E cfg s r k)] →
    rd'.cycM.get r k = rd.cycM.get r k + if cfg.mode.isDiff = true ∧ RefreshM E cfg s r k then 1 else 0
  rdP : cfg.digitalOnly = false → cfg.strategy = .cellBased →
    [Decidable (RefreshP E cfg s r k)] → [Decidable (Reads cfg s.op r k)] →
    rd'.rdP.get r k = if RefreshP E cfg s r k then 0
      else rd.rdP.get r k + if Reads cfg s.op r k then 1 else 0
  rdM : cfg.digitalOnly = false → cfg.strategy = .cellBased → cfg.mode.isDiff = true →
    [Decidable (RefreshM E cfg s r k)] → [Decidable (Reads cfg s.op r k)] →
    rd'.rdM.get r k = if RefreshM E cfg s r k then 0
      else rd.rdM.get r k + if Reads cfg s.op r k then 1 else 0

theorem refreshP_iff {s : Step K} {r k : Nat} (hx : s.pre.rd = some rd) : RefreshP E cfg s r k ↔
    RefreshOf E cfg s (s.pre.mapper.core.gd.p.get r k) (rd.cycP.get r k) (rd.rdP.get r k) r k := by
  unfold RefreshP
  rw [hx]
  constructor
  · rintro ⟨rd', h1, h2⟩
    rw [Option.some.injEq] at h1
    subst h1
    exact h2
  · exact fun h => ⟨rd, rfl, h⟩

theorem refreshM_iff {s : Step K} {r k : Nat} (hx : s.pre.rd = some rd) : RefreshM E cfg s r k ↔
    RefreshOf E cfg s (s.pre.mapper.core.gd.m.get r k) (rd.cycM.get r k) (rd.rdM.get r k) r k := by
  unfold RefreshM
  rw [hx]
  constructor
  · rintro ⟨rd', h1, h2⟩
    rw [Option.some.injEq] at h1
    subst h1
    exact h2
  · exact fun h => ⟨rd, rfl, h⟩

theorem refreshOf_sw {s : Step K} {g : Int} {c q r k : Nat} (hst : cfg.strategy = .software)
    (hdo : cfg.digitalOnly = false) (hm : isMvm s.op) :
    RefreshOf E cfg s g c q r k ↔ g = 1 ∧ s.post.refX ≠ s.pre.refX := by
  unfold RefreshOf
  rw [hst]
  exact ⟨fun h => h.2.2, fun h => ⟨hdo, hm, h⟩⟩

theorem mvm_counted (hs : Shape E cfg x) (hrd : cfg.readDisturb = true) (hx : x.rd = some rd)
    (h : xMvm E cfg x res vec mat m n l = .ok (x', out)) {r k : Nat} (hr : r < cfg.R) (hk : k < cfg.N) :
    ∃ rd', x'.rd = some rd' ∧ Counted E cfg ⟨.mvm res vec mat m n l, x, x'⟩ r k rd rd' := by
  have hxm := xMvm_consec hs h
  obtain ⟨S, hS⟩ : ∃ S : Step K, S = ⟨.mvm res vec mat m n l, x, x'⟩ := ⟨_, rfl⟩
  have hpre : S.pre = x := by rw [hS]
  have hpost : S.post = x' := by rw [hS]
  have hop : isMvm S.op := by rw [hS]; trivial
  have hReads : Reads cfg S.op r k ↔ r < m * cfg.S ∧ k < n := by rw [hS]; rfl
  rw [← hS]
  have iP := refreshP_iff (E := E) (cfg := cfg) (s := S) (r := r) (k := k) (rd := rd) (by rw [hpre, hx])
  have iM := refreshM_iff (E := E) (cfg := cfg) (s := S) (r := r) (k := k) (rd := rd) (by rw [hpre, hx])
  rw [hpre] at iP iM
  cases hdo : cfg.digitalOnly
  · obtain ⟨y, hy, h⟩ := xMvm_rd hs hdo hrd h
    obtain ⟨rd0, hx0, hsr⟩ := hs.rd hrd
    rw [hx, Option.some.injEq] at hx0
    subst hx0
    have hy' : y.rd = some rd := hy.rd.trans hx
    have hgd : y.mapper.core.gd = x.mapper.core.gd := by rw [hy.fixed]
    cases hst : cfg.strategy
    · obtain ⟨_, _, _, rd', k1, k2, _⟩ := rdStep_off hsr hy' hst h
      have f1 : ∀ g c q, ¬RefreshOf E cfg S g c q r k := fun g c q h => by
        unfold RefreshOf at h; rw [hst] at h; exact h.2.2.2
      refine ⟨rd', k1, ?_, ?_, fun _ h => absurd (hst.symm.trans h) (by decide),
        fun _ h => absurd (hst.symm.trans h) (by decide)⟩
      · intro _; rw [if_neg fun h => f1 _ _ _ (iP.1 h), k2]; rfl
      · intro _; rw [if_neg fun h => f1 _ _ _ (iM.1 h.2), k2]; rfl
    · have i2 : ∀ g c q, RefreshOf E cfg S g c q r k ↔ g = 1 ∧ x'.refX ≠ x.refX := fun g c q => by
        have := refreshOf_sw (E := E) (s := S) (g := g) (c := c) (q := q) (r := r) (k := k) hst hdo hop
        rw [hpre, hpost] at this
        exact this
      rw [i2] at iP iM
      obtain ⟨_, k1, k2⟩ := rdStep_software hsr hy' hst h
      have nf : ∀ rd' : Rd K, x'.rd = some rd' → x'.refX = x.refX → rd'.cycP = rd.cycP →
          rd'.cycM = rd.cycM → Counted E cfg S r k rd rd' := fun rd' h1 h2 h3 h4 => by
        refine ⟨?_, ?_, fun _ h => absurd (hst.symm.trans h) (by decide),
          fun _ h => absurd (hst.symm.trans h) (by decide)⟩
        · intro _; rw [if_neg fun h => (iP.1 h).2 h2, h3]; rfl
        · intro _; rw [if_neg fun h => (iM.1 h.2).2 h2, h4]; rfl
      by_cases hd : y.consec % cfg.updFreq = 0
      · obtain ⟨z, rd1, e1, e2, e3, e4, _, e5, e6, e7⟩ := k2 hd
        have hgz : z.mapper.core.gd = x.mapper.core.gd := by rw [e5.frame, ← hgd]
        have hdz : z.mapper.core.isDiff = cfg.mode.isDiff := by rw [e5.frame]; exact hy.shape.isDiff
        cases hc : rdCheckSoftware E cfg rd y.consec (y.writes + y.refX)
        · have hxx := e6 hc
          exact ⟨rd1, by rw [hxx]; exact e3, nf rd1 (by rw [hxx]; exact e3)
            (by rw [hxx, e1.refX, hy.refX]) (by rw [e4]) (by rw [e4])⟩
        · obtain ⟨rd', hw⟩ := e7 hc
          have hne : x'.refX ≠ x.refX := by rw [hw.refX, e1.refX, hy.refX]; omega
          refine ⟨rd', hw.has, ?_, ?_, fun _ h => absurd (hst.symm.trans h) (by decide),
            fun _ h => absurd (hst.symm.trans h) (by decide)⟩
          · intro _
            rw [hw.cycP r k hr hk, e4, hgz]
            congr 1
            exact if_congr (by rw [iP]; exact ⟨fun h => ⟨h, hne⟩, fun h => h.1⟩) rfl rfl
          · intro _
            rw [hw.cycM r k hr hk, e4, hgz, hdz]
            congr 1
            exact if_congr (by rw [iM]; exact ⟨fun h => ⟨h.1, h.2, hne⟩, fun h => ⟨h.1, h.2.1⟩⟩) rfl rfl
      · have hxx := k1 hd
        exact ⟨rd, by rw [hxx]; exact hy', nf rd (by rw [hxx]; exact hy') (by rw [hxx]; exact hy.refX) rfl rfl⟩
    · obtain ⟨_, kk, rd1, rd', k1, k2, k3, k4⟩ := rdStep_cell hsr hy.shape hy' hst h
      obtain ⟨u1, u2, u3⟩ := updateReads_inv k2
      have i2 : ∀ g c q, RefreshOf E cfg S g c q r k ↔ g = 1 ∧ y.consec % cfg.updFreq = 0 ∧
          ∃ f, rdFactor E cfg rd (q + if r < m * cfg.S ∧ k < n then 1 else 0) c = .ok f ∧
            OutOfBand E cfg (E.fmul cfg.lrs f) := fun g c q => by
        unfold RefreshOf updateDue
        rw [hst, hpre, hx, hy.consec]
        simp only [hReads]
        constructor
        · rintro ⟨_, _, h1, h2, rd0, f, h3, h4, h5⟩
          rw [Option.some.injEq] at h3
          subst h3
          exact ⟨h1, h2, f, by convert h4, h5⟩
        · rintro ⟨h1, h2, f, h4, h5⟩
          exact ⟨hdo, hop, h1, h2, rd, f, rfl, by convert h4, h5⟩
      rw [i2] at iP iM
      refine ⟨rd', k1, ?_⟩
      by_cases hd : y.consec % cfg.updFreq = 0
      · obtain ⟨c1, rd2, e1, e2, e3⟩ := k4 hd
        have hgz : c1.gd = x.mapper.core.gd := by rw [e2.frame, ← hgd]
        have hdz : c1.isDiff = cfg.mode.isDiff := by rw [e2.frame]; exact hy.shape.isDiff
        have hdy : y.mapper.core.isDiff = cfg.mode.isDiff := hy.shape.isDiff
        have c2 : rd2.cycP = rd.cycP ∧ rd2.cycM = rd.cycM ∧ rd2.rdP = rd1.rdP ∧ rd2.rdM = rd1.rdM := by
          rw [e1, u1]; exact ⟨rfl, rfl, rfl, rfl⟩
        have hf : ∀ a b, rdFactor E cfg rd1 a b = rdFactor E cfg rd a b :=
          fun a b => rdFactor_congr (by rw [u1]) (by rw [u1]) a b
        have hP := e3.p r k
        have hM := fun hd' => e3.m hd' r k
        have hcur : x.mapper.core.gd.p.get r k = 1 → ∃ f, rdFactor E cfg rd (rd1.rdP.get r k)
            (rd.cycP.get r k) = .ok f ∧ c1.ia.p.get r k = E.fmul cfg.lrs f := by
          intro hg
          have := e2.p r k
          rw [if_pos ⟨hr, hk, by rw [hgd]; exact hg⟩, hf] at this
          rw [u1] at this
          exact this
        have hcurM : cfg.mode.isDiff = true → x.mapper.core.gd.m.get r k = 1 →
            ∃ f, rdFactor E cfg rd (rd1.rdM.get r k)
            (rd.cycM.get r k) = .ok f ∧ c1.ia.m.get r k = E.fmul cfg.lrs f := by
          intro hd' hg
          have := e2.m (hdy.trans hd') r k
          rw [if_pos ⟨hr, hk, by rw [hgd]; exact hg⟩, hf] at this
          rw [u1] at this
          exact this
        have jP : RefreshP E cfg S r k ↔
            x.mapper.core.gd.p.get r k = 1 ∧ rdOutside E cfg (c1.ia.p.get r k) = true := by
          rw [iP, ← u2]
          constructor
          · rintro ⟨h1, _, f, h2, h3⟩
            refine ⟨h1, ?_⟩
            obtain ⟨f', h4, h5⟩ := hcur h1
            rw [h4, ok_inj] at h2
            rw [h5, outside_iff, h2]
            exact h3
          · rintro ⟨h1, h2⟩
            obtain ⟨f', h4, h5⟩ := hcur h1
            exact ⟨h1, hd, f', h4, by rw [← outside_iff, ← h5]; exact h2⟩
        have jM : cfg.mode.isDiff = true → (RefreshM E cfg S r k ↔
            x.mapper.core.gd.m.get r k = 1 ∧ rdOutside E cfg (c1.ia.m.get r k) = true) := by
          intro hd'
          rw [iM, ← u3]
          constructor
          · rintro ⟨h1, _, f, h2, h3⟩
            refine ⟨h1, ?_⟩
            obtain ⟨f', h4, h5⟩ := hcurM hd' h1
            rw [h4, ok_inj] at h2
            rw [h5, outside_iff, h2]
            exact h3
          · rintro ⟨h1, h2⟩
            obtain ⟨f', h4, h5⟩ := hcurM hd' h1
            exact ⟨h1, hd, f', h4, by rw [← outside_iff, ← h5]; exact h2⟩
        rw [hgz] at hP hM
        have hP1 : RefreshP E cfg S r k → rd'.cycP.get r k = rd.cycP.get r k + 1 ∧ rd'.rdP.get r k = 0 := by
          intro hh
          have hh := jP.1 hh
          rw [if_pos ⟨hr, hk, hh.1, hh.2⟩] at hP
          exact ⟨by rw [← c2.1]; exact hP.2.1, hP.2.2⟩
        have hP0 : ¬RefreshP E cfg S r k → rd'.cycP.get r k = rd.cycP.get r k ∧
            rd'.rdP.get r k = rd1.rdP.get r k := by
          intro hh
          rw [jP] at hh
          rw [if_neg fun h => hh ⟨h.2.2.1, h.2.2.2⟩] at hP
          simp only [Prod.mk.injEq] at hP
          rw [hP.2.1, hP.2.2, c2.1, c2.2.2.1]
          exact ⟨rfl, rfl⟩
        have hM1 : cfg.mode.isDiff = true → RefreshM E cfg S r k →
            rd'.cycM.get r k = rd.cycM.get r k + 1 ∧ rd'.rdM.get r k = 0 := by
          intro hd' hh
          have hh := (jM hd').1 hh
          have hM := hM (hdz.trans hd')
          rw [if_pos ⟨hr, hk, hh.1, hh.2⟩] at hM
          exact ⟨by rw [← c2.2.1]; exact hM.2.1, hM.2.2⟩
        have hM0 : cfg.mode.isDiff = true → ¬RefreshM E cfg S r k → rd'.cycM.get r k = rd.cycM.get r k ∧
            rd'.rdM.get r k = rd1.rdM.get r k := by
          intro hd' hh
          rw [jM hd'] at hh
          have hM := hM (hdz.trans hd')
          rw [if_neg fun h => hh ⟨h.2.2.1, h.2.2.2⟩] at hM
          simp only [Prod.mk.injEq] at hM
          rw [hM.2.1, hM.2.2, c2.2.1, c2.2.2.2]
          exact ⟨rfl, rfl⟩
        refine ⟨?_, ?_, ?_, ?_⟩
        · intro _
          split
          · next hh => exact (hP1 hh).1
          · next hh => exact (hP0 hh).1
        · intro _
          split
          · next hh => exact (hM1 hh.1 hh.2).1
          · next hh =>
            cases hd' : cfg.mode.isDiff
            · rw [(e3.m' (hdz.trans hd')).2.1, c2.2.1]; rfl
            · exact (hM0 hd' fun h => hh ⟨hd', h⟩).1
        · intro _ _ _ _
          split
          · next hh => exact (hP1 hh).2
          · next hh => rw [(hP0 hh).2, u2]; congr 1; exact if_congr hReads.symm rfl rfl
        · intro _ _ hd' _ _
          split
          · next hh => exact (hM1 hd' hh).2
          · next hh => rw [(hM0 hd' hh).2, u3]; congr 1; exact if_congr hReads.symm rfl rfl
      · have c1 := (k3 hd).1
        have nP : ¬RefreshP E cfg S r k := fun h => hd (iP.1 h).2.1
        have nM : ¬RefreshM E cfg S r k := fun h => hd (iM.1 h).2.1
        rw [c1]
        refine ⟨?_, ?_, ?_, ?_⟩
        · intro _; rw [if_neg nP, u1]; rfl
        · intro _; rw [if_neg fun h => nM h.2, u1]; rfl
        · intro _ _ _ _; rw [if_neg nP, u2]; congr 1; exact if_congr hReads.symm rfl rfl
        · intro _ _ _ _ _; rw [if_neg nM, u3]; congr 1; exact if_congr hReads.symm rfl rfl
  · have hn : ∀ g c q, ¬RefreshOf E cfg S g c q r k := fun g c q h => by
      have := h.1; rw [hdo] at this; cases this
    have hk := (xMvm_core h (Or.inl hdo)).2.1
    refine ⟨rd, hk.trans hx, ?_, ?_, fun h => absurd (hdo.symm.trans h) (by simp),
      fun h => absurd (hdo.symm.trans h) (by simp)⟩
    · intro _; rw [if_neg fun h => hn _ _ _ (iP.1 h)]; rfl
    · intro _; rw [if_neg fun h => hn _ _ _ (iM.1 h.2)]; rfl

end

end Acs
