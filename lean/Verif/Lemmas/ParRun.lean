import Verif.Lemmas.ParVal
import Verif.Lemmas.Frame

/-! # The solver along a run -/

set_option linter.unusedSectionVars false

namespace Acs
open Spec (lines pair cross slices firstArray secondArray)

section
variable {K : Type} [Field K] [LinearOrder K] [IsStrictOrderedRing K] [FloorRing K]
variable {E : Env K} {cfg : Cfg K} {c : Core K} {x x' : Xbar K}
variable {mat vec res : Vec Int} {m n : Nat} {l : String}

theorem setConductance_frame {s s' : Solver K} {A : Mat K} {B : Option (Mat K)}
    (h : setConductance E cfg s A B m n = .ok s') : s' = { s with ga := s'.ga } := by
  unfold setConductance at h
  simp only [bind_eq_ok] at h
  obtain ⟨_, _, _, _, _, _, h⟩ := h
  split at h
  · cases h
  · simp only [bind_eq_ok, ok_inj] at h
    obtain ⟨_, _, rfl⟩ := h
    rfl

theorem pushSolver_inv {par par' : Option (Solver K)} {A : Mat K} {B : Option (Mat K)}
    (h : pushSolver E cfg par A B m n = .ok par') :
    (cfg.parasitics = false ∧ par' = par) ∨ (cfg.parasitics = true ∧ ∃ s s', par = some s ∧
      par' = some s' ∧ setConductance E cfg s A B m n = .ok s') := by
  unfold pushSolver at h
  split at h
  · next hp =>
    refine Or.inr ⟨hp, ?_⟩
    split at h
    · cases h
    · next s =>
      simp only [bind_eq_ok, ok_inj] at h
      obtain ⟨s', h1, h2⟩ := h
      exact ⟨s, s', rfl, h2.symm, h1⟩
  · next hp =>
    rw [ok_inj] at h
    exact Or.inl ⟨by simpa using hp, h.symm⟩

/-- What an analog write hands to the solver. -/
def secondOpt (md : Mode) (ia : Ia K) : Option (Mat K) :=
  if pair md * lines md = 1 then none else some (secondArray md ia)

theorem aWrite_solver {mp mp' : Mapper K} (hm : mp.core.mode = cfg.mode)
    (h : aWrite E cfg mp m n = .ok mp') :
    (cfg.parasitics = false ∧ mp'.core.par = mp.core.par) ∨ (cfg.parasitics = true ∧ ∃ s s',
      mp.core.par = some s ∧ mp'.core.par = some s' ∧
      setConductance E cfg s (firstArray cfg.mode mp'.core.ia) (secondOpt cfg.mode mp'.core.ia)
        (m * slices cfg) n = .ok s') := by
  unfold aWrite at h
  dsimp only at h
  rw [hm] at h
  cases hmd : cfg.mode <;> simp only [hmd] at h
  all_goals
    rw [bind_eq_ok] at h
    obtain ⟨ia, h1, h⟩ := h
    rw [bind_eq_ok] at h
    obtain ⟨par, h2, h⟩ := h
    rw [ok_inj] at h
    subst h
    simpa only [hmd, slices, firstArray, secondOpt, secondArray, pair, lines, Cfg.S, Nat.mul_one,
      reduceCtorEq, if_false, if_true, Nat.reduceMul, Nat.reduceEqDiff] using pushSolver_inv h2

/-- The solver carries the parameters of the configuration. -/
def Tuned (cfg : Cfg K) (par : Option (Solver K)) : Prop :=
  ∀ s, par = some s → s.wRes = cfg.wRes ∧ s.vRead = cfg.vRead ∧ cfg.mode ≠ .iTcWDiff

theorem aWrite_tuned {mp mp' : Mapper K} (hm : mp.core.mode = cfg.mode)
    (h : aWrite E cfg mp m n = .ok mp') (ht : Tuned cfg mp.core.par) : Tuned cfg mp'.core.par := by
  rcases aWrite_solver hm h with ⟨_, e⟩ | ⟨_, s, s', e1, e2, h3⟩
  · rw [e]; exact ht
  · intro t ht'
    rw [e2, Option.some.injEq] at ht'
    subst ht'
    have := ht s e1
    rw [setConductance_frame h3]
    exact this

/-- The solver after a call is the one before, or it comes from a refresh of the whole crossbar. -/
def ParStep (E : Env K) (cfg : Cfg K) (par par' : Option (Solver K)) : Prop :=
  par' = par ∨ ∃ mp mp' : Mapper K, mp.core.par = par ∧ mp.core.mode = cfg.mode ∧
    aWrite E cfg mp cfg.M cfg.N = .ok mp' ∧ par' = mp'.core.par

theorem softwareRefresh_par {rd : Rd K} (hm : x.mapper.core.mode = cfg.mode)
    (h : softwareRefresh E cfg x rd = .ok x') : ParStep E cfg x.mapper.core.par x'.mapper.core.par := by
  unfold softwareRefresh at h
  simp only [bind_eq_ok, ok_inj] at h
  obtain ⟨_, _, _, _, _, _, mp, h4, rfl⟩ := h
  exact Or.inr ⟨_, _, rfl, hm, h4, rfl⟩

theorem rdStep_par (hm : x.mapper.core.mode = cfg.mode) (h : rdStep E cfg x m n = .ok x') :
    ParStep E cfg x.mapper.core.par x'.mapper.core.par := by
  unfold rdStep at h
  split at h
  · split at h
    · cases h
    · split at h
      · split at h
        · cases h
        · rw [bind_eq_ok] at h
          obtain ⟨⟨c', rd'⟩, h1, h⟩ := h
          rw [ok_inj] at h
          subst h
          exact Or.inl (by show c'.par = _; rw [(rdUpdate_frame h1).1])
      · rw [ok_inj] at h; subst h; exact Or.inl rfl
  · split at h
    · cases h
    · split at h
      · split at h
        · cases h
        · rw [bind_eq_ok] at h
          obtain ⟨⟨c', rd'⟩, h1, h⟩ := h
          have hgd : c'.par = x.mapper.core.par := by rw [(rdUpdate_frame h1).1]
          have hmd : c'.mode = x.mapper.core.mode := by rw [(rdUpdate_frame h1).1]
          dsimp only at h
          split at h
          · rw [← hgd]
            exact softwareRefresh_par (hmd.trans hm) h
          · rw [ok_inj] at h; subst h
            exact Or.inl hgd
      · rw [ok_inj] at h; subst h; exact Or.inl rfl
  · split at h
    · cases h
    · rw [bind_eq_ok] at h
      obtain ⟨rd', h1, h⟩ := h
      split at h
      · cases h
      · split at h
        · rw [bind_eq_ok] at h
          obtain ⟨⟨c', rd''⟩, h2, h⟩ := h
          rw [bind_eq_ok] at h
          obtain ⟨⟨mp', rd3, k⟩, h3, h⟩ := h
          rw [ok_inj] at h
          subst h
          refine Or.inl ?_
          show mp'.core.par = _
          rw [(rdCellRefresh_frame h3).1]
          show c'.par = _
          rw [(rdUpdate_frame h2).1]
        · rw [ok_inj] at h; subst h; exact Or.inl rfl

theorem xMvm_par (hs : Shape E cfg x) {r : Vec Int} (h : xMvm E cfg x res vec mat m n l = .ok (x', r)) :
    ParStep E cfg x.mapper.core.par x'.mapper.core.par := by
  have hm := hs.core.mode
  unfold xMvm at h
  dsimp only at h
  split at h
  · rw [bind_eq_ok] at h
    obtain ⟨q, h1, h⟩ := h
    rw [ok_inj, Prod.mk.injEq] at h
    rw [← h.1]
    exact Or.inl rfl
  · rw [bind_eq_ok] at h
    obtain ⟨mp1, h1, h⟩ := h
    rw [bind_eq_ok] at h
    obtain ⟨q, h2, h⟩ := h
    rw [bind_eq_ok] at h
    obtain ⟨mp2, h3, h⟩ := h
    rw [bind_eq_ok] at h
    obtain ⟨y, h4, h⟩ := h
    rw [ok_inj, Prod.mk.injEq] at h
    rw [← h.1]
    have e1 : mp1.core.par = x.mapper.core.par ∧ mp1.core.mode = x.mapper.core.mode := by
      split at h1
      · have := addC2C_frame h1
        exact ⟨this.2.2.1, this.2.1.mode⟩
      · rw [ok_inj] at h1; rw [← h1]; exact ⟨rfl, rfl⟩
    have e2 : mp2.core.par = mp1.core.par ∧ mp2.core.mode = mp1.core.mode := by
      split at h3
      · have := removeC2C_frame h3
        exact ⟨this.2.2.1, this.2.1.mode⟩
      · rw [ok_inj] at h3; rw [← h3]; exact ⟨rfl, rfl⟩
    rw [← e1.1, ← e2.1]
    split at h4
    · exact rdStep_par (e2.2.trans (e1.2.trans hm)) h4
    · rw [ok_inj] at h4; rw [← h4]; exact Or.inl rfl

theorem xMvm_tuned (hs : Shape E cfg x) {r : Vec Int} (h : xMvm E cfg x res vec mat m n l = .ok (x', r))
    (ht : Tuned cfg x.mapper.core.par) : Tuned cfg x'.mapper.core.par := by
  rcases xMvm_par hs h with e | ⟨mp, mp', e, hm, ha, e'⟩
  · rw [e]; exact ht
  · rw [e']; exact aWrite_tuned hm ha (by rw [e]; exact ht)

theorem xWrite_inv (hs : Shape E cfg x) (hd : cfg.digitalOnly = false)
    (h : xWrite E cfg x mat m n = .ok x') : ∃ mp, mp.core.par = x.mapper.core.par ∧
      mp.core.mode = cfg.mode ∧ CoreShape E cfg mp.core ∧ aWrite E cfg mp m n = .ok x'.mapper := by
  unfold xWrite at h
  rw [bind_eq_ok] at h
  obtain ⟨r, h1, h⟩ := h
  rw [if_neg (by simp [hd]), bind_eq_ok] at h
  obtain ⟨mp, h2, h⟩ := h
  rw [ok_inj] at h
  subst h
  have := (sat_xWriteD lax_true hs (Fits.mk' fun hn => absurd trivial hn)
    (fun hn => absurd trivial hn)).of_ok h1
  exact ⟨r.1, this.2.2.1, this.1.mode, this.1, h2⟩

theorem xWrite_tuned (hs : Shape E cfg x) (h : xWrite E cfg x mat m n = .ok x')
    (ht : Tuned cfg x.mapper.core.par) : Tuned cfg x'.mapper.core.par := by
  cases hd : cfg.digitalOnly
  · obtain ⟨mp, e, hm, _, ha⟩ := xWrite_inv hs hd h
    exact aWrite_tuned hm ha (by rw [e]; exact ht)
  · unfold xWrite at h
    rw [bind_eq_ok] at h
    obtain ⟨r, h1, h⟩ := h
    rw [if_pos hd, ok_bind, ok_inj] at h
    subst h
    have := (sat_xWriteD lax_true hs (Fits.mk' fun hn => absurd trivial hn)
      (fun hn => absurd trivial hn)).of_ok h1
    show Tuned cfg r.1.core.par
    rw [this.2.2.1]
    exact ht

theorem mkXbar_tuned {rng : Nat} {hs : List (String × Hist K)} (h : mkXbar E cfg rng hs = .ok x) :
    Tuned cfg x.mapper.core.par := by
  obtain ⟨h1, _⟩ := mkXbar_inv h
  obtain ⟨_, _, _, _, _, _, _, _, _, h3, _⟩ := mkCore_inv h1
  intro s hs
  unfold optSolver at h3
  split at h3
  · rw [bind_eq_ok] at h3
    obtain ⟨s', h4, h5⟩ := h3
    unfold mkSolver at h4
    split at h4
    · cases h4
    · next hw =>
      rw [hs] at h5
      simp only [Except.ok.injEq, Option.some.injEq] at h4 h5
      subst h4 h5
      refine ⟨rfl, rfl, fun e => ?_⟩
      rw [e] at hw
      cases hw
  · rw [hs] at h3; simp at h3

theorem runs_tuned {h : List Spec.Op} (hr : Spec.Runs E cfg h x) : Tuned cfg x.mapper.core.par := by
  induction hr with
  | init h => exact mkXbar_tuned h
  | write hr h' ih => exact xWrite_tuned (runs_shape hr) h' ih
  | mvm hr h' ih => exact xMvm_tuned (runs_shape hr) h' ih

/-- A write leaves conductances for its rows in the solver. -/
theorem aWrite_wired {mp mp' : Mapper K} (hm : mp.core.mode = cfg.mode) (hp : cfg.parasitics = true)
    (hs : ∀ s, mp.core.par = some s → s.mXbar = cfg.M ∧ s.nXbar = cfg.N ∧ s.mode = cfg.mode)
    (h : aWrite E cfg mp m n = .ok mp') : Wired cfg mp'.core.par m := by
  rcases aWrite_solver hm h with ⟨e, _⟩ | ⟨_, s, s', e1, e2, h3⟩
  · rw [hp] at e; cases e
  · intro t ht
    rw [e2, Option.some.injEq] at ht
    subst ht
    obtain ⟨_, g, w, hg, hr, hc⟩ := (sat_setConductance lax_true (fun hn => absurd trivial hn)
      (fun _ _ hn => absurd trivial hn) (fun hn => absurd trivial hn)).of_ok h3
    obtain ⟨_, h1, h2⟩ := hs s e1
    exact ⟨g, w, hg, by rw [hr, h1], by rw [hc, h2]⟩

theorem Wired.mono {par : Option (Solver K)} {k : Nat} (h : Wired cfg par k) (hk : m ≤ k) :
    Wired cfg par m := fun s hs => by
  obtain ⟨g, w, h1, h2, h3⟩ := h s hs
  exact ⟨g, w, h1, h2, (Nat.mul_le_mul_right _ (Nat.mul_le_mul_right _ hk)).trans h3⟩

theorem runs_wired {h : List Spec.Op} (hd : cfg.digitalOnly = false) (hp : cfg.parasitics = true)
    (hr : Spec.Runs E cfg h x) {k : Nat} (hk : Spec.lastRows h = some k) (hM : k ≤ cfg.M) :
    Wired cfg x.mapper.core.par k := by
  induction hr with
  | init h => cases hk
  | write hr h' ih =>
    rw [Spec.lastRows, Option.some.injEq] at hk
    subst hk
    obtain ⟨mp, e, hm, _, ha⟩ := xWrite_inv (runs_shape hr) hd h'
    exact aWrite_wired hm hp (by rw [e]; exact (runs_shape hr).core.par) ha
  | mvm hr h' ih =>
    rcases xMvm_par (runs_shape hr) h' with e | ⟨mp, mp', e, hm, ha, e'⟩
    · rw [e]; exact ih hk
    · rw [e']
      exact (aWrite_wired hm hp (by rw [e]; exact (runs_shape hr).core.par) ha).mono hM

/-- Programming a block that fits leaves the conductances of its currents in the solver. -/
theorem aWrite_sync {mp : Mapper K} (hc : CoreShape E cfg mp.core) (ht' : Tuned cfg mp.core.par)
    (hp : cfg.parasitics = true) (hv : cfg.vRead ≠ 0) (hw : cfg.wRes ≠ 0) (hS : 1 ≤ cfg.S)
    (hM : 0 < cfg.M) (hN : 0 < cfg.N) (hm : m * slices cfg ≤ cfg.M) (hn : n * lines cfg.mode ≤ cfg.N)
    (ha : aWrite E cfg mp m n = .ok x'.mapper) : Spec.InSync E cfg x' m n := by
  have hia : IaShape cfg x'.mapper.core.ia :=
    ((sat_aWrite lax_true hc (Fits.mk' fun h => absurd trivial h)
      ⟨fun h => absurd trivial h, fun h => absurd trivial h⟩).of_ok ha).1.ia
  rcases aWrite_solver hc.mode ha with ⟨hp', _⟩ | ⟨_, s, s', e1, e2, h3⟩
  · rw [hp] at hp'; cases hp'
  · have hsd := hc.par s e1
    have ht := ht' s e1
    have hR : cfg.M ≤ cfg.R := by
      unfold Cfg.R; exact Nat.le_mul_of_pos_right _ hS
    have hpI : (firstArray cfg.mode x'.mapper.core.ia).Is cfg.R cfg.N := by
      unfold firstArray; split
      · exact hia.m
      · exact hia.p
    have hqI : (secondArray cfg.mode x'.mapper.core.ia).Is cfg.R cfg.N := by
      unfold secondArray; split
      · exact hia.p
      · exact hia.m
    rw [setConductance_ok (q := secondArray cfg.mode x'.mapper.core.ia)
      (by rw [hsd.2.2]; exact ht.2.2)
      (by
        unfold secondOpt
        rw [hsd.2.2]
        split
        · next h1 => exact Or.inr ⟨rfl, h1⟩
        · exact Or.inl rfl)
      (by rw [ht.2.1]; exact hv) (by rw [ht.1]; exact hw) (Nat.le_mul_of_pos_right _ hS)
      (by rw [hsd.1, hpI.1]; exact hR) (by rw [hsd.2.1, hpI.2])
      (by rw [hqI.1]; omega) (by rw [hsd.1, hqI.1]; exact hR) (by rw [hsd.2.1, hqI.2])
      (by rw [hsd.1]; exact hm) (by rw [hsd.2.2, hsd.2.1]; exact hn) (by rw [hsd.2.1]; exact hN), ok_inj] at h3
    refine ⟨s', _, _, e2, by rw [← h3], ?_, ?_, ?_, ?_⟩
    · rw [wireOf, ht.1]
    · exact hsd.2.1
    · show m * slices cfg * pair s.mode = _
      rw [hsd.2.2]
    · intro r c hr hc
      simp only [conductances, Mat.woven, hsd.2.2, ht.2.1, Mat.const]
      have h0 : c / pair cfg.mode < m * slices cfg := Nat.div_lt_of_lt_mul (by rw [mul_comm]; exact hc)
      refine if_congr ?_ rfl rfl
      constructor
      · rintro (h | h)
        · exact h.2
        · exact absurd h.2 (Nat.not_lt_zero _)
      · exact fun h => Or.inl ⟨h0, h⟩

/-- After a write that fits, the solver holds the conductances of the stored currents. -/
theorem write_sync {h : List Spec.Op} (hr : Spec.Runs E cfg h x) (hd : cfg.digitalOnly = false)
    (hp : cfg.parasitics = true) (hv : cfg.vRead ≠ 0) (hw : cfg.wRes ≠ 0) (hS : 1 ≤ cfg.S)
    (hM : 0 < cfg.M) (hN : 0 < cfg.N) (hm : m * slices cfg ≤ cfg.M) (hn : n * lines cfg.mode ≤ cfg.N)
    (hx : xWrite E cfg x mat m n = .ok x') : Spec.InSync E cfg x' m n := by
  have hs := runs_shape hr
  obtain ⟨mp, e, _, hc, ha⟩ := xWrite_inv hs hd hx
  exact aWrite_sync hc (by rw [e]; exact runs_tuned hr) hp hv hw hS hM hN hm hn ha

theorem sync_mvm {r : Vec Int} {m' n' : Nat} (hq : cfg.c2c = false ∧ cfg.readDisturb = false)
    (hx : xMvm E cfg x res vec mat m' n' l = .ok (x', r)) (h : Spec.InSync E cfg x m n) :
    Spec.InSync E cfg x' m n := by
  unfold Spec.InSync
  rw [(xMvm_core hx (Or.inr hq)).1]
  exact h

theorem sync_exec (hq : cfg.c2c = false ∧ cfg.readDisturb = false) {ops : List Spec.Op}
    (hops : ∀ o ∈ ops, Spec.isMvm o) {rs : List (Vec Int)}
    (hx : Spec.exec E cfg x ops = .ok (x', rs)) (h : Spec.InSync E cfg x m n) :
    Spec.InSync E cfg x' m n := by
  induction ops generalizing x rs with
  | nil =>
    rw [Spec.exec, ok_inj, Prod.mk.injEq] at hx
    rw [← hx.1]; exact h
  | cons o ops ih =>
    cases o with
    | write mat m n => exact absurd (hops _ List.mem_cons_self) (by simp [Spec.isMvm])
    | mvm res vec mat m n l =>
      rw [Spec.exec] at hx
      simp only [bind_eq_ok, ok_inj, Prod.mk.injEq] at hx
      obtain ⟨⟨x1, r⟩, h1, ⟨x2, rs'⟩, h2, h3, _⟩ := hx
      refine ih (fun o ho => hops o (List.mem_cons_of_mem _ ho)) (rs := rs') ?_ (sync_mvm hq h1 h)
      rw [h2, ← h3]

end

end Acs
