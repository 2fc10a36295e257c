import Verif.Lemmas.SafeXbar
import Verif.Lemmas.WriteInv
import Verif.Spec

/-! # What a write and a multiplication leave alone -/

set_option linter.unusedSectionVars false

namespace Acs

section
variable {K : Type} [Field K] [LinearOrder K] [IsStrictOrderedRing K] [FloorRing K]
variable {F : Fault → Prop} {E : Env K} {cfg : Cfg K} {c : Core K} {a : Aux K} {gd : Gd}
variable {mat vec res v w : Vec Int} {m n : Nat} {l : String} {rd : Rd K} {x x' : Xbar K}

theorem aWrite_frame {mp mp' : Mapper K} (h : aWrite E cfg mp m n = .ok mp') :
    mp'.core.gd = mp.core.gd ∧ SameFixed mp'.core mp.core ∧
      mp'.aux = { mp.aux with rng := mp'.aux.rng } := by
  unfold aWrite at h
  dsimp only at h
  split at h
  all_goals
    rw [bind_eq_ok] at h
    obtain ⟨ia, h1, h⟩ := h
    rw [bind_eq_ok] at h
    obtain ⟨par, h2, h⟩ := h
    rw [ok_inj] at h
    subst h
    exact ⟨rfl, ⟨rfl, rfl, rfl, rfl, rfl, rfl, rfl, rfl⟩, rfl⟩

theorem addC2C_frame {mp mp' : Mapper K} (h : addC2C E cfg mp m n = .ok mp') :
    mp'.core.gd = mp.core.gd ∧ SameFixed mp'.core mp.core ∧ mp'.core.par = mp.core.par ∧
      mp'.aux = { mp.aux with rng := mp'.aux.rng } := by
  unfold addC2C at h
  dsimp only at h
  rw [bind_eq_ok] at h
  obtain ⟨ia, h1, h⟩ := h
  rw [ok_inj] at h
  subst h
  exact ⟨rfl, ⟨rfl, rfl, rfl, rfl, rfl, rfl, rfl, rfl⟩, rfl, rfl⟩

theorem removeC2C_frame {mp mp' : Mapper K} (h : removeC2C mp m n = .ok mp') :
    mp'.core.gd = mp.core.gd ∧ SameFixed mp'.core mp.core ∧ mp'.core.par = mp.core.par ∧
      mp'.aux = mp.aux := by
  unfold removeC2C at h
  dsimp only at h
  rw [bind_eq_ok] at h
  obtain ⟨ia, h1, h⟩ := h
  rw [ok_inj] at h
  subst h
  exact ⟨rfl, ⟨rfl, rfl, rfl, rfl, rfl, rfl, rfl, rfl⟩, rfl, rfl⟩

theorem rdUpdate_frame {c' : Core K} {rd' : Rd K} {rp rm : Nat → Nat → C Nat}
    (h : rdUpdate E cfg c rd rp rm = .ok (c', rd')) :
    c' = { c with ia := c'.ia } ∧ rd' = { rd with oob := rd'.oob } ∧
      c'.ia.pO = c.ia.pO ∧ c'.ia.mO = c.ia.mO := by
  unfold rdUpdate at h
  rw [bind_eq_ok] at h
  obtain ⟨p, h1, h⟩ := h
  split at h
  · rw [bind_eq_ok] at h
    obtain ⟨q, h2, h⟩ := h
    rw [ok_inj, Prod.mk.injEq] at h
    obtain ⟨rfl, rfl⟩ := h
    exact ⟨rfl, rfl, rfl, rfl⟩
  · rw [ok_inj, Prod.mk.injEq] at h
    obtain ⟨rfl, rfl⟩ := h
    exact ⟨rfl, rfl, rfl, rfl⟩

theorem rdCellRefresh_frame {mp mp' : Mapper K} {rd' : Rd K} {k : Int}
    (h : rdCellRefresh E cfg mp rd = .ok (mp', rd', k)) :
    mp'.core = { mp.core with ia := mp'.core.ia } ∧
      mp'.aux = { mp.aux with rng := mp'.aux.rng } := by
  unfold rdCellRefresh at h
  dsimp only at h
  rw [bind_eq_ok] at h
  obtain ⟨p, h1, h⟩ := h
  split at h
  · rw [bind_eq_ok] at h
    obtain ⟨q, h2, h⟩ := h
    rw [ok_inj, Prod.mk.injEq] at h
    obtain ⟨rfl, _⟩ := h
    exact ⟨rfl, rfl⟩
  · rw [ok_inj, Prod.mk.injEq] at h
    obtain ⟨rfl, _⟩ := h
    exact ⟨rfl, rfl⟩

theorem softwareRefresh_frame (h : softwareRefresh E cfg x rd = .ok x') :
    x'.mapper.core.gd = x.mapper.core.gd ∧ x'.writes = x.writes ∧ x'.mvms = x.mvms ∧
      x'.consec = 0 ∧ x'.refX = x.refX + 1 ∧ x.refC ≤ x'.refC := by
  unfold softwareRefresh at h
  dsimp only at h
  rw [bind_eq_ok] at h
  obtain ⟨p, h1, h⟩ := h
  rw [bind_eq_ok] at h
  obtain ⟨q, h2, h⟩ := h
  rw [bind_eq_ok] at h
  obtain ⟨rd', h3, h⟩ := h
  rw [bind_eq_ok] at h
  obtain ⟨mp, h4, h⟩ := h
  rw [ok_inj] at h
  subst h
  have mono : ∀ {g : Mat Int} {k : Nat} {r : Mat Bool × Nat}, lrsMat cfg g k = .ok r → k ≤ r.2 := by
    intro g k r hr
    refine (Sat.of_ok (F := fun _ => True) (Q := fun r : Mat Bool × Nat => k ≤ r.2) ?_ hr)
    unfold lrsMat
    refine Sat.loop2 (I := fun r : Mat Bool × Nat => k ≤ r.2) (le_refl k) fun i j hi hj st hst => ?_
    refine Sat.bind (P := fun _ => True) (Sat.intro_ok fun _ _ => trivial) fun _ _ =>
      Sat.ite (fun _ => ?_) fun _ => hst
    exact Sat.bind (P := fun _ => True) (Sat.intro_ok fun _ _ => trivial) fun _ _ =>
      Nat.le_succ_of_le hst
  refine ⟨(aWrite_frame h4).1, rfl, rfl, rfl, rfl, ?_⟩
  dsimp only
  refine (mono h1).trans ?_
  split at h2
  · exact mono h2
  · rw [ok_inj] at h2; rw [← h2]

theorem rdStep_frame (h : rdStep E cfg x m n = .ok x') :
    x'.mapper.core.gd = x.mapper.core.gd ∧ x'.writes = x.writes ∧ x'.mvms = x.mvms := by
  unfold rdStep at h
  split at h
  · split at h
    · cases h
    · split at h
      · split at h
        · cases h
        · rw [bind_eq_ok] at h
          obtain ⟨⟨c', rd'⟩, h1, h⟩ := h
          rw [ok_inj] at h
          subst h
          refine ⟨?_, rfl, rfl⟩
          show c'.gd = _
          rw [(rdUpdate_frame h1).1]
      · rw [ok_inj] at h; subst h; exact ⟨rfl, rfl, rfl⟩
  · split at h
    · cases h
    · split at h
      · split at h
        · cases h
        · rw [bind_eq_ok] at h
          obtain ⟨⟨c', rd'⟩, h1, h⟩ := h
          have hgd : c'.gd = x.mapper.core.gd := by rw [(rdUpdate_frame h1).1]
          dsimp only at h
          split at h
          · have := softwareRefresh_frame h
            exact ⟨this.1.trans hgd, this.2.1, this.2.2.1⟩
          · rw [ok_inj] at h; subst h; exact ⟨hgd, rfl, rfl⟩
      · rw [ok_inj] at h; subst h; exact ⟨rfl, rfl, rfl⟩
  · split at h
    · cases h
    · rw [bind_eq_ok] at h
      obtain ⟨rd', h1, h⟩ := h
      split at h
      · cases h
      · split at h
        · rw [bind_eq_ok] at h
          obtain ⟨⟨c', rd''⟩, h2, h⟩ := h
          rw [bind_eq_ok] at h
          obtain ⟨⟨mp', rd3, k⟩, h3, h⟩ := h
          rw [ok_inj] at h
          subst h
          refine ⟨?_, rfl, rfl⟩
          show mp'.core.gd = _
          rw [(rdCellRefresh_frame h3).1]
          show c'.gd = _
          rw [(rdUpdate_frame h2).1]
        · rw [ok_inj] at h; subst h; exact ⟨rfl, rfl, rfl⟩

/-- A write stores the encoder's cell array and counts. -/
theorem xWrite_frame (h : xWrite E cfg x mat m n = .ok x') :
    dWriteGd E cfg x.mapper.core mat m n = .ok x'.mapper.core.gd ∧
      SameFixed x'.mapper.core x.mapper.core ∧
      x'.writes = x.writes + 1 ∧ x'.mvms = x.mvms ∧ x'.consec = 0 ∧ x'.refX = x.refX ∧
      x'.refC = x.refC := by
  unfold xWrite at h
  rw [bind_eq_ok] at h
  obtain ⟨r, h1, h⟩ := h
  rw [bind_eq_ok] at h
  obtain ⟨mp, h2, h⟩ := h
  rw [ok_inj] at h
  subst h
  have key : ∃ gd, dWriteGd E cfg x.mapper.core mat m n = .ok gd ∧
      r.1 = { x.mapper with core := { x.mapper.core with gd := gd } } := by
    unfold xWriteD dWrite at h1
    split at h1
    · rw [bind_eq_ok] at h1
      obtain ⟨mp1, h3, h1⟩ := h1
      rw [bind_eq_ok] at h3
      obtain ⟨gd, h4, h3⟩ := h3
      rw [ok_inj] at h3
      subst h3
      refine ⟨gd, h4, ?_⟩
      rw [bind_eq_ok] at h1
      obtain ⟨up, _, h1⟩ := h1
      rw [bind_eq_ok] at h1
      obtain ⟨um, _, h1⟩ := h1
      split at h1
      · cases h1
      · rw [bind_eq_ok] at h1
        obtain ⟨_, _, h1⟩ := h1
        rw [bind_eq_ok] at h1
        obtain ⟨_, _, h1⟩ := h1
        rw [ok_inj] at h1
        rw [← h1]
    · rw [bind_eq_ok] at h1
      obtain ⟨mp1, h3, h1⟩ := h1
      rw [bind_eq_ok] at h3
      obtain ⟨gd, h4, h3⟩ := h3
      rw [ok_inj] at h3 h1
      subst h3
      exact ⟨gd, h4, by rw [← h1]⟩
  obtain ⟨gd, h3, h4⟩ := key
  have key2 : mp.core.gd = gd ∧ SameFixed mp.core x.mapper.core := by
    split at h2
    · rw [ok_inj] at h2
      rw [← h2, h4]
      exact ⟨rfl, ⟨rfl, rfl, rfl, rfl, rfl, rfl, rfl, rfl⟩⟩
    · have h5 := aWrite_frame h2
      rw [h4] at h5
      exact ⟨h5.1, h5.2.1.trans ⟨rfl, rfl, rfl, rfl, rfl, rfl, rfl, rfl⟩⟩
  exact ⟨by rw [h3, key2.1], key2.2, rfl, rfl, rfl, rfl, rfl⟩

/-- A multiplication keeps the programmed cell states and counts. -/
theorem xMvm_frame {r : Vec Int} (h : xMvm E cfg x res vec mat m n l = .ok (x', r)) :
    x'.mapper.core.gd = x.mapper.core.gd ∧ x'.writes = x.writes ∧ x'.mvms = x.mvms + 1 := by
  unfold xMvm at h
  dsimp only at h
  split at h
  · rw [bind_eq_ok] at h
    obtain ⟨q, h1, h⟩ := h
    rw [ok_inj, Prod.mk.injEq] at h
    rw [← h.1]
    exact ⟨rfl, rfl, rfl⟩
  · rw [bind_eq_ok] at h
    obtain ⟨mp, h1, h⟩ := h
    rw [bind_eq_ok] at h
    obtain ⟨q, h2, h⟩ := h
    rw [bind_eq_ok] at h
    obtain ⟨mp2, h3, h⟩ := h
    rw [bind_eq_ok] at h
    obtain ⟨x2, h4, h⟩ := h
    rw [ok_inj, Prod.mk.injEq] at h
    obtain ⟨rfl, _⟩ := h
    have e1 : mp.core.gd = x.mapper.core.gd := by
      split at h1
      · exact (addC2C_frame h1).1
      · rw [ok_inj] at h1; rw [← h1]
    have e2 : mp2.core.gd = mp.core.gd := by
      split at h3
      · exact (removeC2C_frame h3).1
      · rw [ok_inj] at h3; rw [← h3]
    split at h4
    · have := rdStep_frame h4
      exact ⟨this.1.trans (e2.trans e1), this.2.1, this.2.2⟩
    · rw [ok_inj] at h4
      subst h4
      exact ⟨e2.trans e1, rfl, rfl⟩

/-- Without read disturb and cycle-to-cycle variation a multiplication only changes scratch data. -/
theorem xMvm_core {r : Vec Int} (h : xMvm E cfg x res vec mat m n l = .ok (x', r))
    (hq : cfg.digitalOnly = true ∨ cfg.c2c = false ∧ cfg.readDisturb = false) :
    x'.mapper.core = x.mapper.core ∧ x'.rd = x.rd ∧ x'.refX = x.refX ∧ x'.refC = x.refC := by
  unfold xMvm at h
  dsimp only at h
  split at h
  · rw [bind_eq_ok] at h
    obtain ⟨q, h1, h⟩ := h
    rw [ok_inj, Prod.mk.injEq] at h
    rw [← h.1]
    exact ⟨rfl, rfl, rfl, rfl⟩
  · next hd =>
    obtain hq | hq := hq
    · exact absurd hq hd
    rw [if_neg (by simp [hq.1]), ok_bind, bind_eq_ok] at h
    obtain ⟨q, h2, h⟩ := h
    rw [if_neg (by simp [hq.1]), ok_bind, if_neg (by simp [hq.2]), ok_bind, ok_inj,
      Prod.mk.injEq] at h
    rw [← h.1]
    exact ⟨rfl, rfl, rfl, rfl⟩

theorem xMvm_keep {r : Vec Int} (hs : Shape E cfg x)
    (h : xMvm E cfg x res vec mat m n l = .ok (x', r)) : Keep m res r :=
  ((sat_xMvm lax_true hs (fun hn => absurd trivial hn) (fun hn => absurd trivial hn)
    (fun hn => absurd trivial hn) (fun hn => absurd trivial hn)).of_ok h).2

theorem runs_shape {h : List Spec.Op} (hr : Spec.Runs E cfg h x) : Shape E cfg x := by
  induction hr with
  | init h => exact mkXbar_shape h
  | write _ h' ih => exact xWrite_shape ih h'
  | mvm _ h' ih => exact xMvm_shape ih h'

end

end Acs
