import Verif.SpecWear
import Verif.Lemmas.RdHist
import Mathlib.Algebra.BigOperators.Ring.Finset
import Mathlib.Algebra.Order.BigOperators.Group.Finset

/-! # Counting refreshed cells -/

set_option linter.unusedSectionVars false

namespace Acs

open Spec Finset

/-- Induction over a loop that returned. -/
theorem loop_ind {σ : Type} {n : Nat} {f : Nat → σ → C σ} {s t : σ} (P : Nat → σ → Prop) (h0 : P 0 s)
    (hs : ∀ i, i < n → ∀ s t, P i s → f i s = .ok t → P (i + 1) t) (h : loop n f s = .ok t) : P n t := by
  induction n generalizing t with
  | zero =>
    rw [loop_zero, ok_inj] at h
    exact h ▸ h0
  | succ n ih =>
    rw [loop_succ, bind_eq_ok] at h
    obtain ⟨u, h1, h2⟩ := h
    exact hs n (by omega) u t (ih (fun i hi => hs i (by omega)) h1) h2

section
variable {K : Type} [Field K] [LinearOrder K] [IsStrictOrderedRing K] [FloorRing K]
variable {E : Env K} {cfg : Cfg K} {x x' : Xbar K} {rd rd' : Rd K} {t : List (Step K)}
variable {mat vec res out : Vec Int} {m n : Nat} {l : String}

theorem overCells_congr {f g : Nat → Nat → Nat} (h : ∀ r k, r < cfg.R → k < cfg.N → f r k = g r k) :
    overCells cfg f = overCells cfg g :=
  sum_congr rfl fun r hr => sum_congr rfl fun k hk => h r k (mem_range.1 hr) (mem_range.1 hk)

theorem overCells_add (f g : Nat → Nat → Nat) :
    overCells cfg (fun r k => f r k + g r k) = overCells cfg f + overCells cfg g := by
  unfold overCells
  rw [← sum_add_distrib]
  exact sum_congr rfl fun r _ => sum_add_distrib

theorem overCells_zero : overCells cfg (fun _ _ => 0) = 0 := by
  unfold overCells
  simp

/-- One more cycle of one cell. -/
theorem overCells_one {i j : Nat} (hi : i < cfg.R) (hj : j < cfg.N) :
    overCells cfg (fun r k => if r = i ∧ k = j then 1 else 0) = 1 := by
  unfold overCells
  rw [sum_eq_single i, sum_eq_single j]
  · simp
  · intro k _ hk; simp [hk]
  · intro h; exact absurd (mem_range.2 hj) h
  · intro r _ hr; exact sum_eq_zero fun k _ => by simp [hr]
  · intro h; exact absurd (mem_range.2 hi) h

/-- The software counts the cells in LRS. -/
theorem lrsMat_count {g : Mat Int} {c0 : Nat} {b : Mat Bool × Nat} (h : lrsMat cfg g c0 = .ok b) :
    b.2 = c0 + overCells cfg fun r k => if g.get r k = 1 then 1 else 0 := by
  unfold lrsMat at h
  refine loop_ind (fun i (s : Mat Bool × Nat) => s.2 = c0 +
    ∑ r ∈ range i, ∑ k ∈ range cfg.N, if g.get r k = 1 then 1 else 0) rfl (fun i _ s t hs h => ?_) h
  rw [sum_range_succ, ← Nat.add_assoc, ← hs]
  refine loop_ind (fun j (u : Mat Bool × Nat) => u.2 = s.2 +
    ∑ k ∈ range j, if g.get i k = 1 then 1 else 0) rfl (fun j _ u v hu h => ?_) h
  rw [bind_eq_ok] at h
  obtain ⟨a, h1, h⟩ := h
  rw [Mat.rd_eq_ok] at h1
  rw [sum_range_succ, ← Nat.add_assoc, ← hu, h1.2]
  split at h
  · next ha =>
    rw [bind_eq_ok] at h
    obtain ⟨d, _, h⟩ := h
    rw [ok_inj] at h
    rw [← h, if_pos ha]
  · next ha =>
    rw [ok_inj] at h
    rw [← h, if_neg ha]; rfl

/-- The cell-based refresh counts the cells it refreshes. -/
theorem rdRefMat_count {g : Mat Int} {s t : RefSt K} (hA : s.A.Is cfg.R cfg.N)
    (h : rdRefMat E cfg g s = .ok t) :
    s.cnt ≤ t.cnt ∧ (overCells cfg t.cyc.get : Int) - overCells cfg s.cyc.get = t.cnt - s.cnt := by
  unfold rdRefMat at h
  rw [hA.1] at h
  have key := loop_ind (fun _ (u : RefSt K) => u.A.cols = cfg.N ∧ s.cnt ≤ u.cnt ∧
    (overCells cfg u.cyc.get : Int) - overCells cfg s.cyc.get = u.cnt - s.cnt)
    ⟨hA.2, le_refl _, by omega⟩ (fun i hi u v hu h => ?_) h
  · exact key.2
  · rw [hu.1] at h
    refine loop_ind (fun _ (u : RefSt K) => u.A.cols = cfg.N ∧ s.cnt ≤ u.cnt ∧
      (overCells cfg u.cyc.get : Int) - overCells cfg s.cyc.get = u.cnt - s.cnt) hu
      (fun j hj u v hu h => ?_) h
    clear hA
    rw [bind_eq_ok] at h
    obtain ⟨a, h1, h⟩ := h
    split at h
    · next ha =>
      rw [bind_eq_ok] at h
      obtain ⟨y, h2, h⟩ := h
      split at h
      · next ho =>
        rw [bind_eq_ok] at h
        obtain ⟨z, h3, h⟩ := h
        rw [bind_eq_ok] at h
        obtain ⟨A', h4, h⟩ := h
        rw [bind_eq_ok] at h
        obtain ⟨cy, h5, h⟩ := h
        rw [bind_eq_ok] at h
        obtain ⟨cyc', h6, h⟩ := h
        rw [bind_eq_ok] at h
        obtain ⟨rds', h7, h⟩ := h
        rw [bind_eq_ok] at h
        obtain ⟨cnt', h8, h⟩ := h
        rw [ok_inj] at h
        subst h
        rw [Mat.rd_eq_ok] at h5
        have e8 : cnt' = u.cnt + 1 := ((addI_eq_ok.1 h8).2.symm)
        have e6 : overCells cfg cyc'.get = overCells cfg u.cyc.get + 1 := by
          rw [Mat.wr_inv h6]
          conv_rhs => rw [← overCells_one hi hj, ← overCells_add]
          refine overCells_congr fun r k _ _ => ?_
          dsimp only
          split
          · next e => obtain ⟨rfl, rfl⟩ := e; rw [h5.2]
          · rfl
        refine ⟨by rw [Mat.wr_inv h4]; exact hu.1, ?_, ?_⟩
        · show s.cnt ≤ cnt'
          have := hu.2.1
          omega
        · show (overCells cfg cyc'.get : Int) - _ = cnt' - s.cnt
          have := hu.2.2
          omega
      · rw [ok_inj] at h
        exact h ▸ hu
    · rw [ok_inj] at h
      exact h ▸ hu

theorem rdCellRefresh_count {mp : Mapper K} {q : Mapper K × Rd K × Int} (hs : IaShape cfg mp.core.ia)
    (h : rdCellRefresh E cfg mp rd = .ok q) :
    0 ≤ q.2.2 ∧ (allCycles cfg q.2.1 : Int) = allCycles cfg rd + q.2.2 := by
  unfold rdCellRefresh at h
  dsimp only at h
  rw [bind_eq_ok] at h
  obtain ⟨p, h1, h⟩ := h
  have e1 := rdRefMat_count (cfg := cfg) hs.p h1
  simp only [allCycles, overCells_add]
  split at h
  · next hd =>
    rw [bind_eq_ok] at h
    obtain ⟨q, h2, h⟩ := h
    have e2 := rdRefMat_count (cfg := cfg) hs.m h2
    rw [ok_inj] at h
    subst h
    dsimp only at e1 e2 ⊢
    omega
  · rw [ok_inj] at h
    subst h
    dsimp only at e1 ⊢
    omega

theorem softwareRefresh_count (hs : RdShape cfg rd) (h : softwareRefresh E cfg x rd = .ok x') :
    ∃ rd', x'.rd = some rd' ∧ allCycles cfg rd' + x.refC = allCycles cfg rd + x'.refC := by
  obtain ⟨rd', hw⟩ := softwareRefresh_inv hs h
  refine ⟨rd', hw.has, ?_⟩
  unfold softwareRefresh at h
  dsimp only at h
  rw [bind_eq_ok] at h
  obtain ⟨p, h1, h⟩ := h
  rw [bind_eq_ok] at h
  obtain ⟨q, h2, h⟩ := h
  rw [bind_eq_ok] at h
  obtain ⟨_, _, h⟩ := h
  rw [bind_eq_ok] at h
  obtain ⟨_, _, h⟩ := h
  rw [ok_inj] at h
  have e0 : x'.refC = q.2 := by rw [← h]
  have e1 := lrsMat_count h1
  have e2 : q.2 = p.2 + overCells cfg fun r k =>
      if x.mapper.core.isDiff = true ∧ x.mapper.core.gd.m.get r k = 1 then 1 else 0 := by
    split at h2
    · next hd =>
      rw [lrsMat_count h2]
      simp only [hd, true_and]
    · next hd =>
      rw [ok_inj] at h2
      rw [← h2]
      simp [hd, overCells_zero]
  have e3 : allCycles cfg rd' = allCycles cfg rd +
      ((overCells cfg fun r k => if x.mapper.core.gd.p.get r k = 1 then 1 else 0) + overCells cfg fun r k =>
        if x.mapper.core.isDiff = true ∧ x.mapper.core.gd.m.get r k = 1 then 1 else 0) := by
    unfold allCycles
    rw [← overCells_add, ← overCells_add]
    refine overCells_congr fun r k hr hk => ?_
    rw [hw.cycP r k hr hk, hw.cycM r k hr hk]
    omega
  omega

/-- What a multiplication adds to the refresh counter of the cells it adds to their cycles. -/
theorem mvm_wear (hs : Shape E cfg x) (hrd : cfg.readDisturb = true) (hx : x.rd = some rd)
    (h : xMvm E cfg x res vec mat m n l = .ok (x', out)) :
    ∃ rd', x'.rd = some rd' ∧ allCycles cfg rd' + x.refC = allCycles cfg rd + x'.refC := by
  cases hdo : cfg.digitalOnly
  · obtain ⟨y, hy, h⟩ := xMvm_rd hs hdo hrd h
    obtain ⟨rd0, hx0, hsr⟩ := hs.rd hrd
    rw [hx, Option.some.injEq] at hx0
    subst hx0
    have hy' : y.rd = some rd := hy.rd.trans hx
    rw [← hy.refC]
    cases hst : cfg.strategy
    · obtain ⟨_, _, hc, rd', k1, k2, _⟩ := rdStep_off hsr hy' hst h
      exact ⟨rd', k1, by rw [hc, k2]; rfl⟩
    · unfold rdStep at h
      rw [hst] at h
      dsimp only at h
      split at h
      · cases h
      · split at h
        · rw [hy'] at h
          dsimp only at h
          rw [bind_eq_ok] at h
          obtain ⟨⟨c', rd'⟩, h1, h⟩ := h
          obtain ⟨_, e2⟩ := rdUpdate_inv (RP := fun _ _ => y.consec) (RM := fun _ _ => y.consec) hsr
            (fun _ _ _ h => (ok_inj.1 h).symm) (fun _ _ _ h => (ok_inj.1 h).symm) h1
          have ec : ∀ o, allCycles cfg { rd' with oob := o } = allCycles cfg rd := fun o => by rw [e2]; rfl
          dsimp only at h
          split at h
          · obtain ⟨rd2, k1, k2⟩ := softwareRefresh_count
              (rd := { rd' with oob := rd'.oob || rdOob E (y.writes + y.refX) })
              (by rw [e2]; exact ⟨hsr.cycP, hsr.cycM, hsr.rdP, hsr.rdM⟩) h
            rw [ec] at k2
            exact ⟨rd2, k1, k2⟩
          · rw [ok_inj] at h
            subst h
            exact ⟨_, rfl, by rw [ec]⟩
        · rw [ok_inj] at h
          subst h
          exact ⟨rd, hy', rfl⟩
    · unfold rdStep at h
      rw [hst] at h
      dsimp only at h
      rw [hy'] at h
      dsimp only at h
      rw [bind_eq_ok] at h
      obtain ⟨rd1, h1, h⟩ := h
      have hs1 : RdShape cfg rd1 :=
        (sat_updateReads (F := fun _ => True) hsr (Fits.mk' fun h => absurd trivial h)).of_ok h1
      have e1 : allCycles cfg rd1 = allCycles cfg rd := by rw [(updateReads_inv h1).1]; rfl
      split at h
      · cases h
      · split at h
        · rw [bind_eq_ok] at h
          obtain ⟨⟨c', rd2⟩, h2, h⟩ := h
          rw [bind_eq_ok] at h
          obtain ⟨q, h3, h⟩ := h
          rw [ok_inj] at h
          subst h
          obtain ⟨_, e2⟩ := rdUpdate_inv (RP := rd1.rdP.get) (RM := rd1.rdM.get) hs1
            (fun _ _ _ h => (Mat.rd_eq_ok.1 h).2.symm) (fun _ _ _ h => (Mat.rd_eq_ok.1 h).2.symm) h2
          have hia : IaShape cfg c'.ia := ((sat_rdUpdate lax_true hy.shape hs1
            (fun i j _ _ => Sat.any fun _ => trivial) fun i j _ _ => Sat.any fun _ => trivial).of_ok h2).1.ia
          obtain ⟨k1, k2⟩ := rdCellRefresh_count (mp := { y.mapper with core := c' }) hia h3
          have e3 : allCycles cfg rd2 = allCycles cfg rd1 := by rw [e2]; rfl
          refine ⟨q.2.1, rfl, ?_⟩
          dsimp only at k2 ⊢
          omega
        · rw [ok_inj] at h
          subst h
          exact ⟨rd1, rfl, by rw [e1]⟩
  · obtain ⟨_, h2, _, h4⟩ := xMvm_core h (Or.inl hdo)
    exact ⟨rd, h2.trans hx, by rw [h4]⟩

/-- Cycles, refreshes and switches of the whole crossbar. -/
theorem traced_wear (hok : CfgOk cfg) (hrd : cfg.readDisturb = true) (ht : Traced E cfg t x)
    (hx : x.rd = some rd) :
    allCycles cfg rd = allSwitches cfg (calls t) + x.refC ∧ x.refC = allRefreshes E cfg t := by
  have hall : ∀ {t : List (Step K)} {x : Xbar K} {rd : Rd K}, Traced E cfg t x → x.rd = some rd →
      allCycles cfg rd = allSwitches cfg (calls t) + allRefreshes E cfg t := fun ht hx => by
    unfold allCycles allSwitches allRefreshes
    rw [← overCells_add]
    refine overCells_congr fun r k hr hk => ?_
    obtain ⟨h1, h2⟩ := traced_cycles hok hrd ht hx hr hk
    omega
  have key : allCycles cfg rd = allSwitches cfg (calls t) + x.refC := by
    induction ht generalizing rd with
    | @init _ _ _ h =>
      rw [hall (.init h) hx]
      have h0 : allRefreshes E cfg ([] : List (Step K)) = 0 := overCells_zero
      rw [h0, (mkXbar_inv h).2.2.2.2.2.2.2]
    | @write t x x' mat m n ht h' ih =>
      obtain ⟨rd0, hx0, _⟩ := (runs_shape ht.runs).rd hrd
      have e1 := hall (.write ht h') hx
      have e2 := hall ht hx0
      have e3 := ih hx0
      have e4 : allRefreshes E cfg (⟨.write mat m n, x, x'⟩ :: t) = allRefreshes E cfg t := by
        refine overCells_congr fun r k _ _ => ?_
        have n1 : ¬RefreshP E cfg ⟨.write mat m n, x, x'⟩ r k := fun ⟨_, _, h⟩ => h.2.1
        have n2 : ¬(cfg.mode.isDiff = true ∧ RefreshM E cfg ⟨.write mat m n, x, x'⟩ r k) :=
          fun ⟨_, _, _, h⟩ => h.2.1
        simp only [times, if_neg n1, if_neg n2, Nat.add_zero]
      have e5 := (xWrite_frame h').2.2.2.2.2.2
      omega
    | @mvm t x x' res vec mat out m n l ht h' ih =>
      obtain ⟨rd0, hx0, _⟩ := (runs_shape ht.runs).rd hrd
      obtain ⟨rd', k1, k2⟩ := mvm_wear (runs_shape ht.runs) hrd hx0 h'
      rw [hx, Option.some.injEq] at k1
      subst k1
      have e1 : allSwitches cfg (calls (⟨.mvm res vec mat m n l, x, x'⟩ :: t)) = allSwitches cfg (calls t) := rfl
      have e3 := ih hx0
      omega
  exact ⟨key, by have := hall ht hx; omega⟩

end

end Acs
