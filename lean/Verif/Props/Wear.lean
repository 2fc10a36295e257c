import Verif.Lemmas.Wear
import Verif.Props.ExRd

/-! # Wear of the whole crossbar (C73) -/

set_option linter.unusedSectionVars false

namespace Acs.Props

open Acs.Spec

section
variable {K : Type} [Field K] [LinearOrder K] [IsStrictOrderedRing K] [FloorRing K]
variable {E : Env K} {cfg : Cfg K} {x x' : Xbar K} {rd rd' : Rd K} {t : List (Step K)} {h : List Op}
variable {mat vec res out : Vec Int} {m n : Nat} {l : String}

/-- C73.  The counter of refreshed cells is the number of refreshes of cells, summed over all cells and
all multiplications, for every mitigation. -/
theorem C73_refresh_counter (hok : CfgOk cfg) (hrd : cfg.readDisturb = true) (ht : Traced E cfg t x) :
    x.refC = allRefreshes E cfg t := by
  obtain ⟨rd, hx, _⟩ := (runs_shape ht.runs).rd hrd
  exact (traced_wear hok hrd ht hx).2

/-- C73.  The switching cycles of all cells together are the switches by writes plus the counter of
refreshed cells: no cycle is lost or counted twice. -/
theorem C73_balance (hok : CfgOk cfg) (hrd : cfg.readDisturb = true) (hr : Runs E cfg h x)
    (hx : x.rd = some rd) : allCycles cfg rd = allSwitches cfg h + x.refC := by
  obtain ⟨t, rfl, ht⟩ := runs_traced hr
  exact (traced_wear hok hrd ht hx).1

/-- Six cells are switched by the second write. -/
example : ∃ x, Runs Ex.rdEnv (Ex.cbCfg .bnn1) [Ex.mv, Ex.mv, Ex.wNegs, Ex.mv, Ex.wOnes] x ∧
    (match x.rd with
      | some rd => allCycles (Ex.cbCfg .bnn1) rd == 6 && x.refC == 0
      | none => false) = true :=
  Ex.played [Ex.wOnes, Ex.mv, Ex.wNegs, Ex.mv, Ex.mv] (fun x => match x.rd with
      | some rd => allCycles (Ex.cbCfg .bnn1) rd == 6 && x.refC == 0
      | none => false) (by decide +kernel)

example : allSwitches (Ex.cbCfg .bnn1) [Ex.mv, Ex.mv, Ex.wNegs, Ex.mv, Ex.wOnes] = 6 := by decide +kernel

/-- Six cells are refreshed one by one. -/
example : ∃ x, Runs Ex.rdEnv (Ex.cbCfg .bnn1) [Ex.mv, Ex.mv, Ex.mv, Ex.wOnes] x ∧
    (match x.rd with
      | some rd => allCycles (Ex.cbCfg .bnn1) rd == 6 && x.refC == 6 && x.refX == 0
      | none => false) = true :=
  Ex.played [Ex.wOnes, Ex.mv, Ex.mv, Ex.mv] (fun x => match x.rd with
      | some rd => allCycles (Ex.cbCfg .bnn1) rd == 6 && x.refC == 6 && x.refX == 0
      | none => false) (by decide +kernel)

/-- Six cells are refreshed by the software. -/
example : ∃ x, Runs Ex.rdEnv (Ex.swCfg .bnn1) [Ex.mv, Ex.mv, Ex.mv, Ex.wOnes] x ∧
    (match x.rd with
      | some rd => allCycles (Ex.swCfg .bnn1) rd == 6 && x.refC == 6 && x.refX == 1
      | none => false) = true :=
  Ex.played [Ex.wOnes, Ex.mv, Ex.mv, Ex.mv] (fun x => match x.rd with
      | some rd => allCycles (Ex.swCfg .bnn1) rd == 6 && x.refC == 6 && x.refX == 1
      | none => false) (by decide +kernel)

example : CfgOk (Ex.cbCfg .bnn1) ∧ (Ex.cbCfg .bnn1).readDisturb = true := ⟨Ex.cbCfg_ok _, rfl⟩

/-- C73.  One multiplication adds to the cycles of the cells what it adds to the counter of refreshed
cells. -/
theorem C73_multiplication (hrd : cfg.readDisturb = true) (hr : Runs E cfg h x) (hx : x.rd = some rd)
    (hm : xMvm E cfg x res vec mat m n l = .ok (x', out)) :
    ∃ rd', x'.rd = some rd' ∧ allCycles cfg rd' + x.refC = allCycles cfg rd + x'.refC :=
  mvm_wear (runs_shape hr) hrd hx hm

/-- C73.  A write does not change the counter of refreshed cells. -/
theorem C73_write (hw : xWrite E cfg x mat m n = .ok x') : x'.refC = x.refC := (xWrite_frame hw).2.2.2.2.2.2

example : ∃ x x' r, Runs Ex.rdEnv (Ex.cbCfg .bnn1) [Ex.mv, Ex.mv, Ex.wOnes] x ∧
    xMvm Ex.rdEnv (Ex.cbCfg .bnn1) x Ex.res Ex.vec Ex.mat 2 3 "" = .ok (x', r) ∧
    (x.refC == 0 && x'.refC == 6 && x.rd.isSome) = true :=
  Ex.stepped [Ex.wOnes, Ex.mv, Ex.mv] (fun x x' _ => x.refC == 0 && x'.refC == 6 && x.rd.isSome)
    (by decide +kernel)

/-- C73.  Without mitigation, without read disturb and on the digital path no cell is ever counted as
refreshed. -/
theorem C73_never (hn : cfg.digitalOnly = true ∨ cfg.readDisturb = false ∨ cfg.strategy = .off)
    (hr : Runs E cfg h x) : x.refC = 0 := by
  induction hr with
  | init h => exact (mkXbar_inv h).2.2.2.2.2.2.2
  | write _ h ih => exact (C73_write h).trans ih
  | @mvm hh x x' res vec mat r m n l hr h ih =>
    rw [← ih]
    cases hdo : cfg.digitalOnly
    · cases hrd : cfg.readDisturb
      · unfold xMvm at h
        dsimp only at h
        rw [hdo, hrd, if_neg (by simp), bind_eq_ok] at h
        obtain ⟨mp, _, h⟩ := h
        rw [bind_eq_ok] at h
        obtain ⟨q, _, h⟩ := h
        rw [bind_eq_ok] at h
        obtain ⟨mp', _, h⟩ := h
        rw [if_neg (by simp), ok_bind, ok_inj, Prod.mk.injEq] at h
        rw [← h.1]
      · have hst : cfg.strategy = .off := by
          rcases hn with h | h | h
          · exact absurd (hdo.symm.trans h) (by simp)
          · exact absurd (hrd.symm.trans h) (by simp)
          · exact h
        have hs := runs_shape hr
        obtain ⟨y, hy, h⟩ := xMvm_rd hs hdo hrd h
        obtain ⟨rd, hx, hsr⟩ := hs.rd hrd
        exact (rdStep_off hsr (hy.rd.trans hx) hst h).2.2.1.trans hy.refC
    · exact (xMvm_core h (Or.inl hdo)).2.2.2

example : ∃ x, Runs Ex.rdEnv (Ex.rdCfg .bnn1) [Ex.mv, Ex.mv, Ex.mv, Ex.wOnes] x ∧ (x.refC == 0) = true :=
  Ex.played [Ex.wOnes, Ex.mv, Ex.mv, Ex.mv] (fun x => x.refC == 0) (by decide +kernel)

/-- C73.  In the mappings that are not differential the counter leaves out the cells of the second array:
it is the number of refreshes of cells of the first array. -/
theorem C73_first_array_only (hok : CfgOk cfg) (hrd : cfg.readDisturb = true)
    (hd : cfg.mode.isDiff = false) (ht : Traced E cfg t x) :
    x.refC = overCells cfg fun r k => times (fun s => RefreshP E cfg s r k) t := by
  rw [C73_refresh_counter hok hrd ht]
  refine overCells_congr fun r k _ _ => ?_
  have : times (fun s => cfg.mode.isDiff = true ∧ RefreshM E cfg s r k) t = 0 := by
    have e : (fun s => cfg.mode.isDiff = true ∧ RefreshM E cfg s r k) = fun _ => False := by
      funext s; simp [hd]
    rw [e]
    clear ht
    induction t with
    | nil => rfl
    | cons s t ih => simp [times, ih]
  omega

end

/-- The software rewrites the six cells of the second array that are in LRS, and counts none. -/
example : ∃ x x' r, Runs Ex.rdEnv (Ex.swCfg .bnn5) [Ex.mv, Ex.mv, Ex.wNegs] x ∧
    xMvm Ex.rdEnv (Ex.swCfg .bnn5) x Ex.res Ex.vec Ex.mat 2 3 "" = .ok (x', r) ∧
    (x'.refX == 1 && x'.refC == 0 && x'.mapper.core.gd.m.get 0 0 == 1) = true :=
  Ex.stepped [Ex.wNegs, Ex.mv, Ex.mv] (fun _ x' _ => x'.refX == 1 && x'.refC == 0
    && x'.mapper.core.gd.m.get 0 0 == 1) (by decide +kernel)

end Acs.Props
