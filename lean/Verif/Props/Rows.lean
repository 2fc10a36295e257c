import Verif.Lemmas.RowsRd
import Verif.Lemmas.UnitsRun
import Verif.Props.Units

/-! # C107: rows are independent -/

namespace Acs.Props

open Spec

section
variable {K : Type} [Field K] [LinearOrder K] [IsStrictOrderedRing K] [FloorRing K]
variable {E : Env K} {cfg : Cfg K} {ops ops' : List Op} {i rng : Nat} {hs : List (String × Hist K)}

/-- Entry `i` of every result depends on the weights of row `i` only. -/
theorem C107_rows (hn : cfg.hrsNoise ≤ 0 ↔ cfg.lrsNoise ≤ 0)
    (hl : cfg.readDisturb = true → cfg.strategy = .cellBased → cfg.lrsNoise ≤ 0)
    (ho : List.Forall₂ (SameForRow i) ops ops') {x y y' : Xbar K} {rs rs' : List (Vec Int)}
    (hx : mkXbar E cfg rng hs = .ok x) (hy : exec E cfg x ops = .ok (y, rs)) (hy' : exec E cfg x ops' = .ok (y', rs')) :
    SameEntry i rs rs' := by
  have h := row_exec hn hl ho ⟨MapRow.refl fun s h => ((mkXbar_shape hx).core.par s h).2.2, OptRd.refl _, rfl, rfl, rfl⟩
    (mkXbar_shape hx) (mkXbar_shape hx)
  rw [hy, hy'] at h
  exact h.2

end

namespace Ex'

/-- `Ex.mat` with another first row. -/
def otherRow : Vec Int := Vec.ofList [-1, -1, -1, -1, -1, 1]

def rowOps (mat : Vec Int) : List Op := [.write mat 2 3, .mvm Ex.res Ex.vec Ex.mat 2 3 "", .mvm Ex.res Ex.vec Ex.mat 2 3 ""]

theorem rowOps_same : List.Forall₂ (SameForRow 1) (rowOps Ex.mat) (rowOps otherRow) := by
  refine .cons ⟨rfl, rfl, fun _ => by decide⟩ (.cons ?_ (.cons ?_ .nil)) <;>
    exact ⟨rfl, rfl, rfl, rfl, rfl, fun _ => rfl⟩

/-- Noise on the cells in the low resistive state only. -/
def oneSided : Cfg ℚ := { Ex.acfg .bnn3 with lrsNoise := 1 }

/-- Noise and wires. -/
def rowWired : Cfg ℚ := { Ex.acfg .bnn1 with adcType := .sym, hrsNoise := 1, lrsNoise := 1, parasitics := true, wRes := 1 }

/-- Noise and read disturb. -/
def rowRead (s : Strategy) (noise : ℚ) : Cfg ℚ :=
  { Ex.acfg .bnn6 with hrsNoise := noise, lrsNoise := noise, readDisturb := true, strategy := s }

def entry1 (cfg : Cfg ℚ) (mat : Vec Int) : C (List Int) := do
  let r ← replies Ex.env cfg (rowOps mat)
  .ok (r.map fun v => v.get 1)

/-- Both sequences of calls return. -/
def bothReturn (cfg : Cfg ℚ) : C ((Xbar ℚ × List (Vec Int)) × (Xbar ℚ × List (Vec Int))) := do
  let x ← mkXbar Ex.env cfg 0 []
  let r ← exec Ex.env cfg x (rowOps Ex.mat)
  let r' ← exec Ex.env cfg x (rowOps otherRow)
  .ok (r, r')

theorem bothReturn_spec {cfg : Cfg ℚ} (h : ∃ r, bothReturn cfg = .ok r) :
    ∃ (x y y' : Xbar ℚ) (rs rs' : List (Vec Int)), mkXbar Ex.env cfg 0 [] = .ok x ∧
      exec Ex.env cfg x (rowOps Ex.mat) = .ok (y, rs) ∧ exec Ex.env cfg x (rowOps otherRow) = .ok (y', rs') := by
  obtain ⟨⟨⟨y, rs⟩, ⟨y', rs'⟩⟩, h⟩ := h
  unfold bothReturn at h
  simp only [bind_eq_ok] at h
  obtain ⟨x, h1, r, h2, r', h3, h⟩ := h
  rw [ok_inj, Prod.mk.injEq] at h
  obtain ⟨rfl, rfl⟩ := h
  exact ⟨x, y, y', rs, rs', h1, h2, h3⟩

end Ex'

/-- With noise on one of the two states only, the number of random samples drawn for a row depends on its weights, so that
a row does depend on the rows before it. -/
theorem C107_one_sided : Ex'.oneSided.readDisturb = false ∧
    List.Forall₂ (SameForRow 1) (Ex'.rowOps Ex.mat) (Ex'.rowOps Ex'.otherRow) ∧
    Ex'.entry1 Ex'.oneSided Ex.mat = .ok [16, 16] ∧ Ex'.entry1 Ex'.oneSided Ex'.otherRow = .ok [17, 17] :=
  ⟨rfl, Ex'.rowOps_same, by decide +kernel, by decide +kernel⟩

/-- The same happens when single cells are refreshed with noise. -/
theorem C107_cell_refresh : (Ex'.rowRead .cellBased 1).hrsNoise = (Ex'.rowRead .cellBased 1).lrsNoise ∧
    List.Forall₂ (SameForRow 1) (Ex'.rowOps Ex.mat) (Ex'.rowOps Ex'.otherRow) ∧
    Ex'.entry1 (Ex'.rowRead .cellBased 1) Ex.mat = .ok [16, 12] ∧
    Ex'.entry1 (Ex'.rowRead .cellBased 1) Ex'.otherRow = .ok [16, 13] :=
  ⟨rfl, Ex'.rowOps_same, by decide +kernel, by decide +kernel⟩

/-- Noise and cycle-to-cycle variation. -/
example : (Ex'.unitCfg.hrsNoise ≤ 0 ↔ Ex'.unitCfg.lrsNoise ≤ 0) ∧
    (Ex'.unitCfg.readDisturb = true → Ex'.unitCfg.strategy = .cellBased → Ex'.unitCfg.lrsNoise ≤ 0) ∧
    ∃ (x y y' : Xbar ℚ) (rs rs' : List (Vec Int)), mkXbar Ex.env Ex'.unitCfg 0 [] = .ok x ∧
      exec Ex.env Ex'.unitCfg x (Ex'.rowOps Ex.mat) = .ok (y, rs) ∧
      exec Ex.env Ex'.unitCfg x (Ex'.rowOps Ex'.otherRow) = .ok (y', rs') :=
  ⟨Iff.rfl, fun h => absurd h (by decide), Ex'.bothReturn_spec (Ex'.returns_spec (by decide +kernel))⟩

/-- Wires. -/
example : (Ex'.rowWired.hrsNoise ≤ 0 ↔ Ex'.rowWired.lrsNoise ≤ 0) ∧
    (Ex'.rowWired.readDisturb = true → Ex'.rowWired.strategy = .cellBased → Ex'.rowWired.lrsNoise ≤ 0) ∧
    ∃ (x y y' : Xbar ℚ) (rs rs' : List (Vec Int)), mkXbar Ex.env Ex'.rowWired 0 [] = .ok x ∧
      exec Ex.env Ex'.rowWired x (Ex'.rowOps Ex.mat) = .ok (y, rs) ∧
      exec Ex.env Ex'.rowWired x (Ex'.rowOps Ex'.otherRow) = .ok (y', rs') :=
  ⟨Iff.rfl, fun h => absurd h (by decide), Ex'.bothReturn_spec (Ex'.returns_spec (by decide +kernel))⟩

/-- Read disturb with noisy refreshes of the whole crossbar. -/
example : ∃ cfg, cfg = Ex'.rowRead .software 1 ∧ (cfg.hrsNoise ≤ 0 ↔ cfg.lrsNoise ≤ 0) ∧
    (cfg.readDisturb = true → cfg.strategy = .cellBased → cfg.lrsNoise ≤ 0) ∧
    ∃ (x y y' : Xbar ℚ) (rs rs' : List (Vec Int)), mkXbar Ex.env cfg 0 [] = .ok x ∧
      exec Ex.env cfg x (Ex'.rowOps Ex.mat) = .ok (y, rs) ∧
      exec Ex.env cfg x (Ex'.rowOps Ex'.otherRow) = .ok (y', rs') :=
  ⟨_, rfl, Iff.rfl, fun _ h => absurd h (by decide), Ex'.bothReturn_spec (Ex'.returns_spec (by decide +kernel))⟩

/-- Read disturb with refreshes of single cells without noise. -/
example : ∃ cfg, cfg = Ex'.rowRead .cellBased 0 ∧ (cfg.hrsNoise ≤ 0 ↔ cfg.lrsNoise ≤ 0) ∧
    (cfg.readDisturb = true → cfg.strategy = .cellBased → cfg.lrsNoise ≤ 0) ∧
    ∃ (x y y' : Xbar ℚ) (rs rs' : List (Vec Int)), mkXbar Ex.env cfg 0 [] = .ok x ∧
      exec Ex.env cfg x (Ex'.rowOps Ex.mat) = .ok (y, rs) ∧
      exec Ex.env cfg x (Ex'.rowOps Ex'.otherRow) = .ok (y', rs') :=
  ⟨_, rfl, Iff.rfl, fun _ _ => le_refl 0, Ex'.bothReturn_spec (Ex'.returns_spec (by decide +kernel))⟩

end Acs.Props
