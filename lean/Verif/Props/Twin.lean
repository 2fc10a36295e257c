import Verif.Lemmas.TwinRd
import Verif.Props.Rows
import Verif.Props.ExRd

/-! # C108: equal rows give equal results -/

namespace Acs.Props

open Spec

section
variable {K : Type} [Field K] [LinearOrder K] [IsStrictOrderedRing K] [FloorRing K]
variable {E : Env K} {cfg : Cfg K} {ops : List Op} {i i' rng : Nat} {hs : List (String × Hist K)}

/-- Rows with the same weights have the same entry in every result, whatever the rounding. -/
theorem C108_equal_rows (he : EvenCells cfg) (hi : i < cfg.M) (hi' : i' < cfg.M) (ho : ∀ op ∈ ops, EqualRows i i' op)
    {x y : Xbar K} {rs : List (Vec Int)} (hx : mkXbar E cfg rng hs = .ok x) (hy : exec E cfg x ops = .ok (y, rs)) :
    EqualEntries i i' rs := by
  have hM : i < cfg.M ↔ i' < cfg.M := iff_of_true hi hi'
  have hR : i < cfg.R ↔ i' < cfg.R := by
    rcases Nat.eq_zero_or_pos cfg.S with e | e
    · unfold Cfg.R
      rw [e]
      simp
    · exact iff_of_true (hi.trans_le (Nat.le_mul_of_pos_right _ e)) (hi'.trans_le (Nat.le_mul_of_pos_right _ e))
  exact (tw_exec he hR hM ho (tw_fresh hM hx) (mkXbar_shape hx)).of_ok hy

end

namespace Ex'

/-- Two equal rows. -/
def twinMat : Vec Int := Vec.ofList [1, -1, 1, 1, -1, 1]
def twinMatI : Vec Int := Vec.ofList [3, -2, 5, 3, -2, 5]
def twinRes : Vec Int := Vec.ofList [10, 10]

def twinOps (mat : Vec Int) : List Op := [.write mat 2 3, .mvm twinRes Ex.vec mat 2 3 "", .mvm twinRes Ex.vec mat 2 3 ""]

def twinReplies (cfg : Cfg ℚ) (mat : Vec Int) : C (List (Int × Int)) := do
  let r ← replies Ex.env cfg (twinOps mat)
  .ok (r.map fun v => (v.get 0, v.get 1))

/-- The calls return. -/
def twinReturn (cfg : Cfg ℚ) (mat : Vec Int) : C (Xbar ℚ × Xbar ℚ × List (Vec Int)) := do
  let x ← mkXbar Ex.env cfg 0 []
  let r ← exec Ex.env cfg x (twinOps mat)
  .ok (x, r)

theorem twinReturn_spec {cfg : Cfg ℚ} {mat : Vec Int} (h : ∃ r, twinReturn cfg mat = .ok r) :
    ∃ (x y : Xbar ℚ) (rs : List (Vec Int)), mkXbar Ex.env cfg 0 [] = .ok x ∧
      exec Ex.env cfg x (twinOps mat) = .ok (y, rs) := by
  obtain ⟨⟨x, y, rs⟩, h⟩ := h
  unfold twinReturn at h
  simp only [bind_eq_ok] at h
  obtain ⟨x', h1, r, h2, h⟩ := h
  rw [ok_inj, Prod.mk.injEq] at h
  obtain ⟨rfl, rfl⟩ := h
  exact ⟨x', y, rs, h1, h2⟩

theorem twinOps_equal {mat : Vec Int} (h : ∀ j, j < 3 → entry mat 3 0 j = entry mat 3 1 j) :
    ∀ op ∈ twinOps mat, EqualRows 0 1 op := by
  intro op hop
  have e : (0 : Nat) < 2 ↔ 1 < 2 := by decide
  rcases List.mem_cons.1 hop with rfl | hop
  · exact ⟨e, fun _ => h⟩
  rcases List.mem_cons.1 hop with rfl | hop
  · exact ⟨e, fun _ _ => rfl⟩
  rcases List.mem_cons.1 hop with rfl | hop
  · exact ⟨e, fun _ _ => rfl⟩
  · cases hop

/-- Wires and cycle-to-cycle variation without noise. -/
def twinWired : Cfg ℚ := { Ex.acfg .bnn1 with adcType := .sym, parasitics := true, wRes := 1, c2c := true }

/-- Slices of one bit, with cycle-to-cycle variation. -/
def twinSliced : Cfg ℚ := { Ex.acfg .iDiffWDiff1 with split := [1, 1, 1], c2c := true }

/-- Noise. -/
def twinNoisy : Cfg ℚ := { Ex.acfg .bnn3 with hrsNoise := 1, lrsNoise := 1 }

/-- A ternary mapping with two slices; single cells are refreshed. -/
def twinCells : Cfg ℚ := { Ex.cbCfg .tnn4 with M := 4, split := [1, 1], lrs := 1000 }

/-- Three equal rows; the first multiplications only use the first of them. -/
def twinOnes : Vec Int := Vec.ofList [1, 1, 1, 1, 1, 1, 1, 1, 1]
def twinPart : List Op :=
  let res := Vec.ofList [10, 10, 10]
  [.write twinOnes 3 3, .mvm res Ex.vec twinOnes 1 3 "", .mvm res Ex.vec twinOnes 1 3 "", .mvm res Ex.vec twinOnes 3 3 ""]

end Ex'

/-- Cycle-to-cycle variation without any noise tells equal rows apart in the integer mappings: only as many rows of cells
are treated as the matrix has rows, although every row of the matrix has several of them. -/
theorem C108_c2c : Ex'.twinSliced.hrsNoise = 0 ∧ Ex'.twinSliced.lrsNoise = 0 ∧ Ex'.twinSliced.readDisturb = false ∧
    (∀ op ∈ Ex'.twinOps Ex'.twinMatI, EqualRows 0 1 op) ∧
    Ex'.twinReplies Ex'.twinSliced Ex'.twinMatI = .ok [(10, 6), (10, 6)] ∧
    Ex'.twinReplies { Ex'.twinSliced with c2c := false } Ex'.twinMatI = .ok [(6, 6), (6, 6)] :=
  ⟨rfl, rfl, rfl, Ex'.twinOps_equal (by decide), by decide +kernel, by decide +kernel⟩

/-- Noise tells equal rows apart. -/
theorem C108_noise : (∀ op ∈ Ex'.twinOps Ex'.twinMat, EqualRows 0 1 op) ∧
    Ex'.twinReplies Ex'.twinNoisy Ex'.twinMat = .ok [(8, 9), (8, 9)] :=
  ⟨Ex'.twinOps_equal (by decide), by decide +kernel⟩

/-- In the ternary mappings with two slices, a multiplication with the first row only also counts as a read of the second
one, so that its cells are disturbed more than those of the third one, which holds the same weights. -/
theorem C108_reads : Ex'.twinCells.mode.isInt = false ∧ Ex'.twinCells.hrsNoise = 0 ∧ Ex'.twinCells.lrsNoise = 0 ∧
    (∀ op ∈ Ex'.twinPart, EqualRows 1 2 op) ∧
    (do let r ← replies Ex.rdEnv Ex'.twinCells Ex'.twinPart
        .ok (r.map fun v => (v.get 1, v.get 2))) = (.ok [(10, 10), (10, 10), (10, 11)] : C (List (Int × Int))) := by
  refine ⟨rfl, rfl, rfl, fun op hop => ?_, by decide +kernel⟩
  rcases List.mem_cons.1 hop with rfl | hop
  · exact ⟨by decide, fun _ => by decide⟩
  rcases List.mem_cons.1 hop with rfl | hop
  · exact ⟨by decide, fun _ _ => rfl⟩
  rcases List.mem_cons.1 hop with rfl | hop
  · exact ⟨by decide, fun _ _ => rfl⟩
  rcases List.mem_cons.1 hop with rfl | hop
  · exact ⟨by decide, fun _ _ => rfl⟩
  · cases hop

/-- Wires. -/
example : EvenCells Ex'.twinWired ∧ 0 < Ex'.twinWired.M ∧ 1 < Ex'.twinWired.M ∧
    (∀ op ∈ Ex'.twinOps Ex'.twinMat, EqualRows 0 1 op) ∧
    ∃ (x y : Xbar ℚ) (rs : List (Vec Int)), mkXbar Ex.env Ex'.twinWired 0 [] = .ok x ∧
      exec Ex.env Ex'.twinWired x (Ex'.twinOps Ex'.twinMat) = .ok (y, rs) :=
  ⟨Or.inr ⟨le_refl 0, le_refl 0, fun h => by cases h⟩, by decide, by decide, Ex'.twinOps_equal (by decide),
    Ex'.twinReturn_spec (Ex'.returns_spec (by decide +kernel))⟩

/-- Read disturb with every strategy. -/
example (s : Strategy) : ∃ cfg, cfg = Ex'.rowRead s 0 ∧ cfg.readDisturb = true ∧ EvenCells cfg ∧ 0 < cfg.M ∧ 1 < cfg.M ∧
    (∀ op ∈ Ex'.twinOps Ex'.twinMat, EqualRows 0 1 op) ∧
    ∃ (x y : Xbar ℚ) (rs : List (Vec Int)), mkXbar Ex.env cfg 0 [] = .ok x ∧
      exec Ex.env cfg x (Ex'.twinOps Ex'.twinMat) = .ok (y, rs) :=
  ⟨_, rfl, rfl, Or.inr ⟨le_refl 0, le_refl 0, fun _ _ => le_refl 1⟩, (by decide : 0 < 2), (by decide : 1 < 2),
    Ex'.twinOps_equal (by decide), Ex'.twinReturn_spec (Ex'.returns_spec (by cases s <;> decide +kernel))⟩

/-- An integer mapping with a converter. -/
example : ∃ cfg, cfg = { Ex.acfg .iUintWOffs with adcType := .sym } ∧ EvenCells cfg ∧ 0 < cfg.M ∧ 1 < cfg.M ∧
    (∀ op ∈ Ex'.twinOps Ex'.twinMatI, EqualRows 0 1 op) ∧
    ∃ (x y : Xbar ℚ) (rs : List (Vec Int)), mkXbar Ex.env cfg 0 [] = .ok x ∧
      exec Ex.env cfg x (Ex'.twinOps Ex'.twinMatI) = .ok (y, rs) :=
  ⟨_, rfl, Or.inr ⟨rfl, rfl⟩, by decide, by decide, Ex'.twinOps_equal (by decide),
    Ex'.twinReturn_spec (Ex'.returns_spec (by decide +kernel))⟩

/-- An integer mapping with wires. -/
example : ∃ cfg, cfg = { Ex.acfg .iDiffWDiff1 with M := 4, adcType := .sym, parasitics := true, wRes := 1 } ∧ EvenCells cfg ∧
    0 < cfg.M ∧ 1 < cfg.M ∧ (∀ op ∈ Ex'.twinOps Ex'.twinMatI, EqualRows 0 1 op) ∧
    ∃ (x y : Xbar ℚ) (rs : List (Vec Int)), mkXbar Ex.env cfg 0 [] = .ok x ∧
      exec Ex.env cfg x (Ex'.twinOps Ex'.twinMatI) = .ok (y, rs) :=
  ⟨_, rfl, Or.inr ⟨rfl, rfl⟩, by decide, by decide, Ex'.twinOps_equal (by decide),
    Ex'.twinReturn_spec (Ex'.returns_spec (by decide +kernel))⟩

end Acs.Props
