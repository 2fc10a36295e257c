import Verif.Lemmas.UnitsXbar

/-! # Writes, read disturb and sequences of calls in another unit of current -/

set_option linter.unusedSectionVars false

namespace Acs

open Spec

section
variable {K : Type} [Field K] [LinearOrder K] [IsStrictOrderedRing K] [FloorRing K]
variable {w : Bool} {E : Env K} {cfg : Cfg K} {c : K} {k : Core K} {m n : Nat} {l : String} {a : Aux K}
variable {res vec mat : Vec Int} {x x' : Xbar K}

/-- Cells and position in the random stream. -/
abbrev CellsTimes (c : K) (s t : Ia K × Nat) : Prop := t = (s.1.times c, s.2)

section
variable (hu : Unitlike E c)
include hu

/-! ## Cell states -/

theorem rel_addNoise_times {rng : Nat} {s : K} {g : Int} :
    Rel w (fun r r' => r' = (c * r.1, r.2)) (addNoise E cfg rng s g) (addNoise (drawnIn c E) (inUnit c cfg) rng (c * s) g) := by
  have key : ∀ z : K, Rel w (fun r r' : K × Nat => r' = (c * r.1, r.2))
      (if z ≤ 0 then Except.ok (s, rng) else
        .ok (if E.fadd s (E.gauss rng) < 0 then 0 else E.fadd s (E.gauss rng), rng + 1))
      (if c * z ≤ 0 then Except.ok (c * s, rng) else
        .ok (if E.fadd (c * s) (c * E.gauss rng) < 0 then 0 else E.fadd (c * s) (c * E.gauss rng), rng + 1)) := by
    intro z
    have h0 := hu.le z 0
    have h1 := hu.lt (E.fadd s (E.gauss rng)) 0
    rw [mul_zero] at h0 h1
    rw [hu.fadd]
    simp only [h0, h1]
    refine Rel.ite (fun _ => rfl) fun _ => ?_
    show (_, _) = (_, _)
    congr 1
    split
    · rw [mul_zero]
    · rfl
  unfold addNoise
  refine Rel.ite (fun _ => key _) fun _ => Rel.ite (fun _ => key _) fun _ => Rel.err

theorem cellCurrent_times (st : K) (g : Int) :
    cellCurrent (drawnIn c E) (inUnit c cfg).hrs (c * st) g = c * cellCurrent E cfg.hrs st g := by
  unfold cellCurrent
  show E.fadd (E.fmul (E.ofInt g) (c * st)) (c * cfg.hrs) = _
  rw [hu.fmul', hu.fadd]

theorem rel_step_times {i : Nat} : Rel w (fun x y : Option K => y = x.map (c * ·)) (k.iStep.rd i) ((k.times c).iStep.rd i) := by
  unfold Vec.rd
  exact Rel.ite (fun _ => rfl) fun _ => Rel.err

theorem rel_useField_times {s : Option K} : Rel w (fun x y => y = c * x) (useField s) (useField (s.map (c * ·))) := by
  cases s with
  | none => exact Rel.err
  | some v => exact rfl

theorem rel_aWritePM_times : Rel w (fun ia ia' => ia' = ia.times c) (aWritePM E cfg k m n)
    (aWritePM (drawnIn c E) (inUnit c cfg) (k.times c) m n) := by
  unfold aWritePM
  refine Rel.loop' rfl fun i s t _ hst => ?_
  refine Rel.bind (rel_step_times hu) fun st st' e => ?_
  subst e
  refine Rel.loop' hst fun j s t _ hst => ?_
  subst hst
  refine Rel.bind (rel_useField_times hu) fun st st' e => ?_
  subst e
  refine Rel.bindEq rfl fun gp => ?_
  refine Rel.bind (rel_wr (cellCurrent_times hu _ _)) fun p p' e => ?_
  subst e
  refine Rel.bindEq rfl fun gm => ?_
  refine Rel.bind (rel_wr (cellCurrent_times hu _ _)) fun q q' e => ?_
  subst e
  exact rfl

theorem rel_aWriteP_times : Rel w (fun ia ia' => ia' = ia.times c) (aWriteP E cfg k m n)
    (aWriteP (drawnIn c E) (inUnit c cfg) (k.times c) m n) := by
  unfold aWriteP
  refine Rel.loop' rfl fun i s t _ hst => ?_
  refine Rel.bind (rel_step_times hu) fun st st' e => ?_
  subst e
  refine Rel.loop' hst fun j s t _ hst => ?_
  subst hst
  refine Rel.bind (rel_useField_times hu) fun st st' e => ?_
  subst e
  refine Rel.bindEq rfl fun gp => ?_
  refine Rel.bind (rel_wr (cellCurrent_times hu _ _)) fun p p' e => ?_
  subst e
  exact rfl

theorem mm_times : (drawnIn c E).fsub (inUnit c cfg).lrs (inUnit c cfg).hrs = c * E.fsub cfg.lrs cfg.hrs := hu.fsub _ _

theorem rel_aWritePMBnnTnn_times {rng : Nat} : Rel w (CellsTimes c) (aWritePMBnnTnn E cfg k rng m n)
    (aWritePMBnnTnn (drawnIn c E) (inUnit c cfg) (k.times c) rng m n) := by
  unfold aWritePMBnnTnn
  dsimp only
  rw [mm_times hu]
  refine Rel.loop' rfl fun i s t _ hst => Rel.loop' hst fun j s t _ hst => ?_
  subst hst
  refine Rel.bindEq rfl fun gp => ?_
  rw [cellCurrent_times hu]
  refine Rel.bind (rel_addNoise_times hu) fun x x' e => ?_
  subst e
  refine Rel.bind (rel_wr rfl) fun p p' e => ?_
  subst e
  refine Rel.bind (rel_wr rfl) fun pO pO' e => ?_
  subst e
  refine Rel.bindEq rfl fun gm => ?_
  rw [cellCurrent_times hu]
  refine Rel.bind (rel_addNoise_times hu) fun y y' e => ?_
  subst e
  refine Rel.bind (rel_wr rfl) fun q q' e => ?_
  subst e
  refine Rel.bind (rel_wr rfl) fun qO qO' e => ?_
  subst e
  exact rfl

theorem rel_aWritePBnn_times {rng : Nat} : Rel w (CellsTimes c) (aWritePBnn E cfg k rng m n)
    (aWritePBnn (drawnIn c E) (inUnit c cfg) (k.times c) rng m n) := by
  unfold aWritePBnn
  dsimp only
  rw [mm_times hu]
  refine Rel.loop' rfl fun i s t _ hst => Rel.loop' hst fun j s t _ hst => ?_
  subst hst
  refine Rel.bindEq rfl fun gp => ?_
  rw [cellCurrent_times hu]
  refine Rel.bind (rel_addNoise_times hu) fun x x' e => ?_
  subst e
  refine Rel.bind (rel_wr rfl) fun p p' e => ?_
  subst e
  refine Rel.bind (rel_wr rfl) fun pO pO' e => ?_
  subst e
  exact rfl

/-! ## Wires -/

theorem rel_divVRead_times {s : Solver K} {A : Mat K} : Rel w (fun g g' => g' = g.times c) (divVRead E cfg s A)
    (divVRead (drawnIn c E) (inUnit c cfg) (s.times c) (A.times c)) := by
  unfold divVRead
  refine Rel.loop' rfl fun i s t _ hst => Rel.loop' hst fun j s t _ hst => ?_
  subst hst
  refine Rel.bind rel_rd fun x x' e => ?_
  subst e
  exact Rel.bind (hu.rel_fdiv _ _) fun y y' e => rel_wr e

omit hu in
theorem const_times (r k : Nat) : Mat.const r k (0 : K) = (Mat.const r k (0 : K)).times c := by
  unfold Mat.const Mat.times
  simp

omit hu in
theorem rel_wEncode_times {s : Solver K} {A : Mat K} {B : Option (Mat K)} :
    Rel w (fun g g' => g' = g.times c) (wEncode s A B m n) (wEncode (s.times c) (A.times c) (B.map (Mat.times c)) m n) := by
  unfold wEncode
  have em : (s.times c).mode = s.mode := rfl
  rw [em]
  cases s.mode.wEnc with
  | none => exact Rel.err
  | some e =>
    cases e with
    | single =>
      show Rel w _ (wEncSingle s A m n) (wEncSingle (s.times c) (A.times c) m n)
      unfold wEncSingle
      refine Rel.loop' (const_times _ _) fun i s t _ hst => Rel.loop' hst fun j s t _ hst => ?_
      subst hst
      exact Rel.bind rel_rd fun x x' e => rel_wr e
    | doubleCol =>
      cases B with
      | none => exact Rel.err
      | some B =>
        show Rel w _ (wEncDoubleCol s A B m n) (wEncDoubleCol (s.times c) (A.times c) (B.times c) m n)
        unfold wEncDoubleCol
        refine Rel.loop' (const_times _ _) fun i s t _ hst => Rel.loop' hst fun j s t _ hst => ?_
        subst hst
        refine Rel.bind rel_rd fun x x' e => Rel.bind rel_rd fun y y' e' => ?_
        refine Rel.bind (rel_wr e) fun g g' eg => ?_
        subst eg
        exact rel_wr e'
    | doubleRow =>
      cases B with
      | none => exact Rel.err
      | some B =>
        show Rel w _ (wEncDoubleRow s A B m n) (wEncDoubleRow (s.times c) (A.times c) (B.times c) m n)
        unfold wEncDoubleRow
        refine Rel.loop' (const_times _ _) fun i s t _ hst => Rel.loop' hst fun j s t _ hst => ?_
        subst hst
        refine Rel.bind rel_rd fun x x' e => Rel.bind rel_rd fun y y' e' => ?_
        refine Rel.bind (rel_wr e) fun g g' eg => ?_
        subst eg
        exact rel_wr e'
    | quad =>
      cases B with
      | none => exact Rel.err
      | some B =>
        show Rel w _ (wEncQuad s A B m n) (wEncQuad (s.times c) (A.times c) (B.times c) m n)
        unfold wEncQuad
        refine Rel.loop' (const_times _ _) fun i s t _ hst => Rel.loop' hst fun j s t _ hst => ?_
        subst hst
        refine Rel.bind rel_rd fun x x' e => Rel.bind rel_rd fun y y' e' => ?_
        refine Rel.bind (rel_wr e) fun g g' eg => ?_
        subst eg
        refine Rel.bind (rel_wr e') fun g g' eg => ?_
        subst eg
        refine Rel.bind (rel_wr e') fun g g' eg => ?_
        subst eg
        exact rel_wr e

theorem rel_setConductance_times {s : Solver K} {A : Mat K} {B : Option (Mat K)} :
    Rel w (fun s s' => s' = s.times c) (setConductance E cfg s A B m n)
      (setConductance (drawnIn c E) (inUnit c cfg) (s.times c) (A.times c) (B.map (Mat.times c)) m n) := by
  unfold setConductance
  refine Rel.bind (rel_divVRead_times hu) fun g g' e => ?_
  subst e
  refine Rel.bind (P := fun b b' => b' = b.map (Mat.times c)) ?_ fun b b' e => ?_
  · unfold divVReadOpt
    cases B with
    | none => exact rfl
    | some B =>
      refine Rel.ite (fun _ => rfl) fun _ => ?_
      refine Rel.bind (rel_divVRead_times hu) fun g g' e => ?_
      subst e
      exact rfl
  subst e
  refine Rel.bind rel_wEncode_times fun g g' e => ?_
  subst e
  refine Rel.ite (fun _ => Rel.err) fun _ => ?_
  refine Rel.bind (P := fun x y => y = c * x) ?_ fun x y e => ?_
  · show Rel w _ (E.fdiv 1 s.wRes) (E.fdiv 1 (s.wRes / c))
    unfold Env.fdiv
    by_cases h : s.wRes = 0
    · rw [if_pos h, if_pos (by rw [h, zero_div])]
      exact Rel.err
    · rw [if_neg h, if_neg (div_ne_zero h hu.ne)]
      show _ = _
      rw [← hu.f32]
      congr 1
      have := hu.ne
      field_simp
  · subst e
    show _ = _
    unfold Solver.times
    congr 1
    show some (_, E.f32 (E.f64 (c * x * 1000000))) = some (_, _)
    rw [mul_assoc, hu.f64, hu.f32]

theorem rel_pushSolver_times {p : Option (Solver K)} {A : Mat K} {B : Option (Mat K)} :
    Rel w (fun s s' => s' = s.map (Solver.times c)) (pushSolver E cfg p A B m n)
      (pushSolver (drawnIn c E) (inUnit c cfg) (p.map (Solver.times c)) (A.times c) (B.map (Mat.times c)) m n) := by
  unfold pushSolver
  refine Rel.ite (fun _ => ?_) fun _ => rfl
  cases p with
  | none => exact Rel.err
  | some s =>
    refine Rel.bind (rel_setConductance_times hu) fun s s' e => ?_
    subst e
    exact rfl

/-! ## Writes -/

/-- Cells and position in the random stream of two mappers. -/
structure MapTimes (c : K) (mp mp' : Mapper K) : Prop where
  core : mp'.core = mp.core.times c
  rng : mp'.aux.rng = mp.aux.rng

theorem rel_dWrite_times {mp mp' : Mapper K} (h : MapTimes c mp mp') :
    Rel w (MapTimes c) (dWrite E cfg mp mat m n) (dWrite (drawnIn c E) (inUnit c cfg) mp' mat m n) := by
  obtain ⟨core, aux⟩ := mp'
  obtain ⟨rfl, hr⟩ := h
  unfold dWrite
  refine Rel.bindEq rfl fun gd => ⟨rfl, hr⟩

theorem rel_aWrite_times {mp mp' : Mapper K} (h : MapTimes c mp mp') :
    Rel w (MapTimes c) (aWrite E cfg mp m n) (aWrite (drawnIn c E) (inUnit c cfg) mp' m n) := by
  obtain ⟨core, aux⟩ := mp'
  obtain ⟨rfl, hr⟩ := h
  dsimp only at hr
  unfold aWrite
  dsimp only
  rw [hr]
  have em : (mp.core.times c).mode = mp.core.mode := rfl
  rw [em]
  have pm : Rel w (MapTimes c)
      (do
        let r ← aWritePMBnnTnn E cfg mp.core mp.aux.rng m n
        let par ← pushSolver E cfg mp.core.par r.1.p (some r.1.m) m n
        .ok { core := { mp.core with ia := r.1, par := par }, aux := { mp.aux with rng := r.2 } })
      (do
        let r ← aWritePMBnnTnn (drawnIn c E) (inUnit c cfg) (mp.core.times c) mp.aux.rng m n
        let par ← pushSolver (drawnIn c E) (inUnit c cfg) (mp.core.times c).par r.1.p (some r.1.m) m n
        .ok { core := { mp.core.times c with ia := r.1, par := par }, aux := { aux with rng := r.2 } }) := by
    refine Rel.bind (rel_aWritePMBnnTnn_times hu) fun r r' e => ?_
    subst e
    refine Rel.bind (rel_pushSolver_times hu (B := some r.1.m)) fun p p' e => ?_
    subst e
    exact ⟨rfl, rfl⟩
  have pb : Rel w (MapTimes c)
      (do
        let r ← aWritePBnn E cfg mp.core mp.aux.rng m n
        let par ← pushSolver E cfg mp.core.par r.1.p none m n
        .ok { core := { mp.core with ia := r.1, par := par }, aux := { mp.aux with rng := r.2 } })
      (do
        let r ← aWritePBnn (drawnIn c E) (inUnit c cfg) (mp.core.times c) mp.aux.rng m n
        let par ← pushSolver (drawnIn c E) (inUnit c cfg) (mp.core.times c).par r.1.p none m n
        .ok { core := { mp.core.times c with ia := r.1, par := par }, aux := { aux with rng := r.2 } }) := by
    refine Rel.bind (rel_aWritePBnn_times hu) fun r r' e => ?_
    subst e
    refine Rel.bind (rel_pushSolver_times hu (B := none)) fun p p' e => ?_
    subst e
    exact ⟨rfl, rfl⟩
  have pi : Rel w (MapTimes c)
      (do
        let ia ← aWritePM E cfg mp.core m n
        let par ← pushSolver E cfg mp.core.par ia.p (some ia.m) (m * cfg.S) n
        .ok { mp with core := { mp.core with ia := ia, par := par } })
      (do
        let ia ← aWritePM (drawnIn c E) (inUnit c cfg) (mp.core.times c) m n
        let par ← pushSolver (drawnIn c E) (inUnit c cfg) (mp.core.times c).par ia.p (some ia.m) (m * cfg.S) n
        .ok { core := { mp.core.times c with ia := ia, par := par }, aux := aux }) := by
    refine Rel.bind (rel_aWritePM_times hu) fun r r' e => ?_
    subst e
    refine Rel.bind (rel_pushSolver_times hu (B := some r.m)) fun p p' e => ?_
    subst e
    exact ⟨rfl, hr⟩
  obtain ⟨⟨md, _, _, _, _, _, _, _, _, _, _⟩, _⟩ := mp
  cases md with
  | iDiffWDiff1 => exact pi
  | iDiffWDiff2 => exact pi
  | iOffsWDiff => exact pi
  | iTcWDiff => exact pi
  | iUintWDiff => exact pi
  | iUintWOffs =>
    refine Rel.bind (rel_aWriteP_times hu) fun r r' e => ?_
    subst e
    refine Rel.bind (rel_pushSolver_times hu (B := none)) fun p p' e => ?_
    subst e
    exact ⟨rfl, hr⟩
  | bnn1 => exact pm
  | bnn2 =>
    refine Rel.bind (rel_aWritePMBnnTnn_times hu) fun r r' e => ?_
    subst e
    refine Rel.bind (rel_pushSolver_times hu (B := some r.1.p)) fun p p' e => ?_
    subst e
    exact ⟨rfl, rfl⟩
  | bnn3 => exact pb
  | bnn4 => exact pb
  | bnn5 => exact pm
  | bnn6 => exact pm
  | tnn1 => exact pm
  | tnn2 => exact pm
  | tnn3 => exact pm
  | tnn4 => exact pm
  | tnn5 => exact pm

theorem rel_addC2C_times {mp mp' : Mapper K} (h : MapTimes c mp mp') :
    Rel w (MapTimes c) (addC2C E cfg mp m n) (addC2C (drawnIn c E) (inUnit c cfg) mp' m n) := by
  obtain ⟨core, aux⟩ := mp'
  obtain ⟨rfl, hr⟩ := h
  dsimp only at hr
  unfold addC2C
  dsimp only
  rw [hr]
  refine Rel.bind (P := CellsTimes c) ?_ fun r r' e => by subst e; exact ⟨rfl, rfl⟩
  refine Rel.loop' rfl fun i s t _ hst => Rel.loop' hst fun j s t _ hst => ?_
  subst hst
  refine Rel.bind rel_rd fun p p' e => ?_
  subst e
  refine Rel.bindEq rfl fun gp => ?_
  refine Rel.bind (rel_addNoise_times hu) fun x x' e => ?_
  subst e
  refine Rel.bind (rel_wr rfl) fun p p' e => ?_
  subst e
  refine Rel.bind rel_rd fun q q' e => ?_
  subst e
  refine Rel.bindEq rfl fun gm => ?_
  refine Rel.bind (rel_addNoise_times hu) fun y y' e => ?_
  subst e
  refine Rel.bind (rel_wr rfl) fun q q' e => ?_
  subst e
  exact rfl

omit hu in
theorem rel_removeC2C_times {mp mp' : Mapper K} (h : MapTimes c mp mp') :
    Rel w (MapTimes c) (removeC2C mp m n) (removeC2C mp' m n) := by
  obtain ⟨core, aux⟩ := mp'
  obtain ⟨rfl, hr⟩ := h
  unfold removeC2C
  refine Rel.bind (P := fun ia ia' : Ia K => ia' = ia.times c) ?_ fun r r' e => by subst e; exact ⟨rfl, hr⟩
  refine Rel.loop' rfl fun i s t _ hst => Rel.loop' hst fun j s t _ hst => ?_
  subst hst
  refine Rel.bind rel_rd fun p p' e => ?_
  subst e
  refine Rel.bind (rel_wr rfl) fun p p' e => ?_
  subst e
  refine Rel.bind rel_rd fun q q' e => ?_
  subst e
  refine Rel.bind (rel_wr rfl) fun q q' e => ?_
  subst e
  exact rfl

/-! ## Read disturb -/

theorem rel_rdUpdMat_times {rd : Rd K} {f : Nat → Nat → C Nat} {cyc : Mat Nat} {gd : Mat Int} {A : Mat K} {o : Bool} :
    Rel w (fun r r' => r' = (r.1.times c, r.2)) (rdUpdMat E cfg rd f cyc gd A o)
      (rdUpdMat (drawnIn c E) (inUnit c cfg) rd f cyc gd (A.times c) o) := by
  unfold rdUpdMat
  refine Rel.loop' rfl fun i s t _ hst => Rel.loop' hst fun j s t _ hst => ?_
  subst hst
  refine Rel.bindEq rfl fun g => Rel.ite (fun _ => ?_) fun _ => rfl
  refine Rel.bindEq rfl fun r => Rel.bindEq rfl fun cy => Rel.bindEq rfl fun f => ?_
  refine Rel.bind (rel_wr (hu.fmul _ _)) fun p p' e => ?_
  subst e
  exact rfl

theorem rel_rdUpdate_times {rd : Rd K} {f g : Nat → Nat → C Nat} :
    Rel w (fun r r' => r' = (r.1.times c, r.2)) (rdUpdate E cfg k rd f g)
      (rdUpdate (drawnIn c E) (inUnit c cfg) (k.times c) rd f g) := by
  unfold rdUpdate
  refine Rel.bind (rel_rdUpdMat_times hu) fun p p' e => ?_
  subst e
  refine Rel.ite (fun _ => ?_) fun _ => rfl
  refine Rel.bind (rel_rdUpdMat_times hu) fun q q' e => ?_
  subst e
  exact rfl

theorem rdOutside_times (z : K) : rdOutside (drawnIn c E) (inUnit c cfg) (c * z) = rdOutside E cfg z := by
  unfold rdOutside
  show (decide (c * z < E.fmul (E.fsub 1 cfg.tol) (c * cfg.lrs)) || decide (E.fmul (E.fadd 1 cfg.tol) (c * cfg.lrs) < c * z)) = _
  rw [hu.fmul', hu.fmul']
  simp only [hu.lt]

abbrev RefTimes (c : K) (s t : RefSt K) : Prop := t = { s with A := s.A.times c }

theorem rel_rdRefMat_times {gd : Mat Int} {s : RefSt K} :
    Rel w (RefTimes c) (rdRefMat E cfg gd s) (rdRefMat (drawnIn c E) (inUnit c cfg) gd { s with A := s.A.times c }) := by
  unfold rdRefMat
  refine Rel.loop' (I := RefTimes c) rfl fun i s t _ hst => ?_
  subst hst
  refine Rel.loop' (I := RefTimes c) rfl fun j s t _ hst => ?_
  subst hst
  refine Rel.bindEq rfl fun g => Rel.ite (fun _ => ?_) fun _ => rfl
  refine Rel.bind rel_rd fun x x' e => ?_
  subst e
  rw [rdOutside_times hu]
  refine Rel.ite (fun _ => ?_) fun _ => rfl
  refine Rel.bind (rel_addNoise_times hu) fun y y' e => ?_
  subst e
  refine Rel.bind (rel_wr rfl) fun A A' e => ?_
  subst e
  exact Rel.bindEq rfl fun _ => Rel.bindEq rfl fun _ => Rel.bindEq rfl fun _ => Rel.bindEq rfl fun _ => rfl

theorem rel_rdCellRefresh_times {mp mp' : Mapper K} {rd : Rd K} (h : MapTimes c mp mp') :
    Rel w (fun r r' => MapTimes c r.1 r'.1 ∧ r'.2 = r.2) (rdCellRefresh E cfg mp rd)
      (rdCellRefresh (drawnIn c E) (inUnit c cfg) mp' rd) := by
  obtain ⟨core, aux⟩ := mp'
  obtain ⟨rfl, hr⟩ := h
  dsimp only at hr
  unfold rdCellRefresh
  dsimp only
  rw [hr]
  refine Rel.bind (rel_rdRefMat_times hu (s := ⟨mp.core.ia.p, rd.cycP, rd.rdP, mp.aux.rng, 0⟩)) fun p p' e => ?_
  subst e
  refine Rel.ite (fun _ => ?_) fun _ => ⟨⟨rfl, rfl⟩, rfl⟩
  refine Rel.bind (rel_rdRefMat_times hu (s := ⟨mp.core.ia.m, rd.cycM, rd.rdM, p.rng, p.cnt⟩)) fun q q' e => ?_
  subst e
  exact ⟨⟨rfl, rfl⟩, rfl⟩

/-! ## The crossbar -/

/-- Two crossbars with the same state up to the unit. -/
structure XTimes (c : K) (x x' : Xbar K) : Prop where
  mapper : MapTimes c x.mapper x'.mapper
  rd : x'.rd = x.rd
  writes : x'.writes = x.writes
  mvms : x'.mvms = x.mvms
  consec : x'.consec = x.consec
  refX : x'.refX = x.refX
  refC : x'.refC = x.refC

theorem rel_mkXbar_times {rng : Nat} {hs : List (String × Hist K)} :
    Rel w (XTimes c) (mkXbar E cfg rng hs) (mkXbar (drawnIn c E) (inUnit c cfg) rng hs) := by
  unfold mkXbar mkMapper
  refine Rel.bind (P := MapTimes c) ?_ fun mp mp' h => ?_
  · exact Rel.bind (rel_mkCore_times hu) fun k k' e => ⟨e, rfl⟩
  · exact Rel.bindEq rfl fun rd => ⟨h, rfl, rfl, rfl, rfl, rfl, rfl⟩

theorem rel_xWrite_times (h : XTimes c x x') :
    Rel w (XTimes c) (xWrite E cfg x mat m n) (xWrite (drawnIn c E) (inUnit c cfg) x' mat m n) := by
  obtain ⟨mp', rd', w', mv', co', rx', rc'⟩ := x'
  obtain ⟨hm, rfl, rfl, rfl, rfl, rfl, rfl⟩ := h
  dsimp only at hm
  have hg : mp'.core.gd = x.mapper.core.gd := by rw [hm.core]; rfl
  unfold xWrite
  refine Rel.bind (P := fun r r' => MapTimes c r.1 r'.1 ∧ r'.2 = r.2) ?_ fun r r' hr => ?_
  · unfold xWriteD
    refine Rel.ite (fun _ => ?_) fun _ => ?_
    · refine Rel.bind (rel_dWrite_times hu hm) fun mp mp1 h1 => ?_
      have hg1 : mp1.core.gd = mp.core.gd := by rw [h1.core]; rfl
      dsimp only
      rw [hg, hg1]
      refine Rel.bindEq rfl fun up => Rel.bindEq rfl fun um => ?_
      cases x.rd with
      | none => exact Rel.err
      | some rd => exact Rel.bindEq rfl fun rd => Rel.bindEq rfl fun rd => ⟨h1, rfl⟩
    · exact Rel.bind (rel_dWrite_times hu hm) fun mp mp1 h1 => ⟨h1, rfl⟩
  · refine Rel.bind (P := MapTimes c) (Rel.ite (fun _ => hr.1) fun _ => rel_aWrite_times hu hr.1) fun mp mp1 h1 => ?_
    exact ⟨h1, hr.2, rfl, rfl, rfl, rfl, rfl⟩

theorem rel_softwareRefresh_times {rd : Rd K} (h : XTimes c x x') :
    Rel w (XTimes c) (softwareRefresh E cfg x rd) (softwareRefresh (drawnIn c E) (inUnit c cfg) x' rd) := by
  obtain ⟨mp', rd', w', mv', co', rx', rc'⟩ := x'
  obtain ⟨hm, rfl, rfl, rfl, rfl, rfl, rfl⟩ := h
  dsimp only at hm
  have hg : mp'.core.gd = x.mapper.core.gd := by rw [hm.core]; rfl
  have hd : mp'.core.isDiff = x.mapper.core.isDiff := by rw [hm.core]; rfl
  unfold softwareRefresh
  dsimp only
  rw [hg, hd]
  refine Rel.bindEq rfl fun p => Rel.bindEq rfl fun q => Rel.bindEq rfl fun r => ?_
  exact Rel.bind (rel_aWrite_times hu hm) fun mp mp1 h1 => ⟨h1, rfl, rfl, rfl, rfl, rfl, rfl⟩

theorem rel_rdStep_times (h : XTimes c x x') :
    Rel w (XTimes c) (rdStep E cfg x m n) (rdStep (drawnIn c E) (inUnit c cfg) x' m n) := by
  have h0 := h
  obtain ⟨mp', rd', w', mv', co', rx', rc'⟩ := x'
  obtain ⟨hm, rfl, rfl, rfl, rfl, rfl, rfl⟩ := h
  dsimp only at hm
  unfold rdStep
  have es : (inUnit c cfg).strategy = cfg.strategy := rfl
  rw [es]
  dsimp only
  rw [hm.core]
  cases cfg.strategy with
  | off =>
    refine Rel.ite (fun _ => Rel.err) fun _ => Rel.ite (fun _ => ?_) fun _ => h0
    cases x.rd with
    | none => exact Rel.err
    | some rd =>
      refine Rel.bind (rel_rdUpdate_times hu) fun r r' e => ?_
      subst e
      exact ⟨⟨rfl, hm.rng⟩, rfl, rfl, rfl, rfl, rfl, rfl⟩
  | software =>
    refine Rel.ite (fun _ => Rel.err) fun _ => Rel.ite (fun _ => ?_) fun _ => h0
    cases x.rd with
    | none => exact Rel.err
    | some rd =>
      refine Rel.bind (rel_rdUpdate_times hu) fun r r' e => ?_
      subst e
      refine Rel.ite (fun _ => ?_) fun _ => ?_
      · exact rel_softwareRefresh_times hu ⟨⟨rfl, hm.rng⟩, rfl, rfl, rfl, rfl, rfl, rfl⟩
      · exact ⟨⟨rfl, hm.rng⟩, rfl, rfl, rfl, rfl, rfl, rfl⟩
  | cellBased =>
    cases x.rd with
    | none => exact Rel.err
    | some rd =>
      refine Rel.bindEq rfl fun rd => Rel.ite (fun _ => Rel.err) fun _ => Rel.ite (fun _ => ?_) fun _ => ?_
      · refine Rel.bind (rel_rdUpdate_times hu) fun r r' e => ?_
        subst e
        refine Rel.bind (rel_rdCellRefresh_times hu ⟨rfl, hm.rng⟩) fun s s' hs => ?_
        exact ⟨hs.1, by dsimp only; rw [hs.2], rfl, rfl, rfl, rfl, by dsimp only; rw [hs.2]⟩
      · exact ⟨hm, rfl, rfl, rfl, rfl, rfl, rfl⟩

omit hu in
theorem auxShape_unit {a : Aux K} (h : AuxShape (inUnit c cfg) a) : AuxShape cfg a :=
  ⟨h.vdP, h.vdM, h.vdSlice, h.tmpInt, h.tmpFp, h.tmp, h.tmpP, h.tmpM, h.tmpLsb, h.tmpMsb, h.resFp⟩

theorem rel_xMvm_times (hp : cfg.adcProfile = false) (h : XTimes c x x') (hs : Shape E cfg x)
    (hs' : Shape (drawnIn c E) (inUnit c cfg) x') :
    Rel w (fun r r' => XTimes c r.1 r'.1 ∧ r.2 = r'.2) (xMvm E cfg x res vec mat m n l)
      (xMvm (drawnIn c E) (inUnit c cfg) x' res vec mat m n l) := by
  have ha := auxShape_unit hs'.aux
  have hmode := coreShape_mode hs.core
  obtain ⟨mp', rd', w', mv', co', rx', rc'⟩ := x'
  obtain ⟨hm, rfl, rfl, rfl, rfl, rfl, rfl⟩ := h
  dsimp only at hm ha
  unfold xMvm
  dsimp only
  refine Rel.ite (fun _ => ?_) fun _ => ?_
  · refine Rel.bind (P := fun r r' => SameRes r r' ∧ r.1.rng = x.mapper.aux.rng ∧ r'.1.rng = mp'.aux.rng)
      (Rel.with ?_ (fun a h => rng_dMvm.of_ok h) fun a h => rng_dMvm.of_ok h) fun r r' hr => ?_
    · rw [hm.core]
      exact rel_dMvm (hs.aux.sim ha)
    · exact ⟨⟨⟨hm.core, by dsimp only; rw [hr.2.1, hr.2.2, hm.rng]⟩, rfl, rfl, rfl, rfl, rfl, rfl⟩, hr.1⟩
  · refine Rel.bind (P := fun mp mp' => MapTimes c mp mp' ∧ (mp.core.mode = cfg.mode ∧ AuxShape cfg mp.aux) ∧ AuxShape cfg mp'.aux)
      (Rel.with (Rel.ite (fun _ => rel_addC2C_times hu hm) fun _ => hm) (fun mp hmp => ?_) fun mp hmp => ?_)
      fun mp mp1 h1 => ?_
    · split at hmp
      · obtain ⟨-, f, -, e⟩ := addC2C_frame hmp
        refine ⟨f.mode.trans hmode, ?_⟩
        rw [e]
        exact ⟨hs.aux.vdP, hs.aux.vdM, hs.aux.vdSlice, hs.aux.tmpInt, hs.aux.tmpFp, hs.aux.tmp, hs.aux.tmpP, hs.aux.tmpM,
          hs.aux.tmpLsb, hs.aux.tmpMsb, hs.aux.resFp⟩
      · rw [ok_inj] at hmp
        subst hmp
        exact ⟨hmode, hs.aux⟩
    · split at hmp
      · obtain ⟨-, f, -, e⟩ := addC2C_frame hmp
        rw [e]
        exact ⟨ha.vdP, ha.vdM, ha.vdSlice, ha.tmpInt, ha.tmpFp, ha.tmp, ha.tmpP, ha.tmpM,
          ha.tmpLsb, ha.tmpMsb, ha.resFp⟩
      · rw [ok_inj] at hmp
        subst hmp
        exact ha
    obtain ⟨hm1, ⟨hmo, hA⟩, hA'⟩ := h1
    refine Rel.bind (P := fun r r' => SameRes r r' ∧ r.1.rng = mp.aux.rng ∧ r'.1.rng = mp1.aux.rng)
      (Rel.with ?_ (fun a h => rng_aMvm.of_ok h) fun a h => rng_aMvm.of_ok h) fun r r' hr => ?_
    · rw [hm1.core]
      exact rel_aMvm_times (hA.sim hA') hu hp hmo
    have hm2 : MapTimes c { mp with aux := r.1 } { mp1 with aux := r'.1 } :=
      ⟨hm1.core, by dsimp only; rw [hr.2.1, hr.2.2, hm1.rng]⟩
    refine Rel.bind (P := MapTimes c) (Rel.ite (fun _ => rel_removeC2C_times hm2) fun _ => hm2) fun mp mp1 h3 => ?_
    refine Rel.bind (P := XTimes c) (Rel.ite (fun _ => rel_rdStep_times hu ?_) fun _ => ?_) fun y y' hy => ⟨hy, hr.1⟩
    · exact ⟨h3, rfl, rfl, rfl, rfl, rfl, rfl⟩
    · exact ⟨h3, rfl, rfl, rfl, rfl, rfl, rfl⟩

theorem rel_exec_times (hp : cfg.adcProfile = false) {ops : List Op} (h : XTimes c x x') (hs : Shape E cfg x)
    (hs' : Shape (drawnIn c E) (inUnit c cfg) x') :
    Rel w (fun r r' => XTimes c r.1 r'.1 ∧ r.2 = r'.2) (exec E cfg x ops) (exec (drawnIn c E) (inUnit c cfg) x' ops) := by
  induction ops generalizing x x' with
  | nil => exact ⟨h, rfl⟩
  | cons op ops ih =>
    cases op with
    | write mat m n =>
      refine Rel.bind (Rel.with (rel_xWrite_times hu h) (fun y hy => xWrite_shape hs hy) fun y hy => xWrite_shape hs' hy)
        fun y y' hy => ih hy.1 hy.2.1 hy.2.2
    | mvm res vec mat m n l =>
      refine Rel.bind (Rel.with (rel_xMvm_times hu hp h hs hs') (fun y hy => xMvm_shape hs hy) fun y hy => xMvm_shape hs' hy)
        fun y y' hy => Rel.bind (ih hy.1.1 hy.2.1 hy.2.2) fun z z' hz => ⟨hz.1, ?_⟩
      show _ :: _ = _ :: _
      rw [hy.1.2, hz.2]

end

end

end Acs
