import Verif.Lemmas.RowsWrite
import Verif.Lemmas.UnitsXbar
import Verif.Lemmas.Frame
import Verif.SpecRows

/-! # Crossbars row by row -/

set_option linter.unusedSectionVars false

namespace Acs

open Spec

section
variable {K : Type} [Field K] [LinearOrder K] [IsStrictOrderedRing K] [FloorRing K]
variable {E : Env K} {cfg : Cfg K} {m n i : Nat} {mat mat' res res' vec : Vec Int} {l : String}

/-- Two mappers that agree on row `i`. -/
structure MapRow (cfg : Cfg K) (i : Nat) (mp mp' : Mapper K) : Prop where
  core : mp'.core = mp.core.put mp'.core.gd mp'.core.ia mp'.core.par
  row : PutRow cfg i mp.core mp'.core.gd mp'.core.ia mp'.core.par
  rng : mp'.aux.rng = mp.aux.rng

theorem row_dWrite {mp mp' : Mapper K} (h : MapRow cfg i mp mp') (hm : mp.core.mode = cfg.mode) (hw : SameW i m n mat mat') :
    Rel true (MapRow cfg i) (dWrite E cfg mp mat m n) (dWrite E cfg mp' mat' m n) := by
  obtain ⟨k, a⟩ := mp'
  obtain ⟨hc, hr, hg⟩ := h
  dsimp only at hc hr hg
  generalize k.gd = g at hc hr
  generalize k.ia = ia at hc hr
  generalize k.par = p at hc hr
  subst hc
  unfold dWrite
  exact Rel.bind (row_dWriteGd hr.gd hm hw) fun x x' hx => ⟨rfl, ⟨hx, hr.ia, hr.par⟩, hg⟩

theorem row_aWrite (hn : cfg.hrsNoise ≤ 0 ↔ cfg.lrsNoise ≤ 0) {mp mp' : Mapper K} (h : MapRow cfg i mp mp') :
    Rel true (MapRow cfg i) (aWrite E cfg mp m n) (aWrite E cfg mp' m n) := by
  obtain ⟨k, b⟩ := mp'
  obtain ⟨c, a⟩ := mp
  obtain ⟨hc, hr, hg⟩ := h
  dsimp only at hc hr hg
  generalize k.gd = g at hc hr
  generalize k.ia = ia at hc hr
  generalize k.par = p at hc hr
  subst hc
  unfold aWrite
  dsimp only
  rw [hg]
  have em : (c.put g ia p).mode = c.mode := rfl
  rw [em]
  have pm : Rel true (MapRow cfg i)
      (do
        let r ← aWritePMBnnTnn E cfg c a.rng m n
        let par ← pushSolver E cfg c.par r.1.p (some r.1.m) m n
        .ok { core := { c with ia := r.1, par := par }, aux := { a with rng := r.2 } })
      (do
        let r ← aWritePMBnnTnn E cfg (c.put g ia p) a.rng m n
        let par ← pushSolver E cfg (c.put g ia p).par r.1.p (some r.1.m) m n
        .ok { core := { c.put g ia p with ia := r.1, par := par }, aux := { b with rng := r.2 } }) := by
    refine Rel.bind (row_aWritePMBnnTnn hn hr.gd hr.ia) fun r r' h => ?_
    exact Rel.bind (row_pushSolver hr.par h.1.p (B := some r.1.m) (B' := some r'.1.m) h.1.m) fun q q' hq =>
      ⟨rfl, ⟨hr.gd, h.1, hq⟩, h.2.symm⟩
  have pb : Rel true (MapRow cfg i)
      (do
        let r ← aWritePBnn E cfg c a.rng m n
        let par ← pushSolver E cfg c.par r.1.p none m n
        .ok { core := { c with ia := r.1, par := par }, aux := { a with rng := r.2 } })
      (do
        let r ← aWritePBnn E cfg (c.put g ia p) a.rng m n
        let par ← pushSolver E cfg (c.put g ia p).par r.1.p none m n
        .ok { core := { c.put g ia p with ia := r.1, par := par }, aux := { b with rng := r.2 } }) := by
    refine Rel.bind (row_aWritePBnn hn hr.gd hr.ia) fun r r' h => ?_
    exact Rel.bind (row_pushSolver hr.par h.1.p (B := none) (B' := none) trivial) fun q q' hq =>
      ⟨rfl, ⟨hr.gd, h.1, hq⟩, h.2.symm⟩
  have pi : Rel true (MapRow cfg i)
      (do
        let ia ← aWritePM E cfg c m n
        let par ← pushSolver E cfg c.par ia.p (some ia.m) (m * cfg.S) n
        .ok { core := { c with ia := ia, par := par }, aux := a })
      (do
        let ia' ← aWritePM E cfg (c.put g ia p) m n
        let par ← pushSolver E cfg (c.put g ia p).par ia'.p (some ia'.m) (m * cfg.S) n
        .ok { core := { c.put g ia p with ia := ia', par := par }, aux := b }) := by
    refine Rel.bind (row_aWritePM hr.gd hr.ia) fun r r' h => ?_
    exact Rel.bind (row_pushSolver hr.par h.p (B := some r.m) (B' := some r'.m) h.m) fun q q' hq =>
      ⟨rfl, ⟨hr.gd, h, hq⟩, hg⟩
  obtain ⟨md, _, _, _, _, _, _, _, _, _, _⟩ := c
  cases md with
  | iDiffWDiff1 => exact pi
  | iDiffWDiff2 => exact pi
  | iOffsWDiff => exact pi
  | iTcWDiff => exact pi
  | iUintWDiff => exact pi
  | iUintWOffs =>
    refine Rel.bind (row_aWriteP hr.gd hr.ia) fun r r' h => ?_
    exact Rel.bind (row_pushSolver hr.par h.p (B := none) (B' := none) trivial) fun q q' hq =>
      ⟨rfl, ⟨hr.gd, h, hq⟩, hg⟩
  | bnn1 => exact pm
  | bnn2 =>
    refine Rel.bind (row_aWritePMBnnTnn hn hr.gd hr.ia) fun r r' h => ?_
    exact Rel.bind (row_pushSolver hr.par h.1.m (B := some r.1.p) (B' := some r'.1.p) h.1.p) fun q q' hq =>
      ⟨rfl, ⟨hr.gd, h.1, hq⟩, h.2.symm⟩
  | bnn3 => exact pb
  | bnn4 => exact pb
  | bnn5 => exact pm
  | bnn6 => exact pm
  | tnn1 => exact pm
  | tnn2 => exact pm
  | tnn3 => exact pm
  | tnn4 => exact pm
  | tnn5 => exact pm

theorem row_addC2C (hn : cfg.hrsNoise ≤ 0 ↔ cfg.lrsNoise ≤ 0) {mp mp' : Mapper K} (h : MapRow cfg i mp mp') :
    Rel true (MapRow cfg i) (addC2C E cfg mp m n) (addC2C E cfg mp' m n) := by
  obtain ⟨k, b⟩ := mp'
  obtain ⟨hc, hr, hg⟩ := h
  dsimp only at hc hr hg
  generalize k.gd = g at hc hr
  generalize k.ia = ia at hc hr
  generalize k.par = p at hc hr
  subst hc
  unfold addC2C
  dsimp only
  rw [hg]
  refine Rel.bind (P := IaRng (inRow cfg i)) ?_ fun r r' h => ⟨rfl, ⟨hr.gd, h.1, hr.par⟩, h.2.symm⟩
  refine Rel.loop' ⟨hr.ia, rfl⟩ fun c s t _ hst => Rel.loop' hst fun j s t _ hst => ?_
  obtain ⟨s, sr⟩ := s
  obtain ⟨t, tr⟩ := t
  obtain ⟨hst, rfl⟩ := hst
  refine Rel.bind (rel_cond (p := inRow cfg i c) fun hc => hst.pO.rd hc) fun o o' ho => ?_
  refine Rel.bind (rel_cond (p := inRow cfg i c) fun hc => hr.gd.p.rd hc) fun x x' hx => ?_
  refine Rel.bind (row_addNoise hn ho hx) fun y y' hy => ?_
  refine Rel.bind (hst.p.wr hy.1) fun p p' hp => ?_
  refine Rel.bind (rel_cond (p := inRow cfg i c) fun hc => hst.mO.rd hc) fun o o' ho => ?_
  refine Rel.bind (rel_cond (p := inRow cfg i c) fun hc => hr.gd.m.rd hc) fun x x' hx => ?_
  rw [hy.2]
  refine Rel.bind (row_addNoise hn ho hx) fun y y' hy => ?_
  exact Rel.bind (hst.m.wr hy.1) fun q q' hq => ⟨⟨hp, hq, hst.pO, hst.mO⟩, hy.2⟩

theorem row_removeC2C {mp mp' : Mapper K} (h : MapRow cfg i mp mp') :
    Rel true (MapRow cfg i) (removeC2C mp m n) (removeC2C mp' m n) := by
  obtain ⟨k, b⟩ := mp'
  obtain ⟨hc, hr, hg⟩ := h
  dsimp only at hc hr hg
  generalize k.gd = g at hc hr
  generalize k.ia = ia at hc hr
  generalize k.par = p at hc hr
  subst hc
  unfold removeC2C
  refine Rel.bind (P := IaRow (inRow cfg i)) ?_ fun r r' h => ⟨rfl, ⟨hr.gd, h, hr.par⟩, hg⟩
  refine Rel.loop' hr.ia fun c s t _ hst => Rel.loop' hst fun j s t _ hst => ?_
  refine Rel.bind (rel_cond (p := inRow cfg i c) fun hc => hst.pO.rd hc) fun o o' ho => ?_
  refine Rel.bind (hst.p.wr ho) fun p p' hp => ?_
  refine Rel.bind (rel_cond (p := inRow cfg i c) fun hc => hst.mO.rd hc) fun o o' ho => ?_
  exact Rel.bind (hst.m.wr ho) fun q q' hq => ⟨hp, hq, hst.pO, hst.mO⟩

theorem MapRow.refl {mp : Mapper K} (h : ∀ s, mp.core.par = some s → s.mode = cfg.mode) : MapRow cfg i mp mp := by
  refine ⟨rfl, ⟨⟨RowEq.refl _, RowEq.refl _, On.refl _⟩, ⟨RowEq.refl _, RowEq.refl _, RowEq.refl _, RowEq.refl _⟩, ?_⟩, rfl⟩
  cases hp : mp.core.par with
  | none => exact trivial
  | some s =>
    refine ⟨h s hp, ⟨s.ga, rfl⟩, ?_⟩
    cases s.ga with
    | none => exact trivial
    | some q => exact ⟨rfl, rfl, rfl, fun _ _ _ => rfl⟩

end

end Acs
