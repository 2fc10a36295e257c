import Verif.Lemmas.DMvmBin
import Verif.Model.Crossbar
import Verif.Lemmas.Sat

/-! # Shape invariant of the crossbar object -/

set_option linter.unusedSectionVars false

namespace Acs

open Finset

theorem bind_eq_ok {α β : Type} {x : C α} {f : α → C β} {b : β} :
    (x >>= f) = .ok b ↔ ∃ a, x = .ok a ∧ f a = .ok b := by
  cases x with
  | error e => simp [error_bind]
  | ok a => simp [ok_bind]

section
variable {K : Type} [Field K] [LinearOrder K] [IsStrictOrderedRing K] [FloorRing K]

/-- The fields of a mapper that never change after construction (all but the cell states and the
solver). -/
structure SameFixed (c d : Core K) : Prop where
  mode : c.mode = d.mode
  isDiff : c.isDiff = d.isDiff
  shift : c.shift = d.shift
  iStep : c.iStep = d.iStep
  numSeg : c.numSeg = d.numSeg
  iMM : c.iMM = d.iMM
  delta : c.delta = d.delta
  adc : c.adc = d.adc

theorem SameFixed.refl (c : Core K) : SameFixed c c := ⟨rfl, rfl, rfl, rfl, rfl, rfl, rfl, rfl⟩
theorem SameFixed.trans {a b c : Core K} (h : SameFixed a b) (h' : SameFixed b c) : SameFixed a c :=
  ⟨h.1.trans h'.1, h.2.trans h'.2, h.3.trans h'.3, h.4.trans h'.4, h.5.trans h'.5, h.6.trans h'.6,
    h.7.trans h'.7, h.8.trans h'.8⟩

/-- Dimensions of a matrix. -/
def Mat.Is {α : Type} (A : Mat α) (r c : Nat) : Prop := A.rows = r ∧ A.cols = c

structure GdShape (cfg : Cfg K) (gd : Gd) : Prop where
  p : gd.p.Is cfg.R cfg.N
  m : gd.m.Is cfg.R cfg.N
  sumW : gd.sumW.size = cfg.M

structure IaShape (cfg : Cfg K) (ia : Ia K) : Prop where
  p : ia.p.Is cfg.R cfg.N
  m : ia.m.Is cfg.R cfg.N
  pO : ia.pO.Is cfg.R cfg.N
  mO : ia.mO.Is cfg.R cfg.N

/-- `cfg` without wire resistance. -/
def Cfg.noPar (cfg : Cfg K) : Cfg K := { cfg with parasitics := false }

/-- A mapper core as built for `cfg`, up to cell states and solver. -/
structure CoreShape (E : Env K) (cfg : Cfg K) (c : Core K) : Prop where
  fixed : ∃ c0, mkCore E cfg.noPar = .ok c0 ∧ SameFixed c c0
  gd : GdShape cfg c.gd
  ia : IaShape cfg c.ia
  par : ∀ s, c.par = some s → s.mXbar = cfg.M ∧ s.nXbar = cfg.N ∧ s.mode = cfg.mode

structure AuxShape (cfg : Cfg K) (a : Aux K) : Prop where
  vdP : a.vdP.size = cfg.N
  vdM : a.vdM.size = cfg.N
  vdSlice : a.vdSlice.size = cfg.N
  tmpInt : a.tmpInt.size = cfg.R
  /-- the solver replaces this vector by one of length `M` in the integer mappings -/
  tmpFp : (cfg.mode.isInt = true → cfg.parasitics = false) →
    a.tmpFp.size = if cfg.mode.isInt then cfg.R else cfg.M
  tmp : a.tmp.size = cfg.M
  tmpP : a.tmpP.size = cfg.M
  tmpM : a.tmpM.size = cfg.M
  tmpLsb : a.tmpLsb.size = cfg.M
  tmpMsb : a.tmpMsb.size = cfg.M
  resFp : a.resFp.size = cfg.R

structure RdShape (cfg : Cfg K) (rd : Rd K) : Prop where
  cycP : rd.cycP.Is cfg.R cfg.N
  cycM : rd.cycM.Is cfg.R cfg.N
  rdP : rd.rdP.Is cfg.R cfg.N
  rdM : rd.rdM.Is cfg.R cfg.N

structure Shape (E : Env K) (cfg : Cfg K) (x : Xbar K) : Prop where
  core : CoreShape E cfg x.mapper.core
  aux : AuxShape cfg x.mapper.aux
  rd : cfg.readDisturb = true → ∃ rd, x.rd = some rd ∧ RdShape cfg rd
  parEx : cfg.digitalOnly = false → cfg.parasitics = true → x.mapper.core.par ≠ none

theorem AuxShape.like {cfg : Cfg K} {a b : Aux K} (h : AuxShape cfg a) (h' : AuxLike a b) :
    AuxShape cfg b :=
  ⟨h'.vdP.trans h.vdP, h'.vdM.trans h.vdM, h'.vdSlice.trans h.vdSlice, h'.tmpInt.trans h.tmpInt,
   fun hp => h'.tmpFp.trans (h.tmpFp hp), h'.tmp.trans h.tmp, h'.tmpP.trans h.tmpP, h'.tmpM.trans h.tmpM,
   h'.tmpLsb.trans h.tmpLsb, h'.tmpMsb.trans h.tmpMsb, h'.resFp.trans h.resFp⟩

theorem Mat.const_is {α : Type} (r c : Nat) (a : α) : (Mat.const r c a).Is r c := ⟨rfl, rfl⟩

theorem mkAux_shape (cfg : Cfg K) (rng : Nat) (hs : List (String × Hist K)) :
    AuxShape cfg (mkAux cfg rng hs) := by
  constructor <;> try rfl
  intro _
  simp only [mkAux]
  split <;> simp

/-- What the constructor of the mapper leaves behind. -/
theorem mkCore_inv {E : Env K} {cfg : Cfg K} {c : Core K} (h : mkCore E cfg = .ok c) :
    c.mode = cfg.mode ∧ c.isDiff = cfg.mode.isDiff ∧
    c.gd = ⟨Mat.const cfg.R cfg.N 0, Mat.const cfg.R cfg.N 0, Vec.const cfg.M 0⟩ ∧
    c.ia = ⟨Mat.const cfg.R cfg.N cfg.hrs, Mat.const cfg.R cfg.N cfg.hrs,
             Mat.const cfg.R cfg.N cfg.hrs, Mat.const cfg.R cfg.N cfg.hrs⟩ ∧
    c.shift = (if cfg.mode.isInt || cfg.mode == .tnn4 then
      Vec.ofList (shiftsFrom (wrap32 cfg.wBit) cfg.split) else Vec.const cfg.S 0) ∧
    c.numSeg = (if cfg.mode.isInt || cfg.mode == .tnn4 then cfg.S else 0) ∧
    c.iMM = (if cfg.digitalOnly then E.junk else E.fsub cfg.lrs cfg.hrs) ∧
    (if cfg.mode.isInt || cfg.mode == .tnn4 then stepSizes E c.iMM cfg.split
      else .ok (Vec.const cfg.S (some 0))) = .ok c.iStep ∧
    mkAdc cfg = .ok c.adc ∧ optSolver cfg = .ok c.par ∧
    optDelta E cfg c.iMM c.shift = .ok c.delta := by
  unfold mkCore at h
  rw [bind_eq_ok] at h
  obtain ⟨adc, h1, h⟩ := h
  simp only [] at h
  rw [bind_eq_ok] at h
  obtain ⟨par, h2, h⟩ := h
  split at h
  · cases h
  · rw [bind_eq_ok] at h
    obtain ⟨steps, h3, h⟩ := h
    rw [bind_eq_ok] at h
    obtain ⟨delta, h4, h⟩ := h
    simp only [Except.ok.injEq] at h
    subst h
    refine ⟨rfl, rfl, rfl, rfl, rfl, rfl, rfl, h3, h1, h2, h4⟩

/-- Parameters that are not structural reach the mapper through the solver only. -/
theorem mkCore_other {E : Env K} {cfg : Cfg K} {c : Core K} {p : Option (Solver K)} (iBit : Nat)
    (verbose d2d c2c par : Bool) (wRes : K) (bin : Int) (h : mkCore E cfg = .ok c)
    (hp : optSolver { cfg with
      iBit := iBit
      verbose := verbose
      d2d := d2d
      c2c := c2c
      parasitics := par
      wRes := wRes
      binSize := bin } = .ok p) :
    mkCore E { cfg with
      iBit := iBit
      verbose := verbose
      d2d := d2d
      c2c := c2c
      parasitics := par
      wRes := wRes
      binSize := bin } = .ok { c with par := p } := by
  unfold mkCore at h ⊢
  rw [bind_eq_ok] at h ⊢
  obtain ⟨adc, h1, h⟩ := h
  refine ⟨adc, h1, ?_⟩
  simp only [] at h ⊢
  rw [bind_eq_ok] at h ⊢
  obtain ⟨q, _, h⟩ := h
  refine ⟨p, hp, ?_⟩
  split at h
  · cases h
  · next hu =>
    refine (if_neg hu).trans ?_
    rw [bind_eq_ok] at h ⊢
    obtain ⟨steps, h3, h⟩ := h
    refine ⟨steps, h3, ?_⟩
    rw [bind_eq_ok] at h ⊢
    obtain ⟨delta, h4, h⟩ := h
    refine ⟨delta, h4, ?_⟩
    simp only [Except.ok.injEq] at h
    subst h
    rfl

theorem mkCore_noPar {E : Env K} {cfg : Cfg K} {c : Core K} (h : mkCore E cfg = .ok c) :
    mkCore E cfg.noPar = .ok { c with par := none } :=
  mkCore_other cfg.iBit cfg.verbose cfg.d2d cfg.c2c false cfg.wRes cfg.binSize h
    (by unfold optSolver; simp)

theorem mkCore_shape {E : Env K} {cfg : Cfg K} {c : Core K} (h : mkCore E cfg = .ok c) :
    CoreShape E cfg c := by
  obtain ⟨_, _, h1, h2, _, _, _, _, _, h3, _⟩ := mkCore_inv h
  refine ⟨⟨_, mkCore_noPar h, ⟨rfl, rfl, rfl, rfl, rfl, rfl, rfl, rfl⟩⟩, ?_, ?_, ?_⟩
  · rw [h1]; exact ⟨Mat.const_is _ _ _, Mat.const_is _ _ _, rfl⟩
  · rw [h2]; exact ⟨Mat.const_is _ _ _, Mat.const_is _ _ _, Mat.const_is _ _ _, Mat.const_is _ _ _⟩
  · intro s hs
    unfold optSolver at h3
    split at h3
    · rw [bind_eq_ok] at h3
      obtain ⟨s', h4, h5⟩ := h3
      unfold mkSolver at h4
      split at h4
      · cases h4
      · rw [hs] at h5
        simp only [Except.ok.injEq, Option.some.injEq] at h4 h5
        subst h4 h5
        exact ⟨rfl, rfl, rfl⟩
    · rw [hs] at h3; simp at h3

theorem mkCore_parEx {E : Env K} {cfg : Cfg K} {c : Core K} (h : mkCore E cfg = .ok c)
    (hd : cfg.digitalOnly = false) (hp : cfg.parasitics = true) : c.par ≠ none := by
  obtain ⟨_, _, _, _, _, _, _, _, _, h3, _⟩ := mkCore_inv h
  intro hn
  unfold optSolver at h3
  rw [hd, hp, hn] at h3
  simp only [Bool.not_false, Bool.true_and, if_true, bind_eq_ok] at h3
  obtain ⟨s', _, h5⟩ := h3
  simp at h5

theorem mkRd_shape {E : Env K} {cfg : Cfg K} {rd : Rd K} (h : mkRd E cfg = .ok rd) :
    RdShape cfg rd := by
  unfold mkRd at h
  rw [bind_eq_ok] at h
  obtain ⟨p, _, h⟩ := h
  rw [bind_eq_ok] at h
  obtain ⟨e, _, h⟩ := h
  simp only [Except.ok.injEq] at h
  subst h
  exact ⟨⟨rfl, rfl⟩, ⟨rfl, rfl⟩, ⟨rfl, rfl⟩, ⟨rfl, rfl⟩⟩

/-- The constructor of the crossbar. -/
theorem mkXbar_inv {E : Env K} {cfg : Cfg K} {rng : Nat} {hs : List (String × Hist K)} {x : Xbar K}
    (h : mkXbar E cfg rng hs = .ok x) :
    mkCore E cfg = .ok x.mapper.core ∧ x.mapper.aux = mkAux cfg rng hs ∧ optRd E cfg = .ok x.rd ∧
    x.writes = 0 ∧ x.mvms = 0 ∧ x.consec = 0 ∧ x.refX = 0 ∧ x.refC = 0 := by
  unfold mkXbar mkMapper at h
  rw [bind_eq_ok] at h
  obtain ⟨mp, h1, h⟩ := h
  rw [bind_eq_ok] at h1
  obtain ⟨c, h1, h1'⟩ := h1
  rw [bind_eq_ok] at h
  obtain ⟨rd, h2, h⟩ := h
  simp only [Except.ok.injEq] at h h1'
  subst h h1'
  exact ⟨h1, rfl, h2, rfl, rfl, rfl, rfl, rfl⟩

theorem mkXbar_shape {E : Env K} {cfg : Cfg K} {rng : Nat} {hs : List (String × Hist K)} {x : Xbar K}
    (h : mkXbar E cfg rng hs = .ok x) : Shape E cfg x := by
  obtain ⟨h1, h2, h3, _⟩ := mkXbar_inv h
  refine ⟨mkCore_shape h1, by rw [h2]; exact mkAux_shape _ _ _, fun hr => ?_, mkCore_parEx h1⟩
  unfold optRd at h3
  rw [if_pos hr, bind_eq_ok] at h3
  obtain ⟨rd, h4, h5⟩ := h3
  simp only [Except.ok.injEq] at h5
  exact ⟨rd, h5.symm, mkRd_shape h4⟩

section
variable {E : Env K} {cfg : Cfg K} {c : Core K}

theorem CoreShape.mode (h : CoreShape E cfg c) : c.mode = cfg.mode := by
  obtain ⟨c0, h1, h2⟩ := h.fixed
  rw [h2.mode, (mkCore_inv h1).1]; rfl

theorem CoreShape.isDiff (h : CoreShape E cfg c) : c.isDiff = cfg.mode.isDiff := by
  obtain ⟨c0, h1, h2⟩ := h.fixed
  rw [h2.isDiff, (mkCore_inv h1).2.1]; rfl

theorem CoreShape.shift (h : CoreShape E cfg c) : c.shift =
    (if cfg.mode.isInt || cfg.mode == .tnn4 then
      Vec.ofList (shiftsFrom (wrap32 cfg.wBit) cfg.split) else Vec.const cfg.S 0) := by
  obtain ⟨c0, h1, h2⟩ := h.fixed
  rw [h2.shift, (mkCore_inv h1).2.2.2.2.1]; rfl

theorem CoreShape.numSeg (h : CoreShape E cfg c) :
    c.numSeg = if cfg.mode.isInt || cfg.mode == .tnn4 then cfg.S else 0 := by
  obtain ⟨c0, h1, h2⟩ := h.fixed
  rw [h2.numSeg, (mkCore_inv h1).2.2.2.2.2.1]; rfl

theorem CoreShape.iMM (h : CoreShape E cfg c) :
    c.iMM = if cfg.digitalOnly then E.junk else E.fsub cfg.lrs cfg.hrs := by
  obtain ⟨c0, h1, h2⟩ := h.fixed
  rw [h2.iMM, (mkCore_inv h1).2.2.2.2.2.2.1]; rfl

theorem CoreShape.iStep (h : CoreShape E cfg c) :
    (if cfg.mode.isInt || cfg.mode == .tnn4 then stepSizes E c.iMM cfg.split
      else .ok (Vec.const cfg.S (some 0))) = .ok c.iStep := by
  obtain ⟨c0, h1, h2⟩ := h.fixed
  have := (mkCore_inv h1).2.2.2.2.2.2.2.1
  rw [h2.iStep, h2.iMM]; exact this

theorem CoreShape.adc (h : CoreShape E cfg c) : mkAdc cfg = .ok c.adc := by
  obtain ⟨c0, h1, h2⟩ := h.fixed
  rw [h2.adc]; exact (mkCore_inv h1).2.2.2.2.2.2.2.2.1

theorem CoreShape.delta (h : CoreShape E cfg c) :
    optDelta E cfg c.iMM c.shift = .ok c.delta := by
  obtain ⟨c0, h1, h2⟩ := h.fixed
  rw [h2.delta, h2.iMM, h2.shift]; exact (mkCore_inv h1).2.2.2.2.2.2.2.2.2.2

theorem shiftsFrom_length (w : Int) (l : List Nat) : (shiftsFrom w l).length = l.length := by
  induction l generalizing w with
  | nil => rfl
  | cons a t ih => simp [shiftsFrom, ih]

theorem CoreShape.shift_size (h : CoreShape E cfg c) : c.shift.size = cfg.S := by
  rw [h.shift]
  split
  · exact shiftsFrom_length _ _
  · rfl

theorem CoreShape.iStep_size (h : CoreShape E cfg c) : c.iStep.size = cfg.S := by
  have h1 := h.iStep
  split at h1
  · have h2 : Sat (fun _ => True) (stepSizes E c.iMM cfg.split)
        fun w => w.size = (Vec.const cfg.split.length (some (0 : K))).size :=
      Sat.setG (fun h => absurd trivial h) fun _ _ => Sat.intro_ok fun _ _ => trivial
    exact h2.of_ok h1
  · simp only [Except.ok.injEq] at h1
    rw [← h1]; rfl

end

end

end Acs
