import Verif.Lemmas.AdcQuant
import Verif.Lemmas.XDigital

/-! # Programming the analog cells -/

set_option linter.unusedSectionVars false

namespace Acs

open Finset Spec

/-! ## Loops over cells -/

section
variable {α σ : Type} {F : Fault → Prop}

/-- A loop with an invariant that depends on the counter. -/
theorem Sat.loopI {n : Nat} {f : Nat → σ → C σ} {s : σ} {P : Nat → σ → Prop} (h0 : P 0 s)
    (hs : ∀ i, i < n → ∀ s, P i s → Sat F (f i s) (P (i + 1))) : Sat F (Acs.loop n f s) (P n) := by
  induction n with
  | zero => exact h0
  | succ n ih =>
    exact Sat.bind (ih fun i hi => hs i (by omega)) fun s h => hs n (by omega) s h

theorem Sat.any (h : ∀ e, F e) {x : C α} : Sat F x fun _ => True := by
  cases x with
  | ok a => trivial
  | error e => exact h e

/-- The content `v` of one cell array after writing the first `n` cells of row `i`. -/
def RowDone (R : Nat → Nat → α → Prop) (i n : Nat) (v v' : Nat → Nat → α) : Prop :=
  ∀ r k, if r = i ∧ k < n then R r k (v' r k) else v' r k = v r k

/-- The content after writing a block. -/
def BlockDone (R : Nat → Nat → α → Prop) (m n : Nat) (v v' : Nat → Nat → α) : Prop :=
  ∀ r k, if r < m ∧ k < n then R r k (v' r k) else v' r k = v r k

theorem Sat.row {view : σ → Nat → Nat → α} {I : σ → Prop} {R : Nat → Nat → α → Prop} {i n : Nat}
    {f : Nat → σ → C σ} {s : σ} (h0 : I s)
    (hs : ∀ j, j < n → ∀ s, I s → Sat F (f j s) fun s' => I s' ∧ ∃ a, R i j a ∧
      view s' = fun r k => if r = i ∧ k = j then a else view s r k) :
    Sat F (Acs.loop n f s) fun s' => I s' ∧ RowDone R i n (view s) (view s') := by
  refine Sat.loopI (P := fun j s' => I s' ∧ RowDone R i j (view s) (view s'))
    ⟨h0, fun r k => by rw [if_neg (by omega)]⟩ fun j hj s' ⟨h1, h2⟩ => ?_
  refine (hs j hj s' h1).mono fun s'' ⟨h3, a, h4, h5⟩ => ⟨h3, fun r k => ?_⟩
  rw [h5]
  dsimp only
  by_cases hr : r = i ∧ k = j
  · rw [if_pos (by omega), if_pos hr, hr.1, hr.2]; exact h4
  · rw [if_neg hr]
    have := h2 r k
    by_cases hk : r = i ∧ k < j
    · rw [if_pos (by omega)]; rw [if_pos hk] at this; exact this
    · rw [if_neg (by omega)]; rw [if_neg hk] at this; exact this

theorem Sat.block {view : σ → Nat → Nat → α} {I : σ → Prop} {R : Nat → Nat → α → Prop} {m n : Nat}
    {f : Nat → σ → C σ} {s : σ} (h0 : I s)
    (hs : ∀ i, i < m → ∀ s, I s → Sat F (f i s) fun s' => I s' ∧ RowDone R i n (view s) (view s')) :
    Sat F (Acs.loop m f s) fun s' => I s' ∧ BlockDone R m n (view s) (view s') := by
  refine Sat.loopI (P := fun j s' => I s' ∧ BlockDone R j n (view s) (view s'))
    ⟨h0, fun r k => by rw [if_neg (by omega)]⟩ fun i hi s' ⟨h1, h2⟩ => ?_
  refine (hs i hi s' h1).mono fun s'' ⟨h3, h4⟩ => ⟨h3, fun r k => ?_⟩
  have a1 := h4 r k
  have a2 := h2 r k
  by_cases hr : r = i ∧ k < n
  · rw [if_pos (by omega)]; rw [if_pos hr] at a1; exact a1
  · rw [if_neg hr] at a1
    by_cases hk : r < i ∧ k < n
    · rw [if_pos (by omega)]; rw [if_pos hk] at a2; rw [a1]; exact a2
    · rw [if_neg (by omega)]; rw [if_neg hk] at a2; rw [a1]; exact a2

theorem Sat.mwr' {A : Mat α} {i j : Nat} {a : α} (h : ¬F .oob → i < A.rows ∧ j < A.cols) :
    Sat F (A.wr i j a) fun B => B = ⟨A.rows, A.cols, fun r k => if r = i ∧ k = j then a else A.get r k⟩ := by
  unfold Mat.wr
  split
  · exact rfl
  · next hi => exact not_not.1 fun hn => hi (h hn)

end

section
variable {K : Type} [Field K] [LinearOrder K] [IsStrictOrderedRing K] [FloorRing K]
variable {F : Fault → Prop} {E : Env K} {cfg : Cfg K} {c : Core K} {a : Aux K} {gd : Gd}
variable {mat vec res v w : Vec Int} {m n : Nat} {l : String} {x x' : Xbar K}

/-! ## Integer mappings -/

/-- Values of the step field. -/
theorem iStep_get (hi : IntOk cfg) (hc : CoreShape E cfg c) {s : Nat} (hs : s < cfg.S) :
    c.iStep.get s = fieldDiv E c.iMM (E.ofInt (2 ^ cfg.split.getD s 0 - 1)) := by
  have h1 := hc.iStep
  rw [if_pos (by simp [hi.isInt])] at h1
  unfold stepSizes at h1
  rw [setG_ok (fun s => fieldDiv E c.iMM (E.ofInt (2 ^ cfg.split.getD s 0 - 1))) (by simp)] at h1
  · rw [← (Except.ok.injEq _ _).mp h1]
    exact Vec.over_lt hs
  · intro s hs
    have h2 := hi.sp' s hs
    unfold maskOf
    have h3 := two_pow_inI32 h2
    have h4 : (0 : Int) < 2 ^ cfg.split.getD s 0 := by positivity
    rw [shl_one h2, ok_bind, subI_ok (by obtain ⟨a, b⟩ := h3; constructor <;> omega), ok_bind]

/-- Effect of programming an integer mapping. -/
structure IntDone (E : Env K) (cfg : Cfg K) (c : Core K) (m n : Nat) (ia : Ia K) : Prop where
  p : BlockDone (fun r k y => ∃ st, c.iStep.get (r % c.numSeg) = some st ∧
    y = cellCurrent E cfg.hrs st (c.gd.p.get r k)) (m * c.numSeg) n c.ia.p.get ia.p.get
  m : c.mode ≠ .iUintWOffs → BlockDone (fun r k y => ∃ st, c.iStep.get (r % c.numSeg) = some st ∧
    y = cellCurrent E cfg.hrs st (c.gd.m.get r k)) (m * c.numSeg) n c.ia.m.get ia.m.get
  m' : c.mode = .iUintWOffs → ia.m = c.ia.m
  pO : ia.pO = c.ia.pO
  mO : ia.mO = c.ia.mO

theorem sat_useField {o : Option K} (h : ¬F .nonfinite → o ≠ none) :
    Sat F (useField o) fun x => o = some x := by
  unfold useField
  cases o with
  | none => exact not_not.1 fun hn => h hn rfl
  | some a => exact rfl

/-- Dimensions used by `cont_aWrite*`. -/
structure WFits (F : Fault → Prop) (cfg : Cfg K) (c : Core K) (m n : Nat) : Prop where
  gdp : c.gd.p.rows = cfg.R ∧ c.gd.p.cols = cfg.N
  gdm : c.gd.m.rows = cfg.R ∧ c.gd.m.cols = cfg.N
  ia : IaShape cfg c.ia
  row : ¬F .oob → m ≤ cfg.R
  rowS : ¬F .oob → m * c.numSeg ≤ cfg.R
  col : ¬F .oob → n ≤ cfg.N
  seg : ¬F .oob → c.numSeg ≤ c.iStep.size

theorem cont_aWritePM (h : WFits F cfg c m n) (hm : c.mode ≠ .iUintWOffs)
    (hst : ¬F .nonfinite → ∀ s, s < c.numSeg → c.iStep.get s ≠ none) :
    Sat F (aWritePM E cfg c m n) (IntDone E cfg c m n) := by
  unfold aWritePM
  obtain ⟨V, hV⟩ : ∃ V, V = fun (ia : Ia K) r k => (ia.p.get r k, ia.m.get r k) := ⟨_, rfl⟩
  obtain ⟨I, hI⟩ : ∃ I, I = fun (ia : Ia K) => IaShape cfg ia ∧ ia.pO = c.ia.pO ∧ ia.mO = c.ia.mO := ⟨_, rfl⟩
  obtain ⟨R, hR⟩ : ∃ R, R = fun (r k : Nat) (y : K × K) => ∃ st, c.iStep.get (r % c.numSeg) = some st ∧
      y.1 = cellCurrent E cfg.hrs st (c.gd.p.get r k) ∧
      y.2 = cellCurrent E cfg.hrs st (c.gd.m.get r k) := ⟨_, rfl⟩
  refine (Sat.block (n := n) (view := V) (I := I) (R := R)
    (by rw [hI]; exact ⟨h.ia, rfl, rfl⟩) fun i hi ia hia => ?_).mono fun ia h9 => ?_
  rotate_left
  · subst hV hI hR
    obtain ⟨⟨_, h1, h2⟩, h3⟩ := h9
    refine ⟨fun r k => ?_, fun _ r k => ?_, fun e => absurd e hm, h1, h2⟩
    · have := h3 r k
      dsimp only at this
      split
      · next hr => rw [if_pos hr] at this; obtain ⟨st, e1, e2, _⟩ := this; exact ⟨st, e1, e2⟩
      · next hr => rw [if_neg hr] at this; exact ((Prod.mk.injEq _ _ _ _).mp this).1
    · have := h3 r k
      dsimp only at this
      split
      · next hr => rw [if_pos hr] at this; obtain ⟨st, e1, _, e2⟩ := this; exact ⟨st, e1, e2⟩
      · next hr => rw [if_neg hr] at this; exact ((Prod.mk.injEq _ _ _ _).mp this).2
  · have hseg : 0 < c.numSeg := Nat.pos_of_ne_zero fun h0 => by rw [h0] at hi; simp at hi
    refine Sat.bind (Sat.vrd fun hn => ?_) fun st hst' => ?_
    · have := h.seg hn
      exact (Nat.mod_lt _ hseg).trans_le this
    · refine Sat.row (view := V) (I := I) (R := R) hia fun j hj ia h9 => ?_
      subst hV hI hR
      obtain ⟨h1, h2, h3⟩ := h9
      have hb : ¬F .oob → i < cfg.R ∧ j < cfg.N := fun hn => by
        have := h.rowS hn; have := h.col hn; omega
      refine Sat.bind (sat_useField fun hn => ?_) fun step hstep => ?_
      · rw [hst']; exact hst hn _ (Nat.mod_lt _ hseg)
      refine Sat.bind (Sat.mrd fun hn => by rw [h.gdp.1, h.gdp.2]; exact hb hn) fun gp hgp => ?_
      refine Sat.bind (Sat.mwr' fun hn => by rw [h1.p.1, h1.p.2]; exact hb hn) fun p hp => ?_
      refine Sat.bind (Sat.mrd fun hn => by rw [h.gdm.1, h.gdm.2]; exact hb hn) fun gm hgm => ?_
      refine Sat.bind (Sat.mwr' fun hn => by rw [h1.m.1, h1.m.2]; exact hb hn) fun q hq => ?_
      subst hp hq hgp hgm
      refine ⟨⟨⟨⟨h1.p.1, h1.p.2⟩, ⟨h1.m.1, h1.m.2⟩, h1.pO, h1.mO⟩, h2, h3⟩,
        (cellCurrent E cfg.hrs step (c.gd.p.get i j), cellCurrent E cfg.hrs step (c.gd.m.get i j)),
        ⟨step, by rw [← hst', hstep], rfl, rfl⟩, ?_⟩
      funext r k
      dsimp only
      split <;> rfl

theorem cont_aWriteP (h : WFits F cfg c m n) (hm : c.mode = .iUintWOffs)
    (hst : ¬F .nonfinite → ∀ s, s < c.numSeg → c.iStep.get s ≠ none) :
    Sat F (aWriteP E cfg c m n) (IntDone E cfg c m n) := by
  unfold aWriteP
  obtain ⟨V, hV⟩ : ∃ V, V = fun (ia : Ia K) r k => ia.p.get r k := ⟨_, rfl⟩
  obtain ⟨I, hI⟩ : ∃ I, I = fun (ia : Ia K) => IaShape cfg ia ∧ ia.m = c.ia.m ∧ ia.pO = c.ia.pO ∧ ia.mO = c.ia.mO := ⟨_, rfl⟩
  obtain ⟨R, hR⟩ : ∃ R, R = fun (r k : Nat) (y : K) => ∃ st, c.iStep.get (r % c.numSeg) = some st ∧
      y = cellCurrent E cfg.hrs st (c.gd.p.get r k) := ⟨_, rfl⟩
  refine (Sat.block (n := n) (view := V) (I := I) (R := R)
    (by rw [hI]; exact ⟨h.ia, rfl, rfl, rfl⟩) fun i hi ia hia => ?_).mono fun ia h9 => ?_
  rotate_left
  · subst hV hI hR
    obtain ⟨⟨_, h0, h1, h2⟩, h3⟩ := h9
    exact ⟨h3, fun e => absurd hm e, fun _ => h0, h1, h2⟩
  have hseg : 0 < c.numSeg := Nat.pos_of_ne_zero fun h0 => by rw [h0] at hi; simp at hi
  refine Sat.bind (Sat.vrd fun hn => ?_) fun st hst' => ?_
  · have := h.seg hn
    exact (Nat.mod_lt _ hseg).trans_le this
  · refine Sat.row (view := V) (I := I) (R := R) hia fun j hj ia h9 => ?_
    subst hV hI hR
    obtain ⟨h1, h2, h3⟩ := h9
    have hb : ¬F .oob → i < cfg.R ∧ j < cfg.N := fun hn => by
      have := h.rowS hn; have := h.col hn; omega
    refine Sat.bind (sat_useField fun hn => ?_) fun step hstep => ?_
    · rw [hst']; exact hst hn _ (Nat.mod_lt _ hseg)
    refine Sat.bind (Sat.mrd fun hn => by rw [h.gdp.1, h.gdp.2]; exact hb hn) fun gp hgp => ?_
    refine Sat.bind (Sat.mwr' fun hn => by rw [h1.p.1, h1.p.2]; exact hb hn) fun p hp => ?_
    subst hp hgp
    exact ⟨⟨⟨⟨h1.p.1, h1.p.2⟩, ⟨h1.m.1, h1.m.2⟩, h1.pO, h1.mO⟩, h2, h3⟩,
      cellCurrent E cfg.hrs step (c.gd.p.get i j), ⟨step, by rw [← hst', hstep], rfl⟩, rfl⟩

/-! ## Binary and ternary mappings -/

/-- What the noise generator may return for a cell in state `g` with nominal current `s`. -/
def Noisy (E : Env K) (cfg : Cfg K) (s : K) (g : Int) (y : K) : Prop :=
  (g = 0 ∧ Varied E cfg.hrsNoise s y) ∨ (g = 1 ∧ Varied E cfg.lrsNoise s y)

theorem max_zero (x : K) : (if x < 0 then 0 else x) = max 0 x := by
  rw [max_def]
  split <;> split <;> first | rfl | linarith

theorem sat_addNoise {rng : Nat} {s : K} {g : Int} (h : ¬F .exited → g = 0 ∨ g = 1) :
    Sat F (addNoise E cfg rng s g) fun y => Noisy E cfg s g y.1 := by
  unfold addNoise
  refine Sat.ite (fun hg => Sat.ite (fun hn => ?_) fun hn => ?_) fun hg =>
    Sat.ite (fun hg => Sat.ite (fun hn => ?_) fun hn => ?_) fun hg' => ?_
  · exact Or.inl ⟨hg, by unfold Varied; rw [if_pos hn]⟩
  · exact Or.inl ⟨hg, by unfold Varied; rw [if_neg hn]; exact ⟨rng, max_zero _⟩⟩
  · exact Or.inr ⟨hg, by unfold Varied; rw [if_pos hn]⟩
  · exact Or.inr ⟨hg, by unfold Varied; rw [if_neg hn]; exact ⟨rng, max_zero _⟩⟩
  · exact not_not.1 fun hn => by rcases h hn with h | h <;> contradiction

/-- Effect of programming a binary or ternary mapping. -/
structure BinDone (E : Env K) (cfg : Cfg K) (c : Core K) (m n : Nat) (ia : Ia K) : Prop where
  p : BlockDone (fun r k (y : K × K) => Noisy E cfg
      (cellCurrent E cfg.hrs (E.fsub cfg.lrs cfg.hrs) (c.gd.p.get r k)) (c.gd.p.get r k) y.1 ∧
      y.2 = y.1) m n (fun r k => (c.ia.p.get r k, c.ia.pO.get r k))
      fun r k => (ia.p.get r k, ia.pO.get r k)
  m : c.mode ≠ .bnn3 ∧ c.mode ≠ .bnn4 → BlockDone (fun r k (y : K × K) => Noisy E cfg
      (cellCurrent E cfg.hrs (E.fsub cfg.lrs cfg.hrs) (c.gd.m.get r k)) (c.gd.m.get r k) y.1 ∧
      y.2 = y.1) m n (fun r k => (c.ia.m.get r k, c.ia.mO.get r k))
      fun r k => (ia.m.get r k, ia.mO.get r k)
  m' : c.mode = .bnn3 ∨ c.mode = .bnn4 → ia.m = c.ia.m ∧ ia.mO = c.ia.mO

theorem cont_aWritePMBnnTnn {rng : Nat} (h : WFits F cfg c m n) (hm : c.mode ≠ .bnn3 ∧ c.mode ≠ .bnn4)
    (hg : ¬F .exited → ∀ i j, i < m → j < n → (c.gd.p.get i j = 0 ∨ c.gd.p.get i j = 1) ∧
      (c.gd.m.get i j = 0 ∨ c.gd.m.get i j = 1)) :
    Sat F (aWritePMBnnTnn E cfg c rng m n) fun r => BinDone E cfg c m n r.1 := by
  unfold aWritePMBnnTnn
  obtain ⟨V, hV⟩ : ∃ V, V = fun (st : Ia K × Nat) r k =>
      ((st.1.p.get r k, st.1.pO.get r k), (st.1.m.get r k, st.1.mO.get r k)) := ⟨_, rfl⟩
  obtain ⟨I, hI⟩ : ∃ I, I = fun (st : Ia K × Nat) => IaShape cfg st.1 := ⟨_, rfl⟩
  obtain ⟨R, hR⟩ : ∃ R, R = fun (r k : Nat) (y : (K × K) × (K × K)) =>
      (Noisy E cfg (cellCurrent E cfg.hrs (E.fsub cfg.lrs cfg.hrs) (c.gd.p.get r k))
        (c.gd.p.get r k) y.1.1 ∧ y.1.2 = y.1.1) ∧
      (Noisy E cfg (cellCurrent E cfg.hrs (E.fsub cfg.lrs cfg.hrs) (c.gd.m.get r k))
        (c.gd.m.get r k) y.2.1 ∧ y.2.2 = y.2.1) := ⟨_, rfl⟩
  refine (Sat.block (n := n) (view := V) (I := I) (R := R)
    (by rw [hI]; exact h.ia) fun i hi ia hia => ?_).mono fun ia h9 => ?_
  rotate_left
  · subst hV hI hR
    obtain ⟨_, h3⟩ := h9
    refine ⟨fun r k => ?_, fun _ r k => ?_, fun e => by
      rcases e with e | e; exacts [absurd e hm.1, absurd e hm.2]⟩
    · have := h3 r k
      dsimp only at this
      split
      · next hr => rw [if_pos hr] at this; exact this.1
      · next hr => rw [if_neg hr] at this; exact ((Prod.mk.injEq _ _ _ _).mp this).1
    · have := h3 r k
      dsimp only at this
      split
      · next hr => rw [if_pos hr] at this; exact this.2
      · next hr => rw [if_neg hr] at this; exact ((Prod.mk.injEq _ _ _ _).mp this).2
  · refine Sat.row (view := V) (I := I) (R := R) hia fun j hj ia h1 => ?_
    subst hV hI hR
    replace h1 : IaShape cfg ia.1 := h1
    have hb : ¬F .oob → i < cfg.R ∧ j < cfg.N := fun hn => by
      have := h.row hn; have := h.col hn; omega
    refine Sat.bind (Sat.mrd fun hn => by rw [h.gdp.1, h.gdp.2]; exact hb hn) fun gp hgp => ?_
    refine Sat.bind (sat_addNoise fun hn => by rw [hgp]; exact (hg hn i j hi hj).1) fun x hx => ?_
    refine Sat.bind (Sat.mwr' fun hn => by rw [h1.p.1, h1.p.2]; exact hb hn) fun p hp => ?_
    refine Sat.bind (Sat.mwr' fun hn => by rw [h1.pO.1, h1.pO.2]; exact hb hn) fun pO hpO => ?_
    refine Sat.bind (Sat.mrd fun hn => by rw [h.gdm.1, h.gdm.2]; exact hb hn) fun gm hgm => ?_
    refine Sat.bind (sat_addNoise fun hn => by rw [hgm]; exact (hg hn i j hi hj).2) fun y hy => ?_
    refine Sat.bind (Sat.mwr' fun hn => by rw [h1.m.1, h1.m.2]; exact hb hn) fun q hq => ?_
    refine Sat.bind (Sat.mwr' fun hn => by rw [h1.mO.1, h1.mO.2]; exact hb hn) fun qO hqO => ?_
    subst hp hq hpO hqO hgp hgm
    refine ⟨⟨⟨h1.p.1, h1.p.2⟩, ⟨h1.m.1, h1.m.2⟩, ⟨h1.pO.1, h1.pO.2⟩, ⟨h1.mO.1, h1.mO.2⟩⟩,
      ((x.1, x.1), (y.1, y.1)), ⟨⟨hx, rfl⟩, hy, rfl⟩, ?_⟩
    funext r k
    dsimp only
    split <;> rfl

theorem cont_aWritePBnn {rng : Nat} (h : WFits F cfg c m n) (hm : c.mode = .bnn3 ∨ c.mode = .bnn4)
    (hg : ¬F .exited → ∀ i j, i < m → j < n → (c.gd.p.get i j = 0 ∨ c.gd.p.get i j = 1)) :
    Sat F (aWritePBnn E cfg c rng m n) fun r => BinDone E cfg c m n r.1 := by
  unfold aWritePBnn
  obtain ⟨V, hV⟩ : ∃ V, V = fun (st : Ia K × Nat) r k => (st.1.p.get r k, st.1.pO.get r k) := ⟨_, rfl⟩
  obtain ⟨I, hI⟩ : ∃ I, I = fun (st : Ia K × Nat) => IaShape cfg st.1 ∧ st.1.m = c.ia.m ∧ st.1.mO = c.ia.mO := ⟨_, rfl⟩
  obtain ⟨R, hR⟩ : ∃ R, R = fun (r k : Nat) (y : K × K) =>
      (Noisy E cfg (cellCurrent E cfg.hrs (E.fsub cfg.lrs cfg.hrs) (c.gd.p.get r k))
        (c.gd.p.get r k) y.1 ∧ y.2 = y.1) := ⟨_, rfl⟩
  refine (Sat.block (n := n) (view := V) (I := I) (R := R)
    (by rw [hI]; exact ⟨h.ia, rfl, rfl⟩) fun i hi ia hia => ?_).mono fun ia h9 => ?_
  rotate_left
  · subst hV hI hR
    obtain ⟨⟨_, h1, h2⟩, h3⟩ := h9
    exact ⟨h3, fun e => by rcases hm with h | h; exacts [absurd h e.1, absurd h e.2],
      fun _ => ⟨h1, h2⟩⟩
  refine Sat.row (view := V) (I := I) (R := R) hia fun j hj ia h9 => ?_
  subst hV hI hR
  obtain ⟨h1, h2⟩ := h9
  have hb : ¬F .oob → i < cfg.R ∧ j < cfg.N := fun hn => by
    have := h.row hn; have := h.col hn; omega
  refine Sat.bind (Sat.mrd fun hn => by rw [h.gdp.1, h.gdp.2]; exact hb hn) fun gp hgp => ?_
  refine Sat.bind (sat_addNoise fun hn => by rw [hgp]; exact hg hn i j hi hj) fun x hx => ?_
  refine Sat.bind (Sat.mwr' fun hn => by rw [h1.p.1, h1.p.2]; exact hb hn) fun p hp => ?_
  refine Sat.bind (Sat.mwr' fun hn => by rw [h1.pO.1, h1.pO.2]; exact hb hn) fun pO hpO => ?_
  subst hp hpO hgp
  refine ⟨⟨⟨⟨h1.p.1, h1.p.2⟩, ⟨h1.m.1, h1.m.2⟩, ⟨h1.pO.1, h1.pO.2⟩, ⟨h1.mO.1, h1.mO.2⟩⟩, h2⟩,
    (x.1, x.1), ⟨hx, rfl⟩, ?_⟩
  funext r k
  dsimp only
  split <;> rfl

/-! ## The virtual call -/

theorem cont_pushSolver (hp : cfg.parasitics = true → ∀ e, F e) {par : Option (Solver K)} {A : Mat K}
    {B : Option (Mat K)} : Sat F (pushSolver E cfg par A B m n) fun _ => True := by
  unfold pushSolver
  split
  · next h => exact Sat.any (hp h)
  · trivial

/-- Effect of `a_write`. -/
theorem cont_aWrite {mp : Mapper K} (h : WFits F cfg mp.core m n)
    (hp : cfg.parasitics = true → ∀ e, F e)
    (hst : ¬F .nonfinite → mp.core.mode.isInt = true →
      ∀ s, s < mp.core.numSeg → mp.core.iStep.get s ≠ none)
    (hg : ¬F .exited → mp.core.mode.isInt = false → ∀ i j, i < m → j < n →
      (mp.core.gd.p.get i j = 0 ∨ mp.core.gd.p.get i j = 1) ∧
      (mp.core.gd.m.get i j = 0 ∨ mp.core.gd.m.get i j = 1)) :
    Sat F (aWrite E cfg mp m n) fun mp' =>
      (mp.core.mode.isInt = true → IntDone E cfg mp.core m n mp'.core.ia) ∧
      (mp.core.mode.isInt = false → BinDone E cfg mp.core m n mp'.core.ia) := by
  unfold aWrite
  cases hm : mp.core.mode <;> simp only [hm, Mode.isInt, Mode.family, beq_self_eq_true, reduceCtorEq,
    forall_const, IsEmpty.forall_iff, and_true, true_and, beq_eq_false_iff_ne, ne_eq,
    not_false_eq_true] at hg hst ⊢
  case iDiffWDiff1 | iDiffWDiff2 | iOffsWDiff | iTcWDiff | iUintWDiff =>
    refine Sat.bind (cont_aWritePM h (by rw [hm]; decide) hst) fun ia hia => ?_
    exact Sat.bind (cont_pushSolver hp) fun _ _ => hia
  case iUintWOffs =>
    refine Sat.bind (cont_aWriteP h hm hst) fun ia hia => ?_
    exact Sat.bind (cont_pushSolver hp) fun _ _ => hia
  case bnn3 | bnn4 =>
    refine Sat.bind (cont_aWritePBnn h (by rw [hm]; decide) fun hn i j hi hj => (hg hn i j hi hj).1)
      fun r hr => ?_
    exact Sat.bind (cont_pushSolver hp) fun _ _ => by first | exact hr | exact fun _ => hr | exact ⟨fun h => (by cases h), hr⟩
  all_goals
    refine Sat.bind (cont_aWritePMBnnTnn h (by rw [hm]; decide) hg) fun r hr => ?_
    exact Sat.bind (cont_pushSolver hp) fun _ _ => by first | exact hr | exact fun _ => hr | exact ⟨fun h => (by cases h), hr⟩

/-! ## The currents of a crossbar after a history -/

theorem xWriteD_mapper {r : Mapper K × Option (Rd K)} (h1 : xWriteD E cfg x mat m n = .ok r) :
    ∃ gd, dWriteGd E cfg x.mapper.core mat m n = .ok gd ∧
      r.1 = { x.mapper with core := { x.mapper.core with gd := gd } } := by
  unfold xWriteD dWrite at h1
  split at h1
  · rw [bind_eq_ok] at h1
    obtain ⟨mp', h3, h1⟩ := h1
    rw [bind_eq_ok] at h3
    obtain ⟨gd, h3, h4⟩ := h3
    rw [ok_inj] at h4
    rw [bind_eq_ok] at h1
    obtain ⟨up, _, h1⟩ := h1
    rw [bind_eq_ok] at h1
    obtain ⟨um, _, h1⟩ := h1
    split at h1
    · cases h1
    · rw [bind_eq_ok] at h1
      obtain ⟨rd', _, h1⟩ := h1
      rw [bind_eq_ok] at h1
      obtain ⟨rd'', _, h1⟩ := h1
      rw [ok_inj] at h1
      subst h1
      exact ⟨gd, h3, h4.symm⟩
  · rw [bind_eq_ok] at h1
    obtain ⟨mp', h3, h1⟩ := h1
    rw [bind_eq_ok] at h3
    obtain ⟨gd, h3, h4⟩ := h3
    rw [ok_inj] at h4 h1
    subst h1
    exact ⟨gd, h3, h4.symm⟩

/-- Inversion of an analog write. -/
theorem xWrite_aWrite (hdo : cfg.digitalOnly = false) (h : xWrite E cfg x mat m n = .ok x') :
    ∃ gd', dWriteGd E cfg x.mapper.core mat m n = .ok gd' ∧ x'.mapper.core.gd = gd' ∧
      aWrite E cfg { x.mapper with core := { x.mapper.core with gd := gd' } } m n = .ok x'.mapper := by
  unfold xWrite at h
  rw [bind_eq_ok] at h
  obtain ⟨r, h1, h⟩ := h
  rw [bind_eq_ok] at h
  obtain ⟨mp, h2, h⟩ := h
  rw [ok_inj] at h
  subst h
  rw [hdo, if_neg (by simp)] at h2
  obtain ⟨gd, h3, h4⟩ := xWriteD_mapper h1
  rw [h4] at h2
  exact ⟨gd, h3, (aWrite_frame h2).1, h2⟩

variable {L : Nat → Nat → Option Int}

/-- Contents of a current array: unwritten cells carry `hrs`, the others are related to the state they
encode. -/
def Carries (cfg : Cfg K) (enc : Cfg K → Int → Nat → Int) (Q : Nat → Int → K → Prop)
    (L : Nat → Nat → Option Int) (y : Nat → Nat → K) : Prop :=
  ∀ r k, match L (rowOf cfg r).1 k with
    | none => y r k = cfg.hrs
    | some w => Q r (enc cfg w (rowOf cfg r).2) (y r k)

theorem Carries.put {enc : Cfg K → Int → Nat → Int} {Q : Nat → Int → K → Prop} {y y' : Nat → Nat → K}
    {R : Nat} {g : Nat → Nat → Int} (h : Carries cfg enc Q L y)
    (hb : BlockDone (fun r k a => Q r (g r k) a) R n y y') (hR : ∀ r, r < R ↔ (rowOf cfg r).1 < m)
    (hg : ∀ r k, g r k = cellOf (fun w => enc cfg w (rowOf cfg r).2) (put L mat m n (rowOf cfg r).1 k)) :
    Carries cfg enc Q (put L mat m n) y' := by
  intro r k
  have h1 := hb r k
  have h2 := h r k
  have h3 := hg r k
  simp only [hR] at h1
  by_cases hr : (rowOf cfg r).1 < m ∧ k < n
  · rw [if_pos hr] at h1
    simp only [Acs.put, if_pos hr] at h3 ⊢
    rw [h3] at h1
    exact h1
  · rw [if_neg hr] at h1
    simp only [Acs.put, if_neg hr] at h3 ⊢
    rw [h1]
    exact h2

/-- What an integer mapping programs. -/
def IntCell (E : Env K) (cfg : Cfg K) (c : Core K) (r : Nat) (g : Int) (y : K) : Prop :=
  ∃ st, c.iStep.get (r % c.numSeg) = some st ∧ y = cellCurrent E cfg.hrs st g

/-- What a binary or ternary mapping programs. -/
def BinCell (E : Env K) (cfg : Cfg K) (_r : Nat) (g : Int) (y : K) : Prop :=
  Noisy E cfg (cellCurrent E cfg.hrs (E.fsub cfg.lrs cfg.hrs) g) g y

theorem wfits_true (hc : CoreShape E cfg c) (hg : GdShape cfg gd) :
    WFits (fun _ => True) cfg { c with gd := gd } m n :=
  ⟨hg.p, hg.m, hc.ia, fun h => absurd trivial h, fun h => absurd trivial h, fun h => absurd trivial h,
    fun h => absurd trivial h⟩

theorem rowOf_int (hi : cfg.mode.isInt = true) (r : Nat) : rowOf cfg r = (r / cfg.S, r % cfg.S) := by
  unfold rowOf Cfg.S
  cases hm : cfg.mode <;> simp [hm, Mode.isInt, Mode.family] at hi ⊢

theorem rowOf_bin (hi : cfg.mode.isInt = false) (r : Nat) : rowOf cfg r = (r, 0) := by
  unfold rowOf
  cases hm : cfg.mode <;> simp [hm, Mode.isInt, Mode.family] at hi ⊢

theorem cont_aWrite_ok (hs : Shape E cfg x) (h : xWrite E cfg x mat m n = .ok x')
    (hdo : cfg.digitalOnly = false) {c : Core K}
    (hc : c = { x.mapper.core with gd := x'.mapper.core.gd }) :
    (cfg.mode.isInt = true → IntDone E cfg c m n x'.mapper.core.ia) ∧
      (cfg.mode.isInt = false → BinDone E cfg c m n x'.mapper.core.ia) := by
  obtain ⟨gd, h1, h2, h3⟩ := xWrite_aWrite hdo h
  have h4 : GdShape cfg gd := (sat_dWriteGd lax_true hs.core (Fits.mk' fun h => absurd trivial h)
    (fun h => absurd trivial h)).of_ok h1
  have h5 := (cont_aWrite (F := fun _ => True)
    (mp := { x.mapper with core := { x.mapper.core with gd := gd } }) (wfits_true hs.core h4) (fun _ _ => trivial)
    (fun h => absurd trivial h) (fun h => absurd trivial h)).of_ok h3
  rw [h2] at hc
  subst hc
  rw [← hs.core.mode]
  exact h5

/-- Currents of an integer mapping. -/
structure IntCur (E : Env K) (cfg : Cfg K) (c : Core K) (L : Nat → Nat → Option Int) : Prop where
  p : Carries cfg encP (IntCell E cfg c) L c.ia.p.get
  m : cfg.mode ≠ .iUintWOffs → Carries cfg encM (IntCell E cfg c) L c.ia.m.get
  m' : cfg.mode = .iUintWOffs → ∀ r k, c.ia.m.get r k = cfg.hrs

theorem runs_intCur (hok : CfgOk cfg) (hi : cfg.mode.isInt = true) (hdo : cfg.digitalOnly = false)
    (hc2 : cfg.c2c = false) (hrd : cfg.readDisturb = false) {h : List Op} (hr : Runs E cfg h x) :
    IntCur E cfg x.mapper.core (lastWrite h) := by
  induction hr with
  | init h =>
    have := (mkCore_inv (mkXbar_inv h).1).2.2.2.1
    rw [show lastWrite [] = fun _ _ => none from rfl]
    exact ⟨fun r k => by rw [this]; rfl, fun _ r k => by rw [this]; rfl, fun _ r k => by rw [this]; rfl⟩
  | @write hs x x' mat m n hr h' ih =>
    have hsh := runs_shape hr
    have h1 := (cont_aWrite_ok hsh h' hdo rfl).1 hi
    have h2 := runs_cells hok (Runs.write hr h')
    have hns : x.mapper.core.numSeg = cfg.S := by rw [hsh.core.numSeg, hi]; rfl
    have hR : ∀ r, r < m * x.mapper.core.numSeg ↔ (rowOf cfg r).1 < m := fun r => by
      rw [rowOf_int hi, hns, Nat.div_lt_iff_lt_mul (cfgOk_S_pos hok)]
    have hfix := (xWrite_frame h').2.1
    have hQ : IntCell E cfg x'.mapper.core = IntCell E cfg x.mapper.core := by
      unfold IntCell; rw [hfix.iStep, hfix.numSeg]
    rw [show lastWrite (.write mat m n :: hs) = put (lastWrite hs) mat m n from rfl] at h2 ⊢
    refine ⟨?_, fun hm => ?_, fun hm => ?_⟩
    · rw [hQ]
      exact ih.p.put h1.p hR h2.p
    · rw [hQ]
      exact (ih.m hm).put (h1.m (by rw [hsh.core.mode]; exact hm)) hR h2.m
    · intro r k
      rw [h1.m' (by rw [hsh.core.mode]; exact hm)]
      exact ih.m' hm r k
  | mvm hr h' ih =>
    rw [(xMvm_core h' (Or.inr ⟨hc2, hrd⟩)).1]
    exact ih

/-- Currents of a binary or ternary mapping. -/
structure BinCur (E : Env K) (cfg : Cfg K) (ia : Ia K) (L : Nat → Nat → Option Int) : Prop where
  p : Carries cfg encP (BinCell E cfg) L ia.pO.get
  m : cfg.mode ≠ .bnn3 ∧ cfg.mode ≠ .bnn4 → Carries cfg encM (BinCell E cfg) L ia.mO.get
  m' : cfg.mode = .bnn3 ∨ cfg.mode = .bnn4 → ∀ r k, ia.mO.get r k = cfg.hrs
  eqP : ∀ r k, ia.p.get r k = ia.pO.get r k
  eqM : ∀ r k, ia.m.get r k = ia.mO.get r k

/-- After adding and removing cycle-to-cycle variation the original currents are back. -/
theorem removeC2C_cont {mp mp' : Mapper K} (h : removeC2C mp m n = .ok mp')
    (hs : IaShape cfg mp.core.ia) :
    mp'.core.ia.pO = mp.core.ia.pO ∧ mp'.core.ia.mO = mp.core.ia.mO ∧
    (∀ r k, (mp'.core.ia.p.get r k, mp'.core.ia.m.get r k) = if r < m ∧ k < n then
      (mp.core.ia.pO.get r k, mp.core.ia.mO.get r k) else (mp.core.ia.p.get r k, mp.core.ia.m.get r k)) := by
  unfold removeC2C at h
  dsimp only at h
  rw [bind_eq_ok] at h
  obtain ⟨ia, h1, h⟩ := h
  rw [ok_inj] at h
  subst h
  have key : Sat (fun _ => True) (loop m (fun i ia => loop n (fun j (ia : Ia K) => do
      let a ← ia.pO.rd i j
      let p ← ia.p.wr i j a
      let b ← ia.mO.rd i j
      let q ← ia.m.wr i j b
      .ok { ia with p := p, m := q }) ia) mp.core.ia) fun ia' =>
        (IaShape cfg ia' ∧ ia'.pO = mp.core.ia.pO ∧ ia'.mO = mp.core.ia.mO) ∧
        BlockDone (fun r k y => y = (mp.core.ia.pO.get r k, mp.core.ia.mO.get r k)) m n
          (fun r k => (mp.core.ia.p.get r k, mp.core.ia.m.get r k))
          (fun r k => (ia'.p.get r k, ia'.m.get r k)) := by
    refine Sat.block (view := fun (ia : Ia K) r k => (ia.p.get r k, ia.m.get r k))
      (I := fun (ia' : Ia K) => IaShape cfg ia' ∧ ia'.pO = mp.core.ia.pO ∧ ia'.mO = mp.core.ia.mO)
      (R := fun r k y => y = (mp.core.ia.pO.get r k, mp.core.ia.mO.get r k))
      ⟨hs, rfl, rfl⟩ fun i _ ia hia => ?_
    refine Sat.row (view := fun (ia : Ia K) r k => (ia.p.get r k, ia.m.get r k))
      (I := fun (ia' : Ia K) => IaShape cfg ia' ∧ ia'.pO = mp.core.ia.pO ∧ ia'.mO = mp.core.ia.mO)
      (R := fun r k y => y = (mp.core.ia.pO.get r k, mp.core.ia.mO.get r k))
      hia fun j _ ia ⟨h1, h2, h3⟩ => ?_
    refine Sat.bind (Sat.mrd fun h => absurd trivial h) fun a ha => ?_
    refine Sat.bind (Sat.mwr' fun h => absurd trivial h) fun p hp => ?_
    refine Sat.bind (Sat.mrd fun h => absurd trivial h) fun b hb => ?_
    refine Sat.bind (Sat.mwr' fun h => absurd trivial h) fun q hq => ?_
    subst ha hp hb hq
    refine ⟨⟨⟨⟨h1.p.1, h1.p.2⟩, ⟨h1.m.1, h1.m.2⟩, h1.pO, h1.mO⟩, h2, h3⟩, _, rfl, ?_⟩
    funext r k
    dsimp only
    rw [h2, h3]
    split <;> rfl
  obtain ⟨⟨_, e1, e2⟩, e3⟩ := key.of_ok h1
  refine ⟨e1, e2, fun r k => ?_⟩
  have := e3 r k
  split
  · next hr => rw [if_pos hr] at this; exact this
  · next hr => rw [if_neg hr] at this; exact this

theorem addC2C_cont {mp mp' : Mapper K} (h : addC2C E cfg mp m n = .ok mp')
    (hs : IaShape cfg mp.core.ia) :
    IaShape cfg mp'.core.ia ∧ mp'.core.ia.pO = mp.core.ia.pO ∧ mp'.core.ia.mO = mp.core.ia.mO ∧
    ∀ r k, if r < m ∧ k < n then
      Noisy E cfg (mp.core.ia.pO.get r k) (mp.core.gd.p.get r k) (mp'.core.ia.p.get r k) ∧
      Noisy E cfg (mp.core.ia.mO.get r k) (mp.core.gd.m.get r k) (mp'.core.ia.m.get r k)
      else (mp'.core.ia.p.get r k, mp'.core.ia.m.get r k)
        = (mp.core.ia.p.get r k, mp.core.ia.m.get r k) := by
  unfold addC2C at h
  dsimp only at h
  rw [bind_eq_ok] at h
  obtain ⟨ia, h1, h⟩ := h
  rw [ok_inj] at h
  subst h
  have key : Sat (fun _ => True) (loop m (fun i st => loop n (fun j (st : Ia K × Nat) => do
      let a ← st.1.pO.rd i j
      let gp ← mp.core.gd.p.rd i j
      let x ← addNoise E cfg st.2 a gp
      let p ← st.1.p.wr i j x.1
      let b ← st.1.mO.rd i j
      let gm ← mp.core.gd.m.rd i j
      let y ← addNoise E cfg x.2 b gm
      let q ← st.1.m.wr i j y.1
      .ok ({ st.1 with p := p, m := q }, y.2)) st) (mp.core.ia, mp.aux.rng)) fun st' =>
        (IaShape cfg st'.1 ∧ st'.1.pO = mp.core.ia.pO ∧ st'.1.mO = mp.core.ia.mO) ∧
        BlockDone (fun r k y => Noisy E cfg (mp.core.ia.pO.get r k) (mp.core.gd.p.get r k) y.1 ∧
          Noisy E cfg (mp.core.ia.mO.get r k) (mp.core.gd.m.get r k) y.2) m n
          (fun r k => (mp.core.ia.p.get r k, mp.core.ia.m.get r k))
          (fun r k => (st'.1.p.get r k, st'.1.m.get r k)) := by
    refine Sat.block (view := fun (st : Ia K × Nat) r k => (st.1.p.get r k, st.1.m.get r k))
      (I := fun (st' : Ia K × Nat) =>
        IaShape cfg st'.1 ∧ st'.1.pO = mp.core.ia.pO ∧ st'.1.mO = mp.core.ia.mO)
      (R := fun r k y => Noisy E cfg (mp.core.ia.pO.get r k) (mp.core.gd.p.get r k) y.1 ∧
          Noisy E cfg (mp.core.ia.mO.get r k) (mp.core.gd.m.get r k) y.2)
      ⟨hs, rfl, rfl⟩ fun i _ ia hia => ?_
    refine Sat.row (view := fun (st : Ia K × Nat) r k => (st.1.p.get r k, st.1.m.get r k))
      (I := fun (st' : Ia K × Nat) =>
        IaShape cfg st'.1 ∧ st'.1.pO = mp.core.ia.pO ∧ st'.1.mO = mp.core.ia.mO)
      (R := fun r k y => Noisy E cfg (mp.core.ia.pO.get r k) (mp.core.gd.p.get r k) y.1 ∧
          Noisy E cfg (mp.core.ia.mO.get r k) (mp.core.gd.m.get r k) y.2)
      hia fun j _ ia ⟨h1, h2, h3⟩ => ?_
    refine Sat.bind (Sat.mrd fun h => absurd trivial h) fun a ha => ?_
    refine Sat.bind (Sat.mrd fun h => absurd trivial h) fun gp hgp => ?_
    refine Sat.bind (sat_addNoise fun h => absurd trivial h) fun x hx => ?_
    refine Sat.bind (Sat.mwr' fun h => absurd trivial h) fun p hp => ?_
    refine Sat.bind (Sat.mrd fun h => absurd trivial h) fun b hb => ?_
    refine Sat.bind (Sat.mrd fun h => absurd trivial h) fun gm hgm => ?_
    refine Sat.bind (sat_addNoise fun h => absurd trivial h) fun y hy => ?_
    refine Sat.bind (Sat.mwr' fun h => absurd trivial h) fun q hq => ?_
    subst ha hgp hp hb hgm hq
    rw [h2] at hx
    rw [h3] at hy
    refine ⟨⟨⟨⟨h1.p.1, h1.p.2⟩, ⟨h1.m.1, h1.m.2⟩, h1.pO, h1.mO⟩, h2, h3⟩, (x.1, y.1), ⟨hx, hy⟩, ?_⟩
    funext r k
    dsimp only
    split <;> rfl
  obtain ⟨⟨e0, e1, e2⟩, e3⟩ := key.of_ok h1
  exact ⟨e0, e1, e2, e3⟩

/-- A multiplication without read disturb leaves the original currents and, if it adds cycle-to-cycle
variation, resets the currents of its block to them. -/
theorem xMvm_ia {r : Vec Int} (hs : Shape E cfg x) (hrd : cfg.readDisturb = false)
    (h : xMvm E cfg x res vec mat m n l = .ok (x', r)) :
    x'.mapper.core.ia.pO = x.mapper.core.ia.pO ∧ x'.mapper.core.ia.mO = x.mapper.core.ia.mO ∧
    ∀ r k, (x'.mapper.core.ia.p.get r k, x'.mapper.core.ia.m.get r k) =
      if cfg.digitalOnly = false ∧ cfg.c2c = true ∧ r < m ∧ k < n then
        (x.mapper.core.ia.pO.get r k, x.mapper.core.ia.mO.get r k)
      else (x.mapper.core.ia.p.get r k, x.mapper.core.ia.m.get r k) := by
  by_cases hq : cfg.digitalOnly = true ∨ cfg.c2c = false
  · have := (xMvm_core h (hq.imp_right fun h => ⟨h, hrd⟩)).1
    rw [this]
    refine ⟨rfl, rfl, fun r k => ?_⟩
    rw [if_neg]
    rintro ⟨h1, h2, _⟩
    rcases hq with hq | hq
    · rw [h1] at hq; cases hq
    · rw [h2] at hq; cases hq
  · rw [not_or, Bool.not_eq_true, Bool.not_eq_false] at hq
    unfold xMvm at h
    dsimp only at h
    rw [hq.1, hq.2, hrd, if_neg (by simp), if_pos rfl, bind_eq_ok] at h
    obtain ⟨mp, h1, h⟩ := h
    rw [bind_eq_ok] at h
    obtain ⟨q, h2, h⟩ := h
    rw [if_pos rfl, bind_eq_ok] at h
    obtain ⟨mp', h3, h⟩ := h
    rw [if_neg (by simp), ok_bind, ok_inj, Prod.mk.injEq] at h
    rw [← h.1]
    obtain ⟨a0, a1, a2, a3⟩ := addC2C_cont h1 hs.core.ia
    obtain ⟨b1, b2, b3⟩ := removeC2C_cont h3 a0
    refine ⟨b1.trans a1, b2.trans a2, fun r k => ?_⟩
    have e1 := a3 r k
    have e2 := b3 r k
    by_cases hr : r < m ∧ k < n
    · rw [if_pos ⟨hq.1, hq.2, hr⟩]
      rw [if_pos hr] at e2
      rw [e2, a1, a2]
    · rw [if_neg fun h => hr h.2.2]
      rw [if_neg hr] at e1 e2
      rw [e2, e1]

theorem runs_binCur (hok : CfgOk cfg) (hi : cfg.mode.isInt = false) (hdo : cfg.digitalOnly = false)
    (hrd : cfg.readDisturb = false) {h : List Op} (hr : Runs E cfg h x) :
    BinCur E cfg x.mapper.core.ia (lastWrite h) := by
  induction hr with
  | init h =>
    rw [(mkCore_inv (mkXbar_inv h).1).2.2.2.1, show lastWrite [] = fun _ _ => none from rfl]
    exact ⟨fun r k => rfl, fun _ r k => rfl, fun _ r k => rfl, fun r k => rfl, fun r k => rfl⟩
  | @write hs x x' mat m n hr h' ih =>
    have hsh := runs_shape hr
    have h1 := (cont_aWrite_ok hsh h' hdo rfl).2 hi
    have h2 := runs_cells hok (Runs.write hr h')
    have hR : ∀ r, r < m ↔ (rowOf cfg r).1 < m := fun r => by rw [rowOf_bin hi]
    have hmd := hsh.core.mode
    rw [show lastWrite (.write mat m n :: hs) = put (lastWrite hs) mat m n from rfl] at h2 ⊢
    refine ⟨?_, fun hm => ?_, fun hm => ?_, fun r k => ?_, fun r k => ?_⟩
    · refine ih.p.put (R := m) (g := x'.mapper.core.gd.p.get) (fun r k => ?_) hR h2.p
      have e := h1.p r k
      split
      · next hr => rw [if_pos hr] at e; rw [show x'.mapper.core.ia.pO.get r k = _ from e.2]; exact e.1
      · next hr => rw [if_neg hr] at e; exact ((Prod.mk.injEq _ _ _ _).mp e).2
    · refine (ih.m hm).put (R := m) (g := x'.mapper.core.gd.m.get) (fun r k => ?_) hR h2.m
      have e := h1.m (by rw [← hmd] at hm; exact hm) r k
      split
      · next hr => rw [if_pos hr] at e; rw [show x'.mapper.core.ia.mO.get r k = _ from e.2]; exact e.1
      · next hr => rw [if_neg hr] at e; exact ((Prod.mk.injEq _ _ _ _).mp e).2
    · intro r k
      rw [(h1.m' (by rw [← hmd] at hm; exact hm)).2]
      exact ih.m' hm r k
    · have e := h1.p r k
      split at e
      · exact e.2.symm
      · have e := (Prod.mk.injEq _ _ _ _).mp e
        rw [e.1, e.2]; exact ih.eqP r k
    · by_cases hm : cfg.mode = .bnn3 ∨ cfg.mode = .bnn4
      · obtain ⟨e1, e2⟩ := h1.m' (by rw [← hmd] at hm; exact hm)
        rw [e1, e2]; exact ih.eqM r k
      · have e := h1.m (by rw [← hmd, not_or] at hm; exact hm) r k
        split at e
        · exact e.2.symm
        · have e := (Prod.mk.injEq _ _ _ _).mp e
          rw [e.1, e.2]; exact ih.eqM r k
  | mvm hr h' ih =>
    obtain ⟨e1, e2, e3⟩ := xMvm_ia (runs_shape hr) hrd h'
    refine ⟨by rw [e1]; exact ih.p, fun hm => by rw [e2]; exact ih.m hm,
      fun hm => by rw [e2]; exact ih.m' hm, fun r k => ?_, fun r k => ?_⟩
    · have e := e3 r k
      split at e
      · rw [((Prod.mk.injEq _ _ _ _).mp e).1, e1]
      · rw [((Prod.mk.injEq _ _ _ _).mp e).1, e1]; exact ih.eqP r k
    · have e := e3 r k
      split at e
      · rw [((Prod.mk.injEq _ _ _ _).mp e).2, e2]
      · rw [((Prod.mk.injEq _ _ _ _).mp e).2, e2]; exact ih.eqM r k

/-! ## Legal analog writes succeed -/

theorem fieldDiv_some {x y : K} (h : y ≠ 0) : fieldDiv E x y ≠ none := by
  unfold fieldDiv
  rw [if_neg h]
  exact fun h => by cases h

/-- Binary and ternary mappings program two states. -/
theorem enc_bin (hi : cfg.mode.isInt = false) {w : Int} (hw : LegalW cfg w) (s : Nat) :
    (encP cfg w s = 0 ∨ encP cfg w s = 1) ∧ (encM cfg w s = 0 ∨ encM cfg w s = 1) := by
  unfold encP encM
  unfold LegalW at hw
  cases hm : cfg.mode <;> simp only [hm] at hw ⊢ <;>
    first
    | (rcases hw with rfl | rfl | rfl <;> decide)
    | (rcases hw with rfl | rfl <;> decide)
    | (rw [hm] at hi; exact absurd hi (by decide))

/-- An analog write of legal values succeeds without parasitics. -/
theorem xWrite_total_a (hok : CfgOk cfg) (hs : Shape E cfg x) (hL : Cells cfg x.mapper.core.gd L) (hp : cfg.parasitics = false)
    (hd : Accepted cfg m n) (hmat : m * n ≤ mat.size) (hl : LegalMat cfg (entry mat n) m n)
    (hr : SumRoom cfg m n)
    (hst : cfg.mode.isInt = true → ∀ s, s < cfg.S → x.mapper.core.iStep.get s ≠ none) :
    ∃ x', xWrite E cfg x mat m n = .ok x' := by
  obtain ⟨r, h1⟩ := xWriteD_total hok hs hd hmat hl hr
  obtain ⟨gd, h2, h3⟩ := xWriteD_mapper h1
  have hgs : GdShape cfg gd := (sat_dWriteGd lax_true hs.core (Fits.mk' fun h => absurd trivial h)
    (fun h => absurd trivial h)).of_ok h2
  have hfit := Fits.row hok hd
  have hS := cfgOk_S_pos hok
  unfold xWrite
  rw [h1, ok_bind, h3]
  cases hdo : cfg.digitalOnly
  · have hns := hs.core.numSeg
    have hmd := hs.core.mode
    have key : Sat (fun _ => False)
        (aWrite E cfg { x.mapper with core := { x.mapper.core with gd := gd } } m n) fun _ => True := by
      refine (cont_aWrite ?_ (fun h => by rw [hp] at h; cases h) (fun _ hi s h => ?_)
        fun _ hi i j him hj => ?_).true
      · refine ⟨hgs.p, hgs.m, hs.core.ia, fun _ => hfit.1, fun _ => ?_, fun _ => hd.2.1, fun _ => ?_⟩
        · dsimp only
          rw [hns]
          split
          · exact hfit.2
          · omega
        · dsimp only
          rw [hns, hs.core.iStep_size]
          split <;> omega
      · dsimp only at hi h ⊢
        rw [hmd] at hi
        rw [hns, hi, if_pos (by simp)] at h
        exact hst hi s h
      · dsimp only at hi ⊢
        rw [hmd] at hi
        have hcell := dWriteGd_cells hok hs.core hL h2
        have e : put L mat m n i j = some (entry mat n i j) := if_pos ⟨him, hj⟩
        have := enc_bin hi (hl i j him hj) 0
        rw [hcell.p, hcell.m, rowOf_bin hi, e]
        exact this
    rcases key.elim with ⟨mp, h4, _⟩ | ⟨e, _, h⟩
    · rw [if_neg (by simp)]
      exact ⟨_, by rw [h4, ok_bind]⟩
    · exact h.elim
  · exact ⟨_, rfl⟩

/-! ## Nominal currents -/

theorem noisy_quiet {s y : K} {g : Int} (h1 : cfg.hrsNoise ≤ 0) (h2 : cfg.lrsNoise ≤ 0)
    (h : Noisy E cfg s g y) : y = s ∧ (g = 0 ∨ g = 1) := by
  unfold Noisy Varied at h
  rw [if_pos h1, if_pos h2] at h
  rcases h with ⟨h, h'⟩ | ⟨h, h'⟩
  · exact ⟨h', Or.inl h⟩
  · exact ⟨h', Or.inr h⟩

theorem enc_int_range (hi : cfg.mode.isInt = true) (w : Int) (s : Nat) :
    (0 ≤ encP cfg w s ∧ encP cfg w s ≤ 2 ^ cfg.split.getD s 0 - 1) ∧
      0 ≤ encM cfg w s ∧ encM cfg w s ≤ 2 ^ cfg.split.getD s 0 - 1 := by
  have key : ∀ a, 0 ≤ bits a (shiftOf cfg.split s) (cfg.split.getD s 0) ∧
      bits a (shiftOf cfg.split s) (cfg.split.getD s 0) ≤ 2 ^ cfg.split.getD s 0 - 1 := fun a =>
    ⟨bits_nonneg _ _ _, by
      have : bits a (shiftOf cfg.split s) (cfg.split.getD s 0) < 2 ^ cfg.split.getD s 0 :=
        Int.emod_lt_of_pos _ (by positivity)
      omega⟩
  have key0 : (0 : Int) ≤ 0 ∧ (0 : Int) ≤ 2 ^ cfg.split.getD s 0 - 1 := by
    have : (0 : Int) < 2 ^ cfg.split.getD s 0 := by positivity
    omega
  unfold encP encM
  cases hm : cfg.mode <;> simp only [] <;> first
    | exact ⟨key _, key0⟩
    | (split
       · exact ⟨key _, key0⟩
       · exact ⟨key0, key _⟩)
    | (rw [hm] at hi; exact absurd hi (by decide))

theorem topState_int (hi : cfg.mode.isInt = true) (r : Nat) :
    topState cfg r = 2 ^ cfg.split.getD (r % cfg.S) 0 - 1 := by
  unfold topState Cfg.S
  cases hm : cfg.mode <;> simp [hm, Mode.isInt, Mode.family] at hi ⊢

theorem topState_bin (hi : cfg.mode.isInt = false) (r : Nat) : topState cfg r = 1 := by
  unfold topState
  cases hm : cfg.mode <;> simp [hm, Mode.isInt, Mode.family] at hi ⊢

theorem nominal_int (hi : cfg.mode.isInt = true) (r : Nat) (g : Int) :
    nominal cfg r g = cfg.hrs + g * ((cfg.lrs - cfg.hrs) / (2 ^ cfg.split.getD (r % cfg.S) 0 - 1)) := by
  unfold nominal Cfg.S
  cases hm : cfg.mode <;> simp [hm, Mode.isInt, Mode.family] at hi ⊢

theorem nominal_bin (hi : cfg.mode.isInt = false) (r : Nat) (g : Int) :
    nominal cfg r g = cfg.hrs + g * (cfg.lrs - cfg.hrs) := by
  unfold nominal
  cases hm : cfg.mode <;> simp [hm, Mode.isInt, Mode.family] at hi ⊢

theorem nominal_zero (r : Nat) : nominal cfg r 0 = cfg.hrs := by
  cases hi : cfg.mode.isInt
  · rw [nominal_bin hi]; simp
  · rw [nominal_int hi]; simp

/-- A cell whose state is `g` in row `r`. -/
structure CellOk (cfg : Cfg K) (r : Nat) (g : Int) (y : K) : Prop where
  cur : y = nominal cfg r g
  lo : 0 ≤ g
  hi : g ≤ topState cfg r

theorem topState_nonneg (r : Nat) : 0 ≤ topState cfg r := by
  cases hi : cfg.mode.isInt
  · rw [topState_bin hi]; decide
  · rw [topState_int hi]
    have : (0 : Int) < 2 ^ cfg.split.getD (r % cfg.S) 0 := by positivity
    omega

/-- The rounded current of a state is the nominal one. -/
def CurExact (E : Env K) (cfg : Cfg K) : Prop :=
  if cfg.mode.isInt = true then
    ∀ r g st, 0 ≤ g → g ≤ topState cfg r →
      fieldDiv E (E.fsub cfg.lrs cfg.hrs) (E.ofInt (2 ^ cfg.split.getD (r % cfg.S) 0 - 1)) = some st →
      cellCurrent E cfg.hrs st g = nominal cfg r g
  else ∀ g, g = 0 ∨ g = 1 →
    cellCurrent E cfg.hrs (E.fsub cfg.lrs cfg.hrs) g = cfg.hrs + g * (cfg.lrs - cfg.hrs)

theorem curExact (hE : ExactArith E) : CurExact E cfg := by
  unfold CurExact
  split
  · next hi =>
    intro r g st _ _ h
    unfold fieldDiv at h
    split at h
    · cases h
    · simp only [Option.some.injEq] at h
      subst h
      rw [nominal_int hi]
      unfold cellCurrent Env.fadd Env.fmul Env.fsub Env.ofInt
      simp only [hE.f32]
      push_cast
      ring
  · intro g _
    unfold cellCurrent Env.fadd Env.fmul Env.fsub Env.ofInt
    simp only [hE.f32]
    ring

theorem runs_nominal (hE : CurExact E cfg) (hok : CfgOk cfg) (hdo : cfg.digitalOnly = false)
    (hc2 : cfg.c2c = false) (hrd : cfg.readDisturb = false)
    (hq : Quiet cfg)
    {h : List Op} (hr : Runs E cfg h x) (r k : Nat) :
    CellOk cfg r (x.mapper.core.gd.p.get r k) (x.mapper.core.ia.p.get r k) ∧
    CellOk cfg r (x.mapper.core.gd.m.get r k) (x.mapper.core.ia.m.get r k) := by
  have hcell := runs_cells hok hr
  have hsh := runs_shape hr
  have zero : ∀ y, y = cfg.hrs → CellOk cfg r 0 y := fun y hy =>
    ⟨by rw [nominal_zero]; exact hy, le_refl 0, topState_nonneg r⟩
  cases hi : cfg.mode.isInt
  · have h1 := runs_binCur hok hi hdo hrd hr
    have ⟨q1, q2⟩ := hq hi
    have hce : ∀ g, g = 0 ∨ g = 1 → cellCurrent E cfg.hrs (E.fsub cfg.lrs cfg.hrs) g
        = cfg.hrs + g * (cfg.lrs - cfg.hrs) := by
      have := hE
      unfold CurExact at this
      rw [if_neg (by simp [hi])] at this
      exact this
    have some' : ∀ g y, BinCell E cfg r g y → CellOk cfg r g y := fun g y hb => by
      obtain ⟨e1, e2⟩ := noisy_quiet q1 q2 hb
      refine ⟨?_, ?_, ?_⟩
      · rw [e1, nominal_bin hi]; exact hce g e2
      · rcases e2 with e | e <;> rw [e]; decide
      · rw [topState_bin hi]; rcases e2 with e | e <;> rw [e]; decide
    constructor
    · rw [hcell.p, h1.eqP]
      have := h1.p r k
      split at this
      · next e => rw [e]; exact zero _ this
      · next w e => rw [e]; exact some' _ _ this
    · rw [hcell.m, h1.eqM]
      by_cases hm : cfg.mode = .bnn3 ∨ cfg.mode = .bnn4
      · have e0 : ∀ w s, encM cfg w s = 0 := fun w s => by
          unfold encM; rcases hm with hm | hm <;> simp only [hm]
        have : cellOf (fun w => encM cfg w (rowOf cfg r).2) (lastWrite h (rowOf cfg r).1 k) = 0 := by
          unfold cellOf; split
          · rfl
          · exact e0 _ _
        rw [this]
        exact zero _ (h1.m' hm r k)
      · have := h1.m (by rw [not_or] at hm; exact hm) r k
        split at this
        · next e => rw [e]; exact zero _ this
        · next w e => rw [e]; exact some' _ _ this
  · have h1 := runs_intCur hok hi hdo hc2 hrd hr
    have hio := intOk hok hi
    have hns : x.mapper.core.numSeg = cfg.S := by rw [hsh.core.numSeg, hi]; rfl
    have hS := cfgOk_S_pos hok
    have hlt : r % cfg.S < cfg.S := Nat.mod_lt _ hS
    have hce := hE
    unfold CurExact at hce
    rw [if_pos hi] at hce
    have some' : ∀ g y, 0 ≤ g → g ≤ 2 ^ cfg.split.getD (r % cfg.S) 0 - 1 →
        IntCell E cfg x.mapper.core r g y → CellOk cfg r g y := fun g y g0 g1 ⟨st, e1, e2⟩ => by
      refine ⟨?_, g0, by rw [topState_int hi]; exact g1⟩
      rw [hns, iStep_get hio hsh.core hlt, hsh.core.iMM, hdo, if_neg (by simp)] at e1
      rw [e2]
      exact hce r g st g0 (by rw [topState_int hi]; exact g1) e1
    have hrow := rowOf_int hi r
    constructor
    · rw [hcell.p]
      have := h1.p r k
      split at this
      · next e => rw [e]; exact zero _ this
      · next w e =>
        rw [e]
        have hg := (enc_int_range hi w (r % cfg.S)).1
        rw [hrow] at this ⊢
        exact some' _ _ hg.1 hg.2 this
    · rw [hcell.m]
      by_cases hm : cfg.mode = .iUintWOffs
      · have e0 : ∀ w s, encM cfg w s = 0 := fun w s => by unfold encM; simp only [hm]
        have : cellOf (fun w => encM cfg w (rowOf cfg r).2) (lastWrite h (rowOf cfg r).1 k) = 0 := by
          unfold cellOf; split
          · rfl
          · exact e0 _ _
        rw [this]
        exact zero _ (h1.m' hm r k)
      · have := h1.m hm r k
        split at this
        · next e => rw [e]; exact zero _ this
        · next w e =>
          rw [e]
          have hg := (enc_int_range hi w (r % cfg.S)).2
          rw [hrow] at this ⊢
          exact some' _ _ hg.1 hg.2 this

end

end Acs
