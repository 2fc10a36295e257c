import Verif.Lemmas.Shape
import Verif.SpecPar

/-!
# Safety pass over the mapper, the read-disturb model and the crossbar

One pass that yields both memory safety (when `F` excludes memory faults) and preservation of the
shape invariant by every successful call (when `F` accepts everything).
-/

set_option linter.unusedSectionVars false

namespace Acs

section
variable {α : Type} {F : Fault → Prop}

theorem Sat.mwrIs {A : Mat α} {r c i j : Nat} {a : α} (hA : A.Is r c)
    (h : ¬F .oob → i < r ∧ j < c) : Sat F (A.wr i j a) fun B => B.Is r c :=
  (Sat.mwr fun hn => by rw [hA.1, hA.2]; exact h hn).mono fun _ hB =>
    ⟨hB.1.trans hA.1, hB.2.trans hA.2⟩

theorem Sat.mrdIs {A : Mat α} {r c i j : Nat} (hA : A.Is r c)
    (h : ¬F .oob → i < r ∧ j < c) : Sat F (A.rd i j) fun a => a = A.get i j :=
  Sat.mrd fun hn => by rw [hA.1, hA.2]; exact h hn

theorem Sat.updMIs {R N r c : Nat} {f : Nat → Nat → α → C α} {A : Mat α} (hA : A.Is r c)
    (h : ¬F .oob → R ≤ r ∧ N ≤ c)
    (hf : ∀ i j a, i < R → j < N → Sat F (f i j a) fun _ => True) :
    Sat F (Acs.updM R N f A) fun B => B.Is r c :=
  (Sat.updM (fun hn => by rw [hA.1, hA.2]; exact h hn) hf).mono fun _ hB =>
    ⟨hB.1.trans hA.1, hB.2.trans hA.2⟩

end

section
variable {K : Type} [Field K] [LinearOrder K] [IsStrictOrderedRing K] [FloorRing K]
variable {F : Fault → Prop} {E : Env K} {cfg : Cfg K} {c : Core K} {a : Aux K} {gd : Gd}
variable {mat vec res : Vec Int} {m n : Nat}

/-- The block fits into the crossbar (needed only if out-of-bounds faults are not accepted). -/
def Fits (F : Fault → Prop) (cfg : Cfg K) (m n : Nat) : Prop :=
  ¬F .oob → m ≤ cfg.M ∧ n ≤ cfg.N ∧ m ≤ cfg.R ∧ m * cfg.S ≤ cfg.R

theorem Fits.mk' (h : ¬F .oob → m ≤ cfg.M ∧ n ≤ cfg.N ∧ 1 ≤ cfg.S) : Fits F cfg m n := fun hn => by
  obtain ⟨h1, h2, h3⟩ := h hn
  have h4 : m * cfg.S ≤ cfg.M * cfg.S := Nat.mul_le_mul_right _ h1
  have h5 : cfg.M * 1 ≤ cfg.M * cfg.S := Nat.mul_le_mul_left _ h3
  unfold Cfg.R
  omega

/-! ## Digital writes -/

theorem sat_dWriteDiff (hF : Lax F) (hg : GdShape cfg gd) {shift : Vec Nat} {st : Bool}
    (hs : shift.size = cfg.S) (hd : Fits F cfg m n) (hm : ¬F .oob → m * n ≤ mat.size) :
    Sat F (dWriteDiff st cfg.split shift mat m n gd) (GdShape cfg) := by
  unfold dWriteDiff
  refine Sat.loop hg fun i hi gd hg => ?_
  refine Sat.bind (P := fun r => GdShape cfg r.1) ?_ fun r hr => ?_
  · refine Sat.loop (by exact hg) fun j hj st hg => ?_
    refine Sat.bind (Sat.vrd' fun hn => by have := hm hn; have := idx_lt hi hj; omega) fun w _ => ?_
    refine Sat.bind (Sat.addI hF _ _) fun sum _ => ?_
    refine Sat.bind (P := GdShape cfg) ?_ fun gd hg => hg
    refine Sat.loop hg fun s hs' gd hg => ?_
    have hb : ¬F .oob → i * cfg.split.length + s < cfg.R ∧ j < cfg.N := fun hn => by
      have := hd hn; have := blk_lt (S := cfg.split.length) hi hs'; unfold Cfg.S at *; omega
    refine Sat.bind (Sat.vrd' fun _ => by rw [hs]; exact hs') fun sh _ => ?_
    refine Sat.ite (fun _ => ?_) fun _ => ?_
    · refine Sat.bind (Sat.digit hF _ _ _ _) fun d _ => ?_
      refine Sat.bind (Sat.mwrIs hg.p hb) fun p hp => ?_
      exact Sat.bind (Sat.mwrIs hg.m hb) fun q hq => ⟨hp, hq, hg.sumW⟩
    · refine Sat.bind (Sat.mwrIs hg.p hb) fun p hp => ?_
      refine Sat.bind (Sat.negI hF _) fun _ _ => ?_
      refine Sat.bind (Sat.digit hF _ _ _ _) fun d _ => ?_
      exact Sat.bind (Sat.mwrIs hg.m hb) fun q hq => ⟨hp, hq, hg.sumW⟩
  · refine Sat.bind (Sat.vwr fun hn => by have := hd hn; rw [hr.sumW]; omega) fun sw hsw => ?_
    exact ⟨hr.p, hr.m, hsw.trans hr.sumW⟩

theorem sat_dWritePM (hF : Lax F) (hg : GdShape cfg gd)
    (hd : Fits F cfg m n) (hm : ¬F .oob → m * n ≤ mat.size) :
    Sat F (dWriteDiffBnn mat m n gd) (GdShape cfg) ∧
    Sat F (dWriteDiffTnn mat m n gd) (GdShape cfg) := by
  constructor
  · unfold dWriteDiffBnn
    refine Sat.loop hg fun i hi gd hg => ?_
    refine Sat.bind (P := fun r => GdShape cfg r.1) ?_ fun r hr => ?_
    · refine Sat.loop (by exact hg) fun j hj st hg => ?_
      have hb : ¬F .oob → i < cfg.R ∧ j < cfg.N := fun hn => by have := hd hn; omega
      refine Sat.bind (Sat.vrd' fun hn => by have := hm hn; have := idx_lt hi hj; omega) fun w _ => ?_
      refine Sat.bind (Sat.addI hF _ _) fun sum _ => ?_
      refine Sat.ite (fun _ => ?_) fun _ => Sat.ite (fun _ => ?_) fun _ =>
        Sat.err (hF _ (by decide) (by decide))
      · refine Sat.bind (Sat.mwrIs hg.p hb) fun p hp => ?_
        exact Sat.bind (Sat.mwrIs hg.m hb) fun q hq => ⟨hp, hq, hg.sumW⟩
      · refine Sat.bind (Sat.mwrIs hg.p hb) fun p hp => ?_
        refine Sat.bind (Sat.negI hF _) fun _ _ => ?_
        exact Sat.bind (Sat.mwrIs hg.m hb) fun q hq => ⟨hp, hq, hg.sumW⟩
    · refine Sat.bind (Sat.vwr fun hn => by have := hd hn; rw [hr.sumW]; omega) fun sw hsw => ?_
      exact ⟨hr.p, hr.m, hsw.trans hr.sumW⟩
  · unfold dWriteDiffTnn
    refine Sat.loop hg fun i hi gd hg => ?_
    refine Sat.bind (P := fun r => GdShape cfg r.1) ?_ fun r hr => ?_
    · refine Sat.loop (by exact hg) fun j hj st hg => ?_
      have hb : ¬F .oob → i < cfg.R ∧ j < cfg.N := fun hn => by have := hd hn; omega
      refine Sat.bind (Sat.vrd' fun hn => by have := hm hn; have := idx_lt hi hj; omega) fun w _ => ?_
      refine Sat.bind (Sat.addI hF _ _) fun sum _ => ?_
      refine Sat.ite (fun _ => ?_) fun _ => Sat.ite (fun _ => ?_) fun _ => Sat.ite (fun _ => ?_) fun _ =>
        Sat.err (hF _ (by decide) (by decide))
      · refine Sat.bind (Sat.mwrIs hg.p hb) fun p hp => ?_
        exact Sat.bind (Sat.mwrIs hg.m hb) fun q hq => ⟨hp, hq, hg.sumW⟩
      · refine Sat.bind (Sat.mwrIs hg.p hb) fun p hp => ?_
        refine Sat.bind (Sat.negI hF _) fun _ _ => ?_
        exact Sat.bind (Sat.mwrIs hg.m hb) fun q hq => ⟨hp, hq, hg.sumW⟩
      · refine Sat.bind (Sat.mwrIs hg.p hb) fun p hp => ?_
        exact Sat.bind (Sat.mwrIs hg.m hb) fun q hq => ⟨hp, hq, hg.sumW⟩
    · refine Sat.bind (Sat.vwr fun hn => by have := hd hn; rw [hr.sumW]; omega) fun sw hsw => ?_
      exact ⟨hr.p, hr.m, hsw.trans hr.sumW⟩

theorem sat_dWriteOffs (hF : Lax F) (hg : GdShape cfg gd) {shift : Vec Nat} {st : Bool} {w : Nat}
    (hs : shift.size = cfg.S) (hd : Fits F cfg m n) (hm : ¬F .oob → m * n ≤ mat.size) :
    Sat F (dWriteOffs st w cfg.split shift mat m n gd) (GdShape cfg) := by
  unfold dWriteOffs
  refine Sat.loop2 hg fun i j hi hj gd hg => ?_
  refine Sat.bind (Sat.vrd' fun hn => by have := hm hn; have := idx_lt hi hj; omega) fun w _ => ?_
  refine Sat.bind (Sat.shlI hF _ _ _) fun o _ => Sat.bind (Sat.addI hF _ _) fun w _ => ?_
  refine Sat.loop hg fun s hs' gd hg => ?_
  have hb : ¬F .oob → i * cfg.split.length + s < cfg.R ∧ j < cfg.N := fun hn => by
    have := hd hn; have := blk_lt (S := cfg.split.length) hi hs'; unfold Cfg.S at *; omega
  refine Sat.bind (Sat.vrd' fun _ => by rw [hs]; exact hs') fun sh _ => ?_
  refine Sat.bind (Sat.digit hF _ _ _ _) fun d _ => ?_
  exact Sat.bind (Sat.mwrIs hg.p hb) fun p hp => ⟨hp, hg.m, hg.sumW⟩

theorem sat_dWriteTcTnn (hF : Lax F) (hg : GdShape cfg gd) {sp : List Nat} {o : Bool}
    (hd : Fits F cfg m n) (hm : ¬F .oob → m * n ≤ mat.size) :
    Sat F (dWriteTcTnn sp o mat m n gd) (GdShape cfg) := by
  unfold dWriteTcTnn
  refine Sat.ite (fun _ => ?_) fun _ => Sat.err (hF _ (by decide) (by decide))
  refine Sat.loop2 hg fun i j hi hj gd hg => ?_
  have hb : ¬F .oob → i < cfg.R ∧ j < cfg.N := fun hn => by have := hd hn; omega
  refine Sat.bind (Sat.vrd' fun hn => by have := hm hn; have := idx_lt hi hj; omega) fun w _ => ?_
  refine Sat.bind (P := fun _ => True) (Sat.ite (fun _ => Sat.addI hF _ _) fun _ => trivial)
    fun w _ => ?_
  refine Sat.bind (Sat.mwrIs hg.p hb) fun p hp => ?_
  refine Sat.bind (Sat.shrI hF _ _) fun _ _ => ?_
  exact Sat.bind (Sat.mwrIs hg.m hb) fun q hq => ⟨hp, hq, hg.sumW⟩

theorem sat_dWriteBnn34 (hF : Lax F) (hg : GdShape cfg gd)
    (hd : Fits F cfg m n) (hm : ¬F .oob → m * n ≤ mat.size) :
    Sat F (dWriteBnn3 mat m n gd) (GdShape cfg) ∧ Sat F (dWriteBnn4 mat m n gd) (GdShape cfg) := by
  constructor
  · unfold dWriteBnn3
    refine Sat.loop2 hg fun i j hi hj gd hg => ?_
    have hb : ¬F .oob → i < cfg.R ∧ j < cfg.N := fun hn => by have := hd hn; omega
    refine Sat.bind (Sat.vrd' fun hn => by have := hm hn; have := idx_lt hi hj; omega) fun w _ => ?_
    refine Sat.bind (Sat.addI hF _ _) fun _ _ => Sat.bind (Sat.shrI hF _ _) fun _ _ => ?_
    exact Sat.bind (Sat.mwrIs hg.p hb) fun p hp => ⟨hp, hg.m, hg.sumW⟩
  · unfold dWriteBnn4
    refine Sat.loop2 hg fun i j hi hj gd hg => ?_
    have hb : ¬F .oob → i < cfg.R ∧ j < cfg.N := fun hn => by have := hd hn; omega
    refine Sat.bind (Sat.vrd' fun hn => by have := hm hn; have := idx_lt hi hj; omega) fun w _ => ?_
    refine Sat.bind (Sat.subI hF _ _) fun _ _ => ?_
    exact Sat.bind (Sat.mwrIs hg.p hb) fun p hp => ⟨hp, hg.m, hg.sumW⟩

theorem sat_dWriteGd (hF : Lax F) (hc : CoreShape E cfg c)
    (hd : Fits F cfg m n) (hm : ¬F .oob → m * n ≤ mat.size) :
    Sat F (dWriteGd E cfg c mat m n) (GdShape cfg) := by
  unfold dWriteGd
  split
  · exact sat_dWriteDiff hF hc.gd hc.shift_size hd hm
  · exact sat_dWriteDiff hF hc.gd hc.shift_size hd hm
  · exact sat_dWriteDiff hF hc.gd hc.shift_size hd hm
  · exact sat_dWriteDiff hF hc.gd hc.shift_size hd hm
  · exact sat_dWriteDiff hF hc.gd hc.shift_size hd hm
  · exact sat_dWriteOffs hF hc.gd hc.shift_size hd hm
  · exact (sat_dWritePM hF hc.gd hd hm).1
  · exact (sat_dWritePM hF hc.gd hd hm).1
  · exact (sat_dWritePM hF hc.gd hd hm).1
  · exact (sat_dWritePM hF hc.gd hd hm).1
  · exact (sat_dWriteBnn34 hF hc.gd hd hm).1
  · exact (sat_dWriteBnn34 hF hc.gd hd hm).2
  · exact (sat_dWritePM hF hc.gd hd hm).2
  · exact (sat_dWritePM hF hc.gd hd hm).2
  · exact (sat_dWritePM hF hc.gd hd hm).2
  · exact sat_dWriteTcTnn hF hc.gd hd hm
  · exact sat_dWriteTcTnn hF hc.gd hd hm

/-! ## Analog writes -/

/-- What an analog write may change: currents and solver. -/
structure CoreLike (c c' : Core K) : Prop where
  fixed : SameFixed c' c
  gd : c'.gd = c.gd

theorem CoreShape.of_like {c' : Core K} (h : CoreShape E cfg c) (h' : CoreLike c c')
    (hia : IaShape cfg c'.ia)
    (hp : ∀ s, c'.par = some s → s.mXbar = cfg.M ∧ s.nXbar = cfg.N ∧ s.mode = cfg.mode) :
    CoreShape E cfg c' := by
  obtain ⟨c0, h1, h2⟩ := h.fixed
  exact ⟨⟨c0, h1, h'.fixed.trans h2⟩, by rw [h'.gd]; exact h.gd, hia, hp⟩

theorem sat_aWritePM (hF : Lax F) (hc : CoreShape E cfg c) (hint : c.numSeg = cfg.S)
    (hd : Fits F cfg m n) : Sat F (aWritePM E cfg c m n) (IaShape cfg) := by
  unfold aWritePM
  refine Sat.loop hc.ia fun i hi ia hia => ?_
  rw [hint] at hi ⊢
  have hS : 0 < cfg.S := by
    rcases Nat.eq_zero_or_pos cfg.S with h | h
    · rw [h] at hi; omega
    · exact h
  refine Sat.bind (Sat.vrd' fun _ => by rw [hc.iStep_size]; exact Nat.mod_lt _ hS) fun st _ => ?_
  refine Sat.loop hia fun j hj ia hia => ?_
  have hb : ¬F .oob → i < cfg.R ∧ j < cfg.N := fun hn => by have := hd hn; omega
  refine Sat.bind (Sat.useField hF _) fun _ _ => Sat.bind (Sat.mrdIs hc.gd.p hb) fun _ _ =>
    Sat.bind (Sat.mwrIs hia.p hb) fun p hp => Sat.bind (Sat.mrdIs hc.gd.m hb) fun _ _ =>
    Sat.bind (Sat.mwrIs hia.m hb) fun q hq => ⟨hp, hq, hia.pO, hia.mO⟩

theorem sat_aWriteP (hF : Lax F) (hc : CoreShape E cfg c) (hint : c.numSeg = cfg.S)
    (hd : Fits F cfg m n) : Sat F (aWriteP E cfg c m n) (IaShape cfg) := by
  unfold aWriteP
  refine Sat.loop hc.ia fun i hi ia hia => ?_
  rw [hint] at hi ⊢
  have hS : 0 < cfg.S := by
    rcases Nat.eq_zero_or_pos cfg.S with h | h
    · rw [h] at hi; omega
    · exact h
  refine Sat.bind (Sat.vrd' fun _ => by rw [hc.iStep_size]; exact Nat.mod_lt _ hS) fun st _ => ?_
  refine Sat.loop hia fun j hj ia hia => ?_
  have hb : ¬F .oob → i < cfg.R ∧ j < cfg.N := fun hn => by have := hd hn; omega
  refine Sat.bind (Sat.useField hF _) fun _ _ => Sat.bind (Sat.mrdIs hc.gd.p hb) fun _ _ =>
    Sat.bind (Sat.mwrIs hia.p hb) fun p hp => ⟨hp, hia.m, hia.pO, hia.mO⟩

theorem sat_aWritePMBnnTnn (hF : Lax F) (hc : CoreShape E cfg c) {rng : Nat}
    (hd : Fits F cfg m n) :
    Sat F (aWritePMBnnTnn E cfg c rng m n) fun r => IaShape cfg r.1 := by
  unfold aWritePMBnnTnn
  refine Sat.loop2 (I := fun r : Ia K × Nat => IaShape cfg r.1) hc.ia fun i j hi hj st hia => ?_
  have hb : ¬F .oob → i < cfg.R ∧ j < cfg.N := fun hn => by have := hd hn; omega
  refine Sat.bind (Sat.mrdIs hc.gd.p hb) fun _ _ => Sat.bind (Sat.addNoise hF _ _ _ _ _) fun _ _ =>
    Sat.bind (Sat.mwrIs hia.p hb) fun p hp => Sat.bind (Sat.mwrIs hia.pO hb) fun p' hp' =>
    Sat.bind (Sat.mrdIs hc.gd.m hb) fun _ _ => Sat.bind (Sat.addNoise hF _ _ _ _ _) fun _ _ =>
    Sat.bind (Sat.mwrIs hia.m hb) fun q hq => Sat.bind (Sat.mwrIs hia.mO hb) fun q' hq' =>
    ⟨hp, hq, hp', hq'⟩

theorem sat_aWritePBnn (hF : Lax F) (hc : CoreShape E cfg c) {rng : Nat}
    (hd : Fits F cfg m n) :
    Sat F (aWritePBnn E cfg c rng m n) fun r => IaShape cfg r.1 := by
  unfold aWritePBnn
  refine Sat.loop2 (I := fun r : Ia K × Nat => IaShape cfg r.1) hc.ia fun i j hi hj st hia => ?_
  have hb : ¬F .oob → i < cfg.R ∧ j < cfg.N := fun hn => by have := hd hn; omega
  refine Sat.bind (Sat.mrdIs hc.gd.p hb) fun _ _ => Sat.bind (Sat.addNoise hF _ _ _ _ _) fun _ _ =>
    Sat.bind (Sat.mwrIs hia.p hb) fun p hp => Sat.bind (Sat.mwrIs hia.pO hb) fun p' hp' =>
    ⟨hp, hia.m, hp', hia.mO⟩

theorem sat_divVRead (hF : Lax F) {s : Solver K} {A : Mat K}
    (hb : ¬F .oob → s.mXbar ≤ A.rows ∧ s.nXbar ≤ A.cols ∧ 1 ≤ cfg.S) :
    Sat F (divVRead E cfg s A) fun g => g.Is (s.mXbar * cfg.S) s.nXbar := by
  unfold divVRead
  refine Sat.loop2 (Mat.const_is _ _ _) fun i j hi hj g hg => ?_
  refine Sat.bind (Sat.mrd' fun h => by have := hb h; omega) fun _ _ =>
    Sat.bind (Sat.fdiv hF _ _ _) fun _ _ => Sat.mwrIs hg fun h => ⟨?_, hj⟩
  have := Nat.mul_le_mul_left s.mXbar (hb h).2.2
  omega

/-- How the encoders place a weight. -/
theorem lines_le (md : Mode) (n : Nat) : n ≤ n * Spec.lines md :=
  Nat.le_mul_of_pos_right n (by cases md <;> decide)

theorem sat_wEncode (hF : Lax F) {s : Solver K} {gp : Mat K} {gm : Option (Mat K)} {m n : Nat}
    (hb : ¬F .oob → m ≤ gp.rows ∧ n ≤ gp.cols ∧ n * Spec.lines s.mode ≤ s.nXbar)
    (hq : ∀ g, gm = some g → ¬F .oob → m ≤ g.rows ∧ n ≤ g.cols) :
    Sat F (wEncode s gp gm m n) fun g => g.Is s.nXbar (m * Spec.pair s.mode) := by
  have hb' : ¬F .oob → m ≤ gp.rows ∧ n ≤ gp.cols ∧ n ≤ s.nXbar := fun h => by
    have := hb h; have := lines_le s.mode n; omega
  unfold wEncode
  split
  · have hk : s.mode.wEnc = some .single := by assumption
    have hw : m * Spec.pair s.mode = m := by
      revert hk; cases s.mode <;> simp [Mode.wEnc, Spec.pair]
    rw [hw]
    unfold wEncSingle
    exact (Sat.loop2 (I := fun g : Mat K => g.Is s.nXbar m) (Mat.const_is _ _ _) fun i j hi hj g hg =>
      Sat.bind (Sat.mrd' fun h => by have := hb' h; omega) fun _ _ =>
      Sat.mwrIs hg fun h => by have := hb' h; omega)
  · have hk : s.mode.wEnc = some .doubleCol := by assumption
    have hw : m * Spec.pair s.mode = m * 2 := by
      revert hk; cases s.mode <;> simp [Mode.wEnc, Spec.pair]
    rw [hw]
    unfold wEncDoubleCol
    have hq := hq _ rfl
    exact (Sat.loop2 (I := fun g : Mat K => g.Is s.nXbar (m * 2)) (Mat.const_is _ _ _) fun i j hi hj g hg =>
      Sat.bind (Sat.mrd' fun h => by have := hb' h; omega) fun _ _ =>
      Sat.bind (Sat.mrd' fun h => by have := hq h; omega) fun _ _ =>
      Sat.bind (Sat.mwrIs hg fun h => by have := hb' h; omega) fun _ hg =>
      Sat.mwrIs hg fun h => by have := hb' h; omega)
  · have hk : s.mode.wEnc = some .doubleRow := by assumption
    have hw : m * Spec.pair s.mode = m := by
      revert hk; cases s.mode <;> simp [Mode.wEnc, Spec.pair]
    rw [hw]
    unfold wEncDoubleRow
    have hq := hq _ rfl
    have h2 : ¬F .oob → n * 2 ≤ s.nXbar := fun h => by
      have := (hb h).2.2
      revert hk this
      cases s.mode <;> simp [Mode.wEnc, Spec.lines]
    exact (Sat.loop2 (I := fun g : Mat K => g.Is s.nXbar m) (Mat.const_is _ _ _) fun i j hi hj g hg =>
      Sat.bind (Sat.mrd' fun h => by have := hb' h; omega) fun _ _ =>
      Sat.bind (Sat.mrd' fun h => by have := hq h; omega) fun _ _ =>
      Sat.bind (Sat.mwrIs hg fun h => by have := h2 h; omega) fun _ hg =>
      Sat.mwrIs hg fun h => by have := h2 h; omega)
  · have hk : s.mode.wEnc = some .quad := by assumption
    have hw : m * Spec.pair s.mode = m * 2 := by
      revert hk; cases s.mode <;> simp [Mode.wEnc, Spec.pair]
    rw [hw]
    unfold wEncQuad
    have hq := hq _ rfl
    have h2 : ¬F .oob → n * 2 ≤ s.nXbar := fun h => by
      have := (hb h).2.2
      revert hk this
      cases s.mode <;> simp [Mode.wEnc, Spec.lines]
    exact (Sat.loop2 (I := fun g : Mat K => g.Is s.nXbar (m * 2)) (Mat.const_is _ _ _) fun i j hi hj g hg =>
      Sat.bind (Sat.mrd' fun h => by have := hb' h; omega) fun _ _ =>
      Sat.bind (Sat.mrd' fun h => by have := hq h; omega) fun _ _ =>
      Sat.bind (Sat.mwrIs hg fun h => by have := h2 h; omega) fun _ hg =>
      Sat.bind (Sat.mwrIs hg fun h => by have := h2 h; omega) fun _ hg =>
      Sat.bind (Sat.mwrIs hg fun h => by have := h2 h; omega) fun _ hg =>
      Sat.mwrIs hg fun h => by have := h2 h; omega)
  · exact Sat.err (hF _ (by decide) (by decide))

theorem sat_setConductance (hF : Lax F) {s : Solver K} {A : Mat K}
    {B : Option (Mat K)} {m n : Nat}
    (hA : ¬F .oob → s.mXbar ≤ A.rows ∧ s.nXbar ≤ A.cols ∧ 1 ≤ cfg.S)
    (hB : ∀ B', B = some B' → ¬F .oob → s.mXbar ≤ B'.rows ∧ s.nXbar ≤ B'.cols ∧ 1 ≤ cfg.S)
    (hb : ¬F .oob → m ≤ s.mXbar * cfg.S ∧ n * Spec.lines s.mode ≤ s.nXbar ∧ 0 < s.nXbar) :
    Sat F (setConductance E cfg s A B m n) fun s' =>
      (s'.mXbar = s.mXbar ∧ s'.nXbar = s.nXbar ∧ s'.mode = s.mode) ∧
      ∃ g w, s'.ga = some (g, w) ∧ g.Is s.nXbar (m * Spec.pair s.mode) := by
  unfold setConductance
  refine Sat.bind (sat_divVRead hF hA) fun gp hgp => ?_
  refine Sat.bind (P := fun r => ∀ g, r = some g → g.Is (s.mXbar * cfg.S) s.nXbar) ?_ fun gm hgm => ?_
  · unfold divVReadOpt
    split
    · exact fun _ h => nomatch h
    · refine Sat.ite (fun _ => fun _ h => nomatch h) fun _ =>
        Sat.bind (sat_divVRead hF (hB _ rfl)) fun g hg g' h => ?_
      cases h; exact hg
  · have hn : ¬F .oob → n ≤ s.nXbar := fun h => by have := hb h; have := lines_le s.mode n; omega
    refine Sat.bind (sat_wEncode hF (fun h => by rw [hgp.1, hgp.2]; exact ⟨(hb h).1, hn h, (hb h).2.1⟩)
      fun g hg h => by rw [(hgm g hg).1, (hgm g hg).2]; exact ⟨(hb h).1, hn h⟩) fun g hg => ?_
    refine Sat.ite (fun h0 => Sat.err ?_) fun _ => Sat.bind (Sat.fdiv hF _ _ _) fun _ _ =>
      ⟨⟨rfl, rfl, rfl⟩, _, _, rfl, hg⟩
    by_contra h
    have := hb h
    have := hg.1
    omega

/-- Conditions under which parasitic wires cannot cause an excluded fault in a write of `n` columns. -/
structure ParOk (F : Fault → Prop) (cfg : Cfg K) (par : Option (Solver K)) (n : Nat) : Prop where
  oob : ¬F .oob → cfg.parasitics = true → 0 < cfg.N ∧ n * Spec.lines cfg.mode ≤ cfg.N ∧ 1 ≤ cfg.S
  null : ¬F .nullDeref → cfg.parasitics = true → par ≠ none

theorem sat_pushSolver (hF : Lax F) {par : Option (Solver K)} {m n : Nat} (hp : ParOk F cfg par n)
    {A : Mat K} {B : Option (Mat K)} (hm : ¬F .oob → m ≤ cfg.R) (hA : A.Is cfg.R cfg.N)
    (hB : ∀ B', B = some B' → B'.Is cfg.R cfg.N)
    (hs : ∀ s, par = some s → s.mXbar = cfg.M ∧ s.nXbar = cfg.N ∧ s.mode = cfg.mode) :
    Sat F (pushSolver E cfg par A B m n) fun par' =>
      (∀ s, par' = some s → s.mXbar = cfg.M ∧ s.nXbar = cfg.N ∧ s.mode = cfg.mode) ∧
      (par ≠ none → par' ≠ none) := by
  unfold pushSolver
  refine Sat.ite (fun h => ?_) fun _ => ⟨hs, id⟩
  split
  · refine Sat.err ?_
    by_contra hn
    exact hp.null hn h rfl
  · next s =>
    have h1 := hs s rfl
    have hd : ∀ A : Mat K, A.Is cfg.R cfg.N → ¬F .oob →
        s.mXbar ≤ A.rows ∧ s.nXbar ≤ A.cols ∧ 1 ≤ cfg.S := fun A hA hn => by
      have h2 := hp.oob hn h
      rw [hA.1, hA.2, h1.1, h1.2.1]
      exact ⟨Nat.le_mul_of_pos_right _ h2.2.2, le_refl _, h2.2.2⟩
    refine Sat.bind (sat_setConductance hF (hd A hA) (fun B' hB' => hd B' (hB B' hB')) fun hn => ?_)
      fun s' hs' => ⟨?_, fun _ => by simp⟩
    · rw [h1.1, h1.2.1, h1.2.2]
      exact ⟨hm hn, (hp.oob hn h).2.1, (hp.oob hn h).1⟩
    · intro s'' h2
      rw [Option.some.injEq] at h2
      subst h2
      exact ⟨hs'.1.1.trans h1.1, hs'.1.2.1.trans h1.2.1, hs'.1.2.2.trans h1.2.2⟩

theorem sat_aWrite (hF : Lax F) {mp : Mapper K} (hc : CoreShape E cfg mp.core)
    (hd : Fits F cfg m n) (hp : ParOk F cfg mp.core.par n) :
    Sat F (aWrite E cfg mp m n) fun mp' => CoreShape E cfg mp'.core ∧ CoreLike mp.core mp'.core ∧
      mp'.aux = { mp.aux with rng := mp'.aux.rng } ∧ (mp.core.par ≠ none → mp'.core.par ≠ none) := by
  have hns := hc.numSeg
  have hmode := hc.mode
  unfold aWrite
  dsimp only
  split
  case h_1 | h_2 | h_3 | h_4 | h_5 =>
    next h =>
    refine Sat.bind (sat_aWritePM hF hc (by rw [hns, ← hmode, h]; rfl) hd) fun ia hia => ?_
    refine Sat.bind (sat_pushSolver hF hp (fun hn => (hd hn).2.2.2) hia.p
      (fun _ h => by cases h; exact hia.m) hc.par) fun par hpar => ?_
    exact ⟨hc.of_like ⟨⟨rfl, rfl, rfl, rfl, rfl, rfl, rfl, rfl⟩, rfl⟩ hia hpar.1,
      ⟨⟨rfl, rfl, rfl, rfl, rfl, rfl, rfl, rfl⟩, rfl⟩, rfl, hpar.2⟩
  case h_6 =>
    next h =>
    refine Sat.bind (sat_aWriteP hF hc (by rw [hns, ← hmode, h]; rfl) hd) fun ia hia => ?_
    refine Sat.bind (sat_pushSolver hF hp (fun hn => (hd hn).2.2.2) hia.p
      (fun _ h => nomatch h) hc.par) fun par hpar => ?_
    exact ⟨hc.of_like ⟨⟨rfl, rfl, rfl, rfl, rfl, rfl, rfl, rfl⟩, rfl⟩ hia hpar.1,
      ⟨⟨rfl, rfl, rfl, rfl, rfl, rfl, rfl, rfl⟩, rfl⟩, rfl, hpar.2⟩
  case h_7 | h_8 =>
    refine Sat.bind (sat_aWritePBnn hF hc hd) fun r hia => ?_
    refine Sat.bind (sat_pushSolver hF hp (fun hn => (hd hn).2.2.1) hia.p
      (fun _ h => nomatch h) hc.par) fun par hpar => ?_
    exact ⟨hc.of_like ⟨⟨rfl, rfl, rfl, rfl, rfl, rfl, rfl, rfl⟩, rfl⟩ hia hpar.1,
      ⟨⟨rfl, rfl, rfl, rfl, rfl, rfl, rfl, rfl⟩, rfl⟩, rfl, hpar.2⟩
  all_goals
    refine Sat.bind (sat_aWritePMBnnTnn hF hc hd) fun r hia => ?_
    refine Sat.bind (sat_pushSolver hF hp (fun hn => (hd hn).2.2.1) (by first | exact hia.p | exact hia.m)
      (fun _ h => by cases h; first | exact hia.m | exact hia.p) hc.par) fun par hpar => ?_
    exact ⟨hc.of_like ⟨⟨rfl, rfl, rfl, rfl, rfl, rfl, rfl, rfl⟩, rfl⟩ hia hpar.1,
      ⟨⟨rfl, rfl, rfl, rfl, rfl, rfl, rfl, rfl⟩, rfl⟩, rfl, hpar.2⟩

theorem sat_addC2C (hF : Lax F) {mp : Mapper K} (hc : CoreShape E cfg mp.core)
    (hd : Fits F cfg m n) :
    Sat F (addC2C E cfg mp m n) fun mp' => CoreShape E cfg mp'.core ∧ CoreLike mp.core mp'.core ∧
      mp'.aux = { mp.aux with rng := mp'.aux.rng } ∧ mp'.core.par = mp.core.par := by
  unfold addC2C
  refine Sat.bind (P := fun r => IaShape cfg r.1) ?_ fun r hr => ?_
  · refine Sat.loop2 (I := fun r : Ia K × Nat => IaShape cfg r.1) hc.ia fun i j hi hj st hia => ?_
    have hb : ¬F .oob → i < cfg.R ∧ j < cfg.N := fun hn => by have := hd hn; omega
    exact Sat.bind (Sat.mrdIs hia.pO hb) fun _ _ => Sat.bind (Sat.mrdIs hc.gd.p hb) fun _ _ =>
      Sat.bind (Sat.addNoise hF _ _ _ _ _) fun _ _ => Sat.bind (Sat.mwrIs hia.p hb) fun p hp =>
      Sat.bind (Sat.mrdIs hia.mO hb) fun _ _ => Sat.bind (Sat.mrdIs hc.gd.m hb) fun _ _ =>
      Sat.bind (Sat.addNoise hF _ _ _ _ _) fun _ _ => Sat.bind (Sat.mwrIs hia.m hb) fun q hq =>
      ⟨hp, hq, hia.pO, hia.mO⟩
  · exact ⟨hc.of_like ⟨⟨rfl, rfl, rfl, rfl, rfl, rfl, rfl, rfl⟩, rfl⟩ hr hc.par,
      ⟨⟨rfl, rfl, rfl, rfl, rfl, rfl, rfl, rfl⟩, rfl⟩, rfl, rfl⟩

theorem sat_removeC2C {mp : Mapper K} (hc : CoreShape E cfg mp.core) (hd : Fits F cfg m n) :
    Sat F (removeC2C mp m n) fun mp' => CoreShape E cfg mp'.core ∧ CoreLike mp.core mp'.core ∧
      mp'.aux = mp.aux ∧ mp'.core.par = mp.core.par := by
  unfold removeC2C
  refine Sat.bind (P := fun r => IaShape cfg r) ?_ fun r hr => ?_
  · refine Sat.loop2 hc.ia fun i j hi hj st hia => ?_
    have hb : ¬F .oob → i < cfg.R ∧ j < cfg.N := fun hn => by have := hd hn; omega
    exact Sat.bind (Sat.mrdIs hia.pO hb) fun _ _ => Sat.bind (Sat.mwrIs hia.p hb) fun p hp =>
      Sat.bind (Sat.mrdIs hia.mO hb) fun _ _ => Sat.bind (Sat.mwrIs hia.m hb) fun q hq =>
      ⟨hp, hq, hia.pO, hia.mO⟩
  · exact ⟨hc.of_like ⟨⟨rfl, rfl, rfl, rfl, rfl, rfl, rfl, rfl⟩, rfl⟩ hr hc.par,
      ⟨⟨rfl, rfl, rfl, rfl, rfl, rfl, rfl, rfl⟩, rfl⟩, rfl, rfl⟩

end

end Acs
