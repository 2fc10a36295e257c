import Verif.Lemmas.SafeMvm

/-! # Safety pass over the analog multiplications -/

set_option linter.unusedSectionVars false

namespace Acs

section
variable {K : Type} [Field K] [LinearOrder K] [IsStrictOrderedRing K] [FloorRing K]
variable {F : Fault → Prop} {E : Env K} {cfg : Cfg K} {c : Core K} {a : Aux K} {gd : Gd}
variable {vec res v w : Vec Int} {m n : Nat} {l : String}

/-- The solver holds conductances for at least `m` weight rows. -/
def Wired (cfg : Cfg K) (par : Option (Solver K)) (m : Nat) : Prop :=
  ∀ s, par = some s → ∃ g w, s.ga = some (g, w) ∧ cfg.N ≤ g.rows ∧
    m * Spec.slices cfg * Spec.pair cfg.mode ≤ g.cols

/-- Conditions under which parasitic wires cannot cause an excluded fault in a multiplication. -/
structure SolveOk (F : Fault → Prop) (cfg : Cfg K) (par : Option (Solver K)) (m n : Nat) : Prop where
  oob : ¬F .oob → cfg.parasitics = true →
    1 ≤ cfg.S ∧ n * Spec.lines cfg.mode ≤ cfg.N ∧ Spec.taps cfg m ≤ cfg.M ∧ Wired cfg par m
  null : ¬F .nullDeref → cfg.parasitics = true → par ≠ none

structure AMvmOk (F : Fault → Prop) (E : Env K) (cfg : Cfg K) (c : Core K) (a : Aux K)
    (res vec : Vec Int) (m n : Nat) : Prop extends MvmOk F E cfg c a res vec m n where
  parOk : SolveOk F cfg c.par m n
  prof : ¬F .oob → cfg.adcProfile = false

section
variable {ia : Ia K} {A : Mat K} {t j : Nat}

theorem sat_iaDiffTerm (h : ¬F .oob → t < ia.p.rows ∧ j < ia.p.cols ∧ t < ia.m.rows ∧ j < ia.m.cols ∧
    j < v.size) : Sat F (iaDiffTerm E ia v t j) fun _ => True := by
  unfold iaDiffTerm
  sat_reads <;> (intro hn; have := h hn; omega)
theorem sat_iaDiffTermNeg (h : ¬F .oob → t < ia.p.rows ∧ j < ia.p.cols ∧ t < ia.m.rows ∧
    j < ia.m.cols ∧ j < v.size) : Sat F (iaDiffTermNeg E ia v t j) fun _ => True := by
  unfold iaDiffTermNeg
  sat_reads <;> (intro hn; have := h hn; omega)
theorem sat_iaTerm (h : ¬F .oob → t < A.rows ∧ j < A.cols ∧ j < v.size) :
    Sat F (iaTerm E A v t j) fun _ => True := by
  unfold iaTerm
  sat_reads <;> (intro hn; have := h hn; omega)
theorem sat_iaBnn5Term (h : ¬F .oob → t < ia.p.rows ∧ j < ia.p.cols ∧ t < ia.m.rows ∧
    j < ia.m.cols ∧ j < v.size) (h' : ¬F .oob → j < w.size) :
    Sat F (iaBnn5Term E ia v w t j) fun _ => True := by
  unfold iaBnn5Term
  sat_reads <;> (intro hn; have := h hn; have := h' hn; omega)
theorem sat_iaQuadTerm (h : ¬F .oob → t < ia.p.rows ∧ j < ia.p.cols ∧ t < ia.m.rows ∧
    j < ia.m.cols ∧ j < v.size) (h' : ¬F .oob → j < w.size) :
    Sat F (iaQuadTerm E ia v w t j) fun _ => True := by
  unfold iaQuadTerm
  sat_reads <;> (intro hn; have := h hn; have := h' hn; omega)
end

theorem sat_serPar (hF : Lax F) (w a g : K) : Sat F (serPar E w a g) fun _ => True := Sat.fdiv hF _ _ _

/-- Bit lines read for one number. -/
def Mode.reads (md : Mode) : Nat := if md.oEncDouble then 2 else 1

theorem sat_computeCurrents (hF : Lax F) {s : Solver K} {vm : Option (Vec Int)} {k : Nat}
    (hv : ¬F .oob → n ≤ v.size) (hw : ∀ w, vm = some w → ¬F .oob → n ≤ w.size)
    (hb : ¬F .oob → n * Spec.lines s.mode ≤ s.nXbar ∧ k ≤ s.mXbar ∧
      ∃ g w, s.ga = some (g, w) ∧ s.nXbar ≤ g.rows ∧ k * s.mode.reads ≤ g.cols) :
    Sat F (computeCurrents E s v vm k n) fun t => t.size = s.mXbar := by
  unfold computeCurrents
  refine Sat.bind (P := fun u => u.size = s.nXbar) ?_ fun vd hvd => ?_
  · unfold iEnc
    refine Sat.ite (fun hd => ?_) fun _ => ?_
    · have h2 : ¬F .oob → n * 2 ≤ s.nXbar := fun h => by
        have := (hb h).1
        revert hd this
        cases s.mode <;> simp [Mode.iEncDouble, Spec.lines]
      refine Sat.loop (I := fun u : Vec Int => u.size = s.nXbar) rfl fun j hj u hu =>
        Sat.bind (Sat.vrd' fun h => by have := hv h; omega) fun x _ =>
        Sat.bind (Sat.vwr fun h => by have := h2 h; omega) fun u' hu' => ?_
      cases vm with
      | none => exact Sat.err (hF _ (by decide) (by decide))
      | some vm =>
        exact Sat.bind (Sat.vrd' fun h => by have := hw _ rfl h; omega) fun _ _ =>
          (Sat.vwr fun h => by have := h2 h; omega).mono fun _ h => by omega
    · refine Sat.loop (I := fun u : Vec Int => u.size = s.nXbar) rfl fun j hj u hu =>
        Sat.bind (Sat.vrd' fun h => by have := hv h; omega) fun x _ =>
        (Sat.vwr fun h => by
          have := (hb h).1; have := lines_le s.mode n; omega).mono fun _ h => by omega
  · split
    · next hn =>
      refine Sat.err ?_
      by_contra h
      obtain ⟨_, _, g, w, hg, _⟩ := hb h
      rw [hn] at hg; cases hg
    · next g wire hg =>
      have hb' : ¬F .oob → k ≤ s.mXbar ∧ s.nXbar ≤ g.rows ∧ k * s.mode.reads ≤ g.cols := fun h => by
        obtain ⟨_, hk, g', w', hg', hr, hc⟩ := hb h
        rw [hg, Option.some.injEq, Prod.mk.injEq] at hg'
        rw [hg'.1]
        exact ⟨hk, hr, hc⟩
      refine Sat.bind (P := fun u => u.size = g.cols) ?_ fun acc hacc => ?_
      · refine Sat.loop (I := fun u : Vec K => u.size = g.cols) rfl fun j hj acc hacc =>
          Sat.bind (Sat.vrd' fun h => by omega) fun x _ => ?_
        refine (Sat.updG (fun _ => by omega) fun i b hi => ?_).mono fun _ h => h.trans hacc
        exact Sat.bind (P := fun _ => True) (Sat.ite (fun _ => Sat.mrd' fun h => by
          have := hb' h; omega) fun _ => trivial) fun _ _ => sat_serPar hF _ _ _
      · unfold oEnc
        refine (Sat.setG (fun h => (hb' h).1) fun i hi => ?_).mono fun _ hw => hw
        refine Sat.ite (fun hd => ?_) fun hd => ?_
        · have h2 : ¬F .oob → k * 2 ≤ g.cols := fun h => by
            have := (hb' h).2.2; rwa [Mode.reads, if_pos hd] at this
          exact Sat.bind (Sat.vrd' fun h => by have := h2 h; omega) fun _ _ =>
            Sat.bind (Sat.vrd' fun h => by have := h2 h; omega) fun _ _ => trivial
        · have h2 : ¬F .oob → k * 1 ≤ g.cols := fun h => by
            have := (hb' h).2.2; rwa [Mode.reads, if_neg hd] at this
          exact Sat.bind (Sat.vrd' fun h => by have := h2 h; omega) fun _ _ => trivial

theorem le_taps (hS : 1 ≤ cfg.S) : m ≤ Spec.taps cfg m := by
  unfold Spec.taps
  split
  · omega
  · refine Nat.le_mul_of_pos_right m ?_
    unfold Spec.slices
    unfold Cfg.S at hS
    split <;> omega

theorem taps_reads : Spec.taps cfg m * cfg.mode.reads ≤ m * Spec.slices cfg * Spec.pair cfg.mode := by
  unfold Spec.taps Spec.slices Mode.reads
  cases cfg.mode <;> simp [Spec.pair, Mode.oEncDouble] <;> omega

theorem sat_solve (h : AMvmOk F E cfg c a res vec m n) (hp : cfg.parasitics = true) {s : Solver K}
    (hs : c.par = some s) {vm : Option (Vec Int)} {k : Nat} (hk : 1 ≤ cfg.S → k ≤ Spec.taps cfg m)
    (hv : ¬F .oob → n ≤ v.size) (hw : ∀ w, vm = some w → ¬F .oob → n ≤ w.size) :
    Sat F (computeCurrents E s v vm k n) fun t => t.size = cfg.M := by
  obtain ⟨h1, h2, h3⟩ := h.core.par s hs
  rw [← h1]
  refine sat_computeCurrents h.lax hv hw fun hn => ?_
  obtain ⟨hS, hl, ht, hwi⟩ := h.parOk.oob hn hp
  obtain ⟨g, w, hg, hr, hc⟩ := hwi s hs
  have hk := hk hS
  rw [h1, h2, h3]
  exact ⟨hl, hk.trans ht, g, w, hg, hr,
    ((Nat.mul_le_mul_right _ hk).trans taps_reads).trans hc⟩

theorem AMvmOk.nullOk (h : AMvmOk F E cfg c a res vec m n) (hp : cfg.parasitics = true)
    (hn : c.par = none) : F .nullDeref := by
  by_contra hf
  exact h.parOk.null hf hp hn

theorem sat_colCurrents (h : AMvmOk F E cfg c a res vec m n) {term : Nat → Nat → C K}
    (ht : ∀ i j, i < m → j < n → Sat F (term i j) fun _ => True) {vm : Option (Vec Int)} {t : Vec K}
    (hs : t.size = cfg.M) (hv : ¬F .oob → n ≤ v.size)
    (hw : ∀ w, vm = some w → ¬F .oob → n ≤ w.size := by exact fun _ h => nomatch h) :
    Sat F (colCurrents E cfg c term v vm t m n) fun t => t.size = cfg.M := by
  unfold colCurrents
  refine Sat.ite (fun hp => ?_) fun hp => ?_
  · split
    · next hn => exact Sat.err (h.nullOk hp hn)
    · next s hs =>
      exact sat_solve h hp hs le_taps hv hw
  · exact (Sat.accG (fun hn => by have := h.fits hn; omega) ht fun _ _ => Sat.faddC _ _ _).mono
      fun _ hw => hw.trans hs

theorem sat_convVec (hF : Lax F) (hp : ¬F .oob → cfg.adcProfile = false) {adc : Adc}
    {hs : List (String × Hist K)} {t : Vec K} {k : Nat} {s o : K} :
    Sat F (convVec E cfg adc hs t k s o l) fun r => r.2.size = t.size := by
  unfold convVec
  refine Sat.ite (fun _ => Sat.err (hF _ (by decide) (by decide))) fun hk => ?_
  refine Sat.bind (P := fun _ => True) (Sat.ite (fun h => ?_) fun _ => trivial) fun hs _ => ?_
  · have ho : F .oob := by
      by_contra hn
      rw [hp hn] at h; cases h
    have h : ∀ {p : Prop}, ¬F .oob → p := fun h => absurd ho h
    unfold profileInputs
    refine Sat.bind (P := fun _ => True) ?_ fun g _ => ?_
    · unfold getHist
      split
      · trivial
      · refine Sat.ite (fun _ => Sat.err (hF _ (by decide) (by decide))) fun _ => ?_
        unfold mkHist
        exact Sat.bind (Sat.fdiv hF _ _ _) fun _ _ =>
          Sat.ite (fun _ => Sat.err (hF _ (by decide) (by decide))) fun _ => trivial
    · refine Sat.bind (P := fun _ => True) ?_ fun g _ => trivial
      unfold Hist.update
      refine Sat.bind (Sat.setG h fun i _ => Sat.bind (Sat.vrd' h) fun _ _ => ?_) fun _ _ => ?_
      · unfold Hist.index
        exact Sat.bind (Sat.fdiv hF _ _ _) fun _ _ => Sat.toI32 hF _
      · refine Sat.loop trivial fun i _ g _ => Sat.bind (Sat.vrd' h) fun _ _ => ?_
        unfold Hist.bump
        exact Sat.ite (fun _ => Sat.err ho) fun _ =>
          Sat.bind (Sat.updAt h fun _ => Sat.addI hF _ _) fun _ _ => trivial
  · refine Sat.bind (Sat.updG (fun _ => by omega) fun _ _ _ => Sat.conv1 hF _ _ _ _ _ _ _)
      fun v hv => hv

/-! ## Integer mappings -/

/-- State of the bit loop. -/
def BitSt (cfg : Cfg K) (res : Vec Int) (m : Nat) (st : Vec Int × Vec K × Vec Int) : Prop :=
  st.1.size = cfg.N ∧ (cfg.parasitics = false → st.2.1.size = cfg.R) ∧ Keep m res st.2.2

theorem AMvmOk.iaS (h : AMvmOk F E cfg c a res vec m n) (hv : ¬F .oob → n ≤ v.size)
    {t j : Nat} (ht : t < m * cfg.S) (hj : j < n) : ¬F .oob → t < c.ia.p.rows ∧ j < c.ia.p.cols ∧
    t < c.ia.m.rows ∧ j < c.ia.m.cols ∧ j < v.size := fun hn => by
  have := h.fits hn; have := hv hn
  have := h.core.ia.p.1; have := h.core.ia.p.2; have := h.core.ia.m.1; have := h.core.ia.m.2; omega

theorem AMvmOk.ia (h : AMvmOk F E cfg c a res vec m n) (hv : ¬F .oob → n ≤ v.size)
    {t j : Nat} (ht : t < m) (hj : j < n) : ¬F .oob → t < c.ia.p.rows ∧ j < c.ia.p.cols ∧
    t < c.ia.m.rows ∧ j < c.ia.m.cols ∧ j < v.size := fun hn => by
  have := h.fits hn; have := hv hn
  have := h.core.ia.p.1; have := h.core.ia.p.2; have := h.core.ia.m.1; have := h.core.ia.m.2; omega

theorem sat_intCurrents (h : AMvmOk F E cfg c a res vec m n) (hi : cfg.mode.isInt = true)
    {term : Nat → Nat → C K}
    (ht : ∀ t j, t < m * cfg.S → j < n → Sat F (term t j) fun _ => True) {t : Vec K}
    (hs : cfg.parasitics = false → t.size = cfg.R) (hv : ¬F .oob → n ≤ v.size) :
    Sat F (intCurrents E cfg c term v t m n)
      fun t => (cfg.parasitics = false → t.size = cfg.R) ∧ (¬F .oob → m * cfg.S ≤ t.size) := by
  have hk : Spec.taps cfg m = m * cfg.S := by
    unfold Spec.taps Spec.slices Cfg.S
    revert hi
    cases cfg.mode <;> simp [Mode.isInt, Mode.family]
  unfold intCurrents
  refine Sat.ite (fun hp => ?_) fun hp => ?_
  · split
    · next hn => exact Sat.err (h.nullOk hp hn)
    · next s hs =>
      exact (sat_solve h hp hs (vm := none) (fun _ => hk.ge) hv fun _ h => nomatch h).mono fun t ht =>
        ⟨fun hq => (by rw [hp] at hq; cases hq),
          fun hn => (by rw [ht, ← hk]; exact (h.parOk.oob hn hp).2.2.1)⟩
  · rw [Bool.not_eq_true] at hp
    exact (Sat.accG (fun hn => by have := h.fits hn; have := hs hp; omega) ht
      fun _ _ => Sat.faddC _ _ _).mono fun _ hw => ⟨fun _ => hw.trans (hs hp), fun hn => by
        have := h.fits hn; have := hs hp; omega⟩

theorem sat_intConv (h : AMvmOk F E cfg c a res vec m n) {t : Vec K} {sg : K} {bit i s : Nat}
    (ht : ¬F .oob → m * cfg.S ≤ t.size) (hi : i < m) (hs : s < cfg.S) :
    Sat F (intConv E cfg c t sg bit l i s) fun _ => True := by
  have hF := h.lax
  unfold intConv
  refine Sat.bind (Sat.vrd' fun hn => ?_) fun _ _ => Sat.bind (Sat.vrd' fun _ => ?_) fun _ _ =>
    Sat.bind (Sat.vrd' fun _ => ?_) fun _ _ => Sat.bind (Sat.useField hF _) fun _ _ =>
    Sat.bind (Sat.adcScale hF _ _ _ _) fun _ _ => Sat.conv1 hF _ _ _ _ _ _ _
  · have := ht hn; have := blk_lt hi hs; omega
  · rw [h.core.shift_size]; exact hs
  · rw [h.core.iStep_size]; exact hs

theorem sat_intBit (h : AMvmOk F E cfg c a res vec m n) (hi : cfg.mode.isInt = true) {sg : K} {bit : Nat}
    (hv : ¬F .oob → n ≤ v.size) {st : Vec Int × Vec K × Vec Int} (hst : BitSt cfg res m st) :
    Sat F (intBit E cfg c v sg m n l bit st) (BitSt cfg res m) := by
  have hF := h.lax
  unfold intBit
  refine Sat.bind (sat_sliceVd hF (fun hn => ⟨hv hn, by
    have := h.fits hn; rw [hst.1]; omega⟩) bit) fun sl hsl => ?_
  have hsl' : ¬F .oob → n ≤ sl.size := fun hn => by have := h.fits hn; rw [hsl, hst.1]; omega
  refine Sat.bind (sat_intCurrents h hi (fun t j ht hj => sat_iaDiffTerm (h.iaS hsl' ht hj)) hst.2.1 hsl')
    fun t ht => ?_
  refine Sat.bind (Sat.accGK (fun hn => by have := h.hres hn; have := hst.2.2.size; omega)
    (fun i s hi hs => sat_intConv h ht.2 hi hs) fun _ _ => Sat.iaddf hF _ _ _) fun r hr => ?_
  exact ⟨hsl.trans hst.1, ht.1, hst.2.2.trans hr⟩

theorem AMvmOk.bitSt (h : AMvmOk F E cfg c a res vec m n) (hi : cfg.mode.isInt = true) :
    BitSt cfg res m (a.vdSlice, a.tmpFp.fill 0, res) :=
  ⟨h.aux.vdSlice, fun hp => (by
    have := h.aux.tmpFp fun _ => hp
    rw [if_pos hi] at this; exact this), Keep.refl _⟩

theorem AMvmOk.fin (h : AMvmOk F E cfg c a res vec m n) (hi : cfg.mode.isInt = true)
    {st : Vec Int × Vec K × Vec Int} (hst : BitSt cfg res m st) (hv : v.size = a.vdP.size)
    (hw : w.size = a.vdM.size) : MvmPost cfg res m
      ({ a with vdP := v, vdM := w, vdSlice := st.1, tmpFp := st.2.1 }, st.2.2) :=
  ⟨⟨hv.trans h.aux.vdP, hw.trans h.aux.vdM, hst.1, h.aux.tmpInt,
    fun hp => by rw [if_pos hi]; exact hst.2.1 (hp hi), h.aux.tmp, h.aux.tmpP, h.aux.tmpM,
    h.aux.tmpLsb, h.aux.tmpMsb, h.aux.resFp⟩, hst.2.2⟩

theorem sat_aMvmIntI (h : AMvmOk F E cfg c a res vec m n) (hi : cfg.mode.isInt = true) :
    Sat F (aMvmIntI E cfg c a res vec m n l) (MvmPost cfg res m) := by
  unfold aMvmIntI
  refine Sat.bind (sat_encSigned h.lax h.enc) fun v hv => ?_
  refine Sat.bind (Sat.loop (h.bitSt hi) fun _ _ _ hs => sat_intBit h hi (h.lt hv.1) hs) fun st hs => ?_
  refine Sat.bind (Sat.loop hs fun _ _ _ hs => sat_intBit h hi (h.ltM hv.2) hs) fun st hs => ?_
  exact h.fin hi hs hv.1 hv.2

theorem sat_aMvmIntII (h : AMvmOk F E cfg c a res vec m n) (hi : cfg.mode.isInt = true) :
    Sat F (aMvmIntII E cfg c a res vec m n l) (MvmPost cfg res m) := by
  unfold aMvmIntII
  refine Sat.bind (sat_encOffs h.lax h.enc1 _ _) fun v hv => ?_
  refine Sat.bind (Sat.loop (h.bitSt hi) fun _ _ _ hs => sat_intBit h hi (h.lt hv) hs) fun st hs => ?_
  refine Sat.bind (P := Keep m res) (Sat.loop hs.2.2 fun i him r hr => ?_)
    fun r hr => ?_
  · refine Sat.bind (sat_sumShift h.lax (h.sumW him)) fun _ _ => ?_
    exact (Sat.updAtK him (h.resAt hr him) fun _ => Sat.subI h.lax _ _).mono fun _ hw => hr.trans hw
  exact ⟨(h.fin hi hs hv rfl).1, hr⟩

theorem sat_aMvmIntIII (h : AMvmOk F E cfg c a res vec m n) (hi : cfg.mode.isInt = true) :
    Sat F (aMvmIntIII E cfg c a res vec m n l) (MvmPost cfg res m) := by
  have hF := h.lax
  unfold aMvmIntIII
  refine Sat.bind (sat_encCopy h.lax h.enc1) fun v hv => ?_
  refine Sat.bind (Sat.loop (h.bitSt hi) fun _ _ _ hs => sat_intBit h hi (h.lt hv) hs) fun st hst => ?_
  dsimp only
  refine Sat.bind (sat_sliceVd hF (fun hn => ⟨h.lt hv hn, by
    have := h.fits hn; rw [hst.1]; omega⟩) _) fun sl hsl => ?_
  have hsl' : ¬F .oob → n ≤ sl.size := fun hn => by have := h.fits hn; rw [hsl, hst.1]; omega
  refine Sat.bind (sat_intCurrents h hi (fun t j ht hj => sat_iaDiffTerm (h.iaS hsl' ht hj)) hst.2.1 hsl')
    fun t ht => ?_
  refine Sat.bind (Sat.accGK (fun hn => by have := h.hres hn; have := hst.2.2.size; omega)
    (fun i s hi hs => sat_intConv h ht.2 hi hs) fun _ _ => Sat.isubf hF _ _ _) fun r hr => ?_
  exact h.fin hi (st := (sl, t, r)) ⟨hsl.trans hst.1, ht.1, hst.2.2.trans hr⟩ hv rfl

theorem sat_aMvmIntIV (h : AMvmOk F E cfg c a res vec m n) (hi : cfg.mode.isInt = true) :
    Sat F (aMvmIntIV E cfg c a res vec m n l) (MvmPost cfg res m) := by
  unfold aMvmIntIV
  refine Sat.bind (sat_encCopy h.lax h.enc1) fun v hv => ?_
  refine Sat.bind (Sat.loop (h.bitSt hi) fun _ _ _ hs => sat_intBit h hi (h.lt hv) hs) fun st hs => ?_
  exact h.fin hi hs hv rfl

/-- State of the bit loop of the last integer mapping. -/
def BitStV (cfg : Cfg K) (st : Vec Int × Vec K × Vec K) : Prop :=
  st.1.size = cfg.N ∧ (cfg.parasitics = false → st.2.1.size = cfg.R) ∧ st.2.2.size = cfg.R

theorem sat_intBitV (h : AMvmOk F E cfg c a res vec m n) (hi : cfg.mode.isInt = true) {bit : Nat}
    (hv : ¬F .oob → n ≤ v.size) {st : Vec Int × Vec K × Vec K} (hst : BitStV cfg st) :
    Sat F (intBitV E cfg c v m n l bit st) (BitStV cfg) := by
  have hF := h.lax
  unfold intBitV
  refine Sat.bind (sat_sliceVd hF (fun hn => ⟨hv hn, by
    have := h.fits hn; rw [hst.1]; omega⟩) bit) fun sl hsl => ?_
  have hsl' : ¬F .oob → n ≤ sl.size := fun hn => by have := h.fits hn; rw [hsl, hst.1]; omega
  refine Sat.bind (sat_intCurrents h hi (fun t j ht hj => sat_iaTerm fun hn => by
    have := h.iaS hsl' ht hj hn; omega) hst.2.1 hsl') fun t ht => ?_
  refine Sat.bind (Sat.accG (fun hn => by have := h.fits hn; have := hst.2.2; omega)
    (fun i s hi hs => sat_intConv h ht.2 hi hs) fun _ _ => Sat.faddC _ _ _) fun r hr => ?_
  exact ⟨hsl.trans hst.1, ht.1, hr.trans hst.2.2⟩

theorem sat_aMvmIntV (h : AMvmOk F E cfg c a res vec m n) (hi : cfg.mode.isInt = true) :
    Sat F (aMvmIntV E cfg c a res vec m n l) (MvmPost cfg res m) := by
  have hF := h.lax
  unfold aMvmIntV
  refine Sat.bind (sat_encCopy h.lax h.enc1) fun v hv => ?_
  refine Sat.bind (sat_inpSum hF h.hvec) fun _ _ => ?_
  refine Sat.bind (Sat.loop (I := BitStV cfg) ⟨h.aux.vdSlice, (h.bitSt hi).2.1, h.aux.resFp⟩
    fun _ _ _ hs => sat_intBitV h hi (h.lt hv) hs) fun st hst => ?_
  refine Sat.bind (P := fun r : Vec K × Vec Int => r.1.size = cfg.R ∧ Keep m res r.2)
    (Sat.loop ⟨hst.2.2, Keep.refl _⟩ fun i him r hr => ?_) fun r hr => ?_
  · have hb : ¬F .oob → i < r.1.size := fun hn => by have := h.fits hn; omega
    refine Sat.bind (Sat.useField hF _) fun _ _ => ?_
    refine Sat.bind (Sat.shlI hF _ _ _) fun _ _ => ?_
    refine Sat.bind (Sat.updAt hb fun _ => trivial) fun f hf => ?_
    refine Sat.bind (Sat.vrd' fun hn => by rw [hf]; exact hb hn) fun _ _ => ?_
    refine Sat.bind (Sat.toI32 hF _) fun _ _ => ?_
    exact Sat.bind (Sat.updAtK him (h.resAt hr.2 him) fun _ => Sat.addI hF _ _) fun r' hr' =>
      ⟨hf.trans hr.1, hr.2.trans hr'⟩
  · exact ⟨⟨hv.trans h.aux.vdP, h.aux.vdM, hst.1, h.aux.tmpInt,
      fun hp => by rw [if_pos hi]; exact hst.2.1 (hp hi), h.aux.tmp, h.aux.tmpP, h.aux.tmpM,
      h.aux.tmpLsb, h.aux.tmpMsb, hr.1⟩, hr.2⟩

/-! ## Binary and ternary mappings -/

theorem AuxShape.fin1 (ha : AuxShape cfg a) (hv : v.size = a.vdP.size) {t : Vec K}
    (ht : t.size = cfg.M) (hs : List (String × Hist K)) :
    AuxShape cfg { a with vdP := v, tmp := t, hists := hs } :=
  ⟨hv.trans ha.vdP, ha.vdM, ha.vdSlice, ha.tmpInt, ha.tmpFp,
    ht, ha.tmpP, ha.tmpM, ha.tmpLsb, ha.tmpMsb, ha.resFp⟩

theorem AuxShape.fin2 (ha : AuxShape cfg a) (hv : v.size = a.vdP.size) (hw : w.size = a.vdM.size)
    {t : Vec K} (ht : t.size = cfg.M) (hs : List (String × Hist K)) :
    AuxShape cfg { a with vdP := v, vdM := w, tmp := t, hists := hs } :=
  ⟨hv.trans ha.vdP, hw.trans ha.vdM, ha.vdSlice, ha.tmpInt, ha.tmpFp,
    ht, ha.tmpP, ha.tmpM, ha.tmpLsb, ha.tmpMsb, ha.resFp⟩

/-- Final accumulation into `res`. -/
theorem AMvmOk.upd (h : AMvmOk F E cfg c a res vec m n) {f : Nat → Int → C Int} {r : Vec Int}
    (hr : Keep m res r) (hf : ∀ i x, i < m → Sat F (f i x) fun _ => True) :
    Sat F (updG m f r) (Keep m res) :=
  (Sat.updGK (fun hn => by have := h.hres hn; have := hr.size; omega) hf).mono fun _ hw => hr.trans hw

theorem AMvmOk.atM (h : AMvmOk F E cfg c a res vec m n) {t : Vec K} (ht : t.size = cfg.M) {i : Nat}
    (hi : i < m) : ¬F .oob → i < t.size := fun hn => by have := h.fits hn; omega

theorem sat_addTmp (h : AMvmOk F E cfg c a res vec m n) {t : Vec K} {r : Vec Int}
    (ht : t.size = cfg.M) (hr : Keep m res r) :
    Sat F (addTmp E t m r) (Keep m res) :=
  h.upd hr fun _ _ hi => Sat.bind (Sat.vrd' (h.atM ht hi)) fun _ _ => Sat.iaddf h.lax _ _ _

theorem sat_subTmp (h : AMvmOk F E cfg c a res vec m n) {t : Vec K} {r : Vec Int}
    (ht : t.size = cfg.M) (hr : Keep m res r) :
    Sat F (subTmp E t m r) (Keep m res) :=
  h.upd hr fun _ _ hi => Sat.bind (Sat.vrd' (h.atM ht hi)) fun _ _ => Sat.isubf h.lax _ _ _

theorem AMvmOk.conv (h : AMvmOk F E cfg c a res vec m n) {hs : List (String × Hist K)} {t : Vec K}
    (ht : t.size = cfg.M) {s o : K} :
    Sat F (convVec E cfg c.adc hs t m s o l) fun r => r.2.size = cfg.M :=
  (sat_convVec h.lax h.prof).mono fun _ hw => hw.trans ht

theorem sat_aMvmBnnI (h : AMvmOk F E cfg c a res vec m n) :
    Sat F (aMvmBnnI E cfg c a res vec m n l) (MvmPost cfg res m) := by
  have hF := h.lax
  unfold aMvmBnnI
  refine Sat.bind (sat_encBnn1 hF h.enc1) fun v hv => ?_
  refine Sat.bind (sat_colCurrents h (fun i j hi hj => sat_iaDiffTerm (h.ia (h.lt hv) hi hj))
    h.aux.tmp (h.lt hv)) fun t ht => ?_
  refine Sat.bind (Sat.fdiv hF _ _ _) fun sc _ => ?_
  refine Sat.bind (h.conv ht) fun r hr => ?_
  refine Sat.bind (h.upd (Keep.refl _) fun i x hi => Sat.bind (Sat.vrd' (h.atM hr hi)) fun _ _ =>
    Sat.bind (Sat.vrd' (h.sumW hi)) fun _ _ => Sat.iaddf hF _ _ _) fun r' hr' => ?_
  exact ⟨h.aux.fin1 hv hr _, hr'⟩

theorem sat_aMvmBnnII (h : AMvmOk F E cfg c a res vec m n) :
    Sat F (aMvmBnnII E cfg c a res vec m n l) (MvmPost cfg res m) := by
  have hF := h.lax
  unfold aMvmBnnII
  refine Sat.bind (sat_encBnn2 hF h.enc1) fun v hv => ?_
  refine Sat.bind (sat_colCurrents h (fun i j hi hj => sat_iaDiffTermNeg (h.ia (h.lt hv) hi hj))
    h.aux.tmp (h.lt hv)) fun t ht => ?_
  refine Sat.bind (Sat.fdiv hF _ _ _) fun sc _ => ?_
  refine Sat.bind (h.conv ht) fun r hr => ?_
  refine Sat.bind (h.upd (Keep.refl _) fun i x hi => Sat.bind (Sat.vrd' (h.atM hr hi)) fun _ _ =>
    Sat.bind (Sat.vrd' (h.sumW hi)) fun _ _ => Sat.iaddf hF _ _ _) fun r' hr' => ?_
  exact ⟨h.aux.fin1 hv hr _, hr'⟩

theorem sat_bnn34Currents (h : AMvmOk F E cfg c a res vec m n) :
    Sat F (bnn34Currents E cfg c a vec m n l) fun r => AuxShape cfg r.1 := by
  have hF := h.lax
  unfold bnn34Currents
  refine Sat.bind (sat_encPMSum hF h.enc) fun v hv => ?_
  refine Sat.bind (sat_colCurrents h (fun i j hi hj => sat_iaTerm fun hn => by
    have := h.ia (h.lt hv.1) hi hj hn; omega) h.aux.tmpP (h.lt hv.1)) fun t ht => ?_
  refine Sat.bind (sat_colCurrents h (fun i j hi hj => sat_iaTerm fun hn => by
    have := h.ia (h.ltM hv.2) hi hj hn; omega) h.aux.tmpM (h.ltM hv.2)) fun t' ht' => ?_
  refine Sat.bind (Sat.fdiv hF _ _ _) fun sc _ => ?_
  refine Sat.bind (Sat.negI hF _) fun sc _ => ?_
  refine Sat.bind (h.conv ht) fun r hr => ?_
  refine Sat.bind (h.conv ht') fun r' hr' => ?_
  have ha := h.aux
  exact ⟨hv.1.trans ha.vdP, hv.2.trans ha.vdM, ha.vdSlice, ha.tmpInt, ha.tmpFp,
    ha.tmp, hr, hr', ha.tmpLsb, ha.tmpMsb, ha.resFp⟩

theorem sat_aMvmBnnIII (h : AMvmOk F E cfg c a res vec m n) :
    Sat F (aMvmBnnIII E cfg c a res vec m n l) (MvmPost cfg res m) := by
  have hF := h.lax
  unfold aMvmBnnIII
  refine Sat.bind (sat_bnn34Currents h) fun r hr => ?_
  refine Sat.bind (h.upd (Keep.refl _) fun i x hi => Sat.bind (Sat.vrd' (h.atM hr.tmpP hi)) fun _ _ =>
    Sat.bind (Sat.vrd' (h.atM hr.tmpM hi)) fun _ _ => Sat.iaddf hF _ _ _) fun r' hr' => ?_
  exact ⟨hr, hr'⟩

theorem sat_aMvmBnnIV (h : AMvmOk F E cfg c a res vec m n) :
    Sat F (aMvmBnnIV E cfg c a res vec m n l) (MvmPost cfg res m) := by
  have hF := h.lax
  unfold aMvmBnnIV
  refine Sat.bind (sat_bnn34Currents h) fun r hr => ?_
  refine Sat.bind (h.upd (Keep.refl _) fun i x hi => Sat.bind (Sat.vrd' (h.atM hr.tmpP hi)) fun _ _ =>
    Sat.bind (Sat.vrd' (h.atM hr.tmpM hi)) fun _ _ => Sat.iaddf hF _ _ _) fun r' hr' => ?_
  exact ⟨hr, hr'⟩

theorem sat_aMvmBnnV (h : AMvmOk F E cfg c a res vec m n) :
    Sat F (aMvmBnnV E cfg c a res vec m n l) (MvmPost cfg res m) := by
  have hF := h.lax
  unfold aMvmBnnV
  refine Sat.bind (sat_encPM hF h.enc) fun v hv => ?_
  refine Sat.bind (sat_colCurrents h (fun i j hi hj => sat_iaBnn5Term (h.ia (h.lt hv.1) hi hj)
    (h.at (h.ltM hv.2) hj)) h.aux.tmp (h.lt hv.1)
    fun _ e => by cases e; exact h.ltM hv.2) fun t ht => ?_
  refine Sat.bind (Sat.fdiv hF _ _ _) fun sc _ => ?_
  refine Sat.bind (Sat.negI hF _) fun sc _ => ?_
  refine Sat.bind (h.conv ht) fun r hr => ?_
  refine Sat.bind (h.upd (Keep.refl _) fun i x hi => Sat.bind (Sat.vrd' (h.atM hr hi)) fun _ _ =>
    Sat.iaddf hF _ _ _) fun r' hr' => ?_
  exact ⟨h.aux.fin2 hv.1 hv.2 hr _, hr'⟩

theorem sat_aMvmBnnVI (h : AMvmOk F E cfg c a res vec m n) :
    Sat F (aMvmBnnVI E cfg c a res vec m n l) (MvmPost cfg res m) := by
  have hF := h.lax
  unfold aMvmBnnVI
  refine Sat.bind (sat_encPM hF h.enc) fun v hv => ?_
  refine Sat.bind (sat_colCurrents h (fun i j hi hj => sat_iaQuadTerm (h.ia (h.lt hv.1) hi hj)
    (h.at (h.ltM hv.2) hj)) h.aux.tmp (h.lt hv.1)
    fun _ e => by cases e; exact h.ltM hv.2) fun t ht => ?_
  refine Sat.bind (Sat.fdiv hF _ _ _) fun sc _ => ?_
  refine Sat.bind (h.conv ht) fun r hr => ?_
  refine Sat.bind (sat_addTmp h hr (Keep.refl _)) fun r' hr' => ?_
  exact ⟨h.aux.fin2 hv.1 hv.2 hr _, hr'⟩

theorem sat_aMvmTnnI (h : AMvmOk F E cfg c a res vec m n) :
    Sat F (aMvmTnnI E cfg c a res vec m n l) (MvmPost cfg res m) := by
  have hF := h.lax
  unfold aMvmTnnI
  refine Sat.bind (sat_encTern hF h.enc) fun v hv => ?_
  refine Sat.bind (sat_colCurrents h (fun i j hi hj => sat_iaQuadTerm (h.ia (h.lt hv.1) hi hj)
    (h.at (h.ltM hv.2) hj)) h.aux.tmp (h.lt hv.1)
    fun _ e => by cases e; exact h.ltM hv.2) fun t ht => ?_
  refine Sat.bind (Sat.fdiv hF _ _ _) fun sc _ => ?_
  refine Sat.bind (h.conv ht) fun r hr => ?_
  refine Sat.bind (sat_addTmp h hr (Keep.refl _)) fun r' hr' => ?_
  exact ⟨h.aux.fin2 hv.1 hv.2 hr _, hr'⟩

theorem sat_aMvmTnnII (h : AMvmOk F E cfg c a res vec m n) :
    Sat F (aMvmTnnII E cfg c a res vec m n l) (MvmPost cfg res m) := by
  have hF := h.lax
  unfold aMvmTnnII
  refine Sat.bind (sat_encNonzero hF h.enc1) fun v hv => ?_
  refine Sat.bind (sat_colCurrents h (fun i j hi hj => sat_iaDiffTerm (h.ia (h.lt hv) hi hj))
    h.aux.tmp (h.lt hv)) fun t ht => ?_
  refine Sat.bind (Sat.fdiv hF _ _ _) fun sc _ => ?_
  refine Sat.bind (h.conv ht) fun r hr => ?_
  refine Sat.bind (sat_addTmp h hr (Keep.refl _)) fun r1 hr1 => ?_
  refine Sat.bind (sat_encNegOne hF (h.enc1' hv)) fun v' hv' => ?_
  refine Sat.bind (sat_colCurrents h (fun i j hi hj =>
    sat_iaDiffTerm (h.ia (h.lt (hv'.trans hv)) hi hj)) (t := r.2.fill 0) hr (h.lt (hv'.trans hv))) fun t ht => ?_
  refine Sat.bind (Sat.fdiv hF _ _ _) fun sc _ => ?_
  refine Sat.bind (h.conv ht) fun r hr => ?_
  refine Sat.bind (sat_subTmp h hr hr1) fun r' hr' => ?_
  exact ⟨h.aux.fin1 (hv'.trans hv) hr _, hr'⟩

theorem sat_aMvmTnnIII (h : AMvmOk F E cfg c a res vec m n) :
    Sat F (aMvmTnnIII E cfg c a res vec m n l) (MvmPost cfg res m) := by
  have hF := h.lax
  unfold aMvmTnnIII
  refine Sat.bind (sat_encBit0 hF h.enc1) fun v hv => ?_
  refine Sat.bind (sat_colCurrents h (fun i j hi hj => sat_iaDiffTerm (h.ia (h.lt hv) hi hj))
    h.aux.tmp (h.lt hv)) fun t ht => ?_
  refine Sat.bind (Sat.fdiv hF _ _ _) fun sc _ => ?_
  refine Sat.bind (h.conv ht) fun r hr => ?_
  refine Sat.bind (sat_addTmp h hr (Keep.refl _)) fun r1 hr1 => ?_
  refine Sat.bind (sat_encBit1 hF (h.enc1' hv)) fun v' hv' => ?_
  refine Sat.bind (sat_colCurrents h (fun i j hi hj =>
    sat_iaDiffTerm (h.ia (h.lt (hv'.trans hv)) hi hj)) (t := r.2.fill 0) hr (h.lt (hv'.trans hv))) fun t ht => ?_
  refine Sat.bind (Sat.fdiv hF _ _ _) fun sc _ => ?_
  refine Sat.bind (h.conv ht) fun r hr => ?_
  refine Sat.bind (sat_addTmp h hr hr1) fun r' hr' => ?_
  refine Sat.bind (h.updS hr' (Sat.subI hF)) fun r' hr' => ?_
  exact ⟨h.aux.fin1 (hv'.trans hv) hr _, hr'⟩

theorem sat_fVec (h : AMvmOk F E cfg c a res vec m n) {t u : Vec K} (ht : t.size = cfg.M)
    (hu : u.size = cfg.M) :
    Sat F (faddVec E t m u) (fun r => r.size = cfg.M) ∧
    Sat F (fsubVec E t m u) (fun r => r.size = cfg.M) := by
  have hb : ¬F .oob → m ≤ u.size := fun hn => by have := h.fits hn; omega
  constructor
  · refine (Sat.updG hb fun i x hi => ?_).mono fun _ hw => hw.trans hu
    exact Sat.bind (Sat.vrd' (h.atM ht hi)) fun _ _ => trivial
  · refine (Sat.updG hb fun i x hi => ?_).mono fun _ hw => hw.trans hu
    exact Sat.bind (Sat.vrd' (h.atM ht hi)) fun _ _ => trivial

theorem sat_tcStep (h : AMvmOk F E cfg c a res vec m n) {A : Mat K} (hA : A.Is cfg.R cfg.N)
    (hv : ¬F .oob → n ≤ v.size) {s o : K} {t : Vec K} (ht : t.size = cfg.M)
    {hs : List (String × Hist K)} :
    Sat F (tcStep E cfg c A v m n s o l t hs) fun r => r.2.size = cfg.M := by
  unfold tcStep
  refine Sat.bind (Sat.accG (fun hn => by have := h.fits hn; rw [Vec.fill_size]; omega)
    (fun i j hi hj => sat_iaTerm fun hn => by
      have := h.fits hn; have := hv hn; have := hA.1; have := hA.2; omega)
    fun _ _ => Sat.faddC _ _ _) fun t' ht' => ?_
  exact h.conv (ht'.trans ht)

theorem sat_tcSolve (h : AMvmOk F E cfg c a res vec m n) (hp : cfg.parasitics = true)
    (h2 : Spec.taps cfg m = 2 * m) (hv : ¬F .oob → n ≤ v.size)
    {s1 s2 o : K} {t u : Vec K} (ht : t.size = cfg.M) (hu : u.size = cfg.M)
    {hs : List (String × Hist K)} :
    Sat F (tcSolve E cfg c v m n s1 s2 o l t u hs) fun r => r.2.1.size = cfg.M ∧
      r.2.2.1.size = cfg.M ∧ r.2.2.2.size = cfg.M := by
  have hm : ¬F .oob → 2 * m ≤ cfg.M := fun hn => by
    have := (h.parOk.oob hn hp).2.2.1; omega
  unfold tcSolve
  split
  · next hn => exact Sat.err (h.nullOk hp hn)
  · next s hs =>
    refine Sat.bind (sat_solve h hp hs (fun _ => h2.ge) hv fun _ e => nomatch e) fun x hx => ?_
    refine Sat.bind (Sat.setG (fun hn => by have := hm hn; omega) fun i _ => Sat.vrd' fun hn => by
      have := hm hn; omega) fun t' ht' => ?_
    refine Sat.bind (Sat.setG (fun hn => by have := hm hn; omega) fun i _ => Sat.vrd' fun hn => by
      have := hm hn; omega) fun u' hu' => ?_
    refine Sat.bind (h.conv (ht'.trans ht)) fun r hr => ?_
    refine Sat.bind (h.conv (hu'.trans hu)) fun r' hr' => ?_
    exact ⟨hx, hr, hr'⟩

theorem AMvmOk.fpM (h : AMvmOk F E cfg c a res vec m n) (hi : cfg.mode.isInt = false) :
    a.tmpFp.size = cfg.M := by
  have := h.aux.tmpFp fun h => by rw [hi] at h; cases h
  rwa [hi] at this

theorem sat_aMvmTnnIV (h : AMvmOk F E cfg c a res vec m n) (hi : cfg.mode.isInt = false)
    (h2 : Spec.taps cfg m = 2 * m) :
    Sat F (aMvmTnnIV E cfg c a res vec m n l) (MvmPost cfg res m) := by
  have hF := h.lax
  have ha := h.aux
  unfold aMvmTnnIV
  refine Sat.ite (fun _ => Sat.err (hF _ (by decide) (by decide))) fun _ => ?_
  refine Sat.bind (sat_inpSum hF h.hvec) fun _ _ => ?_
  refine Sat.bind (sat_encTern hF h.enc) fun v hv => ?_
  dsimp only
  refine Sat.bind (Sat.fdiv hF _ _ _) fun _ _ => Sat.bind (Sat.fdiv hF _ _ _) fun _ _ =>
    Sat.bind (Sat.fdiv hF _ _ _) fun _ _ => Sat.bind (Sat.fdiv hF _ _ _) fun _ _ => ?_
  have hfp : (a.tmpFp.fill 0).size = cfg.M := h.fpM hi
  refine Sat.ite (fun hp => ?_) fun hp => ?_
  · refine Sat.bind (sat_tcSolve h hp h2 (h.lt hv.1) ha.tmpLsb ha.tmpMsb) fun r hr => ?_
    refine Sat.bind (sat_fVec h hr.2.1 hfp).1 fun fp hfp => ?_
    refine Sat.bind (sat_fVec h hr.2.2 hfp).2 fun fp hfp => ?_
    refine Sat.bind (sat_tcSolve h hp h2 (h.ltM hv.2) hr.2.1 hr.2.2) fun r hr => ?_
    refine Sat.bind (sat_fVec h hr.2.1 hfp).2 fun fp hfp => ?_
    refine Sat.bind (sat_fVec h hr.2.2 hfp).1 fun fp hfp => ?_
    refine Sat.bind (sat_addTmp h hfp (Keep.refl _)) fun r' hr' => ?_
    exact ⟨⟨hv.1.trans ha.vdP, hv.2.trans ha.vdM, ha.vdSlice, ha.tmpInt, fun _ => by
      rw [hi]; exact hfp, hr.1, ha.tmpP, ha.tmpM, hr.2.1, hr.2.2, ha.resFp⟩, hr'⟩
  · refine Sat.bind (sat_tcStep h h.core.ia.p (h.lt hv.1) ha.tmp) fun r hr => ?_
    refine Sat.bind (sat_fVec h hr hfp).1 fun fp hfp => ?_
    refine Sat.bind (sat_tcStep h h.core.ia.p (h.ltM hv.2) hr) fun r hr => ?_
    refine Sat.bind (sat_fVec h hr hfp).2 fun fp hfp => ?_
    refine Sat.bind (sat_tcStep h h.core.ia.m (h.lt hv.1) hr) fun r hr => ?_
    refine Sat.bind (sat_fVec h hr hfp).2 fun fp hfp => ?_
    refine Sat.bind (sat_tcStep h h.core.ia.m (h.ltM hv.2) hr) fun r hr => ?_
    refine Sat.bind (sat_fVec h hr hfp).1 fun fp hfp => ?_
    refine Sat.bind (sat_addTmp h hfp (Keep.refl _)) fun r' hr' => ?_
    exact ⟨⟨hv.1.trans ha.vdP, hv.2.trans ha.vdM, ha.vdSlice, ha.tmpInt, fun _ => by
      rw [hi]; exact hfp, hr, ha.tmpP, ha.tmpM, ha.tmpLsb, ha.tmpMsb, ha.resFp⟩, hr'⟩

theorem sat_aMvmTnnV (h : AMvmOk F E cfg c a res vec m n) (hi : cfg.mode.isInt = false)
    (h2 : Spec.taps cfg m = 2 * m) :
    Sat F (aMvmTnnV E cfg c a res vec m n l) (MvmPost cfg res m) := by
  have hF := h.lax
  have ha := h.aux
  unfold aMvmTnnV
  refine Sat.ite (fun _ => Sat.err (hF _ (by decide) (by decide))) fun _ => ?_
  refine Sat.bind (sat_inpSum hF h.hvec) fun _ _ => ?_
  refine Sat.bind (sat_encTern hF h.enc) fun v hv => ?_
  dsimp only
  refine Sat.bind (Sat.i64 hF _) fun _ _ => ?_
  refine Sat.bind (Sat.fdiv hF _ _ _) fun _ _ => Sat.bind (Sat.fdiv hF _ _ _) fun _ _ => ?_
  have hfp : (a.tmpFp.fill 0).size = cfg.M := h.fpM hi
  have hfin : ∀ {fp : Vec K} {sum : Int}, fp.size = cfg.M → Sat F (loop m (fun i res => do
      let y ← fp.rd i
      let res ← updAt res i (fun x => E.iaddf x y)
      updAt res i (fun x => do
        let d ← i64 (x - sum)
        .ok (wrap32 d))) res) (Keep m res) := fun hfp => by
    refine Sat.loop (Keep.refl _) fun i him r hr => ?_
    refine Sat.bind (Sat.vrd' (h.atM hfp him)) fun _ _ => ?_
    refine Sat.bind (Sat.updAtK him (h.resAt hr him) fun _ => Sat.iaddf hF _ _ _) fun r' hr' => ?_
    refine (Sat.updAtK him (h.resAt (hr.trans hr') him) fun _ => ?_).mono
      fun _ hw => (hr.trans hr').trans hw
    exact Sat.bind (Sat.i64 hF _) fun _ _ => trivial
  refine Sat.ite (fun hp => ?_) fun hp => ?_
  · refine Sat.bind (sat_tcSolve h hp h2 (h.lt hv.1) ha.tmpLsb ha.tmpMsb) fun r hr => ?_
    refine Sat.bind (sat_fVec h hr.2.1 hfp).1 fun fp hfp => ?_
    refine Sat.bind (sat_fVec h hr.2.2 hfp).1 fun fp hfp => ?_
    refine Sat.bind (sat_tcSolve h hp h2 (h.ltM hv.2) hr.2.1 hr.2.2) fun r hr => ?_
    refine Sat.bind (sat_fVec h hr.2.1 hfp).2 fun fp hfp => ?_
    refine Sat.bind (sat_fVec h hr.2.2 hfp).2 fun fp hfp => ?_
    refine Sat.bind (hfin hfp) fun r' hr' => ?_
    exact ⟨⟨hv.1.trans ha.vdP, hv.2.trans ha.vdM, ha.vdSlice, ha.tmpInt, fun _ => by
      rw [hi]; exact hfp, hr.1, ha.tmpP, ha.tmpM, hr.2.1, hr.2.2, ha.resFp⟩, hr'⟩
  · refine Sat.bind (sat_tcStep h h.core.ia.p (h.lt hv.1) ha.tmp) fun r hr => ?_
    refine Sat.bind (sat_fVec h hr hfp).1 fun fp hfp => ?_
    refine Sat.bind (sat_tcStep h h.core.ia.p (h.ltM hv.2) hr) fun r hr => ?_
    refine Sat.bind (sat_fVec h hr hfp).2 fun fp hfp => ?_
    refine Sat.bind (sat_tcStep h h.core.ia.m (h.lt hv.1) hr) fun r hr => ?_
    refine Sat.bind (sat_fVec h hr hfp).1 fun fp hfp => ?_
    refine Sat.bind (sat_tcStep h h.core.ia.m (h.ltM hv.2) hr) fun r hr => ?_
    refine Sat.bind (sat_fVec h hr hfp).2 fun fp hfp => ?_
    refine Sat.bind (hfin hfp) fun r' hr' => ?_
    exact ⟨⟨hv.1.trans ha.vdP, hv.2.trans ha.vdM, ha.vdSlice, ha.tmpInt, fun _ => by
      rw [hi]; exact hfp, hr, ha.tmpP, ha.tmpM, ha.tmpLsb, ha.tmpMsb, ha.resFp⟩, hr'⟩

theorem sat_aMvm (h : AMvmOk F E cfg c a res vec m n) :
    Sat F (aMvm E cfg c a res vec m n l) (MvmPost cfg res m) := by
  have hm := h.core.mode
  unfold aMvm
  split
  · next hk => exact sat_aMvmIntI h (by rw [← hm, hk]; rfl)
  · next hk => exact sat_aMvmIntI h (by rw [← hm, hk]; rfl)
  · next hk => exact sat_aMvmIntII h (by rw [← hm, hk]; rfl)
  · next hk => exact sat_aMvmIntIII h (by rw [← hm, hk]; rfl)
  · next hk => exact sat_aMvmIntIV h (by rw [← hm, hk]; rfl)
  · next hk => exact sat_aMvmIntV h (by rw [← hm, hk]; rfl)
  · exact sat_aMvmBnnI h
  · exact sat_aMvmBnnII h
  · exact sat_aMvmBnnIII h
  · exact sat_aMvmBnnIV h
  · exact sat_aMvmBnnV h
  · exact sat_aMvmBnnVI h
  · exact sat_aMvmTnnI h
  · exact sat_aMvmTnnII h
  · exact sat_aMvmTnnIII h
  · next hk => exact sat_aMvmTnnIV h (by rw [← hm, hk]; rfl) (by
    unfold Spec.taps; rw [← hm, hk]; simp)
  · next hk => exact sat_aMvmTnnV h (by rw [← hm, hk]; rfl) (by
    unfold Spec.taps; rw [← hm, hk]; simp)

end

end Acs
