import Verif.Lemmas.Safe

/-! # Safety pass over the multiplications -/

set_option linter.unusedSectionVars false

namespace Acs

section
variable {K : Type} [Field K] [LinearOrder K] [IsStrictOrderedRing K] [FloorRing K]
variable {F : Fault → Prop} {E : Env K} {cfg : Cfg K} {c : Core K} {a : Aux K} {gd : Gd}
variable {vec res v w : Vec Int} {m n : Nat}

/-! ## Encoders -/

theorem sat_encSigned (hF : Lax F) (h : ¬F .oob → n ≤ vec.size ∧ n ≤ v.size ∧ n ≤ w.size) :
    Sat F (encSigned n vec v w) fun r => r.1.size = v.size ∧ r.2.size = w.size := by
  unfold encSigned
  refine Sat.loop ⟨rfl, rfl⟩ fun i hi st hs => ?_
  refine Sat.bind (Sat.vrd' fun hn => by have := h hn; omega) fun x _ => ?_
  refine Sat.ite (fun _ => ?_) fun _ => ?_
  · refine Sat.bind (Sat.vwr fun hn => by have := h hn; omega) fun p hp => ?_
    exact Sat.bind (Sat.vwr fun hn => by have := h hn; omega) fun q hq =>
      ⟨hp.trans hs.1, hq.trans hs.2⟩
  · refine Sat.bind (Sat.vwr fun hn => by have := h hn; omega) fun p hp => ?_
    refine Sat.bind (Sat.negI hF _) fun _ _ => ?_
    exact Sat.bind (Sat.vwr fun hn => by have := h hn; omega) fun q hq =>
      ⟨hp.trans hs.1, hq.trans hs.2⟩

theorem sat_encPM (hF : Lax F) (h : ¬F .oob → n ≤ vec.size ∧ n ≤ v.size ∧ n ≤ w.size) :
    Sat F (encPM n vec v w) fun r => r.1.size = v.size ∧ r.2.size = w.size := by
  unfold encPM
  refine Sat.loop ⟨rfl, rfl⟩ fun i hi st hs => ?_
  refine Sat.bind (Sat.vrd' fun hn => by have := h hn; omega) fun x _ => ?_
  refine Sat.ite (fun _ => ?_) fun _ => Sat.ite (fun _ => ?_) fun _ =>
    Sat.err (hF _ (by decide) (by decide))
  · refine Sat.bind (Sat.vwr fun hn => by have := h hn; omega) fun p hp => ?_
    exact Sat.bind (Sat.vwr fun hn => by have := h hn; omega) fun q hq =>
      ⟨hp.trans hs.1, hq.trans hs.2⟩
  · refine Sat.bind (Sat.vwr fun hn => by have := h hn; omega) fun q hq => ?_
    exact Sat.bind (Sat.vwr fun hn => by have := h hn; omega) fun p hp =>
      ⟨hp.trans hs.1, hq.trans hs.2⟩

theorem sat_encPMSum (hF : Lax F) (h : ¬F .oob → n ≤ vec.size ∧ n ≤ v.size ∧ n ≤ w.size) :
    Sat F (encPMSum n vec v w) fun r => r.1.1.size = v.size ∧ r.1.2.size = w.size := by
  unfold encPMSum
  refine Sat.loop ⟨rfl, rfl⟩ fun i hi st hs => ?_
  refine Sat.bind (Sat.vrd' fun hn => by have := h hn; omega) fun x _ => ?_
  refine Sat.bind (Sat.addI hF _ _) fun _ _ => ?_
  refine Sat.ite (fun _ => ?_) fun _ => Sat.ite (fun _ => ?_) fun _ =>
    Sat.err (hF _ (by decide) (by decide))
  · refine Sat.bind (Sat.vwr fun hn => by have := h hn; omega) fun p hp => ?_
    exact Sat.bind (Sat.vwr fun hn => by have := h hn; omega) fun q hq =>
      ⟨hp.trans hs.1, hq.trans hs.2⟩
  · refine Sat.bind (Sat.vwr fun hn => by have := h hn; omega) fun q hq => ?_
    exact Sat.bind (Sat.vwr fun hn => by have := h hn; omega) fun p hp =>
      ⟨hp.trans hs.1, hq.trans hs.2⟩

theorem sat_encTern (hF : Lax F) (h : ¬F .oob → n ≤ vec.size ∧ n ≤ v.size ∧ n ≤ w.size) :
    Sat F (encTern n vec v w) fun r => r.1.size = v.size ∧ r.2.size = w.size := by
  unfold encTern
  refine Sat.loop ⟨rfl, rfl⟩ fun i hi st hs => ?_
  refine Sat.bind (Sat.vrd' fun hn => by have := h hn; omega) fun x _ => ?_
  refine Sat.ite (fun _ => ?_) fun _ => Sat.ite (fun _ => ?_) fun _ => Sat.ite (fun _ => ?_) fun _ =>
    Sat.err (hF _ (by decide) (by decide))
  · refine Sat.bind (Sat.vwr fun hn => by have := h hn; omega) fun p hp => ?_
    exact Sat.bind (Sat.vwr fun hn => by have := h hn; omega) fun q hq =>
      ⟨hp.trans hs.1, hq.trans hs.2⟩
  · refine Sat.bind (Sat.vwr fun hn => by have := h hn; omega) fun q hq => ?_
    exact Sat.bind (Sat.vwr fun hn => by have := h hn; omega) fun p hp =>
      ⟨hp.trans hs.1, hq.trans hs.2⟩
  · refine Sat.bind (Sat.vwr fun hn => by have := h hn; omega) fun q hq => ?_
    exact Sat.bind (Sat.vwr fun hn => by have := h hn; omega) fun p hp =>
      ⟨hp.trans hs.1, hq.trans hs.2⟩

section
variable (hF : Lax F) (h : ¬F .oob → n ≤ vec.size ∧ n ≤ v.size)
include hF h

theorem sat_encOffs (st : Bool) (k : Nat) :
    Sat F (encOffs st k n vec v) fun r => r.size = v.size := by
  refine Sat.setG (fun hn => (h hn).2) fun i hi => ?_
  refine Sat.bind (Sat.shlI hF _ _ _) fun _ _ => Sat.bind (Sat.vrd' fun hn => ?_) fun _ _ =>
    Sat.addI hF _ _
  have := h hn; omega
theorem sat_encMask (k : Int) : Sat F (encMask k n vec v) fun r => r.size = v.size := by
  refine Sat.setG (fun hn => (h hn).2) fun i hi => ?_
  sat_reads
  intro hn; have := h hn; omega
theorem sat_encCopy : Sat F (encCopy n vec v) fun r => r.size = v.size := by
  refine Sat.setG (fun hn => (h hn).2) fun i hi => ?_
  sat_reads
  intro hn; have := h hn; omega
theorem sat_encBnn1 : Sat F (encBnn1 n vec v) fun r => r.size = v.size := by
  refine Sat.setG (fun hn => (h hn).2) fun i hi => ?_
  sat_reads
  intro hn; have := h hn; omega
theorem sat_encBnn2 : Sat F (encBnn2 n vec v) fun r => r.size = v.size := by
  refine Sat.setG (fun hn => (h hn).2) fun i hi => ?_
  sat_reads
  intro hn; have := h hn; omega
theorem sat_encNonzero : Sat F (encNonzero n vec v) fun r => r.size = v.size := by
  refine Sat.setG (fun hn => (h hn).2) fun i hi => ?_
  sat_reads
  intro hn; have := h hn; omega
theorem sat_encNegOne : Sat F (encNegOne n vec v) fun r => r.size = v.size := by
  refine Sat.setG (fun hn => (h hn).2) fun i hi => ?_
  sat_reads
  intro hn; have := h hn; omega
theorem sat_encBit0 : Sat F (encBit0 n vec v) fun r => r.size = v.size := by
  refine Sat.setG (fun hn => (h hn).2) fun i hi => ?_
  sat_reads
  intro hn; have := h hn; omega
theorem sat_encBit1 : Sat F (encBit1 n vec v) fun r => r.size = v.size := by
  refine Sat.setG (fun hn => (h hn).2) fun i hi => ?_
  sat_reads
  intro hn; have := h hn; omega
theorem sat_sliceVd (bit : Nat) : Sat F (sliceVd vec v n bit) fun r => r.size = v.size := by
  refine Sat.setG (fun hn => (h hn).2) fun i hi => ?_
  sat_reads
  intro hn; have := h hn; omega

omit h in
theorem sat_inpSum (h : ¬F .oob → n ≤ vec.size) : Sat F (inpSum n vec) fun _ => True := by
  refine Sat.loop trivial fun i hi s _ => ?_
  sat_reads
  intro hn; have := h hn; omega
end

/-! ## Terms -/

section
variable {t j : Nat} (hF : Lax F)
  (h : ¬F .oob → t < gd.p.rows ∧ j < gd.p.cols ∧ t < gd.m.rows ∧ j < gd.m.cols ∧ j < v.size)
include hF h

theorem sat_diffTerm : Sat F (diffTerm gd v t j) fun _ => True := by
  unfold diffTerm
  sat_reads <;> (intro hn; have := h hn; omega)
theorem sat_diffTermNeg : Sat F (diffTermNeg gd v t j) fun _ => True := by
  unfold diffTermNeg
  sat_reads <;> (intro hn; have := h hn; omega)
theorem sat_posTerm : Sat F (posTerm gd v t j) fun _ => True := by
  unfold posTerm
  sat_reads <;> (intro hn; have := h hn; omega)
theorem sat_diffTerm2 (st : Bool) : Sat F (diffTerm2 st gd v t j) fun _ => True :=
  Sat.bind (sat_diffTerm hF h) fun _ _ => Sat.shlI hF _ _ _
variable (h' : ¬F .oob → j < w.size)
include h'
theorem sat_bnn34Term : Sat F (bnn34Term gd v w t j) fun _ => True := by
  unfold bnn34Term
  sat_reads <;> (intro hn; have := h hn; have := h' hn; omega)
theorem sat_bnn5Term (st : Bool) : Sat F (bnn5Term st gd v w t j) fun _ => True := by
  unfold bnn5Term
  sat_reads <;> (intro hn; have := h hn; have := h' hn; omega)
theorem sat_quadTerm : Sat F (quadTerm gd v w t j) fun _ => True := by
  unfold quadTerm
  sat_reads <;> (intro hn; have := h hn; have := h' hn; omega)
theorem sat_tcTerms (st : Bool) : Sat F (tcTerms st gd v w t j) fun _ => True := by
  unfold tcTerms
  sat_reads <;> (intro hn; have := h hn; have := h' hn; omega)
end

theorem sat_shiftedTmp (hF : Lax F) {st : Bool} {S i s : Nat} {shift : Vec Nat} {t : Vec Int}
    (h : ¬F .oob → i * S + s < t.size) (h' : s < shift.size) :
    Sat F (shiftedTmp st S shift t i s) fun _ => True := by
  unfold shiftedTmp
  sat_reads
  · exact h
  · exact fun _ => h'

theorem sat_sumShift (hF : Lax F) {st : Bool} {k i : Nat} (h : ¬F .oob → i < gd.sumW.size) :
    Sat F (sumShift st k gd i) fun _ => True := by
  unfold sumShift
  sat_reads
  exact h

/-- Hypotheses of a multiplication. -/
structure MvmOk (F : Fault → Prop) (E : Env K) (cfg : Cfg K) (c : Core K) (a : Aux K)
    (res vec : Vec Int) (m n : Nat) : Prop where
  lax : Lax F
  core : CoreShape E cfg c
  aux : AuxShape cfg a
  fits : Fits F cfg m n
  hres : ¬F .oob → m ≤ res.size
  hvec : ¬F .oob → n ≤ vec.size

/-- What is known after a multiplication. -/
def MvmPost (cfg : Cfg K) (res : Vec Int) (m : Nat) (r : Aux K × Vec Int) : Prop :=
  AuxShape cfg r.1 ∧ Keep m res r.2

theorem MvmOk.enc (h : MvmOk F E cfg c a res vec m n) :
    ¬F .oob → n ≤ vec.size ∧ n ≤ a.vdP.size ∧ n ≤ a.vdM.size := fun hn => by
  have := h.fits hn; have := h.hvec hn; have := h.aux.vdP; have := h.aux.vdM; omega

theorem MvmOk.enc1 (h : MvmOk F E cfg c a res vec m n) :
    ¬F .oob → n ≤ vec.size ∧ n ≤ a.vdP.size := fun hn => by have := h.enc hn; omega

theorem MvmOk.cellS (h : MvmOk F E cfg c a res vec m n) {v : Vec Int} (hv : ¬F .oob → n ≤ v.size)
    {t j : Nat} (ht : t < m * cfg.S) (hj : j < n) : ¬F .oob → t < c.gd.p.rows ∧ j < c.gd.p.cols ∧
    t < c.gd.m.rows ∧ j < c.gd.m.cols ∧ j < v.size := fun hn => by
  have := h.fits hn; have := hv hn
  have := h.core.gd.p.1; have := h.core.gd.p.2; have := h.core.gd.m.1; have := h.core.gd.m.2; omega

theorem MvmOk.cell (h : MvmOk F E cfg c a res vec m n) {v : Vec Int} (hv : ¬F .oob → n ≤ v.size)
    {t j : Nat} (ht : t < m) (hj : j < n) : ¬F .oob → t < c.gd.p.rows ∧ j < c.gd.p.cols ∧
    t < c.gd.m.rows ∧ j < c.gd.m.cols ∧ j < v.size := fun hn => by
  have := h.fits hn; have := hv hn
  have := h.core.gd.p.1; have := h.core.gd.p.2; have := h.core.gd.m.1; have := h.core.gd.m.2; omega

theorem MvmOk.lt (h : MvmOk F E cfg c a res vec m n) {v : Vec Int} (hv : v.size = a.vdP.size) :
    ¬F .oob → n ≤ v.size := fun hn => by have := h.enc hn; omega
theorem MvmOk.ltM (h : MvmOk F E cfg c a res vec m n) {v : Vec Int} (hv : v.size = a.vdM.size) :
    ¬F .oob → n ≤ v.size := fun hn => by have := h.enc hn; omega
theorem MvmOk.at (h : MvmOk F E cfg c a res vec m n) {v : Vec Int} (hv : ¬F .oob → n ≤ v.size)
    {j : Nat} (hj : j < n) : ¬F .oob → j < v.size := fun hn => by have := hv hn; omega
theorem MvmOk.resAt (h : MvmOk F E cfg c a res vec m n) {r : Vec Int} (hr : Keep m res r)
    {i : Nat} (hi : i < m) : ¬F .oob → i < r.size := fun hn => by
  have := h.hres hn; have := hr.size; omega
theorem MvmOk.tmpInt (h : MvmOk F E cfg c a res vec m n) : ¬F .oob → m * cfg.S ≤ a.tmpInt.size :=
  fun hn => by have := h.fits hn; have := h.aux.tmpInt; omega

/-- Accumulation of digital partial sums. -/
theorem MvmOk.acc (h : MvmOk F E cfg c a res vec m n) {add : Int → Int → C Int}
    (ha : ∀ a b, Sat F (add a b) fun _ => True) {t r : Vec Int}
    (ht : t.size = a.tmpInt.size) (hr : Keep m res r) :
    Sat F (accG add m cfg.S (shiftedTmp E.strict cfg.S c.shift t) r) (Keep m res) :=
  (Sat.accGK (fun hn => by have := h.hres hn; have := hr.size; omega)
    (fun i s hi hs => sat_shiftedTmp h.lax (fun hn => by
      have := h.tmpInt hn; have := blk_lt hi hs; omega) (by rw [h.core.shift_size]; exact hs))
    ha).mono fun _ hw => hr.trans hw

theorem MvmOk.accRow (h : MvmOk F E cfg c a res vec m n) {t r : Vec Int} {i : Nat} (hi : i < m)
    (ht : t.size = a.tmpInt.size) (hr : Keep m res r) :
    Sat F (Acs.accRow addI i cfg.S (shiftedTmp E.strict cfg.S c.shift t i) r)
      (Keep m res) :=
  (Sat.accRowK hi (fun hn _ => by have := h.hres hn; have := hr.size; omega)
    (fun s hs => sat_shiftedTmp h.lax (fun hn => by
      have := h.tmpInt hn; have := blk_lt hi hs; omega) (by rw [h.core.shift_size]; exact hs))
    (Sat.addI h.lax)).mono fun _ hw => hr.trans hw

theorem MvmOk.sumW (h : MvmOk F E cfg c a res vec m n) {i : Nat} (hi : i < m) :
    ¬F .oob → i < c.gd.sumW.size := fun hn => by
  have := h.fits hn; have := h.core.gd.sumW; omega

theorem sat_dMvmIntI (h : MvmOk F E cfg c a res vec m n) :
    Sat F (dMvmIntI E cfg c a res vec m n) (MvmPost cfg res m) := by
  unfold dMvmIntI
  have hF := h.lax
  refine Sat.bind (sat_encSigned hF h.enc) fun v hv => ?_
  refine Sat.bind (Sat.accG h.tmpInt (fun t j ht hj =>
    sat_diffTerm hF (h.cellS (h.lt hv.1) ht hj)) (Sat.addI hF)) fun t ht => ?_
  refine Sat.bind (h.acc (Sat.addI hF) ht (Keep.refl _)) fun r hr => ?_
  refine Sat.bind (Sat.accG (fun hn => by rw [Vec.fill_size, ht]; exact h.tmpInt hn) (fun t j ht hj =>
    sat_diffTermNeg hF (h.cellS (h.ltM hv.2) ht hj)) (Sat.addI hF)) fun t' ht' => ?_
  refine Sat.bind (h.acc (Sat.addI hF) (ht'.trans ht) hr) fun r hr => ?_
  have ha := h.aux
  exact ⟨⟨hv.1.trans ha.vdP, hv.2.trans ha.vdM, ha.vdSlice, (ht'.trans ht).trans ha.tmpInt, ha.tmpFp,
    ha.tmp, ha.tmpP, ha.tmpM, ha.tmpLsb, ha.tmpMsb, ha.resFp⟩, hr⟩

theorem sat_dMvmIntII (h : MvmOk F E cfg c a res vec m n) :
    Sat F (dMvmIntII E cfg c a res vec m n) (MvmPost cfg res m) := by
  unfold dMvmIntII
  have hF := h.lax
  refine Sat.bind (sat_encOffs hF h.enc1 _ _) fun v hv => ?_
  refine Sat.bind (Sat.accG h.tmpInt (fun t j ht hj =>
    sat_diffTerm hF (h.cellS (h.lt hv) ht hj)) (Sat.addI hF)) fun t ht => ?_
  refine Sat.bind (P := Keep m res) (Sat.loop (Keep.refl _) fun i hi r hr => ?_) fun r hr => ?_
  · refine Sat.bind (h.accRow hi ht hr) fun r hr => ?_
    refine Sat.bind (sat_sumShift hF (h.sumW hi)) fun k _ => ?_
    exact (Sat.updAtK hi (h.resAt hr hi) fun _ => Sat.subI hF _ _).mono fun _ hw => hr.trans hw
  have ha := h.aux
  exact ⟨⟨hv.trans ha.vdP, ha.vdM, ha.vdSlice, ht.trans ha.tmpInt, ha.tmpFp,
    ha.tmp, ha.tmpP, ha.tmpM, ha.tmpLsb, ha.tmpMsb, ha.resFp⟩, hr⟩

theorem sat_dMvmIntIII (h : MvmOk F E cfg c a res vec m n) :
    Sat F (dMvmIntIII E cfg c a res vec m n) (MvmPost cfg res m) := by
  unfold dMvmIntIII
  have hF := h.lax
  refine Sat.bind (Sat.maskOf hF _ _) fun _ _ => ?_
  refine Sat.bind (sat_encMask hF h.enc1 _) fun v hv => ?_
  refine Sat.bind (Sat.accG h.tmpInt (fun t j ht hj =>
    sat_diffTerm hF (h.cellS (h.lt hv) ht hj)) (Sat.addI hF)) fun t ht => ?_
  refine Sat.bind (Sat.shlI hF _ _ _) fun _ _ => ?_
  refine Sat.bind (sat_encMask hF (fun hn => by have := h.enc1 hn; omega) _) fun v' hv' => ?_
  refine Sat.bind (Sat.accG (fun hn => by rw [ht]; exact h.tmpInt hn) (fun t j ht hj =>
    sat_diffTerm hF (h.cellS (h.lt (hv'.trans hv)) ht hj)) (Sat.subI hF)) fun t' ht' => ?_
  refine Sat.bind (h.acc (Sat.addI hF) (ht'.trans ht) (Keep.refl _)) fun r hr => ?_
  have ha := h.aux
  exact ⟨⟨(hv'.trans hv).trans ha.vdP, ha.vdM, ha.vdSlice, (ht'.trans ht).trans ha.tmpInt, ha.tmpFp,
    ha.tmp, ha.tmpP, ha.tmpM, ha.tmpLsb, ha.tmpMsb, ha.resFp⟩, hr⟩

theorem sat_dMvmIntIV (h : MvmOk F E cfg c a res vec m n) :
    Sat F (dMvmIntIV E cfg c a res vec m n) (MvmPost cfg res m) := by
  unfold dMvmIntIV
  have hF := h.lax
  refine Sat.bind (Sat.accG h.tmpInt (fun t j ht hj =>
    sat_diffTerm hF (h.cellS h.hvec ht hj)) (Sat.addI hF)) fun t ht => ?_
  refine Sat.bind (h.acc (Sat.addI hF) ht (Keep.refl _)) fun r hr => ?_
  have ha := h.aux
  exact ⟨⟨ha.vdP, ha.vdM, ha.vdSlice, ht.trans ha.tmpInt, ha.tmpFp,
    ha.tmp, ha.tmpP, ha.tmpM, ha.tmpLsb, ha.tmpMsb, ha.resFp⟩, hr⟩

theorem sat_dMvmIntV (h : MvmOk F E cfg c a res vec m n) :
    Sat F (dMvmIntV E cfg c a res vec m n) (MvmPost cfg res m) := by
  unfold dMvmIntV
  have hF := h.lax
  refine Sat.bind (sat_inpSum hF h.hvec) fun _ _ => ?_
  refine Sat.bind (Sat.accG h.tmpInt (fun t j ht hj =>
    sat_posTerm hF (h.cellS h.hvec ht hj)) (Sat.addI hF)) fun t ht => ?_
  refine Sat.bind (P := Keep m res) (Sat.loop (Keep.refl _) fun i hi r hr => ?_) fun r hr => ?_
  · refine Sat.bind (h.accRow hi ht hr) fun r hr => ?_
    refine Sat.bind (Sat.shlL hF _ _ _) fun k _ => ?_
    refine (Sat.updAtK hi (h.resAt hr hi) fun _ => ?_).mono fun _ hw => hr.trans hw
    exact Sat.bind (Sat.i64 hF _) fun _ _ => trivial
  have ha := h.aux
  exact ⟨⟨ha.vdP, ha.vdM, ha.vdSlice, ht.trans ha.tmpInt, ha.tmpFp,
    ha.tmp, ha.tmpP, ha.tmpM, ha.tmpLsb, ha.tmpMsb, ha.resFp⟩, hr⟩

/-! ## Binary and ternary digital multiplications -/

theorem AuxShape.vp (ha : AuxShape cfg a) (hv : v.size = a.vdP.size) :
    AuxShape cfg { a with vdP := v } :=
  ⟨hv.trans ha.vdP, ha.vdM, ha.vdSlice, ha.tmpInt, ha.tmpFp,
    ha.tmp, ha.tmpP, ha.tmpM, ha.tmpLsb, ha.tmpMsb, ha.resFp⟩

theorem AuxShape.vpm (ha : AuxShape cfg a) (hv : v.size = a.vdP.size) (hw : w.size = a.vdM.size) :
    AuxShape cfg { a with vdP := v, vdM := w } :=
  ⟨hv.trans ha.vdP, hw.trans ha.vdM, ha.vdSlice, ha.tmpInt, ha.tmpFp,
    ha.tmp, ha.tmpP, ha.tmpM, ha.tmpLsb, ha.tmpMsb, ha.resFp⟩

/-- An accumulation into the result. -/
theorem MvmOk.accB (h : MvmOk F E cfg c a res vec m n) {add : Int → Int → C Int}
    {term : Nat → Nat → C Int} {r : Vec Int} (hr : Keep m res r)
    (ht : ∀ i j, i < m → j < n → Sat F (term i j) fun _ => True)
    (ha : ∀ a b, Sat F (add a b) fun _ => True) :
    Sat F (accG add m n term r) (Keep m res) :=
  (Sat.accGK (fun hn => by have := h.hres hn; have := hr.size; omega) ht ha).mono fun _ hw => hr.trans hw

theorem MvmOk.updS (h : MvmOk F E cfg c a res vec m n) {op : Int → Int → C Int}
    {r : Vec Int} (hr : Keep m res r) (ha : ∀ a b, Sat F (op a b) fun _ => True) :
    Sat F (updG m (fun i r => do
      let s ← c.gd.sumW.rd i
      op r s) r) (Keep m res) :=
  (Sat.updGK (fun hn => by have := h.hres hn; have := hr.size; omega) fun i x hi =>
    Sat.bind (Sat.vrd' (h.sumW hi)) fun _ _ => ha _ _).mono fun _ hw => hr.trans hw

theorem sat_dMvmBnnI (h : MvmOk F E cfg c a res vec m n) :
    Sat F (dMvmBnnI c a res vec m n) (MvmPost cfg res m) := by
  unfold dMvmBnnI
  have hF := h.lax
  refine Sat.bind (sat_encBnn1 hF h.enc1) fun v hv => ?_
  refine Sat.bind (h.accB (Keep.refl _) (fun i j hi hj => Sat.bind (sat_diffTerm hF (h.cell (h.lt hv) hi hj))
    fun _ _ => Sat.mulI hF _ _) (Sat.addI hF)) fun r hr => ?_
  exact Sat.bind (h.updS hr (Sat.subI hF)) fun r hr => ⟨h.aux.vp hv, hr⟩

theorem sat_dMvmBnnII (h : MvmOk F E cfg c a res vec m n) :
    Sat F (dMvmBnnII c a res vec m n) (MvmPost cfg res m) := by
  unfold dMvmBnnII
  have hF := h.lax
  refine Sat.bind (sat_encBnn2 hF h.enc1) fun v hv => ?_
  refine Sat.bind (h.accB (Keep.refl _) (fun i j hi hj => Sat.bind (sat_diffTermNeg hF (h.cell (h.lt hv) hi hj))
    fun _ _ => Sat.mulI hF _ _) (Sat.addI hF)) fun r hr => ?_
  exact Sat.bind (h.updS hr (Sat.addI hF)) fun r hr => ⟨h.aux.vp hv, hr⟩

/-- One row of BNN III and IV. -/
theorem MvmOk.row (h : MvmOk F E cfg c a res vec m n) {op : Int → C Int} {term : Nat → Nat → C Int}
    (ho : ∀ x, Sat F (op x) fun _ => True)
    (ht : ∀ i j, i < m → j < n → Sat F (term i j) fun _ => True) :
    Sat F (loop m (fun i res => do
      let res ← updAt res i op
      Acs.accRow addI i n (term i) res) res) (Keep m res) := by
  refine Sat.loop (Keep.refl _) fun i hi r hr => ?_
  refine Sat.bind (Sat.updAtK hi (h.resAt hr hi) ho) fun r' hr' => ?_
  exact (Sat.accRowK hi (fun hn _ => by have := h.resAt hr hi hn; have := hr'.size; omega) (fun j hj => ht i j hi hj)
    (Sat.addI h.lax)).mono fun _ hw => (hr.trans hr').trans hw

theorem sat_dMvmBnnIII (h : MvmOk F E cfg c a res vec m n) :
    Sat F (dMvmBnnIII c a res vec m n) (MvmPost cfg res m) := by
  unfold dMvmBnnIII
  have hF := h.lax
  refine Sat.bind (sat_encPMSum hF h.enc) fun v hv => ?_
  refine Sat.bind (h.row (fun _ => Sat.subI hF _ _) fun i j hi hj =>
    sat_bnn34Term hF (h.cell (h.lt hv.1) hi hj) (h.at (h.ltM hv.2) hj)) fun r hr => ?_
  exact ⟨h.aux.vpm hv.1 hv.2, hr⟩

theorem sat_dMvmBnnIV (h : MvmOk F E cfg c a res vec m n) :
    Sat F (dMvmBnnIV c a res vec m n) (MvmPost cfg res m) := by
  unfold dMvmBnnIV
  have hF := h.lax
  refine Sat.bind (sat_encPMSum hF h.enc) fun v hv => ?_
  refine Sat.bind (h.row (fun _ => Sat.addI hF _ _) fun i j hi hj =>
    sat_bnn34Term hF (h.cell (h.ltM hv.2) hi hj) (h.at (h.lt hv.1) hj)) fun r hr => ?_
  exact ⟨h.aux.vpm hv.1 hv.2, hr⟩

theorem sat_dMvmBnnV (h : MvmOk F E cfg c a res vec m n) :
    Sat F (dMvmBnnV E c a res vec m n) (MvmPost cfg res m) := by
  unfold dMvmBnnV
  have hF := h.lax
  refine Sat.bind (sat_encPM hF h.enc) fun v hv => ?_
  refine Sat.bind (h.row (fun _ => Sat.subI hF _ _) fun i j hi hj =>
    sat_bnn5Term hF (h.cell (h.lt hv.1) hi hj) (h.at (h.ltM hv.2) hj) _) fun r hr => ?_
  exact ⟨h.aux.vpm hv.1 hv.2, hr⟩

theorem sat_dMvmBnnVI (h : MvmOk F E cfg c a res vec m n) :
    Sat F (dMvmBnnVI c a res vec m n) (MvmPost cfg res m) := by
  unfold dMvmBnnVI
  have hF := h.lax
  refine Sat.bind (sat_encPM hF h.enc) fun v hv => ?_
  refine Sat.bind (h.accB (Keep.refl _) (fun i j hi hj =>
    sat_quadTerm hF (h.cell (h.lt hv.1) hi hj) (h.at (h.ltM hv.2) hj)) (Sat.addI hF)) fun r hr => ?_
  exact ⟨h.aux.vpm hv.1 hv.2, hr⟩

theorem sat_dMvmTnnI (h : MvmOk F E cfg c a res vec m n) :
    Sat F (dMvmTnnI c a res vec m n) (MvmPost cfg res m) := by
  unfold dMvmTnnI
  have hF := h.lax
  refine Sat.bind (sat_encTern hF h.enc) fun v hv => ?_
  refine Sat.bind (h.accB (Keep.refl _) (fun i j hi hj =>
    sat_quadTerm hF (h.cell (h.lt hv.1) hi hj) (h.at (h.ltM hv.2) hj)) (Sat.addI hF)) fun r hr => ?_
  exact ⟨h.aux.vpm hv.1 hv.2, hr⟩

theorem MvmOk.enc1' (h : MvmOk F E cfg c a res vec m n) (hv : v.size = a.vdP.size) :
    ¬F .oob → n ≤ vec.size ∧ n ≤ v.size := fun hn => by have := h.enc1 hn; omega

theorem sat_dMvmTnnII (h : MvmOk F E cfg c a res vec m n) :
    Sat F (dMvmTnnII E c a res vec m n) (MvmPost cfg res m) := by
  unfold dMvmTnnII
  have hF := h.lax
  refine Sat.bind (sat_encNonzero hF h.enc1) fun v hv => ?_
  refine Sat.bind (h.accB (Keep.refl _) (fun i j hi hj => sat_diffTerm hF (h.cell (h.lt hv) hi hj))
    (Sat.addI hF)) fun r hr => ?_
  refine Sat.bind (sat_encNegOne hF (h.enc1' hv)) fun v' hv' => ?_
  refine Sat.bind (h.accB hr (fun i j hi hj =>
    sat_diffTerm2 hF (h.cell (h.lt (hv'.trans hv)) hi hj) _) (Sat.subI hF)) fun r hr => ?_
  exact ⟨h.aux.vp (hv'.trans hv), hr⟩

theorem sat_dMvmTnnIII (h : MvmOk F E cfg c a res vec m n) :
    Sat F (dMvmTnnIII E c a res vec m n) (MvmPost cfg res m) := by
  unfold dMvmTnnIII
  have hF := h.lax
  refine Sat.bind (sat_encBit0 hF h.enc1) fun v hv => ?_
  refine Sat.bind (h.accB (Keep.refl _) (fun i j hi hj => sat_diffTerm hF (h.cell (h.lt hv) hi hj))
    (Sat.addI hF)) fun r hr => ?_
  refine Sat.bind (sat_encBit1 hF (h.enc1' hv)) fun v' hv' => ?_
  refine Sat.bind (h.accB hr (fun i j hi hj =>
    sat_diffTerm2 hF (h.cell (h.lt (hv'.trans hv)) hi hj) _) (Sat.addI hF)) fun r hr => ?_
  exact Sat.bind (h.updS hr (Sat.subI hF)) fun r hr => ⟨h.aux.vp (hv'.trans hv), hr⟩

theorem sat_dMvmTnnIV (h : MvmOk F E cfg c a res vec m n) :
    Sat F (dMvmTnnIV E cfg c a res vec m n) (MvmPost cfg res m) := by
  unfold dMvmTnnIV
  have hF := h.lax
  refine Sat.ite (fun _ => Sat.err (hF _ (by decide) (by decide))) fun _ => ?_
  refine Sat.bind (sat_encTern hF h.enc) fun v hv => ?_
  refine Sat.bind (h.accB (Keep.refl _) (fun i j hi hj => Sat.bind
    (sat_tcTerms hF (h.cell (h.lt hv.1) hi hj) (h.at (h.ltM hv.2) hj) _) fun _ _ => Sat.subI hF _ _)
    (Sat.addI hF)) fun r hr => ?_
  exact ⟨h.aux.vpm hv.1 hv.2, hr⟩

theorem sat_dMvmTnnV (h : MvmOk F E cfg c a res vec m n) :
    Sat F (dMvmTnnV E cfg c a res vec m n) (MvmPost cfg res m) := by
  unfold dMvmTnnV
  have hF := h.lax
  refine Sat.ite (fun _ => Sat.err (hF _ (by decide) (by decide))) fun _ => ?_
  refine Sat.bind (sat_inpSum hF h.hvec) fun _ _ => ?_
  refine Sat.bind (sat_encTern hF h.enc) fun v hv => ?_
  refine Sat.bind (P := Keep m res) (Sat.loop (Keep.refl _) fun i hi r hr => ?_) fun r hr => ?_
  · refine Sat.bind (Sat.accRowK hi (fun hn _ => h.resAt hr hi hn) (fun j hj => Sat.bind
      (sat_tcTerms hF (h.cell (h.lt hv.1) hi hj) (h.at (h.ltM hv.2) hj) _) fun _ _ => Sat.addI hF _ _)
      (Sat.addI hF)) fun r' hr' => ?_
    refine (Sat.updAtK hi (h.resAt (hr.trans hr') hi) fun _ => ?_).mono
      fun _ hw => (hr.trans hr').trans hw
    exact Sat.bind (Sat.i64 hF _) fun _ _ => trivial
  · exact ⟨h.aux.vpm hv.1 hv.2, hr⟩

theorem sat_dMvm (h : MvmOk F E cfg c a res vec m n) :
    Sat F (dMvm E cfg c a res vec m n) (MvmPost cfg res m) := by
  unfold dMvm
  split
  · exact sat_dMvmIntI h
  · exact sat_dMvmIntI h
  · exact sat_dMvmIntII h
  · exact sat_dMvmIntIII h
  · exact sat_dMvmIntIV h
  · exact sat_dMvmIntV h
  · exact sat_dMvmBnnI h
  · exact sat_dMvmBnnII h
  · exact sat_dMvmBnnIII h
  · exact sat_dMvmBnnIV h
  · exact sat_dMvmBnnV h
  · exact sat_dMvmBnnVI h
  · exact sat_dMvmTnnI h
  · exact sat_dMvmTnnII h
  · exact sat_dMvmTnnIII h
  · exact sat_dMvmTnnIV h
  · exact sat_dMvmTnnV h

end

end Acs
