import Verif.Lemmas.Det
import Verif.Model.Crossbar

/-! # The result of a multiplication does not depend on the scratch vectors -/

set_option linter.unusedSectionVars false

namespace Acs

section
variable {w : Bool} {n m : Nat} {vec v v' u u' : Vec Int} {gd : Gd}

/-! ## Input encodings -/

theorem rel_pair {f : Nat → Vec Int × Vec Int → C (Vec Int × Vec Int)} (hu : u.size = u'.size)
    (hv : v.size = v'.size)
    (h : ∀ i s t, i < n → Agree i s.1 t.1 ∧ Agree i s.2 t.2 →
      Rel w (fun s t => Agree (i + 1) s.1 t.1 ∧ Agree (i + 1) s.2 t.2) (f i s) (f i t)) :
    Rel w (fun s t => Agree n s.1 t.1 ∧ Agree n s.2 t.2) (loop n f (u, v)) (loop n f (u', v')) :=
  Rel.loop (fun k (s t : Vec Int × Vec Int) => Agree k s.1 t.1 ∧ Agree k s.2 t.2)
    ⟨⟨hu, fun i hi => absurd hi (Nat.not_lt_zero i)⟩, ⟨hv, fun i hi => absurd hi (Nat.not_lt_zero i)⟩⟩ h

theorem rel_wr2 {i : Nat} {a b : Int} {s t : Vec Int × Vec Int}
    (h : Agree i s.1 t.1 ∧ Agree i s.2 t.2) :
    Rel w (fun s t => Agree (i + 1) s.1 t.1 ∧ Agree (i + 1) s.2 t.2)
      (do let p ← s.1.wr i a; let q ← s.2.wr i b; .ok (p, q))
      (do let p ← t.1.wr i a; let q ← t.2.wr i b; .ok (p, q)) :=
  Rel.bind h.1.wr_next fun _ _ hp => Rel.bind h.2.wr_next fun _ _ hq => Rel.ok ⟨hp, hq⟩

theorem rel_wr2' {i : Nat} {a b : Int} {s t : Vec Int × Vec Int}
    (h : Agree i s.1 t.1 ∧ Agree i s.2 t.2) :
    Rel w (fun s t => Agree (i + 1) s.1 t.1 ∧ Agree (i + 1) s.2 t.2)
      (do let q ← s.2.wr i b; let p ← s.1.wr i a; .ok (p, q))
      (do let q ← t.2.wr i b; let p ← t.1.wr i a; .ok (p, q)) :=
  Rel.bind h.2.wr_next fun _ _ hq => Rel.bind h.1.wr_next fun _ _ hp => Rel.ok ⟨hp, hq⟩

theorem rel_encSigned (hu : u.size = u'.size) (hv : v.size = v'.size) :
    Rel w (fun s t => Agree n s.1 t.1 ∧ Agree n s.2 t.2) (encSigned n vec u v)
      (encSigned n vec u' v') := by
  refine rel_pair hu hv fun i s t _ hst => Rel.bindEq rfl fun x => Rel.ite (fun _ => ?_) fun _ => ?_
  · exact rel_wr2 hst
  · exact Rel.bind hst.1.wr_next fun _ _ hp => Rel.bindEq rfl fun y =>
      Rel.bind hst.2.wr_next fun _ _ hq => Rel.ok ⟨hp, hq⟩

theorem rel_encPM (hu : u.size = u'.size) (hv : v.size = v'.size) :
    Rel w (fun s t => Agree n s.1 t.1 ∧ Agree n s.2 t.2) (encPM n vec u v) (encPM n vec u' v') :=
  rel_pair hu hv fun _ _ _ _ hst => Rel.bindEq rfl fun _ => Rel.ite (fun _ => rel_wr2 hst) fun _ =>
    Rel.ite (fun _ => rel_wr2' hst) fun _ => Rel.err

theorem rel_encTern (hu : u.size = u'.size) (hv : v.size = v'.size) :
    Rel w (fun s t => Agree n s.1 t.1 ∧ Agree n s.2 t.2) (encTern n vec u v)
      (encTern n vec u' v') :=
  rel_pair hu hv fun _ _ _ _ hst => Rel.bindEq rfl fun _ => Rel.ite (fun _ => rel_wr2 hst) fun _ =>
    Rel.ite (fun _ => rel_wr2' hst) fun _ => Rel.ite (fun _ => rel_wr2' hst) fun _ => Rel.err

theorem rel_encPMSum (hu : u.size = u'.size) (hv : v.size = v'.size) :
    Rel w (fun s t => Agree n s.1.1 t.1.1 ∧ Agree n s.1.2 t.1.2 ∧ s.2 = t.2) (encPMSum n vec u v)
      (encPMSum n vec u' v') := by
  unfold encPMSum
  refine Rel.loop (fun k (s t : (Vec Int × Vec Int) × Int) => Agree k s.1.1 t.1.1 ∧ Agree k s.1.2 t.1.2 ∧ s.2 = t.2)
    ⟨⟨hu, fun i hi => absurd hi (Nat.not_lt_zero i)⟩,
      ⟨hv, fun i hi => absurd hi (Nat.not_lt_zero i)⟩, rfl⟩ fun i s t _ hst => ?_
  refine Rel.bindEq rfl fun x => Rel.bindEq (by rw [hst.2.2]) fun z => Rel.ite (fun _ => ?_) fun _ =>
    Rel.ite (fun _ => ?_) fun _ => Rel.err
  · exact Rel.bind hst.1.wr_next fun _ _ hp => Rel.bind hst.2.1.wr_next fun _ _ hq =>
      Rel.ok ⟨hp, hq, rfl⟩
  · exact Rel.bind hst.2.1.wr_next fun _ _ hq => Rel.bind hst.1.wr_next fun _ _ hp =>
      Rel.ok ⟨hp, hq, rfl⟩

theorem rel_encOffs {s : Bool} {k : Nat} (hv : v.size = v'.size) :
    Rel w (Agree n) (encOffs s k n vec v) (encOffs s k n vec v') := rel_setG hv fun _ _ => rfl
theorem rel_encMask {k : Int} (hv : v.size = v'.size) :
    Rel w (Agree n) (encMask k n vec v) (encMask k n vec v') := rel_setG hv fun _ _ => rfl
theorem rel_encCopy (hv : v.size = v'.size) :
    Rel w (Agree n) (encCopy n vec v) (encCopy n vec v') := rel_setG hv fun _ _ => rfl
theorem rel_encBnn1 (hv : v.size = v'.size) :
    Rel w (Agree n) (encBnn1 n vec v) (encBnn1 n vec v') := rel_setG hv fun _ _ => rfl
theorem rel_encBnn2 (hv : v.size = v'.size) :
    Rel w (Agree n) (encBnn2 n vec v) (encBnn2 n vec v') := rel_setG hv fun _ _ => rfl
theorem rel_encNonzero (hv : v.size = v'.size) :
    Rel w (Agree n) (encNonzero n vec v) (encNonzero n vec v') := rel_setG hv fun _ _ => rfl
theorem rel_encNegOne (hv : v.size = v'.size) :
    Rel w (Agree n) (encNegOne n vec v) (encNegOne n vec v') := rel_setG hv fun _ _ => rfl
theorem rel_encBit0 (hv : v.size = v'.size) :
    Rel w (Agree n) (encBit0 n vec v) (encBit0 n vec v') := rel_setG hv fun _ _ => rfl
theorem rel_encBit1 (hv : v.size = v'.size) :
    Rel w (Agree n) (encBit1 n vec v) (encBit1 n vec v') := rel_setG hv fun _ _ => rfl

theorem rel_sliceVd {k : Nat} (hu : Agree n u u') (hv : v.size = v'.size) :
    Rel w (Agree n) (sliceVd u v n k) (sliceVd u' v' n k) :=
  rel_setG hv fun _ hi => by rw [hu.rd hi]

/-! ## Digital terms -/

theorem diffTerm_congr {t j : Nat} (h : v.rd j = v'.rd j) : diffTerm gd v t j = diffTerm gd v' t j := by
  unfold diffTerm; rw [h]
theorem diffTermNeg_congr {t j : Nat} (h : v.rd j = v'.rd j) :
    diffTermNeg gd v t j = diffTermNeg gd v' t j := by
  unfold diffTermNeg; rw [h]
theorem diffTerm2_congr {s : Bool} {t j : Nat} (h : v.rd j = v'.rd j) :
    diffTerm2 s gd v t j = diffTerm2 s gd v' t j := by
  unfold diffTerm2; rw [diffTerm_congr h]
theorem bnn34Term_congr {t j : Nat} (h : v.rd j = v'.rd j) (h' : u.rd j = u'.rd j) :
    bnn34Term gd v u t j = bnn34Term gd v' u' t j := by
  unfold bnn34Term; rw [h, h']
theorem bnn5Term_congr {s : Bool} {t j : Nat} (h : v.rd j = v'.rd j) (h' : u.rd j = u'.rd j) :
    bnn5Term s gd v u t j = bnn5Term s gd v' u' t j := by
  unfold bnn5Term; rw [h, h']
theorem quadTerm_congr {t j : Nat} (h : v.rd j = v'.rd j) (h' : u.rd j = u'.rd j) :
    quadTerm gd v u t j = quadTerm gd v' u' t j := by
  unfold quadTerm; rw [h, h']
theorem tcTerms_congr {s : Bool} {t j : Nat} (h : v.rd j = v'.rd j) (h' : u.rd j = u'.rd j) :
    tcTerms s gd v u t j = tcTerms s gd v' u' t j := by
  unfold tcTerms; rw [h, h']

theorem shiftedTmp_congr {s : Bool} {S i k : Nat} {sh : Vec Nat} (h : Agree (m * S) v v') (hi : i < m)
    (hk : k < S) : shiftedTmp s S sh v i k = shiftedTmp s S sh v' i k := by
  unfold shiftedTmp
  rw [h.rd (lt_of_lt_of_le (show i * S + k < (i + 1) * S by rw [Nat.succ_mul]; omega)
    (Nat.mul_le_mul_right S hi))]

end

/-- The scratch vectors have the same lengths.  With the solver the integer mappings replace
`tmp_out_fp_`. -/
structure AuxSim {K : Type} (cfg : Cfg K) (a b : Aux K) : Prop where
  vdP : a.vdP.size = b.vdP.size
  vdM : a.vdM.size = b.vdM.size
  vdSlice : a.vdSlice.size = b.vdSlice.size
  tmpInt : a.tmpInt.size = b.tmpInt.size
  tmpFp : (cfg.mode.isInt = true → cfg.parasitics = false) → a.tmpFp.size = b.tmpFp.size
  tmp : a.tmp.size = b.tmp.size
  tmpP : a.tmpP.size = b.tmpP.size
  tmpM : a.tmpM.size = b.tmpM.size
  tmpLsb : a.tmpLsb.size = b.tmpLsb.size
  tmpMsb : a.tmpMsb.size = b.tmpMsb.size
  resFp : a.resFp.size = b.resFp.size

section
variable {K : Type} [Field K] [LinearOrder K] [IsStrictOrderedRing K] [FloorRing K]
variable {w : Bool} {E : Env K} {cfg : Cfg K} {c : Core K} {a b : Aux K} {res vec : Vec Int} {m n : Nat}
variable {l : String}

/-- Same result. -/
abbrev SameRes {K : Type} (r r' : Aux K × Vec Int) : Prop := r.2 = r'.2

/-! ## Digital multiplications -/

theorem rel_dMvm (h : AuxSim cfg a b) :
    Rel w SameRes (dMvm E cfg c a res vec m n) (dMvm E cfg c b res vec m n) := by
  unfold dMvm
  split
  iterate 2
    unfold dMvmIntI
    refine Rel.bind (rel_encSigned h.vdP h.vdM) fun v v' hv => ?_
    refine Rel.bind (rel_accG (Agree.fill h.tmpInt 0) (le_refl (m * cfg.S))
      fun t j _ hj => diffTerm_congr (hv.1.rd hj)) fun t t' ht => ?_
    refine Rel.bindEq (accG_congr fun i s hi hs => shiftedTmp_congr ht hi hs) fun r => ?_
    refine Rel.bind (rel_accG (Agree.fill ht.size 0) (le_refl (m * cfg.S))
      fun t j _ hj => diffTermNeg_congr (hv.2.rd hj)) fun t t' ht => ?_
    exact Rel.bindEq (accG_congr fun i s hi hs => shiftedTmp_congr ht hi hs) fun r => rfl
  · unfold dMvmIntII
    refine Rel.bind (rel_encOffs h.vdP) fun v v' hv => ?_
    refine Rel.bind (rel_accG (Agree.fill h.tmpInt 0) (le_refl (m * cfg.S))
      fun t j _ hj => diffTerm_congr (hv.rd hj)) fun t t' ht => ?_
    refine Rel.bindEq (loop_congr' fun i s hi => ?_) fun r => rfl
    rw [accRow_congr fun k hk => shiftedTmp_congr ht hi hk]
  · unfold dMvmIntIII
    refine Rel.bindEq rfl fun k => ?_
    refine Rel.bind (rel_encMask h.vdP) fun v v' hv => ?_
    refine Rel.bind (rel_accG (Agree.fill h.tmpInt 0) (le_refl (m * cfg.S))
      fun t j _ hj => diffTerm_congr (hv.rd hj)) fun t t' ht => ?_
    refine Rel.bindEq rfl fun k => ?_
    refine Rel.bind (rel_encMask hv.size) fun v v' hv => ?_
    refine Rel.bind (rel_accG ht (le_refl (m * cfg.S))
      fun t j _ hj => diffTerm_congr (hv.rd hj)) fun t t' ht => ?_
    exact Rel.bindEq (accG_congr fun i s hi hs => shiftedTmp_congr ht hi hs) fun r => rfl
  · unfold dMvmIntIV
    refine Rel.bind (rel_accG (Agree.fill h.tmpInt 0) (le_refl (m * cfg.S))
      fun t j _ hj => rfl) fun t t' ht => ?_
    exact Rel.bindEq (accG_congr fun i s hi hs => shiftedTmp_congr ht hi hs) fun r => rfl
  · unfold dMvmIntV
    refine Rel.bindEq rfl fun k => ?_
    refine Rel.bind (rel_accG (Agree.fill h.tmpInt 0) (le_refl (m * cfg.S))
      fun t j _ hj => rfl) fun t t' ht => ?_
    refine Rel.bindEq (loop_congr' fun i s hi => ?_) fun r => rfl
    rw [accRow_congr fun k hk => shiftedTmp_congr ht hi hk]
  · unfold dMvmBnnI
    refine Rel.bind (rel_encBnn1 h.vdP) fun v v' hv => ?_
    refine Rel.bindEq (accG_congr fun i j _ hj => by rw [diffTerm_congr (hv.rd hj)]) fun r => ?_
    exact Rel.bindEq rfl fun r => rfl
  · unfold dMvmBnnII
    refine Rel.bind (rel_encBnn2 h.vdP) fun v v' hv => ?_
    refine Rel.bindEq (accG_congr fun i j _ hj => by rw [diffTermNeg_congr (hv.rd hj)]) fun r => ?_
    exact Rel.bindEq rfl fun r => rfl
  · unfold dMvmBnnIII
    refine Rel.bind (rel_encPMSum h.vdP h.vdM) fun v v' hv => ?_
    refine Rel.bindEq (loop_congr' fun i s _ => ?_) fun r => rfl
    rw [hv.2.2]
    congr 1
    funext r
    exact accRow_congr fun j hj => bnn34Term_congr (hv.1.rd hj) (hv.2.1.rd hj)
  · unfold dMvmBnnIV
    refine Rel.bind (rel_encPMSum h.vdP h.vdM) fun v v' hv => ?_
    refine Rel.bindEq (loop_congr' fun i s _ => ?_) fun r => rfl
    rw [hv.2.2]
    congr 1
    funext r
    exact accRow_congr fun j hj => bnn34Term_congr (hv.2.1.rd hj) (hv.1.rd hj)
  · unfold dMvmBnnV
    refine Rel.bind (rel_encPM h.vdP h.vdM) fun v v' hv => ?_
    refine Rel.bindEq (loop_congr' fun i s _ => ?_) fun r => rfl
    congr 1
    funext r
    exact accRow_congr fun j hj => bnn5Term_congr (hv.1.rd hj) (hv.2.rd hj)
  · unfold dMvmBnnVI
    refine Rel.bind (rel_encPM h.vdP h.vdM) fun v v' hv => ?_
    exact Rel.bindEq (accG_congr fun i j _ hj => quadTerm_congr (hv.1.rd hj) (hv.2.rd hj)) fun r => rfl
  · unfold dMvmTnnI
    refine Rel.bind (rel_encTern h.vdP h.vdM) fun v v' hv => ?_
    exact Rel.bindEq (accG_congr fun i j _ hj => quadTerm_congr (hv.1.rd hj) (hv.2.rd hj)) fun r => rfl
  · unfold dMvmTnnII
    refine Rel.bind (rel_encNonzero h.vdP) fun v v' hv => ?_
    refine Rel.bindEq (accG_congr fun i j _ hj => diffTerm_congr (hv.rd hj)) fun r => ?_
    refine Rel.bind (rel_encNegOne hv.size) fun v v' hv => ?_
    exact Rel.bindEq (accG_congr fun i j _ hj => diffTerm2_congr (hv.rd hj)) fun r => rfl
  · unfold dMvmTnnIII
    refine Rel.bind (rel_encBit0 h.vdP) fun v v' hv => ?_
    refine Rel.bindEq (accG_congr fun i j _ hj => diffTerm_congr (hv.rd hj)) fun r => ?_
    refine Rel.bind (rel_encBit1 hv.size) fun v v' hv => ?_
    refine Rel.bindEq (accG_congr fun i j _ hj => diffTerm2_congr (hv.rd hj)) fun r => ?_
    exact Rel.bindEq rfl fun r => rfl
  · unfold dMvmTnnIV
    refine Rel.ite (fun _ => Rel.err) fun _ => ?_
    refine Rel.bind (rel_encTern h.vdP h.vdM) fun v v' hv => ?_
    exact Rel.bindEq (accG_congr fun i j _ hj => by
      rw [tcTerms_congr (hv.1.rd hj) (hv.2.rd hj)]) fun r => rfl
  · unfold dMvmTnnV
    refine Rel.ite (fun _ => Rel.err) fun _ => ?_
    refine Rel.bindEq rfl fun k => ?_
    refine Rel.bind (rel_encTern h.vdP h.vdM) fun v v' hv => ?_
    refine Rel.bindEq (loop_congr' fun i s _ => ?_) fun r => rfl
    congr 1
    exact accRow_congr fun j hj => by rw [tcTerms_congr (hv.1.rd hj) (hv.2.rd hj)]

/-! ## Currents and conversions -/

theorem iaDiffTerm_congr {ia : Ia K} {v v' : Vec Int} {t j : Nat} (h : v.rd j = v'.rd j) :
    iaDiffTerm E ia v t j = iaDiffTerm E ia v' t j := by
  unfold iaDiffTerm; rw [h]
theorem iaDiffTermNeg_congr {ia : Ia K} {v v' : Vec Int} {t j : Nat} (h : v.rd j = v'.rd j) :
    iaDiffTermNeg E ia v t j = iaDiffTermNeg E ia v' t j := by
  unfold iaDiffTermNeg; rw [h]
theorem iaTerm_congr {A : Mat K} {v v' : Vec Int} {t j : Nat} (h : v.rd j = v'.rd j) :
    iaTerm E A v t j = iaTerm E A v' t j := by
  unfold iaTerm; rw [h]
theorem iaBnn5Term_congr {ia : Ia K} {v v' u u' : Vec Int} {t j : Nat} (h : v.rd j = v'.rd j)
    (h' : u.rd j = u'.rd j) : iaBnn5Term E ia v u t j = iaBnn5Term E ia v' u' t j := by
  unfold iaBnn5Term; rw [h, h']
theorem iaQuadTerm_congr {ia : Ia K} {v v' u u' : Vec Int} {t j : Nat} (h : v.rd j = v'.rd j)
    (h' : u.rd j = u'.rd j) : iaQuadTerm E ia v u t j = iaQuadTerm E ia v' u' t j := by
  unfold iaQuadTerm; rw [h, h']

/-- Two optional second inputs. -/
def AgreeO (n : Nat) : Option (Vec Int) → Option (Vec Int) → Prop
  | none, none => True
  | some v, some v' => Agree n v v'
  | _, _ => False

theorem iEnc_congr {s : Solver K} {v v' : Vec Int} {u u' : Option (Vec Int)} (hv : Agree n v v')
    (hu : AgreeO n u u') : iEnc s v u n = iEnc s v' u' n := by
  unfold iEnc
  split
  · refine loop_congr' fun j x hj => ?_
    rw [hv.rd hj]
    cases u with
    | none =>
      cases u' with
      | none => rfl
      | some _ => exact absurd hu id
    | some u =>
      cases u' with
      | none => exact absurd hu id
      | some u' =>
        have hu : Agree n u u' := hu
        dsimp only
        rw [hu.rd hj]
  · exact loop_congr' fun j x hj => by rw [hv.rd hj]

theorem computeCurrents_congr {s : Solver K} {v v' : Vec Int} {u u' : Option (Vec Int)}
    (hv : Agree n v v') (hu : AgreeO n u u') :
    computeCurrents E s v u m n = computeCurrents E s v' u' m n := by
  unfold computeCurrents
  rw [iEnc_congr hv hu]

theorem rel_colCurrents {f g : Nat → Nat → C K} {v v' : Vec Int} {u u' : Option (Vec Int)}
    {t t' : Vec K} (hf : ∀ i j, i < m → j < n → f i j = g i j) (hv : Agree n v v')
    (hu : AgreeO n u u') (ht : t.size = t'.size) :
    Rel w (Agree m) (colCurrents E cfg c f v u (t.fill 0) m n)
      (colCurrents E cfg c g v' u' (t'.fill 0) m n) := by
  unfold colCurrents
  refine Rel.ite (fun _ => ?_) fun _ => rel_accG (Agree.fill ht 0) (le_refl m) hf
  split
  · exact Rel.err
  · rw [computeCurrents_congr hv hu]
    exact (Rel.refl _).mono fun a b h => h ▸ Agree.refl a

theorem rel_convVec (hw : cfg.adcProfile = true → w = true) {hs hs' : List (String × Hist K)}
    {t t' : Vec K} {k : Nat} {sc off : K} (ht : Agree m t t') (hk : k = m) :
    Rel w (fun r r' => Agree m r.2 r'.2) (convVec E cfg c.adc hs t k sc off l)
      (convVec E cfg c.adc hs' t' k sc off l) := by
  subst hk
  unfold convVec
  rw [ht.size]
  refine Rel.ite (fun _ => Rel.err) fun _ => ?_
  refine Rel.bind (P := fun _ _ => True) ?_ fun _ _ _ =>
    Rel.bind (rel_updG ht (le_refl k) fun _ _ _ => rfl) fun _ _ h => Rel.ok h
  cases hp : cfg.adcProfile with
  | false => exact Rel.ok trivial
  | true =>
    have hw := hw hp
    generalize profileInputs E cfg c.adc hs t k l = x
    generalize profileInputs E cfg c.adc hs' t' k l = y
    cases x <;> cases y <;> simp [Rel, hw]

theorem addTmp_congr {t t' : Vec K} (h : Agree m t t') : addTmp E t m res = addTmp E t' m res :=
  updG_congr fun i _ hi => by rw [h.rd hi]

theorem subTmp_congr {t t' : Vec K} (h : Agree m t t') : subTmp E t m res = subTmp E t' m res :=
  updG_congr fun i _ hi => by rw [h.rd hi]

theorem rel_faddVec {t t' f f' : Vec K} (h : Agree m t t') (hf : Agree m f f') :
    Rel w (Agree m) (faddVec E t m f) (faddVec E t' m f') :=
  rel_updG hf (le_refl m) fun i _ hi => by rw [h.rd hi]

theorem rel_fsubVec {t t' f f' : Vec K} (h : Agree m t t') (hf : Agree m f f') :
    Rel w (Agree m) (fsubVec E t m f) (fsubVec E t' m f') :=
  rel_updG hf (le_refl m) fun i _ hi => by rw [h.rd hi]

theorem rel_intCurrents {f g : Nat → Nat → C K} {v v' : Vec Int} {t t' : Vec K}
    (hf : ∀ i j, i < m * cfg.S → j < n → f i j = g i j) (hv : Agree n v v')
    (ht : cfg.parasitics = false → Agree (m * cfg.S) t t') :
    Rel w (Agree (m * cfg.S)) (intCurrents E cfg c f v t m n) (intCurrents E cfg c g v' t' m n) := by
  unfold intCurrents
  refine Rel.ite (fun _ => ?_) fun hp => rel_accG (ht (by simpa using hp)) (le_refl _) hf
  split
  · exact Rel.err
  · rw [computeCurrents_congr hv (u := none) (u' := none) trivial]
    exact (Rel.refl _).mono fun a b h => h ▸ Agree.refl a

theorem intConv_congr {t t' : Vec K} {sg : K} {bit i s : Nat} (h : Agree (m * cfg.S) t t')
    (hi : i < m) (hs : s < cfg.S) :
    intConv E cfg c t sg bit l i s = intConv E cfg c t' sg bit l i s := by
  unfold intConv
  rw [h.rd (lt_of_lt_of_le (show i * cfg.S + s < (i + 1) * cfg.S by rw [Nat.succ_mul]; omega)
    (Nat.mul_le_mul_right cfg.S hi))]

/-- State of the loops over the input bits. -/
structure BitSim (cfg : Cfg K) (m : Nat) {R : Type} (Q : R → R → Prop)
    (s t : Vec Int × Vec K × R) : Prop where
  slice : s.1.size = t.1.size
  tmp : cfg.parasitics = false → Agree (m * cfg.S) s.2.1 t.2.1
  res : Q s.2.2 t.2.2

theorem rel_intBit {v v' : Vec Int} {sg : K} {bit : Nat} {s t : Vec Int × Vec K × Vec Int}
    (hv : Agree n v v') (h : BitSim cfg m Eq s t) :
    Rel w (BitSim cfg m Eq) (intBit E cfg c v sg m n l bit s) (intBit E cfg c v' sg m n l bit t) := by
  unfold intBit
  refine Rel.bind (rel_sliceVd hv h.slice) fun sl sl' hsl => ?_
  refine Rel.bind (rel_intCurrents (fun _ j _ hj => iaDiffTerm_congr (hsl.rd hj)) hsl h.tmp)
    fun t t' ht => ?_
  refine Rel.bindEq ?_ fun r => ?_
  · rw [h.res]
    exact accG_congr fun i k hi hk => intConv_congr ht hi hk
  · exact ⟨hsl.size, fun _ => Agree.fill ht.size 0, rfl⟩

theorem rel_intBitV {v v' : Vec Int} {bit : Nat} {s t : Vec Int × Vec K × Vec K}
    (hv : Agree n v v') (h : BitSim cfg m (Agree m) s t) :
    Rel w (BitSim cfg m (Agree m)) (intBitV E cfg c v m n l bit s)
      (intBitV E cfg c v' m n l bit t) := by
  unfold intBitV
  refine Rel.bind (rel_sliceVd hv h.slice) fun sl sl' hsl => ?_
  refine Rel.bind (rel_intCurrents (fun _ j _ hj => iaTerm_congr (hsl.rd hj)) hsl h.tmp)
    fun t t' ht => ?_
  refine Rel.bind (rel_accG h.res (le_refl m) fun i k hi hk => intConv_congr ht hi hk)
    fun r r' hr => ?_
  exact ⟨hsl.size, fun _ => Agree.fill ht.size 0, hr⟩

/-! ## Analog multiplications -/

section
variable (h : AuxSim cfg a b) (hw : cfg.adcProfile = true → w = true)
include h

theorem AuxSim.bit (hi : cfg.mode.isInt = true) {R : Type} {Q : R → R → Prop} {r r' : R}
    (hr : Q r r') : BitSim cfg m Q (a.vdSlice, a.tmpFp.fill 0, r) (b.vdSlice, b.tmpFp.fill 0, r') :=
  ⟨h.vdSlice, fun hp => Agree.fill (h.tmpFp fun _ => hp) 0, hr⟩

theorem rel_aMvmIntI (hi : cfg.mode.isInt = true) :
    Rel w SameRes (aMvmIntI E cfg c a res vec m n l) (aMvmIntI E cfg c b res vec m n l) := by
  unfold aMvmIntI
  refine Rel.bind (rel_encSigned h.vdP h.vdM) fun v v' hv => ?_
  refine Rel.bind (Rel.loop' (h.bit hi rfl) fun _ _ _ _ hs => rel_intBit hv.1 hs) fun s t hst => ?_
  refine Rel.bind (Rel.loop' hst fun _ _ _ _ hs => rel_intBit hv.2 hs) fun s t hst => ?_
  exact hst.res

theorem rel_aMvmIntII (hi : cfg.mode.isInt = true) :
    Rel w SameRes (aMvmIntII E cfg c a res vec m n l) (aMvmIntII E cfg c b res vec m n l) := by
  unfold aMvmIntII
  refine Rel.bind (rel_encOffs h.vdP) fun v v' hv => ?_
  refine Rel.bind (Rel.loop' (h.bit hi rfl) fun _ _ _ _ hs => rel_intBit hv hs) fun s t hst => ?_
  refine Rel.bindEq ?_ fun r => rfl
  rw [hst.res]

theorem rel_aMvmIntIII (hi : cfg.mode.isInt = true) :
    Rel w SameRes (aMvmIntIII E cfg c a res vec m n l) (aMvmIntIII E cfg c b res vec m n l) := by
  unfold aMvmIntIII
  refine Rel.bind (rel_encCopy h.vdP) fun v v' hv => ?_
  refine Rel.bind (Rel.loop' (h.bit hi rfl) fun _ _ _ _ hs => rel_intBit hv hs) fun s t hst => ?_
  refine Rel.bind (rel_sliceVd hv hst.slice) fun sl sl' hsl => ?_
  refine Rel.bind (rel_intCurrents (fun _ j _ hj => iaDiffTerm_congr (hsl.rd hj)) hsl hst.tmp)
    fun t t' ht => ?_
  refine Rel.bindEq ?_ fun r => rfl
  rw [hst.res]
  exact accG_congr fun i k hi hk => intConv_congr ht hi hk

theorem rel_aMvmIntIV (hi : cfg.mode.isInt = true) :
    Rel w SameRes (aMvmIntIV E cfg c a res vec m n l) (aMvmIntIV E cfg c b res vec m n l) := by
  unfold aMvmIntIV
  refine Rel.bind (rel_encCopy h.vdP) fun v v' hv => ?_
  exact Rel.bind (Rel.loop' (h.bit hi rfl) fun _ _ _ _ hs => rel_intBit hv hs) fun s t hst => hst.res

theorem rel_aMvmIntV (hi : cfg.mode.isInt = true) :
    Rel w SameRes (aMvmIntV E cfg c a res vec m n l) (aMvmIntV E cfg c b res vec m n l) := by
  unfold aMvmIntV
  refine Rel.bind (rel_encCopy h.vdP) fun v v' hv => ?_
  refine Rel.bindEq rfl fun sum => ?_
  refine Rel.bind (Rel.loop' (h.bit hi (Agree.fill h.resFp 0)) fun _ _ _ _ hs => rel_intBitV hv hs)
    fun s t hst => ?_
  refine Rel.bind (Rel.loop' (I := fun (s t : Vec K × Vec Int) => Agree m s.1 t.1 ∧ s.2 = t.2)
    ⟨hst.res, rfl⟩ fun i s t him hs => ?_) fun s t hs => hs.2
  refine Rel.bindEq rfl fun d => Rel.bindEq rfl fun o => ?_
  refine Rel.bind (hs.1.updAt him fun _ => Rel.refl _) fun f f' hf => ?_
  refine Rel.bindEq (hf.rd him) fun y => Rel.bindEq rfl fun z => ?_
  refine Rel.bindEq (by rw [hs.2]) fun r => ?_
  exact ⟨hf, rfl⟩

include hw

theorem rel_aMvmBnnI :
    Rel w SameRes (aMvmBnnI E cfg c a res vec m n l) (aMvmBnnI E cfg c b res vec m n l) := by
  unfold aMvmBnnI
  refine Rel.bind (rel_encBnn1 h.vdP) fun v v' hv => ?_
  refine Rel.bind (rel_colCurrents (fun _ j _ hj => iaDiffTerm_congr (hv.rd hj)) hv trivial h.tmp)
    fun t t' ht => ?_
  refine Rel.bindEq rfl fun sc => Rel.bind (rel_convVec hw ht rfl) fun r r' hr => ?_
  exact Rel.bindEq (updG_congr fun i _ hi => by rw [hr.rd hi]) fun _ => rfl

theorem rel_aMvmBnnII :
    Rel w SameRes (aMvmBnnII E cfg c a res vec m n l) (aMvmBnnII E cfg c b res vec m n l) := by
  unfold aMvmBnnII
  refine Rel.bind (rel_encBnn2 h.vdP) fun v v' hv => ?_
  refine Rel.bind (rel_colCurrents (fun _ j _ hj => iaDiffTermNeg_congr (hv.rd hj)) hv trivial h.tmp)
    fun t t' ht => ?_
  refine Rel.bindEq rfl fun sc => Rel.bind (rel_convVec hw ht rfl) fun r r' hr => ?_
  exact Rel.bindEq (updG_congr fun i _ hi => by rw [hr.rd hi]) fun _ => rfl

theorem rel_bnn34Currents :
    Rel w (fun r r' => Agree m r.1.tmpP r'.1.tmpP ∧ Agree m r.1.tmpM r'.1.tmpM ∧ r.2 = r'.2)
      (bnn34Currents E cfg c a vec m n l) (bnn34Currents E cfg c b vec m n l) := by
  unfold bnn34Currents
  refine Rel.bind (rel_encPMSum h.vdP h.vdM) fun v v' hv => ?_
  refine Rel.bind (rel_colCurrents (fun _ j _ hj => iaTerm_congr (hv.1.rd hj)) hv.1 trivial h.tmpP)
    fun t t' ht => ?_
  refine Rel.bind (rel_colCurrents (fun _ j _ hj => iaTerm_congr (hv.2.1.rd hj)) hv.2.1 trivial h.tmpM)
    fun u u' hu => ?_
  rw [hv.2.2]
  refine Rel.bindEq rfl fun sc => Rel.bindEq rfl fun ns => ?_
  refine Rel.bind (rel_convVec hw ht rfl) fun r r' hr => ?_
  exact Rel.bind (rel_convVec hw hu rfl) fun q q' hq => ⟨hr, hq, rfl⟩

theorem rel_aMvmBnnIII :
    Rel w SameRes (aMvmBnnIII E cfg c a res vec m n l) (aMvmBnnIII E cfg c b res vec m n l) := by
  unfold aMvmBnnIII
  refine Rel.bind (rel_bnn34Currents h hw) fun r r' hr => ?_
  exact Rel.bindEq (updG_congr fun i _ hi => by rw [hr.1.rd hi, hr.2.1.rd hi, hr.2.2]) fun _ => rfl

theorem rel_aMvmBnnIV :
    Rel w SameRes (aMvmBnnIV E cfg c a res vec m n l) (aMvmBnnIV E cfg c b res vec m n l) := by
  unfold aMvmBnnIV
  refine Rel.bind (rel_bnn34Currents h hw) fun r r' hr => ?_
  exact Rel.bindEq (updG_congr fun i _ hi => by rw [hr.1.rd hi, hr.2.1.rd hi, hr.2.2]) fun _ => rfl

theorem rel_aMvmBnnV :
    Rel w SameRes (aMvmBnnV E cfg c a res vec m n l) (aMvmBnnV E cfg c b res vec m n l) := by
  unfold aMvmBnnV
  refine Rel.bind (rel_encPM h.vdP h.vdM) fun v v' hv => ?_
  refine Rel.bind (rel_colCurrents (fun _ j _ hj => iaBnn5Term_congr (hv.1.rd hj) (hv.2.rd hj)) hv.1
    (u := some v.2) (u' := some v'.2) hv.2 h.tmp) fun t t' ht => ?_
  refine Rel.bindEq rfl fun sc => Rel.bindEq rfl fun _ =>
    Rel.bind (rel_convVec hw ht rfl) fun r r' hr => ?_
  exact Rel.bindEq (updG_congr fun i _ hi => by rw [hr.rd hi]) fun _ => rfl

theorem rel_aMvmBnnVI :
    Rel w SameRes (aMvmBnnVI E cfg c a res vec m n l) (aMvmBnnVI E cfg c b res vec m n l) := by
  unfold aMvmBnnVI
  refine Rel.bind (rel_encPM h.vdP h.vdM) fun v v' hv => ?_
  refine Rel.bind (rel_colCurrents (fun _ j _ hj => iaQuadTerm_congr (hv.1.rd hj) (hv.2.rd hj)) hv.1
    (u := some v.2) (u' := some v'.2) hv.2 h.tmp) fun t t' ht => ?_
  refine Rel.bindEq rfl fun sc => Rel.bind (rel_convVec hw ht rfl) fun r r' hr => ?_
  exact Rel.bindEq (addTmp_congr hr) fun _ => rfl

theorem rel_aMvmTnnI :
    Rel w SameRes (aMvmTnnI E cfg c a res vec m n l) (aMvmTnnI E cfg c b res vec m n l) := by
  unfold aMvmTnnI
  refine Rel.bind (rel_encTern h.vdP h.vdM) fun v v' hv => ?_
  refine Rel.bind (rel_colCurrents (fun _ j _ hj => iaQuadTerm_congr (hv.1.rd hj) (hv.2.rd hj)) hv.1
    (u := some v.2) (u' := some v'.2) hv.2 h.tmp) fun t t' ht => ?_
  refine Rel.bindEq rfl fun sc => Rel.bind (rel_convVec hw ht rfl) fun r r' hr => ?_
  exact Rel.bindEq (addTmp_congr hr) fun _ => rfl

theorem rel_aMvmTnnII :
    Rel w SameRes (aMvmTnnII E cfg c a res vec m n l) (aMvmTnnII E cfg c b res vec m n l) := by
  unfold aMvmTnnII
  refine Rel.bind (rel_encNonzero h.vdP) fun v v' hv => ?_
  refine Rel.bind (rel_colCurrents (fun _ j _ hj => iaDiffTerm_congr (hv.rd hj)) hv trivial h.tmp)
    fun t t' ht => ?_
  refine Rel.bindEq rfl fun sc => Rel.bind (rel_convVec hw ht rfl) fun r r' hr => ?_
  refine Rel.bindEq (addTmp_congr hr) fun _ => ?_
  refine Rel.bind (rel_encNegOne hv.size) fun v v' hv => ?_
  refine Rel.bind (rel_colCurrents (fun _ j _ hj => iaDiffTerm_congr (hv.rd hj)) hv trivial hr.size)
    fun t t' ht => ?_
  refine Rel.bindEq rfl fun sc => Rel.bind (rel_convVec hw ht rfl) fun r r' hr => ?_
  exact Rel.bindEq (subTmp_congr hr) fun _ => rfl

theorem rel_aMvmTnnIII :
    Rel w SameRes (aMvmTnnIII E cfg c a res vec m n l) (aMvmTnnIII E cfg c b res vec m n l) := by
  unfold aMvmTnnIII
  refine Rel.bind (rel_encBit0 h.vdP) fun v v' hv => ?_
  refine Rel.bind (rel_colCurrents (fun _ j _ hj => iaDiffTerm_congr (hv.rd hj)) hv trivial h.tmp)
    fun t t' ht => ?_
  refine Rel.bindEq rfl fun sc => Rel.bind (rel_convVec hw ht rfl) fun r r' hr => ?_
  refine Rel.bindEq (addTmp_congr hr) fun _ => ?_
  refine Rel.bind (rel_encBit1 hv.size) fun v v' hv => ?_
  refine Rel.bind (rel_colCurrents (fun _ j _ hj => iaDiffTerm_congr (hv.rd hj)) hv trivial hr.size)
    fun t t' ht => ?_
  refine Rel.bindEq rfl fun sc => Rel.bind (rel_convVec hw ht rfl) fun r r' hr => ?_
  refine Rel.bindEq (addTmp_congr hr) fun _ => ?_
  exact Rel.bindEq rfl fun _ => rfl

omit h in
theorem rel_tcStep {A : Mat K} {v v' : Vec Int} {sc off : K} {t t' : Vec K}
    {hs hs' : List (String × Hist K)} (hv : Agree n v v') (ht : t.size = t'.size) :
    Rel w (fun r r' => Agree m r.2 r'.2) (tcStep E cfg c A v m n sc off l t hs)
      (tcStep E cfg c A v' m n sc off l t' hs') := by
  unfold tcStep
  exact Rel.bind (rel_accG (Agree.fill ht 0) (le_refl m) fun _ j _ hj => iaTerm_congr (hv.rd hj))
    fun _ _ ht => rel_convVec hw ht rfl

omit h in
theorem rel_tcSolve {v v' : Vec Int} {s1 s2 off : K} {t t' u u' : Vec K}
    {hs hs' : List (String × Hist K)} (hv : Agree n v v') (ht : t.size = t'.size)
    (hu : u.size = u'.size) :
    Rel w (fun r r' => Agree m r.2.2.1 r'.2.2.1 ∧ Agree m r.2.2.2 r'.2.2.2)
      (tcSolve E cfg c v m n s1 s2 off l t u hs) (tcSolve E cfg c v' m n s1 s2 off l t' u' hs') := by
  unfold tcSolve
  split
  · exact Rel.err
  · rw [computeCurrents_congr hv (u := none) (u' := none) trivial]
    refine Rel.bindEq rfl fun x => ?_
    refine Rel.bind (rel_setG ht fun _ _ => rfl) fun t t' ht => ?_
    refine Rel.bind (rel_setG hu fun _ _ => rfl) fun u u' hu => ?_
    refine Rel.bind (rel_convVec hw ht rfl) fun r r' hr => ?_
    exact Rel.bind (rel_convVec hw hu rfl) fun q q' hq => ⟨hr, hq⟩

theorem rel_aMvmTnnIV (hi : cfg.mode.isInt = false) :
    Rel w SameRes (aMvmTnnIV E cfg c a res vec m n l) (aMvmTnnIV E cfg c b res vec m n l) := by
  unfold aMvmTnnIV
  refine Rel.ite (fun _ => Rel.err) fun _ => ?_
  refine Rel.bindEq rfl fun sum => ?_
  refine Rel.bind (rel_encTern h.vdP h.vdM) fun v v' hv => ?_
  refine Rel.bindEq rfl fun s1 => Rel.bindEq rfl fun s2 => Rel.bindEq rfl fun _ =>
    Rel.bindEq rfl fun _ => ?_
  have hfp : Agree m (a.tmpFp.fill 0) (b.tmpFp.fill 0) :=
    Agree.fill (h.tmpFp fun hh => absurd (hi.symm.trans hh) (by decide)) 0
  refine Rel.ite (fun _ => ?_) fun _ => ?_
  · refine Rel.bind (rel_tcSolve hw hv.1 h.tmpLsb h.tmpMsb) fun r r' hr => ?_
    refine Rel.bind (rel_faddVec hr.1 hfp) fun f f' hf => ?_
    refine Rel.bind (rel_fsubVec hr.2 hf) fun f f' hf => ?_
    refine Rel.bind (rel_tcSolve hw hv.2 hr.1.size hr.2.size) fun r r' hr => ?_
    refine Rel.bind (rel_fsubVec hr.1 hf) fun f f' hf => ?_
    refine Rel.bind (rel_faddVec hr.2 hf) fun f f' hf => ?_
    exact Rel.bindEq (addTmp_congr hf) fun _ => rfl
  · refine Rel.bind (rel_tcStep hw hv.1 h.tmp) fun r r' hr => ?_
    refine Rel.bind (rel_faddVec hr hfp) fun f f' hf => ?_
    refine Rel.bind (rel_tcStep hw hv.2 hr.size) fun r r' hr => ?_
    refine Rel.bind (rel_fsubVec hr hf) fun f f' hf => ?_
    refine Rel.bind (rel_tcStep hw hv.1 hr.size) fun r r' hr => ?_
    refine Rel.bind (rel_fsubVec hr hf) fun f f' hf => ?_
    refine Rel.bind (rel_tcStep hw hv.2 hr.size) fun r r' hr => ?_
    refine Rel.bind (rel_faddVec hr hf) fun f f' hf => ?_
    exact Rel.bindEq (addTmp_congr hf) fun _ => rfl

theorem rel_aMvmTnnV (hi : cfg.mode.isInt = false) :
    Rel w SameRes (aMvmTnnV E cfg c a res vec m n l) (aMvmTnnV E cfg c b res vec m n l) := by
  unfold aMvmTnnV
  refine Rel.ite (fun _ => Rel.err) fun _ => ?_
  refine Rel.bindEq rfl fun sum => ?_
  refine Rel.bind (rel_encTern h.vdP h.vdM) fun v v' hv => ?_
  refine Rel.bindEq rfl fun _ => Rel.bindEq rfl fun s1 => Rel.bindEq rfl fun s2 => ?_
  have hfp : Agree m (a.tmpFp.fill 0) (b.tmpFp.fill 0) :=
    Agree.fill (h.tmpFp fun hh => absurd (hi.symm.trans hh) (by decide)) 0
  refine Rel.ite (fun _ => ?_) fun _ => ?_
  · refine Rel.bind (rel_tcSolve hw hv.1 h.tmpLsb h.tmpMsb) fun r r' hr => ?_
    refine Rel.bind (rel_faddVec hr.1 hfp) fun f f' hf => ?_
    refine Rel.bind (rel_faddVec hr.2 hf) fun f f' hf => ?_
    refine Rel.bind (rel_tcSolve hw hv.2 hr.1.size hr.2.size) fun r r' hr => ?_
    refine Rel.bind (rel_fsubVec hr.1 hf) fun f f' hf => ?_
    refine Rel.bind (rel_fsubVec hr.2 hf) fun f f' hf => ?_
    exact Rel.bindEq (loop_congr' fun i s hi => by rw [hf.rd hi]) fun _ => rfl
  · refine Rel.bind (rel_tcStep hw hv.1 h.tmp) fun r r' hr => ?_
    refine Rel.bind (rel_faddVec hr hfp) fun f f' hf => ?_
    refine Rel.bind (rel_tcStep hw hv.2 hr.size) fun r r' hr => ?_
    refine Rel.bind (rel_fsubVec hr hf) fun f f' hf => ?_
    refine Rel.bind (rel_tcStep hw hv.1 hr.size) fun r r' hr => ?_
    refine Rel.bind (rel_faddVec hr hf) fun f f' hf => ?_
    refine Rel.bind (rel_tcStep hw hv.2 hr.size) fun r r' hr => ?_
    refine Rel.bind (rel_fsubVec hr hf) fun f f' hf => ?_
    exact Rel.bindEq (loop_congr' fun i s hi => by rw [hf.rd hi]) fun _ => rfl

theorem rel_aMvm (hc : c.mode = cfg.mode) :
    Rel w SameRes (aMvm E cfg c a res vec m n l) (aMvm E cfg c b res vec m n l) := by
  have hi := congrArg Mode.isInt hc
  unfold aMvm
  split <;> rename_i hm <;> rw [hm] at hi
  · exact rel_aMvmIntI h hi.symm
  · exact rel_aMvmIntI h hi.symm
  · exact rel_aMvmIntII h hi.symm
  · exact rel_aMvmIntIII h hi.symm
  · exact rel_aMvmIntIV h hi.symm
  · exact rel_aMvmIntV h hi.symm
  · exact rel_aMvmBnnI h hw
  · exact rel_aMvmBnnII h hw
  · exact rel_aMvmBnnIII h hw
  · exact rel_aMvmBnnIV h hw
  · exact rel_aMvmBnnV h hw
  · exact rel_aMvmBnnVI h hw
  · exact rel_aMvmTnnI h hw
  · exact rel_aMvmTnnII h hw
  · exact rel_aMvmTnnIII h hw
  · exact rel_aMvmTnnIV h hw hi.symm
  · exact rel_aMvmTnnV h hw hi.symm

end

end

end Acs
