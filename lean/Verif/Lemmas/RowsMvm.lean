import Verif.Lemmas.Rows

/-! # Multiplications row by row -/

set_option linter.unusedSectionVars false

namespace Acs

section
variable {K : Type} [Field K] [LinearOrder K] [IsStrictOrderedRing K] [FloorRing K]
variable {E : Env K} {cfg : Cfg K} {k : Core K} {a b : Aux K} {res res' vec : Vec Int} {m n i : Nat}
variable {l : String} {g : Gd} {ia : Ia K} {p : Option (Solver K)}

theorem shiftedTmp_row {s : Bool} {S t : Nat} {sh : Vec Nat} {v v' : Vec Int} (h : On (fun r => r / S = i) v v')
    (ht : t < S) : shiftedTmp s S sh v i t = shiftedTmp s S sh v' i t := by
  unfold shiftedTmp
  rw [h.rd (blk_div ht)]

section
variable (h : AuxSim cfg a b) (hk : PutRow cfg i k g ia p) (hr : On (· = i) res res')
include h hk hr

theorem row_dMvm (hm : k.mode = cfg.mode) :
    Rel true (ResRow i) (dMvm E cfg k a res vec m n) (dMvm E cfg (k.put g ia p) b res' vec m n) := by
  have hg := hk.gd
  unfold dMvm
  have e : (k.put g ia p).mode = k.mode := rfl
  rw [e]
  have int : ∀ {md : Mode}, k.mode = md → md.isInt = true → inRow cfg i = fun r => r / cfg.S = i := by
    intro md h1 h2
    funext r
    exact propext (inRow_int (by rw [← hm, h1, h2]))
  have non : ∀ {md : Mode}, k.mode = md → md.isInt = false → inRow cfg i = fun r => r = i := by
    intro md h1 h2
    exact inRow_non (by rw [← hm, h1, h2])
  split <;> rename_i hmd
  iterate 2
    rw [int hmd rfl] at hg
    unfold dMvmIntI
    refine Rel.bind (rel_encSigned h.vdP h.vdM) fun v v' hv => ?_
    refine Rel.bind (rel_accG_on (On.fill h.tmpInt 0) fun t j _ hj ht => diffTerm_row hg ht (hv.1.rd hj)) fun t t' ht => ?_
    refine Rel.bind (rel_accG_on hr fun c s _ hs hc => by subst hc; exact shiftedTmp_row ht hs) fun r r' hr => ?_
    refine Rel.bind (rel_accG_on (On.fill ht.size 0) fun t j _ hj ht => diffTermNeg_row hg ht (hv.2.rd hj)) fun t t' ht => ?_
    exact Rel.bind (rel_accG_on hr fun c s _ hs hc => by subst hc; exact shiftedTmp_row ht hs) fun r r' hr => hr
  · rw [int hmd rfl] at hg
    unfold dMvmIntII
    refine Rel.bind (rel_encOffs h.vdP) fun v v' hv => ?_
    refine Rel.bind (rel_accG_on (On.fill h.tmpInt 0) fun t j _ hj ht => diffTerm_row hg ht (hv.rd hj)) fun t t' ht => ?_
    refine Rel.bind (Rel.loop' hr fun c s s' _ hs => ?_) fun r r' hr => hr
    refine Rel.bind (rel_accRow_on hs fun hc j hj => by subst hc; exact shiftedTmp_row ht hj) fun s s' hs => ?_
    refine Rel.bind (rel_cond (p := c = i) fun hc => ?_) fun q q' hq => hs.updAt fun hc x => by rw [hq hc]
    show sumShift _ _ k.gd c = sumShift _ _ g c
    unfold sumShift
    rw [hg.sumW.rd hc]
  · rw [int hmd rfl] at hg
    unfold dMvmIntIII
    refine Rel.bindEq rfl fun _ => ?_
    refine Rel.bind (rel_encMask h.vdP) fun v v' hv => ?_
    refine Rel.bind (rel_accG_on (On.fill h.tmpInt 0) fun t j _ hj ht => diffTerm_row hg ht (hv.rd hj)) fun t t' ht => ?_
    refine Rel.bindEq rfl fun _ => ?_
    refine Rel.bind (rel_encMask hv.size) fun v v' hv => ?_
    refine Rel.bind (rel_accG_on ht fun t j _ hj ht => diffTerm_row hg ht (hv.rd hj)) fun t t' ht => ?_
    exact Rel.bind (rel_accG_on hr fun c s _ hs hc => by subst hc; exact shiftedTmp_row ht hs) fun r r' hr => hr
  · rw [int hmd rfl] at hg
    unfold dMvmIntIV
    refine Rel.bind (rel_accG_on (On.fill h.tmpInt 0) fun t j _ hj ht => diffTerm_row hg ht rfl) fun t t' ht => ?_
    exact Rel.bind (rel_accG_on hr fun c s _ hs hc => by subst hc; exact shiftedTmp_row ht hs) fun r r' hr => hr
  · rw [int hmd rfl] at hg
    unfold dMvmIntV
    refine Rel.bindEq rfl fun sum => ?_
    refine Rel.bind (rel_accG_on (On.fill h.tmpInt 0) fun t j _ hj ht => posTerm_row hg ht rfl) fun t t' ht => ?_
    refine Rel.bind (Rel.loop' hr fun c s s' _ hs => ?_) fun r r' hr => hr
    refine Rel.bind (rel_accRow_on hs fun hc j hj => by subst hc; exact shiftedTmp_row ht hj) fun s s' hs => ?_
    exact Rel.bindEq rfl fun q => hs.updAt fun hc x => rfl
  · rw [non hmd rfl] at hg
    unfold dMvmBnnI
    refine Rel.bind (rel_encBnn1 h.vdP) fun v v' hv => ?_
    refine Rel.bind (rel_accG_on hr fun t j _ hj ht => by
      show diffTerm k.gd v t j >>= _ = diffTerm g v' t j >>= _
      rw [diffTerm_row hg ht (hv.rd hj)]) fun r r' hr => ?_
    refine Rel.bind (rel_updG_on hr fun c x _ hc => ?_) fun r r' hr => hr
    show k.gd.sumW.rd c >>= _ = g.sumW.rd c >>= _
    rw [hg.sumW.rd hc]
  · rw [non hmd rfl] at hg
    unfold dMvmBnnII
    refine Rel.bind (rel_encBnn2 h.vdP) fun v v' hv => ?_
    refine Rel.bind (rel_accG_on hr fun t j _ hj ht => by
      show diffTermNeg k.gd v t j >>= _ = diffTermNeg g v' t j >>= _
      rw [diffTermNeg_row hg ht (hv.rd hj)]) fun r r' hr => ?_
    refine Rel.bind (rel_updG_on hr fun c x _ hc => ?_) fun r r' hr => hr
    show k.gd.sumW.rd c >>= _ = g.sumW.rd c >>= _
    rw [hg.sumW.rd hc]
  · rw [non hmd rfl] at hg
    unfold dMvmBnnIII
    refine Rel.bind (rel_encPMSum h.vdP h.vdM) fun v v' hv => ?_
    refine Rel.bind (Rel.loop' hr fun c s s' _ hs => ?_) fun r r' hr => hr
    rw [hv.2.2]
    refine Rel.bind (hs.updAt fun _ _ => rfl) fun s s' hs => ?_
    exact rel_accRow_on hs fun hc j hj => bnn34Term_row hg hc (hv.1.rd hj) (hv.2.1.rd hj)
  · rw [non hmd rfl] at hg
    unfold dMvmBnnIV
    refine Rel.bind (rel_encPMSum h.vdP h.vdM) fun v v' hv => ?_
    refine Rel.bind (Rel.loop' hr fun c s s' _ hs => ?_) fun r r' hr => hr
    rw [hv.2.2]
    refine Rel.bind (hs.updAt fun _ _ => rfl) fun s s' hs => ?_
    exact rel_accRow_on hs fun hc j hj => bnn34Term_row hg hc (hv.2.1.rd hj) (hv.1.rd hj)
  · rw [non hmd rfl] at hg
    unfold dMvmBnnV
    refine Rel.bind (rel_encPM h.vdP h.vdM) fun v v' hv => ?_
    refine Rel.bind (Rel.loop' hr fun c s s' _ hs => ?_) fun r r' hr => hr
    refine Rel.bind (hs.updAt fun _ _ => rfl) fun s s' hs => ?_
    exact rel_accRow_on hs fun hc j hj => bnn5Term_row hg hc (hv.1.rd hj) (hv.2.rd hj)
  · rw [non hmd rfl] at hg
    unfold dMvmBnnVI
    refine Rel.bind (rel_encPM h.vdP h.vdM) fun v v' hv => ?_
    exact Rel.bind (rel_accG_on hr fun t j _ hj ht => quadTerm_row hg ht (hv.1.rd hj) (hv.2.rd hj)) fun r r' hr => hr
  · rw [non hmd rfl] at hg
    unfold dMvmTnnI
    refine Rel.bind (rel_encTern h.vdP h.vdM) fun v v' hv => ?_
    exact Rel.bind (rel_accG_on hr fun t j _ hj ht => quadTerm_row hg ht (hv.1.rd hj) (hv.2.rd hj)) fun r r' hr => hr
  · rw [non hmd rfl] at hg
    unfold dMvmTnnII
    refine Rel.bind (rel_encNonzero h.vdP) fun v v' hv => ?_
    refine Rel.bind (rel_accG_on hr fun t j _ hj ht => diffTerm_row hg ht (hv.rd hj)) fun r r' hr => ?_
    refine Rel.bind (rel_encNegOne hv.size) fun v v' hv => ?_
    exact Rel.bind (rel_accG_on hr fun t j _ hj ht => diffTerm2_row hg ht (hv.rd hj)) fun r r' hr => hr
  · rw [non hmd rfl] at hg
    unfold dMvmTnnIII
    refine Rel.bind (rel_encBit0 h.vdP) fun v v' hv => ?_
    refine Rel.bind (rel_accG_on hr fun t j _ hj ht => diffTerm_row hg ht (hv.rd hj)) fun r r' hr => ?_
    refine Rel.bind (rel_encBit1 hv.size) fun v v' hv => ?_
    refine Rel.bind (rel_accG_on hr fun t j _ hj ht => diffTerm2_row hg ht (hv.rd hj)) fun r r' hr => ?_
    refine Rel.bind (rel_updG_on hr fun c x _ hc => ?_) fun r r' hr => hr
    show k.gd.sumW.rd c >>= _ = g.sumW.rd c >>= _
    rw [hg.sumW.rd hc]
  · rw [non hmd rfl] at hg
    unfold dMvmTnnIV
    refine Rel.ite (fun _ => Rel.err) fun _ => ?_
    refine Rel.bind (rel_encTern h.vdP h.vdM) fun v v' hv => ?_
    refine Rel.bind (rel_accG_on hr fun t j _ hj ht => ?_) fun r r' hr => hr
    show tcTerms _ k.gd _ _ t j >>= _ = tcTerms _ g _ _ t j >>= _
    rw [tcTerms_row hg ht (hv.1.rd hj) (hv.2.rd hj)]
  · rw [non hmd rfl] at hg
    unfold dMvmTnnV
    refine Rel.ite (fun _ => Rel.err) fun _ => ?_
    refine Rel.bindEq rfl fun sum => ?_
    refine Rel.bind (rel_encTern h.vdP h.vdM) fun v v' hv => ?_
    refine Rel.bind (Rel.loop' hr fun c s s' _ hs => ?_) fun r r' hr => hr
    refine Rel.bind (rel_accRow_on hs fun hc j hj => ?_) fun s s' hs => hs.updAt fun _ _ => rfl
    show tcTerms _ k.gd _ _ c j >>= _ = tcTerms _ g _ _ c j >>= _
    rw [tcTerms_row hg hc (hv.1.rd hj) (hv.2.rd hj)]

end

end

end Acs
