import Verif.Lemmas.RowsCur

/-! # Analog multiplications row by row -/

set_option linter.unusedSectionVars false

namespace Acs

section
variable {K : Type} [Field K] [LinearOrder K] [IsStrictOrderedRing K] [FloorRing K]
variable {E : Env K} {cfg : Cfg K} {k : Core K} {a b : Aux K} {res res' vec : Vec Int} {m n i : Nat}
variable {l : String} {g : Gd} {ia : Ia K} {p : Option (Solver K)}

/-- State of the loops over the input bits. -/
structure BitRow (cfg : Cfg K) (i : Nat) {R : Type} (s t : Vec Int × Vec K × Vec R) : Prop where
  slice : s.1.size = t.1.size
  tmp : cfg.parasitics = false → On (inRow cfg i) s.2.1 t.2.1
  res : On (· = i) s.2.2 t.2.2

theorem int_modes (hi : cfg.mode.isInt = true) : cfg.mode ≠ .tnn4 ∧ cfg.mode ≠ .tnn5 := by
  constructor <;> intro h <;> rw [h] at hi <;> exact absurd hi (by decide)

section
variable (hk : PutRow cfg i k g ia p)
include hk

theorem row_intBit (hi : cfg.mode.isInt = true) {v v' : Vec Int} {sg : K} {bit : Nat} {s t : Vec Int × Vec K × Vec Int}
    (hv : Agree n v v') (h : BitRow cfg i s t) :
    Rel true (BitRow cfg i) (intBit E cfg k v sg m n l bit s) (intBit E cfg (k.put g ia p) v' sg m n l bit t) := by
  unfold intBit
  refine Rel.bind (rel_sliceVd hv h.slice) fun sl sl' hsl => ?_
  refine Rel.bind (row_intCurrents hk (int_modes hi) (fun _ j hj hx => iaDiffTerm_row hk.ia hx (hsl.rd hj)) hsl h.tmp)
    fun t t' ht => ?_
  refine Rel.bind (rel_accG_on h.res fun x s _ hs hx => by subst hx; exact intConv_row hi ht hs) fun r r' hr => ?_
  exact ⟨hsl.size, fun _ => On.fill ht.size 0, hr⟩

theorem row_intBitV (hi : cfg.mode.isInt = true) {v v' : Vec Int} {bit : Nat} {s t : Vec Int × Vec K × Vec K}
    (hv : Agree n v v') (h : BitRow cfg i s t) :
    Rel true (BitRow cfg i) (intBitV E cfg k v m n l bit s) (intBitV E cfg (k.put g ia p) v' m n l bit t) := by
  unfold intBitV
  refine Rel.bind (rel_sliceVd hv h.slice) fun sl sl' hsl => ?_
  refine Rel.bind (row_intCurrents hk (int_modes hi) (fun _ j hj hx => iaTerm_row hk.ia.p hx (hsl.rd hj)) hsl h.tmp)
    fun t t' ht => ?_
  refine Rel.bind (rel_accG_on h.res fun x s _ hs hx => by subst hx; exact intConv_row hi ht hs) fun r r' hr => ?_
  exact ⟨hsl.size, fun _ => On.fill ht.size 0, hr⟩

end

section
variable (h : AuxSim cfg a b) (hk : PutRow cfg i k g ia p) (hr : On (· = i) res res')
include h

theorem AuxSim.row {R : Type} {r r' : Vec R} (hr : On (· = i) r r') :
    BitRow cfg i (a.vdSlice, a.tmpFp.fill 0, r) (b.vdSlice, b.tmpFp.fill 0, r') :=
  ⟨h.vdSlice, fun hp => On.fill (h.tmpFp fun _ => hp) 0, hr⟩

include hk hr

theorem row_aMvmIntI (hi : cfg.mode.isInt = true) :
    Rel true (ResRow i) (aMvmIntI E cfg k a res vec m n l) (aMvmIntI E cfg (k.put g ia p) b res' vec m n l) := by
  unfold aMvmIntI
  refine Rel.bind (rel_encSigned h.vdP h.vdM) fun v v' hv => ?_
  refine Rel.bind (Rel.loop' (h.row hr) fun _ _ _ _ hs => row_intBit hk hi hv.1 hs) fun s t hst => ?_
  exact Rel.bind (Rel.loop' hst fun _ _ _ _ hs => row_intBit hk hi hv.2 hs) fun s t hst => hst.res

theorem row_aMvmIntII (hi : cfg.mode.isInt = true) :
    Rel true (ResRow i) (aMvmIntII E cfg k a res vec m n l) (aMvmIntII E cfg (k.put g ia p) b res' vec m n l) := by
  unfold aMvmIntII
  refine Rel.bind (rel_encOffs h.vdP) fun v v' hv => ?_
  refine Rel.bind (Rel.loop' (h.row hr) fun _ _ _ _ hs => row_intBit hk hi hv hs) fun s t hst => ?_
  refine Rel.bind (Rel.loop' hst.res fun c s s' _ hs => ?_) fun r r' hr => hr
  refine Rel.bind (rel_cond (p := c = i) fun hc => ?_) fun q q' hq => hs.updAt fun hc x => by rw [hq hc]
  show sumShift _ _ k.gd c = sumShift _ _ g c
  unfold sumShift
  rw [hk.gd.sumW.rd hc]

theorem row_aMvmIntIII (hi : cfg.mode.isInt = true) :
    Rel true (ResRow i) (aMvmIntIII E cfg k a res vec m n l) (aMvmIntIII E cfg (k.put g ia p) b res' vec m n l) := by
  unfold aMvmIntIII
  refine Rel.bind (rel_encCopy h.vdP) fun v v' hv => ?_
  refine Rel.bind (Rel.loop' (h.row hr) fun _ _ _ _ hs => row_intBit hk hi hv hs) fun s t hst => ?_
  refine Rel.bind (rel_sliceVd hv hst.slice) fun sl sl' hsl => ?_
  refine Rel.bind (row_intCurrents hk (int_modes hi) (fun _ j hj hx => iaDiffTerm_row hk.ia hx (hsl.rd hj)) hsl hst.tmp)
    fun t t' ht => ?_
  exact Rel.bind (rel_accG_on hst.res fun x s _ hs hx => by subst hx; exact intConv_row hi ht hs) fun r r' hr => hr

theorem row_aMvmIntIV (hi : cfg.mode.isInt = true) :
    Rel true (ResRow i) (aMvmIntIV E cfg k a res vec m n l) (aMvmIntIV E cfg (k.put g ia p) b res' vec m n l) := by
  unfold aMvmIntIV
  refine Rel.bind (rel_encCopy h.vdP) fun v v' hv => ?_
  exact Rel.bind (Rel.loop' (h.row hr) fun _ _ _ _ hs => row_intBit hk hi hv hs) fun s t hst => hst.res

theorem row_aMvmIntV (hi : cfg.mode.isInt = true) :
    Rel true (ResRow i) (aMvmIntV E cfg k a res vec m n l) (aMvmIntV E cfg (k.put g ia p) b res' vec m n l) := by
  unfold aMvmIntV
  refine Rel.bind (rel_encCopy h.vdP) fun v v' hv => ?_
  refine Rel.bindEq rfl fun sum => ?_
  refine Rel.bind (Rel.loop' (h.row (On.fill h.resFp 0)) fun _ _ _ _ hs => row_intBitV hk hi hv hs) fun s t hst => ?_
  refine Rel.bind (Rel.loop' (I := fun (s t : Vec K × Vec Int) => On (· = i) s.1 t.1 ∧ On (· = i) s.2 t.2)
    ⟨hst.res, hr⟩ fun c s t _ hs => ?_) fun s t hs => hs.2
  refine Rel.bindEq rfl fun d => Rel.bindEq rfl fun o => ?_
  refine Rel.bind (hs.1.updAt fun _ _ => rfl) fun f f' hf => ?_
  refine Rel.bind (rel_cond hf.rd) fun y y' hy => ?_
  refine Rel.bind (rel_cond (p := c = i) fun hc => by rw [hy hc]) fun z z' hz => ?_
  exact Rel.bind (hs.2.updAt fun hc x => by rw [hz hc]) fun r r' hr => ⟨hf, hr⟩

end

section
variable (h : AuxSim cfg a b) (hk : PutRow cfg i k g ia p) (hr : On (· = i) res res')
variable (hi : cfg.mode.isInt = false) (hm : cfg.mode ≠ .tnn4 ∧ cfg.mode ≠ .tnn5)

/-- The rows of a binary or ternary mapping. -/
theorem at_row {α : Type} (hi : cfg.mode.isInt = false) {t t' : Vec α} (ht : On (inRow cfg i) t t') :
    On (· = i) t t' := ht.mono fun x hx => by rw [inRow_non hi]; exact hx

theorem at_row' {α : Type} (hi : cfg.mode.isInt = false) {t t' : Vec α} (ht : On (inRow cfg i) t t') :
    On (fun x => x < m ∧ x = i) t t' := ht.mono fun x hx => by rw [inRow_non hi]; exact hx.2

include h hk hr hi hm

theorem row_aMvmBnnI :
    Rel true (ResRow i) (aMvmBnnI E cfg k a res vec m n l) (aMvmBnnI E cfg (k.put g ia p) b res' vec m n l) := by
  unfold aMvmBnnI
  refine Rel.bind (rel_encBnn1 h.vdP) fun v v' hv => ?_
  refine Rel.bind (row_colCurrents hk hm (fun _ j hj hx => iaDiffTerm_row hk.ia hx (hv.rd hj)) hv trivial h.tmp)
    fun t t' ht => ?_
  refine Rel.bindEq rfl fun sc => Rel.bind (row_convVec (at_row hi ht)) fun r r' hr' => ?_
  refine Rel.bind (rel_updG_on hr fun c _ _ hc => ?_) fun _ _ h => h
  show _ = (r'.2.rd c >>= fun y => g.sumW.rd c >>= fun s => _)
  rw [hr'.rd hc, hk.gd.sumW.rd hc]

theorem row_aMvmBnnII :
    Rel true (ResRow i) (aMvmBnnII E cfg k a res vec m n l) (aMvmBnnII E cfg (k.put g ia p) b res' vec m n l) := by
  unfold aMvmBnnII
  refine Rel.bind (rel_encBnn2 h.vdP) fun v v' hv => ?_
  refine Rel.bind (row_colCurrents hk hm (fun _ j hj hx => iaDiffTermNeg_row hk.ia hx (hv.rd hj)) hv trivial h.tmp)
    fun t t' ht => ?_
  refine Rel.bindEq rfl fun sc => Rel.bind (row_convVec (at_row hi ht)) fun r r' hr' => ?_
  refine Rel.bind (rel_updG_on hr fun c _ _ hc => ?_) fun _ _ h => h
  show _ = (r'.2.rd c >>= fun y => g.sumW.rd c >>= fun s => _)
  rw [hr'.rd hc, hk.gd.sumW.rd hc]

omit hr in
theorem row_bnn34Currents :
    Rel true (fun r r' => On (· = i) r.1.tmpP r'.1.tmpP ∧ On (· = i) r.1.tmpM r'.1.tmpM ∧ r.2 = r'.2)
      (bnn34Currents E cfg k a vec m n l) (bnn34Currents E cfg (k.put g ia p) b vec m n l) := by
  unfold bnn34Currents
  refine Rel.bind (rel_encPMSum h.vdP h.vdM) fun v v' hv => ?_
  refine Rel.bind (row_colCurrents hk hm (fun _ j hj hx => iaTerm_row hk.ia.p hx (hv.1.rd hj)) hv.1 trivial h.tmpP)
    fun t t' ht => ?_
  refine Rel.bind (row_colCurrents hk hm (fun _ j hj hx => iaTerm_row hk.ia.p hx (hv.2.1.rd hj)) hv.2.1 trivial h.tmpM)
    fun u u' hu => ?_
  rw [hv.2.2]
  refine Rel.bindEq rfl fun sc => Rel.bindEq rfl fun ns => ?_
  refine Rel.bind (row_convVec (at_row hi ht)) fun r r' hr => ?_
  exact Rel.bind (row_convVec (at_row hi hu)) fun q q' hq => ⟨hr, hq, rfl⟩

theorem row_aMvmBnnIII :
    Rel true (ResRow i) (aMvmBnnIII E cfg k a res vec m n l) (aMvmBnnIII E cfg (k.put g ia p) b res' vec m n l) := by
  unfold aMvmBnnIII
  refine Rel.bind (row_bnn34Currents h hk hi hm) fun r r' hr' => ?_
  exact Rel.bind (rel_updG_on hr fun c _ _ hc => by rw [hr'.1.rd hc, hr'.2.1.rd hc, hr'.2.2]) fun _ _ h => h

theorem row_aMvmBnnIV :
    Rel true (ResRow i) (aMvmBnnIV E cfg k a res vec m n l) (aMvmBnnIV E cfg (k.put g ia p) b res' vec m n l) := by
  unfold aMvmBnnIV
  refine Rel.bind (row_bnn34Currents h hk hi hm) fun r r' hr' => ?_
  exact Rel.bind (rel_updG_on hr fun c _ _ hc => by rw [hr'.1.rd hc, hr'.2.1.rd hc, hr'.2.2]) fun _ _ h => h

theorem row_aMvmBnnV :
    Rel true (ResRow i) (aMvmBnnV E cfg k a res vec m n l) (aMvmBnnV E cfg (k.put g ia p) b res' vec m n l) := by
  unfold aMvmBnnV
  refine Rel.bind (rel_encPM h.vdP h.vdM) fun v v' hv => ?_
  refine Rel.bind (row_colCurrents hk hm (fun _ j hj hx => iaBnn5Term_row hk.ia hx (hv.1.rd hj) (hv.2.rd hj)) hv.1
    (u := some v.2) (u' := some v'.2) hv.2 h.tmp) fun t t' ht => ?_
  refine Rel.bindEq rfl fun sc => Rel.bindEq rfl fun _ => Rel.bind (row_convVec (at_row hi ht)) fun r r' hr' => ?_
  exact Rel.bind (rel_updG_on hr fun c _ _ hc => by rw [hr'.rd hc]) fun _ _ h => h

theorem row_aMvmBnnVI :
    Rel true (ResRow i) (aMvmBnnVI E cfg k a res vec m n l) (aMvmBnnVI E cfg (k.put g ia p) b res' vec m n l) := by
  unfold aMvmBnnVI
  refine Rel.bind (rel_encPM h.vdP h.vdM) fun v v' hv => ?_
  refine Rel.bind (row_colCurrents hk hm (fun _ j hj hx => iaQuadTerm_row hk.ia hx (hv.1.rd hj) (hv.2.rd hj)) hv.1
    (u := some v.2) (u' := some v'.2) hv.2 h.tmp) fun t t' ht => ?_
  refine Rel.bindEq rfl fun sc => Rel.bind (row_convVec (at_row' (m := m) hi ht)) fun r r' hr' => ?_
  exact Rel.bind (row_addTmp hr' hr) fun _ _ h => h

theorem row_aMvmTnnI :
    Rel true (ResRow i) (aMvmTnnI E cfg k a res vec m n l) (aMvmTnnI E cfg (k.put g ia p) b res' vec m n l) := by
  unfold aMvmTnnI
  refine Rel.bind (rel_encTern h.vdP h.vdM) fun v v' hv => ?_
  refine Rel.bind (row_colCurrents hk hm (fun _ j hj hx => iaQuadTerm_row hk.ia hx (hv.1.rd hj) (hv.2.rd hj)) hv.1
    (u := some v.2) (u' := some v'.2) hv.2 h.tmp) fun t t' ht => ?_
  refine Rel.bindEq rfl fun sc => Rel.bind (row_convVec (at_row' (m := m) hi ht)) fun r r' hr' => ?_
  exact Rel.bind (row_addTmp hr' hr) fun _ _ h => h

theorem row_aMvmTnnII :
    Rel true (ResRow i) (aMvmTnnII E cfg k a res vec m n l) (aMvmTnnII E cfg (k.put g ia p) b res' vec m n l) := by
  unfold aMvmTnnII
  refine Rel.bind (rel_encNonzero h.vdP) fun v v' hv => ?_
  refine Rel.bind (row_colCurrents hk hm (fun _ j hj hx => iaDiffTerm_row hk.ia hx (hv.rd hj)) hv trivial h.tmp)
    fun t t' ht => ?_
  refine Rel.bindEq rfl fun sc => Rel.bind (row_convVec (at_row' (m := m) hi ht)) fun r r' hr' => ?_
  refine Rel.bind (row_addTmp hr' hr) fun _ _ hr => ?_
  refine Rel.bind (rel_encNegOne hv.size) fun v v' hv => ?_
  refine Rel.bind (row_colCurrents hk hm (fun _ j hj hx => iaDiffTerm_row hk.ia hx (hv.rd hj)) hv trivial hr'.size)
    fun t t' ht => ?_
  refine Rel.bindEq rfl fun sc => Rel.bind (row_convVec (at_row' (m := m) hi ht)) fun r r' hr' => ?_
  exact Rel.bind (row_subTmp hr' hr) fun _ _ h => h

theorem row_aMvmTnnIII :
    Rel true (ResRow i) (aMvmTnnIII E cfg k a res vec m n l) (aMvmTnnIII E cfg (k.put g ia p) b res' vec m n l) := by
  unfold aMvmTnnIII
  refine Rel.bind (rel_encBit0 h.vdP) fun v v' hv => ?_
  refine Rel.bind (row_colCurrents hk hm (fun _ j hj hx => iaDiffTerm_row hk.ia hx (hv.rd hj)) hv trivial h.tmp)
    fun t t' ht => ?_
  refine Rel.bindEq rfl fun sc => Rel.bind (row_convVec (at_row' (m := m) hi ht)) fun r r' hr' => ?_
  refine Rel.bind (row_addTmp hr' hr) fun _ _ hr => ?_
  refine Rel.bind (rel_encBit1 hv.size) fun v v' hv => ?_
  refine Rel.bind (row_colCurrents hk hm (fun _ j hj hx => iaDiffTerm_row hk.ia hx (hv.rd hj)) hv trivial hr'.size)
    fun t t' ht => ?_
  refine Rel.bindEq rfl fun sc => Rel.bind (row_convVec (at_row' (m := m) hi ht)) fun r r' hr' => ?_
  refine Rel.bind (row_addTmp hr' hr) fun _ _ hr => ?_
  refine Rel.bind (rel_updG_on hr fun c _ _ hc => ?_) fun _ _ h => h
  show _ = (g.sumW.rd c >>= fun s => _)
  rw [hk.gd.sumW.rd hc]

end

section
variable (h : AuxSim cfg a b) (hk : PutRow cfg i k g ia p) (hr : On (· = i) res res')
variable (hi : cfg.mode.isInt = false) (hm : cfg.mode = .tnn4 ∨ cfg.mode = .tnn5)

theorem row_tcStep {A A' : Mat K} {v v' : Vec Int} {sc off : K} {t t' : Vec K} {hs hs' : List (String × Hist K)}
    (hA : RowEq (· = i) A A') (hv : Agree n v v') (ht : t.size = t'.size) :
    Rel true (fun r r' => On (fun x => x < m ∧ x = i) r.2 r'.2) (tcStep E cfg k A v m n sc off l t hs)
      (tcStep E cfg (k.put g ia p) A' v' m n sc off l t' hs') := by
  unfold tcStep
  exact Rel.bind (rel_accG_on (P := fun x => x < m ∧ x = i) (On.fill ht 0) fun _ j _ hj hx => iaTerm_row hA hx.2 (hv.rd hj))
    fun _ _ ht => row_convVec ht

include hk hi hm in
theorem row_tcSolve {v v' : Vec Int} {s1 s2 off : K} {t t' u u' : Vec K} {hs hs' : List (String × Hist K)}
    (hv : Agree n v v') (ht : t.size = t'.size) (hu : u.size = u'.size) :
    Rel true (fun r r' => On (fun x => x < m ∧ x = i) r.2.2.1 r'.2.2.1 ∧ On (fun x => x < m ∧ x = i) r.2.2.2 r'.2.2.2)
      (tcSolve E cfg k v m n s1 s2 off l t u hs) (tcSolve E cfg (k.put g ia p) v' m n s1 s2 off l t' u' hs') := by
  unfold tcSolve
  show Rel true _ _ (match p with | none => _ | some s => _)
  have hpar := hk.par
  cases h1 : k.par with
  | none => exact Rel.apart fun _ _ he _ => by cases he
  | some s =>
    cases h2 : p with
    | none => exact Rel.apart fun _ _ _ he => by cases he
    | some s' =>
      rw [h1, h2] at hpar
      have ho : ∀ x, outRow cfg.mode x = x / 2 := fun x => by
        rcases hm with e | e <;> rw [e] <;> rfl
      refine Rel.bind (row_computeCurrents hpar hv (u := none) (u' := none) trivial) fun x x' hx => ?_
      refine Rel.bind (rel_setG_on (P := (· = i)) ht fun c _ hc => hx.rd ?_) fun t t' ht => ?_
      · show inRow cfg i _
        rw [ho, inRow_non hi]
        show 2 * c / 2 = i
        omega
      refine Rel.bind (rel_setG_on (P := (· = i)) hu fun c _ hc => hx.rd ?_) fun u u' hu => ?_
      · show inRow cfg i _
        rw [ho, inRow_non hi]
        show (2 * c + 1) / 2 = i
        omega
      refine Rel.bind (row_convVec ht) fun r r' hr => ?_
      exact Rel.bind (row_convVec hu) fun q q' hq => ⟨hr, hq⟩

include h hk hr hi hm

theorem row_aMvmTnnIV :
    Rel true (ResRow i) (aMvmTnnIV E cfg k a res vec m n l) (aMvmTnnIV E cfg (k.put g ia p) b res' vec m n l) := by
  have hp : RowEq (· = i) k.ia.p ia.p := by have := hk.ia.p; rwa [inRow_non hi] at this
  have hq : RowEq (· = i) k.ia.m ia.m := by have := hk.ia.m; rwa [inRow_non hi] at this
  unfold aMvmTnnIV
  refine Rel.ite (fun _ => Rel.err) fun _ => ?_
  refine Rel.bindEq rfl fun sum => ?_
  refine Rel.bind (rel_encTern h.vdP h.vdM) fun v v' hv => ?_
  refine Rel.bindEq rfl fun s1 => Rel.bindEq rfl fun s2 => Rel.bindEq rfl fun _ => Rel.bindEq rfl fun _ => ?_
  have hfp : On (fun x => x < m ∧ x = i) (a.tmpFp.fill 0) (b.tmpFp.fill 0) :=
    On.fill (h.tmpFp fun hh => absurd (hi.symm.trans hh) (by decide)) 0
  refine Rel.ite (fun _ => ?_) fun _ => ?_
  · refine Rel.bind (row_tcSolve hk hi hm hv.1 h.tmpLsb h.tmpMsb) fun r r' hr' => ?_
    refine Rel.bind (row_faddVec hr'.1 hfp) fun f f' hf => ?_
    refine Rel.bind (row_fsubVec hr'.2 hf) fun f f' hf => ?_
    refine Rel.bind (row_tcSolve hk hi hm hv.2 hr'.1.size hr'.2.size) fun r r' hr' => ?_
    refine Rel.bind (row_fsubVec hr'.1 hf) fun f f' hf => ?_
    refine Rel.bind (row_faddVec hr'.2 hf) fun f f' hf => ?_
    exact Rel.bind (row_addTmp hf hr) fun _ _ h => h
  · refine Rel.bind (row_tcStep hp hv.1 h.tmp) fun r r' hr' => ?_
    refine Rel.bind (row_faddVec hr' hfp) fun f f' hf => ?_
    refine Rel.bind (row_tcStep hp hv.2 hr'.size) fun r r' hr' => ?_
    refine Rel.bind (row_fsubVec hr' hf) fun f f' hf => ?_
    refine Rel.bind (row_tcStep hq hv.1 hr'.size) fun r r' hr' => ?_
    refine Rel.bind (row_fsubVec hr' hf) fun f f' hf => ?_
    refine Rel.bind (row_tcStep hq hv.2 hr'.size) fun r r' hr' => ?_
    refine Rel.bind (row_faddVec hr' hf) fun f f' hf => ?_
    exact Rel.bind (row_addTmp hf hr) fun _ _ h => h

theorem row_aMvmTnnV :
    Rel true (ResRow i) (aMvmTnnV E cfg k a res vec m n l) (aMvmTnnV E cfg (k.put g ia p) b res' vec m n l) := by
  have hp : RowEq (· = i) k.ia.p ia.p := by have := hk.ia.p; rwa [inRow_non hi] at this
  have hq : RowEq (· = i) k.ia.m ia.m := by have := hk.ia.m; rwa [inRow_non hi] at this
  unfold aMvmTnnV
  refine Rel.ite (fun _ => Rel.err) fun _ => ?_
  refine Rel.bindEq rfl fun sum => ?_
  refine Rel.bind (rel_encTern h.vdP h.vdM) fun v v' hv => ?_
  refine Rel.bindEq rfl fun _ => Rel.bindEq rfl fun s1 => Rel.bindEq rfl fun s2 => ?_
  have hfp : On (fun x => x < m ∧ x = i) (a.tmpFp.fill 0) (b.tmpFp.fill 0) :=
    On.fill (h.tmpFp fun hh => absurd (hi.symm.trans hh) (by decide)) 0
  have fin : ∀ {f f' : Vec K}, On (fun x => x < m ∧ x = i) f f' → Rel true (On (· = i))
      (loop m (fun i res => do
        let y ← f.rd i
        let res ← updAt res i (fun x => E.iaddf x y)
        updAt res i (fun x => do
          let d ← i64 (x - sum)
          .ok (wrap32 d))) res)
      (loop m (fun i res => do
        let y ← f'.rd i
        let res ← updAt res i (fun x => E.iaddf x y)
        updAt res i (fun x => do
          let d ← i64 (x - sum)
          .ok (wrap32 d))) res') := by
    intro f f' hf
    refine Rel.loop' hr fun c s s' hc hs => ?_
    refine Rel.bind (rel_cond (p := c = i) fun hp => hf.rd ⟨hc, hp⟩) fun y y' hy => ?_
    exact Rel.bind (hs.updAt fun hp x => by rw [hy hp]) fun s s' hs => hs.updAt fun _ _ => rfl
  refine Rel.ite (fun _ => ?_) fun _ => ?_
  · refine Rel.bind (row_tcSolve hk hi hm hv.1 h.tmpLsb h.tmpMsb) fun r r' hr' => ?_
    refine Rel.bind (row_faddVec hr'.1 hfp) fun f f' hf => ?_
    refine Rel.bind (row_faddVec hr'.2 hf) fun f f' hf => ?_
    refine Rel.bind (row_tcSolve hk hi hm hv.2 hr'.1.size hr'.2.size) fun r r' hr' => ?_
    refine Rel.bind (row_fsubVec hr'.1 hf) fun f f' hf => ?_
    refine Rel.bind (row_fsubVec hr'.2 hf) fun f f' hf => ?_
    exact Rel.bind (fin hf) fun _ _ h => h
  · refine Rel.bind (row_tcStep hp hv.1 h.tmp) fun r r' hr' => ?_
    refine Rel.bind (row_faddVec hr' hfp) fun f f' hf => ?_
    refine Rel.bind (row_tcStep hp hv.2 hr'.size) fun r r' hr' => ?_
    refine Rel.bind (row_fsubVec hr' hf) fun f f' hf => ?_
    refine Rel.bind (row_tcStep hq hv.1 hr'.size) fun r r' hr' => ?_
    refine Rel.bind (row_faddVec hr' hf) fun f f' hf => ?_
    refine Rel.bind (row_tcStep hq hv.2 hr'.size) fun r r' hr' => ?_
    refine Rel.bind (row_fsubVec hr' hf) fun f f' hf => ?_
    exact Rel.bind (fin hf) fun _ _ h => h

end

theorem row_aMvm (h : AuxSim cfg a b) (hk : PutRow cfg i k g ia p) (hr : On (· = i) res res') (hc : k.mode = cfg.mode) :
    Rel true (ResRow i) (aMvm E cfg k a res vec m n l) (aMvm E cfg (k.put g ia p) b res' vec m n l) := by
  unfold aMvm
  have e : (k.put g ia p).mode = k.mode := rfl
  rw [e]
  split <;> rename_i hm <;> rw [hm] at hc
  · exact row_aMvmIntI h hk hr (by rw [← hc]; rfl)
  · exact row_aMvmIntI h hk hr (by rw [← hc]; rfl)
  · exact row_aMvmIntII h hk hr (by rw [← hc]; rfl)
  · exact row_aMvmIntIII h hk hr (by rw [← hc]; rfl)
  · exact row_aMvmIntIV h hk hr (by rw [← hc]; rfl)
  · exact row_aMvmIntV h hk hr (by rw [← hc]; rfl)
  · exact row_aMvmBnnI h hk hr (by rw [← hc]; rfl) (by rw [← hc]; decide)
  · exact row_aMvmBnnII h hk hr (by rw [← hc]; rfl) (by rw [← hc]; decide)
  · exact row_aMvmBnnIII h hk hr (by rw [← hc]; rfl) (by rw [← hc]; decide)
  · exact row_aMvmBnnIV h hk hr (by rw [← hc]; rfl) (by rw [← hc]; decide)
  · exact row_aMvmBnnV h hk hr (by rw [← hc]; rfl) (by rw [← hc]; decide)
  · exact row_aMvmBnnVI h hk hr (by rw [← hc]; rfl) (by rw [← hc]; decide)
  · exact row_aMvmTnnI h hk hr (by rw [← hc]; rfl) (by rw [← hc]; decide)
  · exact row_aMvmTnnII h hk hr (by rw [← hc]; rfl) (by rw [← hc]; decide)
  · exact row_aMvmTnnIII h hk hr (by rw [← hc]; rfl) (by rw [← hc]; decide)
  · exact row_aMvmTnnIV h hk hr (by rw [← hc]; rfl) (by rw [← hc]; decide)
  · exact row_aMvmTnnV h hk hr (by rw [← hc]; rfl) (by rw [← hc]; decide)

end

end Acs
