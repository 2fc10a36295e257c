import Verif.Lemmas.Units

/-! # Multiplications in another unit of current -/

set_option linter.unusedSectionVars false

namespace Acs

open Spec

theorem Rel.eq {α : Type} {x y : C α} (h : Rel false Eq x y) : x = y := by
  cases x with
  | ok a =>
    cases y with
    | ok b => exact congrArg _ h
    | error _ => exact absurd (show false = true from h) (by decide)
  | error e =>
    cases y with
    | ok b => exact absurd (show false = true from h) (by decide)
    | error e' => exact congrArg _ (h.resolve_left (by decide))

section
variable {K : Type} [Field K] [LinearOrder K] [IsStrictOrderedRing K] [FloorRing K]
variable {w : Bool} {E : Env K} {cfg : Cfg K} {c : K} {k : Core K} {a b : Aux K} {res vec : Vec Int} {m n : Nat}
variable {l : String}

/-! ## Currents and conversions -/

section
variable (hu : Unitlike E c)
include hu

theorem iaDiffTerm_times {ia : Ia K} {v v' : Vec Int} {t j : Nat} (h : v.rd j = v'.rd j) :
    Rel w (fun x y => y = c * x) (iaDiffTerm E ia v t j) (iaDiffTerm (drawnIn c E) (ia.times c) v' t j) := by
  unfold iaDiffTerm
  refine Rel.bind rel_rd fun p p' e => Rel.bind rel_rd fun q q' e' => Rel.bindEq h fun x => ?_
  subst e e'
  show E.fmul (E.fsub (c * p) (c * q)) (E.ofInt x) = _
  rw [hu.fsub, hu.fmul]

theorem iaDiffTermNeg_times {ia : Ia K} {v v' : Vec Int} {t j : Nat} (h : v.rd j = v'.rd j) :
    Rel w (fun x y => y = c * x) (iaDiffTermNeg E ia v t j) (iaDiffTermNeg (drawnIn c E) (ia.times c) v' t j) := by
  unfold iaDiffTermNeg
  refine Rel.bind rel_rd fun p p' e => Rel.bind rel_rd fun q q' e' => Rel.bindEq h fun x => ?_
  subst e e'
  show E.fmul (E.fsub (c * p) (c * q)) (E.ofInt x) = _
  rw [hu.fsub, hu.fmul]

theorem iaTerm_times {A : Mat K} {v v' : Vec Int} {t j : Nat} (h : v.rd j = v'.rd j) :
    Rel w (fun x y => y = c * x) (iaTerm E A v t j) (iaTerm (drawnIn c E) (A.times c) v' t j) := by
  unfold iaTerm
  refine Rel.bind rel_rd fun p p' e => Rel.bindEq h fun x => ?_
  subst e
  exact hu.fmul _ _

theorem iaBnn5Term_times {ia : Ia K} {v v' u u' : Vec Int} {t j : Nat} (h : v.rd j = v'.rd j) (h' : u.rd j = u'.rd j) :
    Rel w (fun x y => y = c * x) (iaBnn5Term E ia v u t j) (iaBnn5Term (drawnIn c E) (ia.times c) v' u' t j) := by
  unfold iaBnn5Term
  refine Rel.bind rel_rd fun p p' e => Rel.bindEq h fun x => Rel.bind rel_rd fun q q' e' => Rel.bindEq h' fun y => ?_
  subst e e'
  show E.fadd (E.fmul (c * p) (E.ofInt x)) (E.fmul (c * q) (E.ofInt y)) = _
  rw [hu.fmul, hu.fmul, hu.fadd]

theorem iaQuadTerm_times {ia : Ia K} {v v' u u' : Vec Int} {t j : Nat} (h : v.rd j = v'.rd j) (h' : u.rd j = u'.rd j) :
    Rel w (fun x y => y = c * x) (iaQuadTerm E ia v u t j) (iaQuadTerm (drawnIn c E) (ia.times c) v' u' t j) := by
  unfold iaQuadTerm
  refine Rel.bind rel_rd fun p p' e => Rel.bind rel_rd fun q q' e' => Rel.bindEq h fun x => Rel.bindEq h' fun y => ?_
  subst e e'
  show E.fsub (E.fsub (E.fadd (E.fmul (c * p) (E.ofInt x)) (E.fmul (c * q) (E.ofInt y))) (E.fmul (c * q) (E.ofInt x)))
    (E.fmul (c * p) (E.ofInt y)) = _
  simp only [hu.fmul, hu.fadd, hu.fsub]

theorem rel_colCurrents_times {f g : Nat → Nat → C K} {v v' : Vec Int} {u u' : Option (Vec Int)} {t t' : Vec K}
    (hf : ∀ i j, i < m → j < n → Rel w (fun x y => y = c * x) (f i j) (g i j)) (hv : Agree n v v') (hu' : AgreeO n u u')
    (ht : t.size = t'.size) :
    Rel w (VecTimes c m) (colCurrents E cfg k f v u (t.fill 0) m n)
      (colCurrents (drawnIn c E) (inUnit c cfg) (k.times c) g v' u' (t'.fill 0) m n) := by
  unfold colCurrents
  refine Rel.ite (fun _ => ?_) fun _ => rel_accG_times hu (VecTimes.zero ht) (le_refl m) hf
  show Rel w _ (match k.par with | none => _ | some s => _) (match k.par.map (Solver.times c) with | none => _ | some s => _)
  cases k.par with
  | none => exact Rel.err
  | some s =>
    show Rel w _ (computeCurrents E s v u m n) (computeCurrents (drawnIn c E) (s.times c) v' u' m n)
    rw [computeCurrents_congr hv hu']
    exact computeCurrents_times hu

theorem rel_intCurrents_times {f g : Nat → Nat → C K} {v v' : Vec Int} {t t' : Vec K}
    (hf : ∀ i j, i < m * cfg.S → j < n → Rel w (fun x y => y = c * x) (f i j) (g i j)) (hv : Agree n v v')
    (ht : cfg.parasitics = false → VecTimes c (m * cfg.S) t t') :
    Rel w (VecTimes c (m * cfg.S)) (intCurrents E cfg k f v t m n)
      (intCurrents (drawnIn c E) (inUnit c cfg) (k.times c) g v' t' m n) := by
  unfold intCurrents
  refine Rel.ite (fun _ => ?_) fun hp => rel_accG_times hu (ht (by simpa using hp)) (le_refl _) hf
  show Rel w _ (match k.par with | none => _ | some s => _) (match k.par.map (Solver.times c) with | none => _ | some s => _)
  cases k.par with
  | none => exact Rel.err
  | some s =>
    show Rel w _ (computeCurrents E s v none (m * cfg.S) n) (computeCurrents (drawnIn c E) (s.times c) v' none (m * cfg.S) n)
    rw [computeCurrents_congr hv (u := none) (u' := none) trivial]
    exact computeCurrents_times hu

theorem intConv_times {t t' : Vec K} {sg : K} {bit i s : Nat} (h : VecTimes c (m * cfg.S) t t') (hi : i < m)
    (hs : s < cfg.S) :
    intConv E cfg k t sg bit l i s = intConv (drawnIn c E) (inUnit c cfg) (k.times c) t' sg bit l i s := by
  refine Rel.eq ?_
  unfold intConv
  have hb : i * cfg.S + s < m * cfg.S :=
    lt_of_lt_of_le (show i * cfg.S + s < (i + 1) * cfg.S by rw [Nat.succ_mul]; omega) (Nat.mul_le_mul_right cfg.S hi)
  refine Rel.bind (h.rd hb) fun x x' e => Rel.bindEq rfl fun sh => ?_
  subst e
  refine Rel.bind (P := fun x y : Option K => y = x.map (c * ·)) ?_ fun st st' e => ?_
  · unfold Vec.rd
    exact Rel.ite (fun _ => rfl) fun _ => Rel.err
  subst e
  refine Rel.bind (P := fun x y : K => y = c * x) ?_ fun st st' e => ?_
  · cases st with
    | none => exact Rel.err
    | some v => exact rfl
  subst e
  refine Rel.bind (P := fun x y : K => y = x / c) ?_ fun sc sc' e => ?_
  · unfold adcScale
    refine Rel.ite (fun _ => Rel.err) fun _ => ?_
    by_cases hz : sg * st = 0
    · rw [if_pos hz, if_pos (by rw [mul_left_comm, hz, mul_zero])]
      exact Rel.err
    · rw [if_neg hz, if_neg (by rw [mul_left_comm]; exact mul_ne_zero hu.ne hz)]
      show E.f32 (E.f64 (2 ^ (sh + bit) / (sg * (c * st)))) = _
      rw [← hu.f32', ← hu.f64', mul_left_comm, div_div, mul_comm c]
  · subst e
    have := conv1_times (w := false) (cfg := cfg) (l := l) hu (adc := k.adc) (x := x) (sc := sc) (off := 0)
    rw [mul_zero] at this
    exact this

end

/-- State of the loops over the input bits. -/
structure BitTimes (c : K) (cfg : Cfg K) (m : Nat) {R : Type} (Q : R → R → Prop)
    (s t : Vec Int × Vec K × R) : Prop where
  slice : s.1.size = t.1.size
  tmp : cfg.parasitics = false → VecTimes c (m * cfg.S) s.2.1 t.2.1
  res : Q s.2.2 t.2.2

theorem rel_intBit_times (hu : Unitlike E c) {v v' : Vec Int} {sg : K} {bit : Nat} {s t : Vec Int × Vec K × Vec Int}
    (hv : Agree n v v') (h : BitTimes c cfg m Eq s t) :
    Rel w (BitTimes c cfg m Eq) (intBit E cfg k v sg m n l bit s)
      (intBit (drawnIn c E) (inUnit c cfg) (k.times c) v' sg m n l bit t) := by
  unfold intBit
  refine Rel.bind (rel_sliceVd hv h.slice) fun sl sl' hsl => ?_
  refine Rel.bind (rel_intCurrents_times hu (fun _ j _ hj => iaDiffTerm_times hu (hsl.rd hj)) hsl h.tmp)
    fun t t' ht => ?_
  refine Rel.bindEq ?_ fun r => ?_
  · rw [h.res]
    exact accG_congr fun i k hi hk => intConv_times hu ht hi hk
  · exact ⟨hsl.size, fun _ => VecTimes.zero ht.size.symm, rfl⟩

theorem rel_intBitV_times (hu : Unitlike E c) {v v' : Vec Int} {bit : Nat} {s t : Vec Int × Vec K × Vec K}
    (hv : Agree n v v') (h : BitTimes c cfg m (Agree m) s t) :
    Rel w (BitTimes c cfg m (Agree m)) (intBitV E cfg k v m n l bit s)
      (intBitV (drawnIn c E) (inUnit c cfg) (k.times c) v' m n l bit t) := by
  unfold intBitV
  refine Rel.bind (rel_sliceVd hv h.slice) fun sl sl' hsl => ?_
  refine Rel.bind (rel_intCurrents_times hu (fun _ j _ hj => iaTerm_times hu (hsl.rd hj)) hsl h.tmp)
    fun t t' ht => ?_
  refine Rel.bind (rel_accG h.res (le_refl m) fun i k hi hk => intConv_times hu ht hi hk)
    fun r r' hr => ?_
  exact ⟨hsl.size, fun _ => VecTimes.zero ht.size.symm, hr⟩

/-! ## Analog multiplications -/

section
variable (h : AuxSim cfg a b) (hu : Unitlike E c) (hp : cfg.adcProfile = false)
include h

theorem AuxSim.bitTimes (hi : cfg.mode.isInt = true) {R : Type} {Q : R → R → Prop} {r r' : R}
    (hr : Q r r') : BitTimes c cfg m Q (a.vdSlice, a.tmpFp.fill 0, r) (b.vdSlice, b.tmpFp.fill 0, r') :=
  ⟨h.vdSlice, fun hp => VecTimes.zero (h.tmpFp fun _ => hp), hr⟩

include hu

theorem rel_aMvm_times_IntI (hi : cfg.mode.isInt = true) :
    Rel w SameRes (aMvmIntI E cfg k a res vec m n l) (aMvmIntI (drawnIn c E) (inUnit c cfg) (k.times c) b res vec m n l) := by
  unfold aMvmIntI
  refine Rel.bind (rel_encSigned h.vdP h.vdM) fun v v' hv => ?_
  refine Rel.bind (Rel.loop' (h.bitTimes (c := c) hi rfl) fun _ _ _ _ hs => rel_intBit_times hu hv.1 hs) fun s t hst => ?_
  refine Rel.bind (Rel.loop' hst fun _ _ _ _ hs => rel_intBit_times hu hv.2 hs) fun s t hst => ?_
  exact hst.res

theorem rel_aMvm_times_IntII (hi : cfg.mode.isInt = true) :
    Rel w SameRes (aMvmIntII E cfg k a res vec m n l) (aMvmIntII (drawnIn c E) (inUnit c cfg) (k.times c) b res vec m n l) := by
  unfold aMvmIntII
  refine Rel.bind (rel_encOffs h.vdP) fun v v' hv => ?_
  refine Rel.bind (Rel.loop' (h.bitTimes (c := c) hi rfl) fun _ _ _ _ hs => rel_intBit_times hu hv hs) fun s t hst => ?_
  refine Rel.bindEq ?_ fun r => rfl
  rw [hst.res]
  rfl

theorem rel_aMvm_times_IntIII (hi : cfg.mode.isInt = true) :
    Rel w SameRes (aMvmIntIII E cfg k a res vec m n l) (aMvmIntIII (drawnIn c E) (inUnit c cfg) (k.times c) b res vec m n l) := by
  unfold aMvmIntIII
  refine Rel.bind (rel_encCopy h.vdP) fun v v' hv => ?_
  refine Rel.bind (Rel.loop' (h.bitTimes (c := c) hi rfl) fun _ _ _ _ hs => rel_intBit_times hu hv hs) fun s t hst => ?_
  refine Rel.bind (rel_sliceVd hv hst.slice) fun sl sl' hsl => ?_
  refine Rel.bind (rel_intCurrents_times hu (fun _ j _ hj => iaDiffTerm_times hu (hsl.rd hj)) hsl hst.tmp)
    fun t t' ht => ?_
  refine Rel.bindEq ?_ fun r => rfl
  rw [hst.res]
  exact accG_congr fun i k hi hk => intConv_times hu ht hi hk

theorem rel_aMvm_times_IntIV (hi : cfg.mode.isInt = true) :
    Rel w SameRes (aMvmIntIV E cfg k a res vec m n l) (aMvmIntIV (drawnIn c E) (inUnit c cfg) (k.times c) b res vec m n l) := by
  unfold aMvmIntIV
  refine Rel.bind (rel_encCopy h.vdP) fun v v' hv => ?_
  exact Rel.bind (Rel.loop' (h.bitTimes (c := c) hi rfl) fun _ _ _ _ hs => rel_intBit_times hu hv hs) fun s t hst => hst.res

theorem rel_aMvm_times_IntV (hi : cfg.mode.isInt = true) :
    Rel w SameRes (aMvmIntV E cfg k a res vec m n l) (aMvmIntV (drawnIn c E) (inUnit c cfg) (k.times c) b res vec m n l) := by
  unfold aMvmIntV
  refine Rel.bind (rel_encCopy h.vdP) fun v v' hv => ?_
  refine Rel.bindEq rfl fun sum => ?_
  refine Rel.bind (Rel.loop' (h.bitTimes (c := c) hi (Agree.fill h.resFp 0)) fun _ _ _ _ hs => rel_intBitV_times hu hv hs)
    fun s t hst => ?_
  refine Rel.bind (Rel.loop' (I := fun (s t : Vec K × Vec Int) => Agree m s.1 t.1 ∧ s.2 = t.2)
    ⟨hst.res, rfl⟩ fun i s t him hs => ?_) fun s t hs => hs.2
  refine Rel.bindEq rfl fun d => Rel.bindEq rfl fun o => ?_
  refine Rel.bind (hs.1.updAt him fun _ => Rel.refl _) fun f f' hf => ?_
  refine Rel.bindEq (hf.rd him) fun y => Rel.bindEq rfl fun z => ?_
  refine Rel.bindEq (by rw [hs.2]) fun r => ?_
  exact ⟨hf, rfl⟩

include hp

theorem rel_aMvm_times_BnnI :
    Rel w SameRes (aMvmBnnI E cfg k a res vec m n l) (aMvmBnnI (drawnIn c E) (inUnit c cfg) (k.times c) b res vec m n l) := by
  unfold aMvmBnnI
  refine Rel.bind (rel_encBnn1 h.vdP) fun v v' hv => ?_
  refine Rel.bind (rel_colCurrents_times hu (fun _ j _ hj => iaDiffTerm_times hu (hv.rd hj)) hv trivial h.tmp)
    fun t t' ht => ?_
  refine Rel.bind (hu.rel_fdiv' _ _) fun sc sc' hsc => Rel.bind (rel_convVec_times hu hp ht hsc (mul_zero c).symm) fun r r' hr => ?_
  exact Rel.bindEq (updG_congr fun i _ hi => by rw [hr.rd hi]; rfl) fun _ => rfl

theorem rel_aMvm_times_BnnII :
    Rel w SameRes (aMvmBnnII E cfg k a res vec m n l) (aMvmBnnII (drawnIn c E) (inUnit c cfg) (k.times c) b res vec m n l) := by
  unfold aMvmBnnII
  refine Rel.bind (rel_encBnn2 h.vdP) fun v v' hv => ?_
  refine Rel.bind (rel_colCurrents_times hu (fun _ j _ hj => iaDiffTermNeg_times hu (hv.rd hj)) hv trivial h.tmp)
    fun t t' ht => ?_
  refine Rel.bind (hu.rel_fdiv' _ _) fun sc sc' hsc => Rel.bind (rel_convVec_times hu hp ht hsc (mul_zero c).symm) fun r r' hr => ?_
  exact Rel.bindEq (updG_congr fun i _ hi => by rw [hr.rd hi]; rfl) fun _ => rfl

theorem rel_bnn34Currents_times :
    Rel w (fun r r' => Agree m r.1.tmpP r'.1.tmpP ∧ Agree m r.1.tmpM r'.1.tmpM ∧ r.2 = r'.2)
      (bnn34Currents E cfg k a vec m n l) (bnn34Currents (drawnIn c E) (inUnit c cfg) (k.times c) b vec m n l) := by
  unfold bnn34Currents
  refine Rel.bind (rel_encPMSum h.vdP h.vdM) fun v v' hv => ?_
  refine Rel.bind (rel_colCurrents_times hu (fun _ j _ hj => iaTerm_times hu (hv.1.rd hj)) hv.1 trivial h.tmpP)
    fun t t' ht => ?_
  refine Rel.bind (rel_colCurrents_times hu (fun _ j _ hj => iaTerm_times hu (hv.2.1.rd hj)) hv.2.1 trivial h.tmpM)
    fun u u' hq => ?_
  rw [hv.2.2]
  refine Rel.bind (hu.rel_fdiv' _ _) fun sc sc' hsc => Rel.bindEq rfl fun ns => ?_
  refine Rel.bind (rel_convVec_times hu hp ht hsc (hu.fmul' _ _)) fun r r' hr => ?_
  exact Rel.bind (rel_convVec_times hu hp hq hsc (mul_zero c).symm) fun q q' hq => ⟨hr, hq, rfl⟩

theorem rel_aMvm_times_BnnIII :
    Rel w SameRes (aMvmBnnIII E cfg k a res vec m n l) (aMvmBnnIII (drawnIn c E) (inUnit c cfg) (k.times c) b res vec m n l) := by
  unfold aMvmBnnIII
  refine Rel.bind (rel_bnn34Currents_times h hu hp) fun r r' hr => ?_
  exact Rel.bindEq (updG_congr fun i _ hi => by rw [hr.1.rd hi, hr.2.1.rd hi, hr.2.2]; rfl) fun _ => rfl

theorem rel_aMvm_times_BnnIV :
    Rel w SameRes (aMvmBnnIV E cfg k a res vec m n l) (aMvmBnnIV (drawnIn c E) (inUnit c cfg) (k.times c) b res vec m n l) := by
  unfold aMvmBnnIV
  refine Rel.bind (rel_bnn34Currents_times h hu hp) fun r r' hr => ?_
  exact Rel.bindEq (updG_congr fun i _ hi => by rw [hr.1.rd hi, hr.2.1.rd hi, hr.2.2]; rfl) fun _ => rfl

theorem rel_aMvm_times_BnnV :
    Rel w SameRes (aMvmBnnV E cfg k a res vec m n l) (aMvmBnnV (drawnIn c E) (inUnit c cfg) (k.times c) b res vec m n l) := by
  unfold aMvmBnnV
  refine Rel.bind (rel_encPM h.vdP h.vdM) fun v v' hv => ?_
  refine Rel.bind (rel_colCurrents_times hu (fun _ j _ hj => iaBnn5Term_times hu (hv.1.rd hj) (hv.2.rd hj)) hv.1
    (u := some v.2) (u' := some v'.2) hv.2 h.tmp) fun t t' ht => ?_
  refine Rel.bind (hu.rel_fdiv' _ _) fun sc sc' hsc => Rel.bindEq rfl fun _ =>
    Rel.bind (rel_convVec_times hu hp ht hsc (hu.fmul' _ _)) fun r r' hr => ?_
  exact Rel.bindEq (updG_congr fun i _ hi => by rw [hr.rd hi]; rfl) fun _ => rfl

theorem rel_aMvm_times_BnnVI :
    Rel w SameRes (aMvmBnnVI E cfg k a res vec m n l) (aMvmBnnVI (drawnIn c E) (inUnit c cfg) (k.times c) b res vec m n l) := by
  unfold aMvmBnnVI
  refine Rel.bind (rel_encPM h.vdP h.vdM) fun v v' hv => ?_
  refine Rel.bind (rel_colCurrents_times hu (fun _ j _ hj => iaQuadTerm_times hu (hv.1.rd hj) (hv.2.rd hj)) hv.1
    (u := some v.2) (u' := some v'.2) hv.2 h.tmp) fun t t' ht => ?_
  refine Rel.bind (hu.rel_fdiv' _ _) fun sc sc' hsc => Rel.bind (rel_convVec_times hu hp ht hsc (mul_zero c).symm) fun r r' hr => ?_
  exact Rel.bindEq (addTmp_congr hr) fun _ => rfl

theorem rel_aMvm_times_TnnI :
    Rel w SameRes (aMvmTnnI E cfg k a res vec m n l) (aMvmTnnI (drawnIn c E) (inUnit c cfg) (k.times c) b res vec m n l) := by
  unfold aMvmTnnI
  refine Rel.bind (rel_encTern h.vdP h.vdM) fun v v' hv => ?_
  refine Rel.bind (rel_colCurrents_times hu (fun _ j _ hj => iaQuadTerm_times hu (hv.1.rd hj) (hv.2.rd hj)) hv.1
    (u := some v.2) (u' := some v'.2) hv.2 h.tmp) fun t t' ht => ?_
  refine Rel.bind (hu.rel_fdiv' _ _) fun sc sc' hsc => Rel.bind (rel_convVec_times hu hp ht hsc (mul_zero c).symm) fun r r' hr => ?_
  exact Rel.bindEq (addTmp_congr hr) fun _ => rfl

theorem rel_aMvm_times_TnnII :
    Rel w SameRes (aMvmTnnII E cfg k a res vec m n l) (aMvmTnnII (drawnIn c E) (inUnit c cfg) (k.times c) b res vec m n l) := by
  unfold aMvmTnnII
  refine Rel.bind (rel_encNonzero h.vdP) fun v v' hv => ?_
  refine Rel.bind (rel_colCurrents_times hu (fun _ j _ hj => iaDiffTerm_times hu (hv.rd hj)) hv trivial h.tmp)
    fun t t' ht => ?_
  refine Rel.bind (hu.rel_fdiv' _ _) fun sc sc' hsc => Rel.bind (rel_convVec_times hu hp ht hsc (mul_zero c).symm) fun r r' hr => ?_
  refine Rel.bindEq (addTmp_congr hr) fun _ => ?_
  refine Rel.bind (rel_encNegOne hv.size) fun v v' hv => ?_
  refine Rel.bind (rel_colCurrents_times hu (fun _ j _ hj => iaDiffTerm_times hu (hv.rd hj)) hv trivial hr.size)
    fun t t' ht => ?_
  refine Rel.bind (hu.rel_fdiv' _ _) fun sc sc' hsc => Rel.bind (rel_convVec_times hu hp ht hsc (mul_zero c).symm) fun r r' hr => ?_
  exact Rel.bindEq (subTmp_congr hr) fun _ => rfl

theorem rel_aMvm_times_TnnIII :
    Rel w SameRes (aMvmTnnIII E cfg k a res vec m n l) (aMvmTnnIII (drawnIn c E) (inUnit c cfg) (k.times c) b res vec m n l) := by
  unfold aMvmTnnIII
  refine Rel.bind (rel_encBit0 h.vdP) fun v v' hv => ?_
  refine Rel.bind (rel_colCurrents_times hu (fun _ j _ hj => iaDiffTerm_times hu (hv.rd hj)) hv trivial h.tmp)
    fun t t' ht => ?_
  refine Rel.bind (hu.rel_fdiv' _ _) fun sc sc' hsc => Rel.bind (rel_convVec_times hu hp ht hsc (mul_zero c).symm) fun r r' hr => ?_
  refine Rel.bindEq (addTmp_congr hr) fun _ => ?_
  refine Rel.bind (rel_encBit1 hv.size) fun v v' hv => ?_
  refine Rel.bind (rel_colCurrents_times hu (fun _ j _ hj => iaDiffTerm_times hu (hv.rd hj)) hv trivial hr.size)
    fun t t' ht => ?_
  refine Rel.bind (hu.rel_fdiv' _ _) fun sc sc' hsc => Rel.bind (rel_convVec_times hu hp ht hsc (mul_zero c).symm) fun r r' hr => ?_
  refine Rel.bindEq (addTmp_congr hr) fun _ => ?_
  exact Rel.bindEq rfl fun _ => rfl

omit h in
theorem rel_tcStep_times {A : Mat K} {v v' : Vec Int} {sc sc' off off' : K} {t t' : Vec K}
    {hs hs' : List (String × Hist K)} (hv : Agree n v v') (ht : t.size = t'.size)
    (hsc : sc' = sc / c) (hoff : off' = c * off) :
    Rel w (fun r r' => Agree m r.2 r'.2) (tcStep E cfg k A v m n sc off l t hs)
      (tcStep (drawnIn c E) (inUnit c cfg) (k.times c) (A.times c) v' m n sc' off' l t' hs') := by
  unfold tcStep
  exact Rel.bind (rel_accG_times hu (VecTimes.zero ht) (le_refl m) fun _ j _ hj => iaTerm_times hu (hv.rd hj))
    fun _ _ ht => rel_convVec_times hu hp ht hsc hoff

omit h in
theorem rel_tcSolve_times {v v' : Vec Int} {s1 s1' s2 s2' off off' : K} {t t' u u' : Vec K}
    {hs hs' : List (String × Hist K)} (hv : Agree n v v') (ht : t.size = t'.size)
    (hs1 : u.size = u'.size) (h1 : s1' = s1 / c) (h2 : s2' = s2 / c) (hoff : off' = c * off) :
    Rel w (fun r r' => Agree m r.2.2.1 r'.2.2.1 ∧ Agree m r.2.2.2 r'.2.2.2)
      (tcSolve E cfg k v m n s1 s2 off l t u hs)
      (tcSolve (drawnIn c E) (inUnit c cfg) (k.times c) v' m n s1' s2' off' l t' u' hs') := by
  unfold tcSolve
  show Rel w _ (match k.par with | none => _ | some s => _) (match k.par.map (Solver.times c) with | none => _ | some s => _)
  cases k.par with
  | none => exact Rel.err
  | some s =>
    dsimp only [Option.map]
    rw [computeCurrents_congr hv (u := none) (u' := none) trivial]
    refine Rel.bind (computeCurrents_times hu) fun x x' hx => ?_
    refine Rel.bind (rel_setG_times ht fun i hi => hx.rd (by omega)) fun t t' ht => ?_
    refine Rel.bind (rel_setG_times hs1 fun i hi => hx.rd (by omega)) fun u u' hq => ?_
    refine Rel.bind (rel_convVec_times hu hp ht h1 hoff) fun r r' hr => ?_
    exact Rel.bind (rel_convVec_times hu hp hq h2 (mul_zero c).symm) fun q q' hq => ⟨hr, hq⟩

theorem rel_aMvm_times_TnnIV (hi : cfg.mode.isInt = false) :
    Rel w SameRes (aMvmTnnIV E cfg k a res vec m n l) (aMvmTnnIV (drawnIn c E) (inUnit c cfg) (k.times c) b res vec m n l) := by
  unfold aMvmTnnIV
  refine Rel.ite (fun _ => Rel.err) fun _ => ?_
  refine Rel.bindEq rfl fun sum => ?_
  refine Rel.bind (rel_encTern h.vdP h.vdM) fun v v' hv => ?_
  refine Rel.bind (hu.rel_fdiv' _ _) fun s1 s1' h1 => Rel.bind (hu.rel_fdiv' _ _) fun s2 s2' h2 => ?_
  refine Rel.bind (P := fun x y => y = c * x) (by
    show Rel w _ (E.fdiv (E.fmul (E.ofInt sum) cfg.hrs) 2) (E.fdiv (E.fmul (E.ofInt sum) (c * cfg.hrs)) 2)
    rw [hu.fmul']
    exact hu.rel_fdiv _ _) fun q q' hq1 => ?_
  refine Rel.bind (P := fun x y => y = c * x) (by
    show Rel w _ (E.fdiv (-E.fmul (E.ofInt sum) cfg.hrs) 2) (E.fdiv (-E.fmul (E.ofInt sum) (c * cfg.hrs)) 2)
    rw [hu.fmul', ← mul_neg]
    exact hu.rel_fdiv _ _) fun r r' hr1 => ?_
  have hfp : Agree m (a.tmpFp.fill 0) (b.tmpFp.fill 0) :=
    Agree.fill (h.tmpFp fun hh => absurd (hi.symm.trans hh) (by decide)) 0
  refine Rel.ite (fun _ => ?_) fun _ => ?_
  · refine Rel.bind (rel_tcSolve_times hu hp hv.1 h.tmpLsb h.tmpMsb h1 h2 hq1) fun r r' hr => ?_
    refine Rel.bind (rel_faddVec hr.1 hfp) fun f f' hf => ?_
    refine Rel.bind (rel_fsubVec hr.2 hf) fun f f' hf => ?_
    refine Rel.bind (rel_tcSolve_times hu hp hv.2 hr.1.size hr.2.size h1 h2 hr1) fun r r' hr => ?_
    refine Rel.bind (rel_fsubVec hr.1 hf) fun f f' hf => ?_
    refine Rel.bind (rel_faddVec hr.2 hf) fun f f' hf => ?_
    exact Rel.bindEq (addTmp_congr hf) fun _ => rfl
  · refine Rel.bind (rel_tcStep_times hu hp hv.1 h.tmp h1 hq1) fun r r' hr => ?_
    refine Rel.bind (rel_faddVec hr hfp) fun f f' hf => ?_
    refine Rel.bind (rel_tcStep_times hu hp hv.2 hr.size h1 hr1) fun r r' hr => ?_
    refine Rel.bind (rel_fsubVec hr hf) fun f f' hf => ?_
    refine Rel.bind (rel_tcStep_times hu hp hv.1 hr.size h2 (mul_zero c).symm) fun r r' hr => ?_
    refine Rel.bind (rel_fsubVec hr hf) fun f f' hf => ?_
    refine Rel.bind (rel_tcStep_times hu hp hv.2 hr.size h2 (mul_zero c).symm) fun r r' hr => ?_
    refine Rel.bind (rel_faddVec hr hf) fun f f' hf => ?_
    exact Rel.bindEq (addTmp_congr hf) fun _ => rfl

theorem rel_aMvm_times_TnnV (hi : cfg.mode.isInt = false) :
    Rel w SameRes (aMvmTnnV E cfg k a res vec m n l) (aMvmTnnV (drawnIn c E) (inUnit c cfg) (k.times c) b res vec m n l) := by
  unfold aMvmTnnV
  refine Rel.ite (fun _ => Rel.err) fun _ => ?_
  refine Rel.bindEq rfl fun sum => ?_
  refine Rel.bind (rel_encTern h.vdP h.vdM) fun v v' hv => ?_
  refine Rel.bindEq rfl fun _ => ?_
  refine Rel.bind (hu.rel_fdiv' _ _) fun s1 s1' h1 => Rel.bind (hu.rel_fdiv' _ _) fun s2 s2' h2 => ?_
  have hfp : Agree m (a.tmpFp.fill 0) (b.tmpFp.fill 0) :=
    Agree.fill (h.tmpFp fun hh => absurd (hi.symm.trans hh) (by decide)) 0
  refine Rel.ite (fun _ => ?_) fun _ => ?_
  · refine Rel.bind (rel_tcSolve_times hu hp hv.1 h.tmpLsb h.tmpMsb h1 h2 (mul_zero c).symm) fun r r' hr => ?_
    refine Rel.bind (rel_faddVec hr.1 hfp) fun f f' hf => ?_
    refine Rel.bind (rel_faddVec hr.2 hf) fun f f' hf => ?_
    refine Rel.bind (rel_tcSolve_times hu hp hv.2 hr.1.size hr.2.size h1 h2 (hu.fmul' _ _)) fun r r' hr => ?_
    refine Rel.bind (rel_fsubVec hr.1 hf) fun f f' hf => ?_
    refine Rel.bind (rel_fsubVec hr.2 hf) fun f f' hf => ?_
    exact Rel.bindEq (loop_congr' fun i s hi => by rw [hf.rd hi]; rfl) fun _ => rfl
  · refine Rel.bind (rel_tcStep_times hu hp hv.1 h.tmp h1 (mul_zero c).symm) fun r r' hr => ?_
    refine Rel.bind (rel_faddVec hr hfp) fun f f' hf => ?_
    refine Rel.bind (rel_tcStep_times hu hp hv.2 hr.size h1 (hu.fmul' _ _)) fun r r' hr => ?_
    refine Rel.bind (rel_fsubVec hr hf) fun f f' hf => ?_
    refine Rel.bind (rel_tcStep_times hu hp hv.1 hr.size h2 (mul_zero c).symm) fun r r' hr => ?_
    refine Rel.bind (rel_faddVec hr hf) fun f f' hf => ?_
    refine Rel.bind (rel_tcStep_times hu hp hv.2 hr.size h2 (mul_zero c).symm) fun r r' hr => ?_
    refine Rel.bind (rel_fsubVec hr hf) fun f f' hf => ?_
    exact Rel.bindEq (loop_congr' fun i s hi => by rw [hf.rd hi]; rfl) fun _ => rfl

theorem rel_aMvm_times (hc : k.mode = cfg.mode) :
    Rel w SameRes (aMvm E cfg k a res vec m n l) (aMvm (drawnIn c E) (inUnit c cfg) (k.times c) b res vec m n l) := by
  have hi := congrArg Mode.isInt hc
  unfold aMvm
  have e : (k.times c).mode = k.mode := rfl
  rw [e]
  cases hm : k.mode <;> rw [hm] at hi <;> dsimp only
  · exact rel_aMvm_times_IntI h hu hi.symm
  · exact rel_aMvm_times_IntI h hu hi.symm
  · exact rel_aMvm_times_IntII h hu hi.symm
  · exact rel_aMvm_times_IntIII h hu hi.symm
  · exact rel_aMvm_times_IntIV h hu hi.symm
  · exact rel_aMvm_times_IntV h hu hi.symm
  · exact rel_aMvm_times_BnnI h hu hp
  · exact rel_aMvm_times_BnnII h hu hp
  · exact rel_aMvm_times_BnnIII h hu hp
  · exact rel_aMvm_times_BnnIV h hu hp
  · exact rel_aMvm_times_BnnV h hu hp
  · exact rel_aMvm_times_BnnVI h hu hp
  · exact rel_aMvm_times_TnnI h hu hp
  · exact rel_aMvm_times_TnnII h hu hp
  · exact rel_aMvm_times_TnnIII h hu hp
  · exact rel_aMvm_times_TnnIV h hu hp hi.symm
  · exact rel_aMvm_times_TnnV h hu hp hi.symm

end

end

end Acs
