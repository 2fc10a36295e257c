import Verif.Lemmas.Near

/-!
# Analog multiplications in floating point

The result of a multiplication is the truncation of a floating point expression of the converted column
currents, for any converter and in any arithmetic.
-/

set_option linter.unusedSectionVars false

namespace Acs

open Finset Spec

section
variable {K : Type} [Field K] [LinearOrder K] [IsStrictOrderedRing K] [FloorRing K]
variable {E : Env K} {cfg : Cfg K} {c : Core K} {a : Aux K}
variable {mat vec res v w : Vec Int} {m n : Nat} {l : String} {sc off : K}

/-- Scale of the converter for a mapping that counts `s` per resistance window. -/
def scaleOf (E : Env K) (cfg : Cfg K) (s : K) : K := E.f32 (s / E.fsub cfg.lrs cfg.hrs)

/-- The ideal converter. -/
def cv (E : Env K) (t off sc : K) : K := E.fmul (E.fadd t off) sc

/-- `r += y` before truncation. -/
def plus (E : Env K) (r : Int) (y : K) : K := E.fadd (E.ofInt r) y

/-- `r -= y` before truncation. -/
def minus (E : Env K) (r : Int) (y : K) : K := E.fsub (E.ofInt r) y

/-- A converter that maps the current `t` with offset `off` and scale `sc` to `cf t off sc`. -/
structure FlHyp (E : Env K) (cfg : Cfg K) (c : Core K) (l : String) (cf : K → K → K → K) : Prop where
  one : ∀ t off sc, conv1 E cfg c.adc t sc off l = .ok (cf t off sc)
  prof : cfg.adcProfile = false
  iMM : c.iMM = E.fsub cfg.lrs cfg.hrs
  ne : E.fsub cfg.lrs cfg.hrs ≠ 0

namespace FlHyp
variable {cf : K → K → K → K} (H : FlHyp E cfg c l cf)
include H

theorem scale (s : K) : E.fdiv s c.iMM = .ok (scaleOf E cfg s) := by
  unfold Env.fdiv scaleOf
  rw [H.iMM, if_neg H.ne]

theorem conv {hs : List (String × Hist K)} {t : Vec K} (hm : m ≤ t.size) :
    convVec E cfg c.adc hs t m sc off l = .ok (hs, t.over m fun i => cf (t.get i) off sc) :=
  convVec_ok H.prof hm fun i _ => H.one _ _ _

omit H in
/-- `res[m] += y` for every row. -/
theorem add_rows {f : Nat → Int → C Int} {y : Nat → K} (hr : m ≤ res.size)
    (hf : ∀ i r, i < m → f i r = E.iaddf r (y i)) (hI : ∀ i, i < m → InI32 (truncZ (plus E (res.get i) (y i)))) :
    updG m f res = .ok (res.over m fun i => truncZ (plus E (res.get i) (y i))) :=
  updG_ok _ hr fun i hi => by
    rw [hf i _ hi]
    unfold Env.iaddf toI32
    exact if_pos (hI i hi)

omit H in
theorem addTmp {t : Vec K} (hm : m ≤ t.size) (hr : m ≤ res.size)
    (hI : ∀ i, i < m → InI32 (truncZ (plus E (res.get i) (t.get i)))) :
    Acs.addTmp E t m res = .ok (res.over m fun i => truncZ (plus E (res.get i) (t.get i))) := by
  unfold Acs.addTmp
  exact add_rows hr (fun i r hi => by rw [Vec.rd_ok (by omega), ok_bind]) hI

omit H in
theorem subTmp {t : Vec K} (hm : m ≤ t.size) (hr : m ≤ res.size)
    (hI : ∀ i, i < m → InI32 (truncZ (minus E (res.get i) (t.get i)))) :
    Acs.subTmp E t m res = .ok (res.over m fun i => truncZ (minus E (res.get i) (t.get i))) := by
  unfold Acs.subTmp
  refine updG_ok _ hr fun i hi => ?_
  rw [Vec.rd_ok (by omega), ok_bind]
  unfold Env.isubf toI32
  exact if_pos (hI i hi)

theorem bnn1 {t : Vec K} (hv : encBnn1 n vec a.vdP = .ok v)
    (ht : colCurrents E cfg c (iaDiffTerm E c.ia v) v none (a.tmp.fill 0) m n = .ok t)
    (htm : m ≤ t.size) (hr : m ≤ res.size) (hs : m ≤ c.gd.sumW.size) {y : Nat → K}
    (hy : ∀ i, i < m → y i = E.fsub (cf (t.get i) 0 (scaleOf E cfg 2)) (E.ofInt (c.gd.sumW.get i)))
    (hI : ∀ i, i < m → InI32 (truncZ (plus E (res.get i) (y i)))) :
    ∃ a', aMvmBnnI E cfg c a res vec m n l = .ok (a', res.over m fun i => truncZ (plus E (res.get i) (y i))) := by
  unfold aMvmBnnI
  rw [hv, ok_bind, ht, ok_bind, H.scale, ok_bind, H.conv htm, ok_bind]
  dsimp only
  rw [add_rows (y := y) hr (fun i r hi => ?_) hI, ok_bind]
  · exact ⟨_, rfl⟩
  · rw [over_rd htm hi, ok_bind, Vec.rd_ok (by omega), ok_bind, hy i hi]

theorem bnn2 {t : Vec K} (hv : encBnn2 n vec a.vdP = .ok v)
    (ht : colCurrents E cfg c (iaDiffTermNeg E c.ia v) v none (a.tmp.fill 0) m n = .ok t)
    (htm : m ≤ t.size) (hr : m ≤ res.size) (hs : m ≤ c.gd.sumW.size) {y : Nat → K}
    (hy : ∀ i, i < m → y i = E.fadd (cf (t.get i) 0 (scaleOf E cfg 2)) (E.ofInt (c.gd.sumW.get i)))
    (hI : ∀ i, i < m → InI32 (truncZ (plus E (res.get i) (y i)))) :
    ∃ a', aMvmBnnII E cfg c a res vec m n l = .ok (a', res.over m fun i => truncZ (plus E (res.get i) (y i))) := by
  unfold aMvmBnnII
  rw [hv, ok_bind, ht, ok_bind, H.scale, ok_bind, H.conv htm, ok_bind]
  dsimp only
  rw [add_rows (y := y) hr (fun i r hi => ?_) hI, ok_bind]
  · exact ⟨_, rfl⟩
  · rw [over_rd htm hi, ok_bind, Vec.rd_ok (by omega), ok_bind, hy i hi]

theorem bnn34 {tp tm : Vec K} {vp vm : Vec Int} {s : Int} (hv : encPMSum n vec a.vdP a.vdM = .ok ((vp, vm), s))
    (hp : colCurrents E cfg c (iaTerm E c.ia.p vp) vp none (a.tmpP.fill 0) m n = .ok tp)
    (hm : colCurrents E cfg c (iaTerm E c.ia.p vm) vm none (a.tmpM.fill 0) m n = .ok tm)
    (hs : negI s = .ok (-s)) (hpm : m ≤ tp.size) (hmm : m ≤ tm.size) :
    ∃ a' : Aux K, bnn34Currents E cfg c a vec m n l = .ok (a', s) ∧
      (∀ i, i < m → a'.tmpP.rd i = .ok (cf (tp.get i) (E.fmul (E.ofInt (-s)) cfg.hrs) (scaleOf E cfg 2))) ∧
      ∀ i, i < m → a'.tmpM.rd i = .ok (cf (tm.get i) 0 (scaleOf E cfg 2)) := by
  unfold bnn34Currents
  rw [hv, ok_bind]
  dsimp only
  rw [hp, ok_bind, hm, ok_bind, H.scale, ok_bind, hs, ok_bind, H.conv hpm, ok_bind]
  dsimp only
  rw [H.conv hmm, ok_bind]
  exact ⟨_, rfl, fun i hi => over_rd hpm hi, fun i hi => over_rd hmm hi⟩

theorem bnn3 {tp tm : Vec K} {vp vm : Vec Int} {s : Int} (hv : encPMSum n vec a.vdP a.vdM = .ok ((vp, vm), s))
    (hp : colCurrents E cfg c (iaTerm E c.ia.p vp) vp none (a.tmpP.fill 0) m n = .ok tp)
    (hm : colCurrents E cfg c (iaTerm E c.ia.p vm) vm none (a.tmpM.fill 0) m n = .ok tm)
    (hs : negI s = .ok (-s)) (hpm : m ≤ tp.size) (hmm : m ≤ tm.size) (hr : m ≤ res.size) {y : Nat → K}
    (hy : ∀ i, i < m → y i = E.fsub (E.fsub (cf (tp.get i) (E.fmul (E.ofInt (-s)) cfg.hrs) (scaleOf E cfg 2))
      (cf (tm.get i) 0 (scaleOf E cfg 2))) (E.ofInt s))
    (hI : ∀ i, i < m → InI32 (truncZ (plus E (res.get i) (y i)))) :
    ∃ a', aMvmBnnIII E cfg c a res vec m n l
      = .ok (a', res.over m fun i => truncZ (plus E (res.get i) (y i))) := by
  obtain ⟨a', h1, h2, h3⟩ := H.bnn34 (l := l) hv hp hm hs hpm hmm
  unfold aMvmBnnIII
  rw [h1, ok_bind]
  dsimp only
  rw [add_rows (y := y) hr (fun i r hi => ?_) hI, ok_bind]
  · exact ⟨_, rfl⟩
  · rw [h2 i hi, ok_bind, h3 i hi, ok_bind, hy i hi]

theorem bnn4 {tp tm : Vec K} {vp vm : Vec Int} {s : Int} (hv : encPMSum n vec a.vdP a.vdM = .ok ((vp, vm), s))
    (hp : colCurrents E cfg c (iaTerm E c.ia.p vp) vp none (a.tmpP.fill 0) m n = .ok tp)
    (hm : colCurrents E cfg c (iaTerm E c.ia.p vm) vm none (a.tmpM.fill 0) m n = .ok tm)
    (hs : negI s = .ok (-s)) (hpm : m ≤ tp.size) (hmm : m ≤ tm.size) (hr : m ≤ res.size) {y : Nat → K}
    (hy : ∀ i, i < m → y i = E.fadd (E.fsub (cf (tm.get i) 0 (scaleOf E cfg 2))
      (cf (tp.get i) (E.fmul (E.ofInt (-s)) cfg.hrs) (scaleOf E cfg 2))) (E.ofInt s))
    (hI : ∀ i, i < m → InI32 (truncZ (plus E (res.get i) (y i)))) :
    ∃ a', aMvmBnnIV E cfg c a res vec m n l
      = .ok (a', res.over m fun i => truncZ (plus E (res.get i) (y i))) := by
  obtain ⟨a', h1, h2, h3⟩ := H.bnn34 (l := l) hv hp hm hs hpm hmm
  unfold aMvmBnnIV
  rw [h1, ok_bind]
  dsimp only
  rw [add_rows (y := y) hr (fun i r hi => ?_) hI, ok_bind]
  · exact ⟨_, rfl⟩
  · rw [h2 i hi, ok_bind, h3 i hi, ok_bind, hy i hi]

theorem bnn5 {t : Vec K} {vp vm : Vec Int} (hv : encPM n vec a.vdP a.vdM = .ok (vp, vm))
    (ht : colCurrents E cfg c (iaBnn5Term E c.ia vp vm) vp (some vm) (a.tmp.fill 0) m n = .ok t)
    (hn : negI n = .ok (-(n : Int))) (htm : m ≤ t.size) (hr : m ≤ res.size) {y : Nat → K}
    (hy : ∀ i, i < m → y i = E.fsub (cf (t.get i) (E.fmul (E.ofInt (-(n : Int))) cfg.hrs) (scaleOf E cfg 2))
      (E.ofInt n))
    (hI : ∀ i, i < m → InI32 (truncZ (plus E (res.get i) (y i)))) :
    ∃ a', aMvmBnnV E cfg c a res vec m n l
      = .ok (a', res.over m fun i => truncZ (plus E (res.get i) (y i))) := by
  unfold aMvmBnnV
  rw [hv, ok_bind]
  dsimp only
  rw [ht, ok_bind, H.scale, ok_bind, hn, ok_bind, H.conv htm, ok_bind]
  dsimp only
  rw [add_rows (y := y) hr (fun i r hi => ?_) hI, ok_bind]
  · exact ⟨_, rfl⟩
  · rw [over_rd htm hi, ok_bind, hy i hi]

theorem bnn6 {t : Vec K} {vp vm : Vec Int} (hv : encPM n vec a.vdP a.vdM = .ok (vp, vm))
    (ht : colCurrents E cfg c (iaQuadTerm E c.ia vp vm) vp (some vm) (a.tmp.fill 0) m n = .ok t)
    (htm : m ≤ t.size) (hr : m ≤ res.size) {y : Nat → K}
    (hy : ∀ i, i < m → y i = cf (t.get i) 0 (scaleOf E cfg 1))
    (hI : ∀ i, i < m → InI32 (truncZ (plus E (res.get i) (y i)))) :
    ∃ a', aMvmBnnVI E cfg c a res vec m n l
      = .ok (a', res.over m fun i => truncZ (plus E (res.get i) (y i))) := by
  unfold aMvmBnnVI
  rw [hv, ok_bind]
  dsimp only
  rw [ht, ok_bind, H.scale, ok_bind, H.conv htm, ok_bind]
  dsimp only [Acs.addTmp]
  rw [add_rows (y := y) hr (fun i r hi => ?_) hI, ok_bind]
  · exact ⟨_, rfl⟩
  · rw [over_rd htm hi, ok_bind, hy i hi]

theorem tnn1 {t : Vec K} {vp vm : Vec Int} (hv : encTern n vec a.vdP a.vdM = .ok (vp, vm))
    (ht : colCurrents E cfg c (iaQuadTerm E c.ia vp vm) vp (some vm) (a.tmp.fill 0) m n = .ok t)
    (htm : m ≤ t.size) (hr : m ≤ res.size) {y : Nat → K}
    (hy : ∀ i, i < m → y i = cf (t.get i) 0 (scaleOf E cfg 1))
    (hI : ∀ i, i < m → InI32 (truncZ (plus E (res.get i) (y i)))) :
    ∃ a', aMvmTnnI E cfg c a res vec m n l
      = .ok (a', res.over m fun i => truncZ (plus E (res.get i) (y i))) := by
  unfold aMvmTnnI
  rw [hv, ok_bind]
  dsimp only
  rw [ht, ok_bind, H.scale, ok_bind, H.conv htm, ok_bind]
  dsimp only [Acs.addTmp]
  rw [add_rows (y := y) hr (fun i r hi => ?_) hI, ok_bind]
  · exact ⟨_, rfl⟩
  · rw [over_rd htm hi, ok_bind, hy i hi]

/-- TNN_II: two truncations. -/
theorem tnn2 {t t' : Vec K} {v' : Vec Int} (hv : encNonzero n vec a.vdP = .ok v)
    (hv' : encNegOne n vec v = .ok v')
    (ht : colCurrents E cfg c (iaDiffTerm E c.ia v) v none (a.tmp.fill 0) m n = .ok t)
    (ht' : colCurrents E cfg c (iaDiffTerm E c.ia v') v' none (t.fill 0) m n = .ok t')
    (htm : m ≤ t.size) (htm' : m ≤ t'.size) (hr : m ≤ res.size) {y y' : Nat → K} {k : Nat → Int}
    (hy : ∀ i, i < m → y i = cf (t.get i) 0 (scaleOf E cfg 1))
    (hy' : ∀ i, i < m → y' i = cf (t'.get i) 0 (scaleOf E cfg 2))
    (hk : ∀ i, i < m → k i = truncZ (plus E (res.get i) (y i)))
    (hI : ∀ i, i < m → InI32 (k i) ∧ InI32 (truncZ (minus E (k i) (y' i)))) :
    ∃ a', aMvmTnnII E cfg c a res vec m n l = .ok (a', res.over m fun i => truncZ (minus E (k i) (y' i))) := by
  unfold aMvmTnnII
  rw [hv, ok_bind, ht, ok_bind, H.scale, ok_bind, H.conv htm, ok_bind]
  dsimp only
  rw [addTmp (t := t.over m _) htm hr (fun i hi => ?_), ok_bind, hv', ok_bind, InfHyp.over_fill htm, ht', ok_bind, H.scale,
    ok_bind, H.conv htm', ok_bind]
  · dsimp only
    rw [subTmp (res := res.over m _) (t := t'.over m _) htm' hr (fun i hi => ?_), ok_bind, over_set]
    · rw [over_congr (g := fun i => truncZ (minus E (k i) (y' i))) fun i hi => ?_]
      · exact ⟨_, rfl⟩
      · rw [Vec.over_lt hi, Vec.over_lt hi, Vec.over_lt hi, ← hy i hi, ← hk i hi, ← hy' i hi]
    · rw [Vec.over_lt hi, Vec.over_lt hi, Vec.over_lt hi, ← hy i hi, ← hk i hi, ← hy' i hi]
      exact (hI i hi).2
  · rw [Vec.over_lt hi, ← hy i hi, ← hk i hi]
    exact (hI i hi).1

/-- TNN_III: two truncations, then the row sum. -/
theorem tnn3 {t t' : Vec K} {v' : Vec Int} (hv : encBit0 n vec a.vdP = .ok v)
    (hv' : encBit1 n vec v = .ok v')
    (ht : colCurrents E cfg c (iaDiffTerm E c.ia v) v none (a.tmp.fill 0) m n = .ok t)
    (ht' : colCurrents E cfg c (iaDiffTerm E c.ia v') v' none (t.fill 0) m n = .ok t')
    (htm : m ≤ t.size) (htm' : m ≤ t'.size) (hr : m ≤ res.size) (hs : m ≤ c.gd.sumW.size)
    {y y' : Nat → K} {k k' : Nat → Int}
    (hy : ∀ i, i < m → y i = cf (t.get i) 0 (scaleOf E cfg 1))
    (hy' : ∀ i, i < m → y' i = cf (t'.get i) 0 (scaleOf E cfg 2))
    (hk : ∀ i, i < m → k i = truncZ (plus E (res.get i) (y i)))
    (hk' : ∀ i, i < m → k' i = truncZ (plus E (k i) (y' i)))
    (hI : ∀ i, i < m → InI32 (k i) ∧ InI32 (k' i) ∧ InI32 (k' i - c.gd.sumW.get i)) :
    ∃ a', aMvmTnnIII E cfg c a res vec m n l
      = .ok (a', res.over m fun i => k' i - c.gd.sumW.get i) := by
  unfold aMvmTnnIII
  rw [hv, ok_bind, ht, ok_bind, H.scale, ok_bind, H.conv htm, ok_bind]
  dsimp only
  rw [addTmp (t := t.over m _) htm hr (fun i hi => ?_), ok_bind, hv', ok_bind, InfHyp.over_fill htm, ht', ok_bind, H.scale,
    ok_bind, H.conv htm', ok_bind]
  · dsimp only
    have e : (res.over m fun i => truncZ (plus E (res.get i) ((t.over m fun i => cf (t.get i) 0 (scaleOf E cfg 1)).get i)))
        = res.over m k := over_congr fun i hi => by
      rw [Vec.over_lt hi, ← hy i hi, ← hk i hi]
    rw [e, addTmp (res := res.over m k) (t := t'.over m _) htm' hr (fun i hi => ?_), ok_bind,
      updG_ok (v := (res.over m k).over m _) (fun i => k' i - c.gd.sumW.get i) hr (fun i hi => ?_), ok_bind,
      over_set, over_set]
    · exact ⟨_, rfl⟩
    · rw [Vec.rd_ok (by omega), ok_bind, Vec.over_lt hi, Vec.over_lt hi, Vec.over_lt hi, ← hy' i hi,
        ← hk' i hi, subI_ok (hI i hi).2.2]
    · rw [Vec.over_lt hi, Vec.over_lt hi, ← hy' i hi, ← hk' i hi]
      exact (hI i hi).2.1
  · rw [Vec.over_lt hi, ← hy i hi, ← hk i hi]
    exact (hI i hi).1

omit H in
/-- The accumulation of one of the four steps of TNN_IV and TNN_V. -/
def StepSum (E : Env K) (A : Mat K) (v : Vec Int) (m n : Nat) (S : Nat → K) : Prop :=
  ∀ tmp : Vec K, m ≤ tmp.size → accG (faddC E) m n (iaTerm E A v) (tmp.fill 0) = .ok ((tmp.fill 0).over m S)

theorem tcStep {A : Mat K} {S : Nat → K} (h : StepSum E A v m n S) {tmp : Vec K} (ht : m ≤ tmp.size)
    (hs : List (String × Hist K)) :
    Acs.tcStep E cfg c A v m n sc off l tmp hs = .ok (hs, (tmp.fill 0).over m fun i => cf (S i) off sc) := by
  unfold Acs.tcStep
  rw [h tmp ht, ok_bind, H.conv (t := (tmp.fill 0).over m S) ht, over_set]
  congr 2
  exact over_congr fun i hi => by rw [Vec.over_lt hi]

omit H in
theorem faddVec {t acc : Vec K} {x y : Nat → K} (hm : m ≤ t.size) (hr : m ≤ acc.size) :
    Acs.faddVec E (t.over m y) m (acc.over m x) = .ok (acc.over m fun i => E.fadd (x i) (y i)) := by
  unfold Acs.faddVec
  rw [updG_ok (v := acc.over m _) (fun i => E.fadd (x i) (y i)) hr, over_set]
  intro i hi
  rw [over_rd hm hi, ok_bind, Vec.over_lt hi]

omit H in
theorem fsubVec {t acc : Vec K} {x y : Nat → K} (hm : m ≤ t.size) (hr : m ≤ acc.size) :
    Acs.fsubVec E (t.over m y) m (acc.over m x) = .ok (acc.over m fun i => E.fsub (x i) (y i)) := by
  unfold Acs.fsubVec
  rw [updG_ok (v := acc.over m _) (fun i => E.fsub (x i) (y i)) hr, over_set]
  intro i hi
  rw [over_rd hm hi, ok_bind, Vec.over_lt hi]

omit H in
theorem half {x : K} : E.fdiv x 2 = .ok (E.f32 (x / 2)) := by
  unfold Env.fdiv
  rw [if_neg (by norm_num)]

theorem tnn4 (hp : cfg.parasitics = false) (hspl : cfg.split = [1, 1]) {vp vm : Vec Int} {s : Int}
    (hs : inpSum n vec = .ok s) (hv : encTern n vec a.vdP a.vdM = .ok (vp, vm)) {S0 S1 S2 S3 : Nat → K}
    (h0 : StepSum E c.ia.p vp m n S0) (h1 : StepSum E c.ia.p vm m n S1)
    (h2 : StepSum E c.ia.m vp m n S2) (h3 : StepSum E c.ia.m vm m n S3)
    (ht : m ≤ a.tmp.size) (hf : m ≤ a.tmpFp.size) (hr : m ≤ res.size) {y : Nat → K}
    (hy : ∀ i, i < m → y i = E.fadd (E.fsub (E.fsub
      (E.fadd 0 (cf (S0 i) (E.f32 (E.fmul (E.ofInt s) cfg.hrs / 2)) (scaleOf E cfg 1)))
      (cf (S1 i) (E.f32 (-E.fmul (E.ofInt s) cfg.hrs / 2)) (scaleOf E cfg 1)))
      (cf (S2 i) 0 (scaleOf E cfg 2))) (cf (S3 i) 0 (scaleOf E cfg 2)))
    (hI : ∀ i, i < m → InI32 (truncZ (plus E (res.get i) (y i)))) :
    ∃ a', aMvmTnnIV E cfg c a res vec m n l
      = .ok (a', res.over m fun i => truncZ (plus E (res.get i) (y i))) := by
  unfold aMvmTnnIV
  rw [if_neg (by simpa using hspl), hs, ok_bind, hv, ok_bind, H.scale, ok_bind, H.scale, ok_bind]
  dsimp only
  rw [half, ok_bind, half, ok_bind, if_neg (by simp [hp]), H.tcStep h0 ht, ok_bind, InfHyp.fill0 hf]
  dsimp only
  rw [faddVec (t := a.tmp.fill 0) ht (acc := a.tmpFp.fill 0) hf, ok_bind,
    H.tcStep h1 (tmp := (a.tmp.fill 0).over m _) ht, ok_bind]
  dsimp only
  rw [fsubVec (t := ((a.tmp.fill 0).over m _).fill 0) ht (acc := a.tmpFp.fill 0) hf, ok_bind,
    H.tcStep h2 (tmp := (((a.tmp.fill 0).over m _).fill 0).over m _) ht, ok_bind]
  dsimp only
  rw [fsubVec (t := ((((a.tmp.fill 0).over m _).fill 0).over m _).fill 0) ht (acc := a.tmpFp.fill 0) hf, ok_bind,
    H.tcStep h3 (tmp := (((((a.tmp.fill 0).over m _).fill 0).over m _).fill 0).over m _) ht, ok_bind]
  dsimp only
  rw [faddVec (t := ((((((a.tmp.fill 0).over m _).fill 0).over m _).fill 0).over m _).fill 0) ht
    (acc := a.tmpFp.fill 0) hf, ok_bind]
  unfold Acs.addTmp
  rw [add_rows (y := y) hr (fun i r hi => ?_) hI, ok_bind]
  · exact ⟨_, rfl⟩
  · rw [over_rd (t := a.tmpFp.fill 0) hf hi, ok_bind, hy i hi]

theorem tnn5 (hp : cfg.parasitics = false) (hspl : cfg.split = [1, 1]) {vp vm : Vec Int} {s : Int}
    (hs : inpSum n vec = .ok s) (h64 : i64 (3 * s) = .ok (3 * s))
    (hv : encTern n vec a.vdP a.vdM = .ok (vp, vm)) {S0 S1 S2 S3 : Nat → K}
    (h0 : StepSum E c.ia.p vp m n S0) (h1 : StepSum E c.ia.p vm m n S1)
    (h2 : StepSum E c.ia.m vp m n S2) (h3 : StepSum E c.ia.m vm m n S3)
    (ht : m ≤ a.tmp.size) (hf : m ≤ a.tmpFp.size) (hr : m ≤ res.size) {y : Nat → K} {k : Nat → Int}
    (hy : ∀ i, i < m → y i = E.fsub (E.fadd (E.fsub (E.fadd 0 (cf (S0 i) 0 (scaleOf E cfg 1)))
      (cf (S1 i) (E.fmul (E.ofInt (3 * s)) cfg.hrs) (scaleOf E cfg 1)))
      (cf (S2 i) 0 (scaleOf E cfg 2))) (cf (S3 i) 0 (scaleOf E cfg 2)))
    (hk : ∀ i, i < m → k i = truncZ (plus E (res.get i) (y i)))
    (hI : ∀ i, i < m → InI32 (k i) ∧ InI32 (k i - s)) :
    ∃ a', aMvmTnnV E cfg c a res vec m n l = .ok (a', res.over m fun i => k i - s) := by
  unfold aMvmTnnV
  rw [if_neg (by simpa using hspl), hs, ok_bind, hv, ok_bind, h64, ok_bind]
  dsimp only
  rw [H.scale, ok_bind, H.scale, ok_bind, if_neg (by simp [hp]), H.tcStep h0 ht, ok_bind, InfHyp.fill0 hf]
  dsimp only
  rw [faddVec (t := a.tmp.fill 0) ht (acc := a.tmpFp.fill 0) hf, ok_bind,
    H.tcStep h1 (tmp := (a.tmp.fill 0).over m _) ht, ok_bind]
  dsimp only
  rw [fsubVec (t := ((a.tmp.fill 0).over m _).fill 0) ht (acc := a.tmpFp.fill 0) hf, ok_bind,
    H.tcStep h2 (tmp := (((a.tmp.fill 0).over m _).fill 0).over m _) ht, ok_bind]
  dsimp only
  rw [faddVec (t := ((((a.tmp.fill 0).over m _).fill 0).over m _).fill 0) ht (acc := a.tmpFp.fill 0) hf, ok_bind,
    H.tcStep h3 (tmp := (((((a.tmp.fill 0).over m _).fill 0).over m _).fill 0).over m _) ht, ok_bind]
  dsimp only
  rw [fsubVec (t := ((((((a.tmp.fill 0).over m _).fill 0).over m _).fill 0).over m _).fill 0) ht
    (acc := a.tmpFp.fill 0) hf, ok_bind]
  rw [rowLoop_ok (fun i => k i - s), ok_bind]
  · exact ⟨_, rfl⟩
  · intro i hi r hrs hri
    have hl := (hI i hi).2
    have hk' := (hI i hi).1
    rw [over_rd (t := a.tmpFp.fill 0) hf hi, ok_bind, ← hy i hi]
    rw [updAt_set (x := k i) (by omega) (by
      unfold Env.iaddf toI32
      rw [hri]
      have e := hk i hi
      unfold plus at e
      rw [← e, if_pos hk']), ok_bind, updAt_set (x := k i - s) (by simp; omega), Vec.set_set]
    rw [Vec.set_get, i64_ok ⟨by have := hl.1; omega, by have := hl.2; omega⟩, ok_bind, wrap32_id hl]

/-! ### With parasitic wires -/

omit H in
/-- The bit line currents of TNN_IV and TNN_V for one input half: LSB and MSB lines alternate. -/
def SolveSum (E : Env K) (c : Core K) (v : Vec Int) (m n : Nat) (S S' : Nat → K) : Prop :=
  ∃ s t, c.par = some s ∧ computeCurrents E s v none (2 * m) n = .ok t ∧ 2 * m ≤ t.size ∧
    ∀ i, i < m → t.get (2 * i) = S i ∧ t.get (2 * i + 1) = S' i

theorem tcSolve {S S' : Nat → K} (h : SolveSum E c v m n S S') {lsb msb : Vec K} (h1 : m ≤ lsb.size) (h2 : m ≤ msb.size)
    {s1 s2 : K} (hs : List (String × Hist K)) :
    ∃ t, Acs.tcSolve E cfg c v m n s1 s2 off l lsb msb hs
      = .ok (hs, t, lsb.over m fun i => cf (S i) off s1, msb.over m fun i => cf (S' i) 0 s2) := by
  obtain ⟨s, t, e1, e2, e3, e4⟩ := h
  refine ⟨t, ?_⟩
  unfold Acs.tcSolve
  rw [e1]
  dsimp only
  rw [e2, ok_bind, setG_ok (v := lsb) S h1 (fun i hi => by rw [Vec.rd_ok (by omega), (e4 i hi).1]), ok_bind,
    setG_ok (v := msb) S' h2 (fun i hi => by rw [Vec.rd_ok (by omega), (e4 i hi).2]), ok_bind,
    H.conv (t := lsb.over m S) h1, ok_bind, H.conv (t := msb.over m S') h2, ok_bind, over_set, over_set]
  congr 4
  · exact over_congr fun i hi => by rw [Vec.over_lt hi]
  · exact over_congr fun i hi => by rw [Vec.over_lt hi]

theorem tnn4w (hp : cfg.parasitics = true) (hspl : cfg.split = [1, 1]) {vp vm : Vec Int} {s : Int}
    (hs : inpSum n vec = .ok s) (hv : encTern n vec a.vdP a.vdM = .ok (vp, vm)) {S0 S1 S2 S3 : Nat → K}
    (h0 : SolveSum E c vp m n S0 S2) (h1 : SolveSum E c vm m n S1 S3)
    (ht : m ≤ a.tmpLsb.size) (ht' : m ≤ a.tmpMsb.size) (hf : m ≤ a.tmpFp.size) (hr : m ≤ res.size) {y : Nat → K}
    (hy : ∀ i, i < m → y i = E.fadd (E.fsub (E.fsub
      (E.fadd 0 (cf (S0 i) (E.f32 (E.fmul (E.ofInt s) cfg.hrs / 2)) (scaleOf E cfg 1)))
      (cf (S2 i) 0 (scaleOf E cfg 2)))
      (cf (S1 i) (E.f32 (-E.fmul (E.ofInt s) cfg.hrs / 2)) (scaleOf E cfg 1))) (cf (S3 i) 0 (scaleOf E cfg 2)))
    (hI : ∀ i, i < m → InI32 (truncZ (plus E (res.get i) (y i)))) :
    ∃ a', aMvmTnnIV E cfg c a res vec m n l
      = .ok (a', res.over m fun i => truncZ (plus E (res.get i) (y i))) := by
  unfold aMvmTnnIV
  rw [if_neg (by simpa using hspl), hs, ok_bind, hv, ok_bind, H.scale, ok_bind, H.scale, ok_bind]
  dsimp only
  rw [half, ok_bind, half, ok_bind, if_pos hp]
  obtain ⟨t1, e1⟩ := H.tcSolve h0 ht ht' (off := E.f32 (E.fmul (E.ofInt s) cfg.hrs / 2)) (s1 := scaleOf E cfg 1)
    (s2 := scaleOf E cfg 2) a.hists
  rw [e1, ok_bind, InfHyp.fill0 hf]
  dsimp only
  rw [faddVec (t := a.tmpLsb) ht (acc := a.tmpFp.fill 0) hf, ok_bind, fsubVec (t := a.tmpMsb) ht' (acc := a.tmpFp.fill 0) hf,
    ok_bind]
  obtain ⟨t2, e2⟩ := H.tcSolve h1 (lsb := a.tmpLsb.over m fun i =>
      cf (S0 i) (E.f32 (E.fmul (E.ofInt s) cfg.hrs / 2)) (scaleOf E cfg 1)) (msb := a.tmpMsb.over m fun i =>
      cf (S2 i) 0 (scaleOf E cfg 2)) ht ht' (off := E.f32 (-E.fmul (E.ofInt s) cfg.hrs / 2)) (s1 := scaleOf E cfg 1)
    (s2 := scaleOf E cfg 2) a.hists
  rw [e2, ok_bind]
  dsimp only
  rw [fsubVec (t := a.tmpLsb.over m _) ht (acc := a.tmpFp.fill 0) hf, ok_bind,
    faddVec (t := a.tmpMsb.over m _) ht' (acc := a.tmpFp.fill 0) hf, ok_bind]
  unfold Acs.addTmp
  rw [add_rows (y := y) hr (fun i r hi => ?_) hI, ok_bind]
  · exact ⟨_, rfl⟩
  · rw [over_rd (t := a.tmpFp.fill 0) hf hi, ok_bind, hy i hi]

theorem tnn5w (hp : cfg.parasitics = true) (hspl : cfg.split = [1, 1]) {vp vm : Vec Int} {s : Int}
    (hs : inpSum n vec = .ok s) (h64 : i64 (3 * s) = .ok (3 * s))
    (hv : encTern n vec a.vdP a.vdM = .ok (vp, vm)) {S0 S1 S2 S3 : Nat → K}
    (h0 : SolveSum E c vp m n S0 S2) (h1 : SolveSum E c vm m n S1 S3)
    (ht : m ≤ a.tmpLsb.size) (ht' : m ≤ a.tmpMsb.size) (hf : m ≤ a.tmpFp.size) (hr : m ≤ res.size)
    {y : Nat → K} {k : Nat → Int}
    (hy : ∀ i, i < m → y i = E.fsub (E.fsub (E.fadd (E.fadd 0 (cf (S0 i) 0 (scaleOf E cfg 1)))
      (cf (S2 i) 0 (scaleOf E cfg 2)))
      (cf (S1 i) (E.fmul (E.ofInt (3 * s)) cfg.hrs) (scaleOf E cfg 1))) (cf (S3 i) 0 (scaleOf E cfg 2)))
    (hk : ∀ i, i < m → k i = truncZ (plus E (res.get i) (y i)))
    (hI : ∀ i, i < m → InI32 (k i) ∧ InI32 (k i - s)) :
    ∃ a', aMvmTnnV E cfg c a res vec m n l = .ok (a', res.over m fun i => k i - s) := by
  unfold aMvmTnnV
  rw [if_neg (by simpa using hspl), hs, ok_bind, hv, ok_bind, h64, ok_bind]
  dsimp only
  rw [H.scale, ok_bind, H.scale, ok_bind, if_pos hp]
  obtain ⟨t1, e1⟩ := H.tcSolve h0 ht ht' (off := 0) (s1 := scaleOf E cfg 1) (s2 := scaleOf E cfg 2) a.hists
  rw [e1, ok_bind, InfHyp.fill0 hf]
  dsimp only
  rw [faddVec (t := a.tmpLsb) ht (acc := a.tmpFp.fill 0) hf, ok_bind, faddVec (t := a.tmpMsb) ht' (acc := a.tmpFp.fill 0) hf,
    ok_bind]
  obtain ⟨t2, e2⟩ := H.tcSolve h1 (lsb := a.tmpLsb.over m fun i => cf (S0 i) 0 (scaleOf E cfg 1))
    (msb := a.tmpMsb.over m fun i => cf (S2 i) 0 (scaleOf E cfg 2)) ht ht' (off := E.fmul (E.ofInt (3 * s)) cfg.hrs)
    (s1 := scaleOf E cfg 1) (s2 := scaleOf E cfg 2) a.hists
  rw [e2, ok_bind]
  dsimp only
  rw [fsubVec (t := a.tmpLsb.over m _) ht (acc := a.tmpFp.fill 0) hf, ok_bind,
    fsubVec (t := a.tmpMsb.over m _) ht' (acc := a.tmpFp.fill 0) hf, ok_bind]
  rw [rowLoop_ok (fun i => k i - s), ok_bind]
  · exact ⟨_, rfl⟩
  · intro i hi r hrs hri
    have hl := (hI i hi).2
    have hk' := (hI i hi).1
    rw [over_rd (t := a.tmpFp.fill 0) hf hi, ok_bind, ← hy i hi]
    rw [updAt_set (x := k i) (by omega) (by
      unfold Env.iaddf toI32
      rw [hri]
      have e := hk i hi
      unfold plus at e
      rw [← e, if_pos hk']), ok_bind, updAt_set (x := k i - s) (by simp; omega), Vec.set_set]
    rw [Vec.set_get, i64_ok ⟨by have := hl.1; omega, by have := hl.2; omega⟩, ok_bind, wrap32_id hl]

end FlHyp

end

end Acs
