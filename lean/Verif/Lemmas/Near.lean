import Verif.Lemmas.AMvmExact

/-!
# Analog multiplications with deviating currents

With exact arithmetic and an ideal converter the result of a multiplication is a truncated affine
function of the column currents.  If these differ by at most `η` from the currents the mapping expects,
the result differs from the exact product by less than a multiple of `η` plus one per truncation.
-/

set_option linter.unusedSectionVars false

namespace Acs

open Finset Spec

section
variable {K : Type} [Field K] [LinearOrder K] [IsStrictOrderedRing K] [FloorRing K]
variable {E : Env K} {cfg : Cfg K} {c : Core K} {a : Aux K}
variable {mat vec res v w : Vec Int} {m n : Nat} {l : String} {sc off d δ : K}

/-! ## Truncation -/

theorem truncZ_near (x : K) : |(truncZ x : K) - x| < 1 := by
  unfold truncZ
  split
  · rw [abs_lt]
    have h1 := Int.floor_le x
    have h2 := Int.lt_floor_add_one x
    constructor <;> linarith
  · rw [abs_lt]
    have h1 := Int.le_ceil x
    have h2 := Int.ceil_lt_add_one x
    constructor <;> linarith

theorem truncZ_lt {x : K} {b : Int} (h : |x - b| ≤ δ) : |(truncZ x : K) - b| < δ + 1 := by
  have h1 := truncZ_near x
  have h2 := abs_add_le ((truncZ x : K) - x) (x - b)
  rw [sub_add_sub_cancel] at h2
  linarith

/-- An integer close to another one, with room. -/
theorem inI32_near {z b : Int} (h : |(z : K) - b| < δ) (hr : |(b : K)| + δ ≤ 2147483647) : InI32 z := by
  have h1 := abs_add_le ((z : K) - b) b
  rw [sub_add_cancel] at h1
  have h2 : ((|z| : Int) : K) ≤ ((2147483647 : Int) : K) := by push_cast; linarith
  exact inI32_of_abs (Int.cast_le.1 h2)

/-- `res += y` on an exact machine. -/
theorem iaddf_trunc (hE : ExactArith E) {r : Int} {y : K} (h : InI32 (truncZ ((r : K) + y))) :
    E.iaddf r y = .ok (truncZ ((r : K) + y)) := by
  unfold Env.iaddf Env.fadd Env.ofInt toI32
  rw [hE.f32, hE.f32, if_pos h]

theorem isubf_trunc (hE : ExactArith E) {r : Int} {y : K} (h : InI32 (truncZ ((r : K) - y))) :
    E.isubf r y = .ok (truncZ ((r : K) - y)) := by
  unfold Env.isubf Env.fsub Env.ofInt toI32
  rw [hE.f32, hE.f32, if_pos h]

theorem conv1_inf (hE : ExactArith E) {adc : Adc} (hk : adc.kind = .inf) (x sc off : K) :
    conv1 E cfg adc x sc off l = .ok ((x + off) * sc) := by
  unfold conv1 Env.fmul Env.fadd
  rw [hk]
  simp only [hE.f32]

theorem fdiv_exact (hE : ExactArith E) {x y : K} (h : y ≠ 0) : E.fdiv x y = .ok (x / y) := by
  unfold Env.fdiv
  rw [if_neg h, hE.f32]

theorem convVec_inf (hE : ExactArith E) {hs : List (String × Hist K)} {t : Vec K} {adc : Adc}
    (hk : adc.kind = .inf) (hpr : cfg.adcProfile = false) (hm : m ≤ t.size) :
    convVec E cfg adc hs t m sc off l = .ok (hs, t.over m fun i => (t.get i + off) * sc) :=
  convVec_ok hpr hm fun i _ => conv1_inf hE hk _ _ _

/-! ## The multiplications as functions of the column currents -/

/-- An exact machine with an ideal converter. -/
structure InfHyp (E : Env K) (cfg : Cfg K) (c : Core K) : Prop where
  ex : ExactArith E
  kind : c.adc.kind = .inf
  prof : cfg.adcProfile = false
  iMM : c.iMM = cfg.lrs - cfg.hrs
  ne : cfg.lrs - cfg.hrs ≠ 0

namespace InfHyp
variable (H : InfHyp E cfg c)
include H

theorem scale (s : K) : E.fdiv s c.iMM = .ok (s / (cfg.lrs - cfg.hrs)) := by
  rw [H.iMM]; exact fdiv_exact H.ex H.ne

theorem conv {hs : List (String × Hist K)} {t : Vec K} (hm : m ≤ t.size) :
    convVec E cfg c.adc hs t m sc off l = .ok (hs, t.over m fun i => (t.get i + off) * sc) :=
  convVec_inf H.ex H.kind H.prof hm

omit H in
theorem over_fill {t : Vec K} {y : Nat → K} (hm : m ≤ t.size) : (t.over m y).fill 0 = t.fill 0 := by
  refine Vec.ext' (by rfl) fun k => ?_
  by_cases hk : k < t.size
  · rw [Vec.fill_get hk, Vec.fill_get (v := t.over m y) hk]
  · show (if k < t.size then 0 else if k < m then y k else t.get k) = if k < t.size then 0 else t.get k
    rw [if_neg hk, if_neg hk, if_neg (by omega)]

/-- `res[m] += y` for every row. -/
theorem add_rows {f : Nat → Int → C Int} {y : Nat → K} (hr : m ≤ res.size)
    (hf : ∀ i r, i < m → f i r = E.iaddf r (y i)) (hI : ∀ i, i < m → InI32 (truncZ ((res.get i : K) + y i))) :
    updG m f res = .ok (res.over m fun i => truncZ ((res.get i : K) + y i)) :=
  updG_ok _ hr fun i hi => by rw [hf i _ hi, iaddf_trunc H.ex (hI i hi)]

theorem addTmp {t : Vec K} (hm : m ≤ t.size) (hr : m ≤ res.size)
    (hI : ∀ i, i < m → InI32 (truncZ ((res.get i : K) + t.get i))) :
    Acs.addTmp E t m res = .ok (res.over m fun i => truncZ ((res.get i : K) + t.get i)) := by
  unfold Acs.addTmp
  exact H.add_rows hr (fun i r hi => by rw [Vec.rd_ok (by omega), ok_bind]) hI

theorem subTmp {t : Vec K} (hm : m ≤ t.size) (hr : m ≤ res.size)
    (hI : ∀ i, i < m → InI32 (truncZ ((res.get i : K) - t.get i))) :
    Acs.subTmp E t m res = .ok (res.over m fun i => truncZ ((res.get i : K) - t.get i)) := by
  unfold Acs.subTmp
  exact updG_ok _ hr fun i hi => by rw [Vec.rd_ok (by omega), ok_bind, isubf_trunc H.ex (hI i hi)]

theorem bnn1 {t : Vec K} (hv : encBnn1 n vec a.vdP = .ok v)
    (ht : colCurrents E cfg c (iaDiffTerm E c.ia v) v none (a.tmp.fill 0) m n = .ok t)
    (htm : m ≤ t.size) (hr : m ≤ res.size) (hs : m ≤ c.gd.sumW.size) {y : Nat → K}
    (hy : ∀ i, i < m → y i = t.get i * (2 / (cfg.lrs - cfg.hrs)) - c.gd.sumW.get i)
    (hI : ∀ i, i < m → InI32 (truncZ ((res.get i : K) + y i))) :
    ∃ a', aMvmBnnI E cfg c a res vec m n l
      = .ok (a', res.over m fun i => truncZ ((res.get i : K) + y i)) := by
  unfold aMvmBnnI
  rw [hv, ok_bind, ht, ok_bind, H.scale, ok_bind, H.conv htm, ok_bind]
  dsimp only
  rw [H.add_rows (y := y) hr (fun i r hi => ?_) hI, ok_bind]
  · exact ⟨_, rfl⟩
  · rw [over_rd htm hi, ok_bind, Vec.rd_ok (by omega), ok_bind, hy i hi, add_zero]
    unfold Env.fsub Env.ofInt
    rw [H.ex.f32, H.ex.f32]

theorem bnn2 {t : Vec K} (hv : encBnn2 n vec a.vdP = .ok v)
    (ht : colCurrents E cfg c (iaDiffTermNeg E c.ia v) v none (a.tmp.fill 0) m n = .ok t)
    (htm : m ≤ t.size) (hr : m ≤ res.size) (hs : m ≤ c.gd.sumW.size) {y : Nat → K}
    (hy : ∀ i, i < m → y i = t.get i * (2 / (cfg.lrs - cfg.hrs)) + c.gd.sumW.get i)
    (hI : ∀ i, i < m → InI32 (truncZ ((res.get i : K) + y i))) :
    ∃ a', aMvmBnnII E cfg c a res vec m n l
      = .ok (a', res.over m fun i => truncZ ((res.get i : K) + y i)) := by
  unfold aMvmBnnII
  rw [hv, ok_bind, ht, ok_bind, H.scale, ok_bind, H.conv htm, ok_bind]
  dsimp only
  rw [H.add_rows (y := y) hr (fun i r hi => ?_) hI, ok_bind]
  · exact ⟨_, rfl⟩
  · rw [over_rd htm hi, ok_bind, Vec.rd_ok (by omega), ok_bind, hy i hi, add_zero]
    unfold Env.fadd Env.ofInt
    rw [H.ex.f32, H.ex.f32]

theorem bnn34 {tp tm : Vec K} {vp vm : Vec Int} {s : Int} (hv : encPMSum n vec a.vdP a.vdM = .ok ((vp, vm), s))
    (hp : colCurrents E cfg c (iaTerm E c.ia.p vp) vp none (a.tmpP.fill 0) m n = .ok tp)
    (hm : colCurrents E cfg c (iaTerm E c.ia.p vm) vm none (a.tmpM.fill 0) m n = .ok tm)
    (hs : negI s = .ok (-s)) (hpm : m ≤ tp.size) (hmm : m ≤ tm.size) :
    ∃ a' : Aux K, bnn34Currents E cfg c a vec m n l = .ok (a', s) ∧
      (∀ i, i < m → a'.tmpP.rd i = .ok ((tp.get i - s * cfg.hrs) * (2 / (cfg.lrs - cfg.hrs)))) ∧
      ∀ i, i < m → a'.tmpM.rd i = .ok (tm.get i * (2 / (cfg.lrs - cfg.hrs))) := by
  unfold bnn34Currents
  rw [hv, ok_bind]
  dsimp only
  rw [hp, ok_bind, hm, ok_bind, H.scale, ok_bind, hs, ok_bind, H.conv hpm, ok_bind]
  dsimp only
  rw [H.conv hmm, ok_bind]
  refine ⟨_, rfl, fun i hi => ?_, fun i hi => ?_⟩
  · dsimp only
    rw [over_rd hpm hi]
    unfold Env.fmul Env.ofInt
    rw [H.ex.f32, H.ex.f32]
    push_cast
    rw [neg_mul, ← sub_eq_add_neg]
  · dsimp only
    rw [over_rd hmm hi, add_zero]

theorem bnn3 {tp tm : Vec K} {vp vm : Vec Int} {s : Int} (hv : encPMSum n vec a.vdP a.vdM = .ok ((vp, vm), s))
    (hp : colCurrents E cfg c (iaTerm E c.ia.p vp) vp none (a.tmpP.fill 0) m n = .ok tp)
    (hm : colCurrents E cfg c (iaTerm E c.ia.p vm) vm none (a.tmpM.fill 0) m n = .ok tm)
    (hs : negI s = .ok (-s)) (hpm : m ≤ tp.size) (hmm : m ≤ tm.size) (hr : m ≤ res.size) {y : Nat → K}
    (hy : ∀ i, i < m → y i = (tp.get i - s * cfg.hrs) * (2 / (cfg.lrs - cfg.hrs))
      - tm.get i * (2 / (cfg.lrs - cfg.hrs)) - s)
    (hI : ∀ i, i < m → InI32 (truncZ ((res.get i : K) + y i))) :
    ∃ a', aMvmBnnIII E cfg c a res vec m n l
      = .ok (a', res.over m fun i => truncZ ((res.get i : K) + y i)) := by
  obtain ⟨a', h1, h2, h3⟩ := H.bnn34 (l := l) hv hp hm hs hpm hmm
  unfold aMvmBnnIII
  rw [h1, ok_bind]
  dsimp only
  rw [H.add_rows (y := y) hr (fun i r hi => ?_) hI, ok_bind]
  · exact ⟨_, rfl⟩
  · rw [h2 i hi, ok_bind, h3 i hi, ok_bind, hy i hi]
    unfold Env.fsub Env.ofInt
    simp only [H.ex.f32]

theorem bnn4 {tp tm : Vec K} {vp vm : Vec Int} {s : Int} (hv : encPMSum n vec a.vdP a.vdM = .ok ((vp, vm), s))
    (hp : colCurrents E cfg c (iaTerm E c.ia.p vp) vp none (a.tmpP.fill 0) m n = .ok tp)
    (hm : colCurrents E cfg c (iaTerm E c.ia.p vm) vm none (a.tmpM.fill 0) m n = .ok tm)
    (hs : negI s = .ok (-s)) (hpm : m ≤ tp.size) (hmm : m ≤ tm.size) (hr : m ≤ res.size) {y : Nat → K}
    (hy : ∀ i, i < m → y i = tm.get i * (2 / (cfg.lrs - cfg.hrs))
      - (tp.get i - s * cfg.hrs) * (2 / (cfg.lrs - cfg.hrs)) + s)
    (hI : ∀ i, i < m → InI32 (truncZ ((res.get i : K) + y i))) :
    ∃ a', aMvmBnnIV E cfg c a res vec m n l
      = .ok (a', res.over m fun i => truncZ ((res.get i : K) + y i)) := by
  obtain ⟨a', h1, h2, h3⟩ := H.bnn34 (l := l) hv hp hm hs hpm hmm
  unfold aMvmBnnIV
  rw [h1, ok_bind]
  dsimp only
  rw [H.add_rows (y := y) hr (fun i r hi => ?_) hI, ok_bind]
  · exact ⟨_, rfl⟩
  · rw [h2 i hi, ok_bind, h3 i hi, ok_bind, hy i hi]
    unfold Env.fsub Env.fadd Env.ofInt
    simp only [H.ex.f32]

theorem bnn5 {t : Vec K} {vp vm : Vec Int} (hv : encPM n vec a.vdP a.vdM = .ok (vp, vm))
    (ht : colCurrents E cfg c (iaBnn5Term E c.ia vp vm) vp (some vm) (a.tmp.fill 0) m n = .ok t)
    (hn : negI n = .ok (-(n : Int))) (htm : m ≤ t.size) (hr : m ≤ res.size) {y : Nat → K}
    (hy : ∀ i, i < m → y i = (t.get i - n * cfg.hrs) * (2 / (cfg.lrs - cfg.hrs)) - n)
    (hI : ∀ i, i < m → InI32 (truncZ ((res.get i : K) + y i))) :
    ∃ a', aMvmBnnV E cfg c a res vec m n l
      = .ok (a', res.over m fun i => truncZ ((res.get i : K) + y i)) := by
  unfold aMvmBnnV
  rw [hv, ok_bind]
  dsimp only
  rw [ht, ok_bind, H.scale, ok_bind, hn, ok_bind, H.conv htm, ok_bind]
  dsimp only
  rw [H.add_rows (y := y) hr (fun i r hi => ?_) hI, ok_bind]
  · exact ⟨_, rfl⟩
  · rw [over_rd htm hi, ok_bind, hy i hi]
    unfold Env.fsub Env.fmul Env.ofInt
    simp only [H.ex.f32]
    push_cast
    rw [neg_mul, ← sub_eq_add_neg]

theorem bnn6 {t : Vec K} {vp vm : Vec Int} (hv : encPM n vec a.vdP a.vdM = .ok (vp, vm))
    (ht : colCurrents E cfg c (iaQuadTerm E c.ia vp vm) vp (some vm) (a.tmp.fill 0) m n = .ok t)
    (htm : m ≤ t.size) (hr : m ≤ res.size) {y : Nat → K}
    (hy : ∀ i, i < m → y i = t.get i * (1 / (cfg.lrs - cfg.hrs)))
    (hI : ∀ i, i < m → InI32 (truncZ ((res.get i : K) + y i))) :
    ∃ a', aMvmBnnVI E cfg c a res vec m n l
      = .ok (a', res.over m fun i => truncZ ((res.get i : K) + y i)) := by
  unfold aMvmBnnVI
  rw [hv, ok_bind]
  dsimp only
  rw [ht, ok_bind, H.scale, ok_bind, H.conv htm, ok_bind]
  dsimp only [Acs.addTmp]
  rw [H.add_rows (y := y) hr (fun i r hi => ?_) hI, ok_bind]
  · exact ⟨_, rfl⟩
  · rw [over_rd htm hi, ok_bind, hy i hi, add_zero]

theorem tnn1 {t : Vec K} {vp vm : Vec Int} (hv : encTern n vec a.vdP a.vdM = .ok (vp, vm))
    (ht : colCurrents E cfg c (iaQuadTerm E c.ia vp vm) vp (some vm) (a.tmp.fill 0) m n = .ok t)
    (htm : m ≤ t.size) (hr : m ≤ res.size) {y : Nat → K}
    (hy : ∀ i, i < m → y i = t.get i * (1 / (cfg.lrs - cfg.hrs)))
    (hI : ∀ i, i < m → InI32 (truncZ ((res.get i : K) + y i))) :
    ∃ a', aMvmTnnI E cfg c a res vec m n l
      = .ok (a', res.over m fun i => truncZ ((res.get i : K) + y i)) := by
  unfold aMvmTnnI
  rw [hv, ok_bind]
  dsimp only
  rw [ht, ok_bind, H.scale, ok_bind, H.conv htm, ok_bind]
  dsimp only [Acs.addTmp]
  rw [H.add_rows (y := y) hr (fun i r hi => ?_) hI, ok_bind]
  · exact ⟨_, rfl⟩
  · rw [over_rd htm hi, ok_bind, hy i hi, add_zero]

/-- TNN_II: two truncations. -/
theorem tnn2 {t t' : Vec K} {v' : Vec Int} (hv : encNonzero n vec a.vdP = .ok v)
    (hv' : encNegOne n vec v = .ok v')
    (ht : colCurrents E cfg c (iaDiffTerm E c.ia v) v none (a.tmp.fill 0) m n = .ok t)
    (ht' : colCurrents E cfg c (iaDiffTerm E c.ia v') v' none (t.fill 0) m n = .ok t')
    (htm : m ≤ t.size) (htm' : m ≤ t'.size) (hr : m ≤ res.size) {y y' : Nat → K} {k : Nat → Int}
    (hy : ∀ i, i < m → y i = t.get i * (1 / (cfg.lrs - cfg.hrs)))
    (hy' : ∀ i, i < m → y' i = t'.get i * (2 / (cfg.lrs - cfg.hrs)))
    (hk : ∀ i, i < m → k i = truncZ ((res.get i : K) + y i))
    (hI : ∀ i, i < m → InI32 (k i) ∧ InI32 (truncZ ((k i : K) - y' i))) :
    ∃ a', aMvmTnnII E cfg c a res vec m n l
      = .ok (a', res.over m fun i => truncZ ((k i : K) - y' i)) := by
  unfold aMvmTnnII
  rw [hv, ok_bind, ht, ok_bind, H.scale, ok_bind, H.conv htm, ok_bind]
  dsimp only
  rw [H.addTmp (t := t.over m _) htm hr (fun i hi => ?_), ok_bind, hv', ok_bind, over_fill htm, ht', ok_bind, H.scale, ok_bind,
    H.conv htm', ok_bind]
  · dsimp only
    rw [H.subTmp (res := res.over m _) (t := t'.over m _) htm' hr (fun i hi => ?_), ok_bind, over_set]
    · rw [over_congr (g := fun i => truncZ ((k i : K) - y' i)) fun i hi => ?_]
      · exact ⟨_, rfl⟩
      · rw [Vec.over_lt hi, Vec.over_lt hi, Vec.over_lt hi, add_zero, add_zero, ← hy i hi, ← hk i hi, ← hy' i hi]
    · rw [Vec.over_lt hi, Vec.over_lt hi, Vec.over_lt hi, add_zero, add_zero, ← hy i hi, ← hk i hi, ← hy' i hi]
      exact (hI i hi).2
  · rw [Vec.over_lt hi, add_zero, ← hy i hi, ← hk i hi]
    exact (hI i hi).1

/-- TNN_III: two truncations, then the row sum. -/
theorem tnn3 {t t' : Vec K} {v' : Vec Int} (hv : encBit0 n vec a.vdP = .ok v)
    (hv' : encBit1 n vec v = .ok v')
    (ht : colCurrents E cfg c (iaDiffTerm E c.ia v) v none (a.tmp.fill 0) m n = .ok t)
    (ht' : colCurrents E cfg c (iaDiffTerm E c.ia v') v' none (t.fill 0) m n = .ok t')
    (htm : m ≤ t.size) (htm' : m ≤ t'.size) (hr : m ≤ res.size) (hs : m ≤ c.gd.sumW.size)
    {y y' : Nat → K} {k k' : Nat → Int}
    (hy : ∀ i, i < m → y i = t.get i * (1 / (cfg.lrs - cfg.hrs)))
    (hy' : ∀ i, i < m → y' i = t'.get i * (2 / (cfg.lrs - cfg.hrs)))
    (hk : ∀ i, i < m → k i = truncZ ((res.get i : K) + y i))
    (hk' : ∀ i, i < m → k' i = truncZ ((k i : K) + y' i))
    (hI : ∀ i, i < m → InI32 (k i) ∧ InI32 (k' i) ∧ InI32 (k' i - c.gd.sumW.get i)) :
    ∃ a', aMvmTnnIII E cfg c a res vec m n l
      = .ok (a', res.over m fun i => k' i - c.gd.sumW.get i) := by
  unfold aMvmTnnIII
  rw [hv, ok_bind, ht, ok_bind, H.scale, ok_bind, H.conv htm, ok_bind]
  dsimp only
  rw [H.addTmp (t := t.over m _) htm hr (fun i hi => ?_), ok_bind, hv', ok_bind, over_fill htm, ht', ok_bind, H.scale, ok_bind,
    H.conv htm', ok_bind]
  · dsimp only
    have e : (res.over m fun i => truncZ ((res.get i : K) + (t.over m fun i => (t.get i + 0) *
        (1 / (cfg.lrs - cfg.hrs))).get i)) = res.over m k := over_congr fun i hi => by
      rw [Vec.over_lt hi, add_zero, ← hy i hi, ← hk i hi]
    rw [e, H.addTmp (res := res.over m k) (t := t'.over m _) htm' hr (fun i hi => ?_), ok_bind,
      updG_ok (v := (res.over m k).over m _) (fun i => k' i - c.gd.sumW.get i) hr (fun i hi => ?_), ok_bind,
      over_set, over_set]
    · exact ⟨_, rfl⟩
    · rw [Vec.rd_ok (by omega), ok_bind, Vec.over_lt hi, Vec.over_lt hi, Vec.over_lt hi, add_zero, ← hy' i hi,
        ← hk' i hi, subI_ok (hI i hi).2.2]
    · rw [Vec.over_lt hi, Vec.over_lt hi, add_zero, ← hy' i hi, ← hk' i hi]
      exact (hI i hi).2.1
  · rw [Vec.over_lt hi, add_zero, ← hy i hi, ← hk i hi]
    exact (hI i hi).1

/-- The accumulation of one of the four steps of TNN_IV and TNN_V. -/
def StepSum (_ : InfHyp E cfg c) (A : Mat K) (v : Vec Int) (m n : Nat) (S : Nat → K) : Prop :=
  ∀ tmp : Vec K, m ≤ tmp.size → accG (faddC E) m n (iaTerm E A v) (tmp.fill 0) = .ok ((tmp.fill 0).over m S)

theorem tcStep {A : Mat K} {S : Nat → K} (h : H.StepSum A v m n S) {tmp : Vec K} (ht : m ≤ tmp.size)
    (hs : List (String × Hist K)) :
    Acs.tcStep E cfg c A v m n sc off l tmp hs = .ok (hs, (tmp.fill 0).over m fun i => (S i + off) * sc) := by
  unfold Acs.tcStep
  rw [h tmp ht, ok_bind, H.conv (t := (tmp.fill 0).over m S) ht, over_set]
  congr 2
  exact over_congr fun i hi => by rw [Vec.over_lt hi]

theorem faddVec {t acc : Vec K} {x y : Nat → K} (hm : m ≤ t.size) (hr : m ≤ acc.size) :
    Acs.faddVec E (t.over m y) m (acc.over m x) = .ok (acc.over m fun i => x i + y i) := by
  unfold Acs.faddVec
  rw [updG_ok (v := acc.over m _) (fun i => x i + y i) hr, over_set]
  intro i hi
  rw [over_rd hm hi, ok_bind, Vec.over_lt hi]
  unfold Env.fadd
  rw [H.ex.f32]

theorem fsubVec {t acc : Vec K} {x y : Nat → K} (hm : m ≤ t.size) (hr : m ≤ acc.size) :
    Acs.fsubVec E (t.over m y) m (acc.over m x) = .ok (acc.over m fun i => x i - y i) := by
  unfold Acs.fsubVec
  rw [updG_ok (v := acc.over m _) (fun i => x i - y i) hr, over_set]
  intro i hi
  rw [over_rd hm hi, ok_bind, Vec.over_lt hi]
  unfold Env.fsub
  rw [H.ex.f32]

omit H in
theorem fill0 {t : Vec K} (hm : m ≤ t.size) : t.fill 0 = (t.fill 0).over m fun _ => (0 : K) := by
  refine Vec.ext' (by rfl) fun k => ?_
  simp only [Vec.over]
  split
  · rename_i hk
    exact Vec.fill_get (by omega)
  · rfl

theorem tnn4 (hp : cfg.parasitics = false) (hspl : cfg.split = [1, 1]) {vp vm : Vec Int} {s : Int}
    (hs : inpSum n vec = .ok s) (hv : encTern n vec a.vdP a.vdM = .ok (vp, vm)) {S0 S1 S2 S3 : Nat → K}
    (h0 : H.StepSum c.ia.p vp m n S0) (h1 : H.StepSum c.ia.p vm m n S1)
    (h2 : H.StepSum c.ia.m vp m n S2) (h3 : H.StepSum c.ia.m vm m n S3)
    (ht : m ≤ a.tmp.size) (hf : m ≤ a.tmpFp.size) (hr : m ≤ res.size) {y : Nat → K}
    (hy : ∀ i, i < m → y i = (S0 i + s * cfg.hrs / 2) * (1 / (cfg.lrs - cfg.hrs))
      - (S1 i + -(s * cfg.hrs) / 2) * (1 / (cfg.lrs - cfg.hrs)) - S2 i * (2 / (cfg.lrs - cfg.hrs))
      + S3 i * (2 / (cfg.lrs - cfg.hrs)))
    (hI : ∀ i, i < m → InI32 (truncZ ((res.get i : K) + y i))) :
    ∃ a', aMvmTnnIV E cfg c a res vec m n l
      = .ok (a', res.over m fun i => truncZ ((res.get i : K) + y i)) := by
  have e0 : E.fmul (E.ofInt s) cfg.hrs = s * cfg.hrs := by
    unfold Env.fmul Env.ofInt; rw [H.ex.f32, H.ex.f32]
  unfold aMvmTnnIV
  rw [if_neg (by simpa using hspl), hs, ok_bind, hv, ok_bind, H.scale, ok_bind, H.scale, ok_bind]
  dsimp only
  rw [e0, fdiv_exact H.ex (by norm_num), ok_bind, fdiv_exact H.ex (by norm_num), ok_bind, if_neg (by simp [hp]),
    H.tcStep h0 ht, ok_bind, fill0 hf]
  dsimp only
  rw [H.faddVec (t := a.tmp.fill 0) ht (acc := a.tmpFp.fill 0) hf, ok_bind,
    H.tcStep h1 (tmp := (a.tmp.fill 0).over m _) ht, ok_bind]
  dsimp only
  rw [H.fsubVec (t := ((a.tmp.fill 0).over m _).fill 0) ht (acc := a.tmpFp.fill 0) hf, ok_bind,
    H.tcStep h2 (tmp := (((a.tmp.fill 0).over m _).fill 0).over m _) ht, ok_bind]
  dsimp only
  rw [H.fsubVec (t := ((((a.tmp.fill 0).over m _).fill 0).over m _).fill 0) ht (acc := a.tmpFp.fill 0) hf, ok_bind,
    H.tcStep h3 (tmp := (((((a.tmp.fill 0).over m _).fill 0).over m _).fill 0).over m _) ht, ok_bind]
  dsimp only
  rw [H.faddVec (t := ((((((a.tmp.fill 0).over m _).fill 0).over m _).fill 0).over m _).fill 0) ht
    (acc := a.tmpFp.fill 0) hf, ok_bind]
  unfold Acs.addTmp
  rw [H.add_rows (y := y) hr (fun i r hi => ?_) hI, ok_bind]
  · exact ⟨_, rfl⟩
  · rw [over_rd (t := a.tmpFp.fill 0) hf hi, ok_bind, hy i hi, zero_add, add_zero, add_zero]

theorem tnn5 (hp : cfg.parasitics = false) (hspl : cfg.split = [1, 1]) {vp vm : Vec Int} {s : Int}
    (hs : inpSum n vec = .ok s) (h64 : i64 (3 * s) = .ok (3 * s))
    (hv : encTern n vec a.vdP a.vdM = .ok (vp, vm)) {S0 S1 S2 S3 : Nat → K}
    (h0 : H.StepSum c.ia.p vp m n S0) (h1 : H.StepSum c.ia.p vm m n S1)
    (h2 : H.StepSum c.ia.m vp m n S2) (h3 : H.StepSum c.ia.m vm m n S3)
    (ht : m ≤ a.tmp.size) (hf : m ≤ a.tmpFp.size) (hr : m ≤ res.size) {y : Nat → K} {k : Nat → Int}
    (hy : ∀ i, i < m → y i = S0 i * (1 / (cfg.lrs - cfg.hrs))
      - (S1 i + 3 * s * cfg.hrs) * (1 / (cfg.lrs - cfg.hrs)) + S2 i * (2 / (cfg.lrs - cfg.hrs))
      - S3 i * (2 / (cfg.lrs - cfg.hrs)))
    (hk : ∀ i, i < m → k i = truncZ ((res.get i : K) + y i))
    (hI : ∀ i, i < m → InI32 (k i) ∧ InI32 (k i - s)) :
    ∃ a', aMvmTnnV E cfg c a res vec m n l = .ok (a', res.over m fun i => k i - s) := by
  have e0 : E.fmul (E.ofInt (3 * s)) cfg.hrs = 3 * s * cfg.hrs := by
    unfold Env.fmul Env.ofInt; rw [H.ex.f32, H.ex.f32]; push_cast; rfl
  unfold aMvmTnnV
  rw [if_neg (by simpa using hspl), hs, ok_bind, hv, ok_bind, h64, ok_bind]
  dsimp only
  rw [H.scale, ok_bind, H.scale, ok_bind, if_neg (by simp [hp]), e0, H.tcStep h0 ht, ok_bind, fill0 hf]
  dsimp only
  rw [H.faddVec (t := a.tmp.fill 0) ht (acc := a.tmpFp.fill 0) hf, ok_bind,
    H.tcStep h1 (tmp := (a.tmp.fill 0).over m _) ht, ok_bind]
  dsimp only
  rw [H.fsubVec (t := ((a.tmp.fill 0).over m _).fill 0) ht (acc := a.tmpFp.fill 0) hf, ok_bind,
    H.tcStep h2 (tmp := (((a.tmp.fill 0).over m _).fill 0).over m _) ht, ok_bind]
  dsimp only
  rw [H.faddVec (t := ((((a.tmp.fill 0).over m _).fill 0).over m _).fill 0) ht (acc := a.tmpFp.fill 0) hf, ok_bind,
    H.tcStep h3 (tmp := (((((a.tmp.fill 0).over m _).fill 0).over m _).fill 0).over m _) ht, ok_bind]
  dsimp only
  rw [H.fsubVec (t := ((((((a.tmp.fill 0).over m _).fill 0).over m _).fill 0).over m _).fill 0) ht
    (acc := a.tmpFp.fill 0) hf, ok_bind]
  rw [rowLoop_ok (fun i => k i - s), ok_bind]
  · exact ⟨_, rfl⟩
  · intro i hi r hrs hri
    have hl := (hI i hi).2
    have hy' := hy i hi
    have hk' := hI i hi
    rw [hk i hi, hy'] at hk'
    rw [over_rd (t := a.tmpFp.fill 0) hf hi, ok_bind]
    simp only [zero_add, add_zero]
    rw [updAt_set (x := k i) (by omega) (by
      rw [hri, hk i hi, hy', iaddf_trunc H.ex hk'.1]), ok_bind, updAt_set (x := k i - s) (by simp; omega), Vec.set_set]
    rw [Vec.set_get, i64_ok ⟨by have := hl.1; omega, by have := hl.2; omega⟩, ok_bind, wrap32_id hl]

end InfHyp

end

end Acs
