import Verif.Lemmas.AWrite

/-!
# Analog multiplications in terms of the converted values

For every binary and ternary mapping: if the converters return `α * z + β` with integers `α`, `β`, and
the rounding keeps such numbers, the result is the integer combination of the `β` the mapping
prescribes.
-/

set_option linter.unusedSectionVars false

namespace Acs

open Finset Spec

section
variable {K : Type} [Field K] [LinearOrder K] [IsStrictOrderedRing K] [FloorRing K]
variable {E : Env K} {cfg : Cfg K} {c : Core K} {a : Aux K}
variable {mat vec res v w : Vec Int} {m n : Nat} {l : String} {z sc off : K} {B : Int}

/-! ## Numbers kept by the rounding -/

/-- The number `a * z + b`. -/
def lin (z : K) (a b : Int) : K := a * z + b

theorem lin_add (z : K) (a b a' b' : Int) : lin z a b + lin z a' b' = lin z (a + a') (b + b') := by
  unfold lin; push_cast; ring

theorem lin_sub (z : K) (a b a' b' : Int) : lin z a b - lin z a' b' = lin z (a - a') (b - b') := by
  unfold lin; push_cast; ring

theorem lin_zero (z : K) : (0 : K) = lin z 0 0 := by unfold lin; simp
theorem lin_int (z : K) (b : Int) : lin z 0 b = (b : K) := by unfold lin; simp

/-- `float` rounding keeps `a * z + b` for integers up to `B`. -/
def OutOk (E : Env K) (z : K) (B : Int) : Prop :=
  ∀ a b : Int, |a| ≤ B → |b| ≤ B → E.f32 (lin z a b) = lin z a b

theorem OutOk.exact (hE : ExactArith E) (z : K) (B : Int) : OutOk E z B := fun _ _ _ _ => hE.f32 _

theorem OutOk.int (h : OutOk E z B) {b : Int} (hb : |b| ≤ B) : E.f32 (b : K) = b := by
  have := h 0 b (by simpa using (abs_nonneg b).trans hb) hb
  rwa [lin_int] at this

theorem OutOk.ofInt (h : OutOk E z B) {b : Int} (hb : |b| ≤ B) : E.ofInt b = (b : K) := h.int hb

theorem OutOk.fadd (h : OutOk E z B) {a b a' b' : Int} (h1 : |a + a'| ≤ B) (h2 : |b + b'| ≤ B) :
    E.fadd (lin z a b) (lin z a' b') = lin z (a + a') (b + b') := by
  unfold Env.fadd; rw [lin_add]; exact h _ _ h1 h2

theorem OutOk.fsub (h : OutOk E z B) {a b a' b' : Int} (h1 : |a - a'| ≤ B) (h2 : |b - b'| ≤ B) :
    E.fsub (lin z a b) (lin z a' b') = lin z (a - a') (b - b') := by
  unfold Env.fsub; rw [lin_sub]; exact h _ _ h1 h2

theorem OutOk.iaddf (h : OutOk E z B) {r b : Int} (h1 : |r| ≤ B) (h2 : |r + b| ≤ B)
    (h3 : InI32 (r + b)) : E.iaddf r (b : K) = .ok (r + b) := by
  unfold Env.iaddf
  rw [h.ofInt h1, ← lin_int z, ← lin_int z b, h.fadd (by simpa using (abs_nonneg r).trans h1) h2,
    add_zero, lin_int, toI32_int h3]

theorem OutOk.isubf (h : OutOk E z B) {r b : Int} (h1 : |r| ≤ B) (h2 : |r - b| ≤ B)
    (h3 : InI32 (r - b)) : E.isubf r (b : K) = .ok (r - b) := by
  unfold Env.isubf
  rw [h.ofInt h1, ← lin_int z, ← lin_int z b, h.fsub (by simpa using (abs_nonneg r).trans h1) h2,
    sub_zero, lin_int, toI32_int h3]

theorem convVec_ok {hs : List (String × Hist K)} {t : Vec K} {adc : Adc} (hpr : cfg.adcProfile = false)
    (hm : m ≤ t.size) {y : Nat → K} (hy : ∀ i, i < m → conv1 E cfg adc (t.get i) sc off l = .ok (y i)) :
    convVec E cfg adc hs t m sc off l = .ok (hs, t.over m y) := by
  unfold convVec
  rw [if_neg (by omega), hpr, if_neg (by simp), ok_bind, updG_ok y hm hy, ok_bind]

theorem colCurrents_ideal (hp : cfg.parasitics = false) {term : Nat → Nat → C K} {vp : Vec Int}
    {vm : Option (Vec Int)} {tmp : Vec K} :
    colCurrents E cfg c term vp vm tmp m n = accG (faddC E) m n term tmp := by
  unfold colCurrents; rw [hp, if_neg (by simp)]

theorem over_rd {α : Type} {t : Vec α} {f : Nat → α} {i : Nat} (hm : m ≤ t.size) (hi : i < m) :
    (t.over m f).rd i = .ok (f i) := by
  rw [Vec.rd_ok (v := t.over m f) (show i < t.size by omega), Vec.over_lt hi]

theorem over_set {α : Type} {t : Vec α} {f g : Nat → α} : (t.over m f).over m g = t.over m g := by
  refine Vec.ext' (by rfl) fun k => ?_
  simp only [Vec.over]
  split <;> rfl

theorem addTmp_ok (hO : OutOk E z B) {t : Vec K} {β : Nat → Int} (hm : m ≤ t.size) (hr : m ≤ res.size)
    (hB : ∀ i, i < m → |res.get i| + |β i| ≤ B) (hI : ∀ i, i < m → InI32 (res.get i + β i)) :
    addTmp E (t.over m fun i => (β i : K)) m res = .ok (res.over m fun i => res.get i + β i) := by
  unfold addTmp
  refine updG_ok _ hr fun i hi => ?_
  have := hB i hi
  have := abs_add_le (res.get i) (β i)
  have := abs_nonneg (β i)
  rw [over_rd hm hi, ok_bind, hO.iaddf (by omega) (by omega) (hI i hi)]

theorem subTmp_ok (hO : OutOk E z B) {t : Vec K} {β : Nat → Int} (hm : m ≤ t.size) (hr : m ≤ res.size)
    (hB : ∀ i, i < m → |res.get i| + |β i| ≤ B) (hI : ∀ i, i < m → InI32 (res.get i - β i)) :
    subTmp E (t.over m fun i => (β i : K)) m res = .ok (res.over m fun i => res.get i - β i) := by
  unfold subTmp
  refine updG_ok _ hr fun i hi => ?_
  have := hB i hi
  have := abs_sub (res.get i) (β i)
  have := abs_nonneg (β i)
  rw [over_rd hm hi, ok_bind, hO.isubf (by omega) (by omega) (hI i hi)]

/-! ## Binary mappings -/

theorem aMvmBnnI_val (hp : cfg.parasitics = false) (hpr : cfg.adcProfile = false) (hO : OutOk E z B)
    {t : Vec K} {β : Nat → Int} (hv : encBnn1 n vec a.vdP = .ok v)
    (ht : accG (faddC E) m n (iaDiffTerm E c.ia v) (a.tmp.fill 0) = .ok t)
    (hsc : E.fdiv 2 c.iMM = .ok sc) (htm : m ≤ t.size) (hr : m ≤ res.size) (hs : m ≤ c.gd.sumW.size)
    (hy : ∀ i, i < m → conv1 E cfg c.adc (t.get i) sc 0 l = .ok (β i : K))
    (hB : ∀ i, i < m → |res.get i| + |β i| + |c.gd.sumW.get i| ≤ B)
    (hI : ∀ i, i < m → InI32 (res.get i + (β i - c.gd.sumW.get i))) :
    ∃ a', aMvmBnnI E cfg c a res vec m n l
      = .ok (a', res.over m fun i => res.get i + (β i - c.gd.sumW.get i)) := by
  unfold aMvmBnnI
  rw [hv, ok_bind, colCurrents_ideal hp, ht, ok_bind, hsc, ok_bind, convVec_ok hpr htm hy, ok_bind]
  dsimp only
  rw [updG_ok (fun i => res.get i + (β i - c.gd.sumW.get i)) hr, ok_bind]
  · exact ⟨_, rfl⟩
  · intro i hi
    have := hB i hi
    have := abs_add_le (res.get i) (β i - c.gd.sumW.get i)
    have := abs_sub (β i) (c.gd.sumW.get i)
    have := abs_nonneg (res.get i)
    have := abs_nonneg (β i)
    have := abs_nonneg (c.gd.sumW.get i)
    rw [over_rd htm hi, ok_bind, Vec.rd_ok (by omega), ok_bind, hO.ofInt (by omega), ← lin_int z,
      ← lin_int z (c.gd.sumW.get i), hO.fsub (by simp; omega) (by omega), sub_zero, lin_int,
      hO.iaddf (by omega) (by omega) (hI i hi)]

theorem aMvmBnnII_val (hp : cfg.parasitics = false) (hpr : cfg.adcProfile = false) (hO : OutOk E z B)
    {t : Vec K} {β : Nat → Int} (hv : encBnn2 n vec a.vdP = .ok v)
    (ht : accG (faddC E) m n (iaDiffTermNeg E c.ia v) (a.tmp.fill 0) = .ok t)
    (hsc : E.fdiv 2 c.iMM = .ok sc) (htm : m ≤ t.size) (hr : m ≤ res.size) (hs : m ≤ c.gd.sumW.size)
    (hy : ∀ i, i < m → conv1 E cfg c.adc (t.get i) sc 0 l = .ok (β i : K))
    (hB : ∀ i, i < m → |res.get i| + |β i| + |c.gd.sumW.get i| ≤ B)
    (hI : ∀ i, i < m → InI32 (res.get i + (β i + c.gd.sumW.get i))) :
    ∃ a', aMvmBnnII E cfg c a res vec m n l
      = .ok (a', res.over m fun i => res.get i + (β i + c.gd.sumW.get i)) := by
  unfold aMvmBnnII
  rw [hv, ok_bind, colCurrents_ideal hp, ht, ok_bind, hsc, ok_bind, convVec_ok hpr htm hy, ok_bind]
  dsimp only
  rw [updG_ok (fun i => res.get i + (β i + c.gd.sumW.get i)) hr, ok_bind]
  · exact ⟨_, rfl⟩
  · intro i hi
    have := hB i hi
    have := abs_add_le (res.get i) (β i + c.gd.sumW.get i)
    have := abs_add_le (β i) (c.gd.sumW.get i)
    have := abs_nonneg (res.get i)
    have := abs_nonneg (β i)
    have := abs_nonneg (c.gd.sumW.get i)
    rw [over_rd htm hi, ok_bind, Vec.rd_ok (by omega), ok_bind, hO.ofInt (by omega), ← lin_int z,
      ← lin_int z (c.gd.sumW.get i), hO.fadd (by simp; omega) (by omega), add_zero, lin_int,
      hO.iaddf (by omega) (by omega) (hI i hi)]

/-- Data of the two conversions of BNN_III and BNN_IV. -/
structure Bnn34 (E : Env K) (cfg : Cfg K) (c : Core K) (a : Aux K) (vec vp vm : Vec Int) (m n : Nat)
    (l : String) (z : K) (s : Int) (α β γ : Nat → Int) : Prop where
  conv : ∃ (tp tm : Vec K) (sc : K), encPMSum n vec a.vdP a.vdM = .ok ((vp, vm), s) ∧
    accG (faddC E) m n (iaTerm E c.ia.p vp) (a.tmpP.fill 0) = .ok tp ∧
    accG (faddC E) m n (iaTerm E c.ia.p vm) (a.tmpM.fill 0) = .ok tm ∧
    E.fdiv 2 c.iMM = .ok sc ∧ negI s = .ok (-s) ∧ m ≤ tp.size ∧ m ≤ tm.size ∧
    (∀ i, i < m → conv1 E cfg c.adc (tp.get i) sc (E.fmul (E.ofInt (-s)) cfg.hrs) l
      = .ok (lin z (α i) (β i))) ∧
    (∀ i, i < m → conv1 E cfg c.adc (tm.get i) sc 0 l = .ok (lin z (α i) (γ i)))

theorem bnn34Currents_val (hp : cfg.parasitics = false) (hpr : cfg.adcProfile = false)
    {vp vm : Vec Int} {s : Int} {α β γ : Nat → Int} (h : Bnn34 E cfg c a vec vp vm m n l z s α β γ) :
    ∃ a' : Aux K, bnn34Currents E cfg c a vec m n l = .ok (a', s) ∧
      (∀ i, i < m → a'.tmpP.rd i = .ok (lin z (α i) (β i))) ∧
      ∀ i, i < m → a'.tmpM.rd i = .ok (lin z (α i) (γ i)) := by
  obtain ⟨tp, tm, sc, h1, h2, h3, h4, h5, h6, h7, h8, h9⟩ := h.conv
  unfold bnn34Currents
  rw [h1, ok_bind]
  dsimp only
  rw [colCurrents_ideal hp, h2, ok_bind, colCurrents_ideal hp, h3, ok_bind, h4, ok_bind, h5, ok_bind,
    convVec_ok hpr h6 h8, ok_bind]
  dsimp only
  rw [convVec_ok hpr h7 h9, ok_bind]
  exact ⟨_, rfl, fun i hi => over_rd h6 hi, fun i hi => over_rd h7 hi⟩

theorem aMvmBnnIII_val (hp : cfg.parasitics = false) (hpr : cfg.adcProfile = false) (hO : OutOk E z B)
    {vp vm : Vec Int} {s : Int} {α β γ : Nat → Int} (h : Bnn34 E cfg c a vec vp vm m n l z s α β γ)
    (hr : m ≤ res.size)
    (hB : ∀ i, i < m → |res.get i| + |β i| + |γ i| + |s| ≤ B)
    (hI : ∀ i, i < m → InI32 (res.get i + (β i - γ i - s))) :
    ∃ a', aMvmBnnIII E cfg c a res vec m n l
      = .ok (a', res.over m fun i => res.get i + (β i - γ i - s)) := by
  obtain ⟨a', h1, h2, h3⟩ := bnn34Currents_val hp hpr h
  unfold aMvmBnnIII
  rw [h1, ok_bind]
  dsimp only
  rw [updG_ok (fun i => res.get i + (β i - γ i - s)) hr, ok_bind]
  · exact ⟨_, rfl⟩
  · intro i hi
    have := hB i hi
    have := abs_add_le (res.get i) (β i - γ i - s)
    have := abs_sub (β i - γ i) s
    have := abs_sub (β i) (γ i)
    have := abs_nonneg (res.get i)
    have := abs_nonneg (β i)
    have := abs_nonneg (γ i)
    have := abs_nonneg s
    rw [h2 i hi, ok_bind, h3 i hi, ok_bind, hO.ofInt (by omega), hO.fsub (by simp; omega) (by omega),
      sub_self, ← lin_int z s, hO.fsub (by simp; omega) (by omega), sub_zero, lin_int,
      hO.iaddf (by omega) (by omega) (hI i hi)]

theorem aMvmBnnIV_val (hp : cfg.parasitics = false) (hpr : cfg.adcProfile = false) (hO : OutOk E z B)
    {vp vm : Vec Int} {s : Int} {α β γ : Nat → Int} (h : Bnn34 E cfg c a vec vp vm m n l z s α β γ)
    (hr : m ≤ res.size)
    (hB : ∀ i, i < m → |res.get i| + |β i| + |γ i| + |s| ≤ B)
    (hI : ∀ i, i < m → InI32 (res.get i + (γ i - β i + s))) :
    ∃ a', aMvmBnnIV E cfg c a res vec m n l
      = .ok (a', res.over m fun i => res.get i + (γ i - β i + s)) := by
  obtain ⟨a', h1, h2, h3⟩ := bnn34Currents_val hp hpr h
  unfold aMvmBnnIV
  rw [h1, ok_bind]
  dsimp only
  rw [updG_ok (fun i => res.get i + (γ i - β i + s)) hr, ok_bind]
  · exact ⟨_, rfl⟩
  · intro i hi
    have := hB i hi
    have := abs_add_le (res.get i) (γ i - β i + s)
    have := abs_add_le (γ i - β i) s
    have := abs_sub (γ i) (β i)
    have := abs_nonneg (res.get i)
    have := abs_nonneg (β i)
    have := abs_nonneg (γ i)
    have := abs_nonneg s
    rw [h2 i hi, ok_bind, h3 i hi, ok_bind, hO.ofInt (by omega), hO.fsub (by simp; omega) (by omega),
      sub_self, ← lin_int z s, hO.fadd (by simp; omega) (by omega), add_zero, lin_int,
      hO.iaddf (by omega) (by omega) (hI i hi)]

theorem aMvmBnnV_val (hp : cfg.parasitics = false) (hpr : cfg.adcProfile = false) (hO : OutOk E z B)
    {t : Vec K} {β : Nat → Int} {vp vm : Vec Int} (hv : encPM n vec a.vdP a.vdM = .ok (vp, vm))
    (ht : accG (faddC E) m n (iaBnn5Term E c.ia vp vm) (a.tmp.fill 0) = .ok t)
    (hsc : E.fdiv 2 c.iMM = .ok sc) (hn : negI n = .ok (-(n : Int))) (htm : m ≤ t.size)
    (hr : m ≤ res.size)
    (hy : ∀ i, i < m → conv1 E cfg c.adc (t.get i) sc (E.fmul (E.ofInt (-(n : Int))) cfg.hrs) l
      = .ok (β i : K))
    (hB : ∀ i, i < m → |res.get i| + |β i| + n ≤ B)
    (hI : ∀ i, i < m → InI32 (res.get i + (β i - n))) :
    ∃ a', aMvmBnnV E cfg c a res vec m n l
      = .ok (a', res.over m fun i => res.get i + (β i - n)) := by
  unfold aMvmBnnV
  rw [hv, ok_bind]
  dsimp only
  rw [colCurrents_ideal hp, ht, ok_bind, hsc, ok_bind, hn, ok_bind, convVec_ok hpr htm hy, ok_bind]
  dsimp only
  rw [updG_ok (fun i => res.get i + (β i - n)) hr, ok_bind]
  · exact ⟨_, rfl⟩
  · intro i hi
    have := hB i hi
    have := abs_add_le (res.get i) (β i - n)
    have := abs_sub (β i) n
    have hn : |(n : Int)| = n := abs_of_nonneg (by omega)
    have := abs_nonneg (res.get i)
    have := abs_nonneg (β i)
    rw [over_rd htm hi, ok_bind, hO.ofInt (by omega), ← lin_int z, ← lin_int z (n : Int),
      hO.fsub (by simp; omega) (by omega), sub_zero, lin_int, hO.iaddf (by omega) (by omega) (hI i hi)]

theorem aMvmBnnVI_val (hp : cfg.parasitics = false) (hpr : cfg.adcProfile = false) (hO : OutOk E z B)
    {t : Vec K} {β : Nat → Int} {vp vm : Vec Int} (hv : encPM n vec a.vdP a.vdM = .ok (vp, vm))
    (ht : accG (faddC E) m n (iaQuadTerm E c.ia vp vm) (a.tmp.fill 0) = .ok t)
    (hsc : E.fdiv 1 c.iMM = .ok sc) (htm : m ≤ t.size) (hr : m ≤ res.size)
    (hy : ∀ i, i < m → conv1 E cfg c.adc (t.get i) sc 0 l = .ok (β i : K))
    (hB : ∀ i, i < m → |res.get i| + |β i| ≤ B)
    (hI : ∀ i, i < m → InI32 (res.get i + β i)) :
    ∃ a', aMvmBnnVI E cfg c a res vec m n l = .ok (a', res.over m fun i => res.get i + β i) := by
  unfold aMvmBnnVI
  rw [hv, ok_bind]
  dsimp only
  rw [colCurrents_ideal hp, ht, ok_bind, hsc, ok_bind, convVec_ok hpr htm hy, ok_bind]
  dsimp only
  rw [addTmp_ok hO htm hr hB hI, ok_bind]
  exact ⟨_, rfl⟩

/-! ## Ternary mappings -/

theorem aMvmTnnI_val (hp : cfg.parasitics = false) (hpr : cfg.adcProfile = false) (hO : OutOk E z B)
    {t : Vec K} {β : Nat → Int} {vp vm : Vec Int} (hv : encTern n vec a.vdP a.vdM = .ok (vp, vm))
    (ht : accG (faddC E) m n (iaQuadTerm E c.ia vp vm) (a.tmp.fill 0) = .ok t)
    (hsc : E.fdiv 1 c.iMM = .ok sc) (htm : m ≤ t.size) (hr : m ≤ res.size)
    (hy : ∀ i, i < m → conv1 E cfg c.adc (t.get i) sc 0 l = .ok (β i : K))
    (hB : ∀ i, i < m → |res.get i| + |β i| ≤ B)
    (hI : ∀ i, i < m → InI32 (res.get i + β i)) :
    ∃ a', aMvmTnnI E cfg c a res vec m n l = .ok (a', res.over m fun i => res.get i + β i) := by
  unfold aMvmTnnI
  rw [hv, ok_bind]
  dsimp only
  rw [colCurrents_ideal hp, ht, ok_bind, hsc, ok_bind, convVec_ok hpr htm hy, ok_bind]
  dsimp only
  rw [addTmp_ok hO htm hr hB hI, ok_bind]
  exact ⟨_, rfl⟩

/-- Data of the two conversions of TNN_II and TNN_III. -/
structure Tnn23 (E : Env K) (cfg : Cfg K) (c : Core K) (v v' : Vec Int) (tmp : Vec K) (m n : Nat)
    (l : String) (sc sc' : K) (β γ : Nat → Int) : Prop where
  sc1 : E.fdiv 1 c.iMM = .ok sc
  sc2 : E.fdiv 2 c.iMM = .ok sc'
  t1 : ∃ t, accG (faddC E) m n (iaDiffTerm E c.ia v) (tmp.fill 0) = .ok t ∧ m ≤ t.size ∧
    (∀ i, i < m → conv1 E cfg c.adc (t.get i) sc 0 l = .ok (β i : K)) ∧
    ∃ t', accG (faddC E) m n (iaDiffTerm E c.ia v') ((t.over m fun i => (β i : K)).fill 0) = .ok t' ∧
      m ≤ t'.size ∧ ∀ i, i < m → conv1 E cfg c.adc (t'.get i) sc' 0 l = .ok (γ i : K)

theorem aMvmTnnII_val (hp : cfg.parasitics = false) (hpr : cfg.adcProfile = false) (hO : OutOk E z B)
    {β γ : Nat → Int} {v' : Vec Int} {sc' : K} (hv : encNonzero n vec a.vdP = .ok v)
    (hv' : encNegOne n vec v = .ok v') (h : Tnn23 E cfg c v v' a.tmp m n l sc sc' β γ)
    (hr : m ≤ res.size)
    (hB : ∀ i, i < m → |res.get i| + |β i| + |γ i| ≤ B)
    (hI : ∀ i, i < m → InI32 (res.get i + β i) ∧ InI32 (res.get i + β i - γ i)) :
    ∃ a', aMvmTnnII E cfg c a res vec m n l
      = .ok (a', res.over m fun i => res.get i + β i - γ i) := by
  obtain ⟨t, e1, e2, e3, t', e4, e5, e6⟩ := h.t1
  unfold aMvmTnnII
  rw [hv, ok_bind, colCurrents_ideal hp, e1, ok_bind, h.sc1, ok_bind, convVec_ok hpr e2 e3, ok_bind]
  dsimp only
  rw [addTmp_ok hO e2 hr (fun i hi => by have := hB i hi; have := abs_nonneg (γ i); omega)
    (fun i hi => (hI i hi).1), ok_bind, hv', ok_bind, colCurrents_ideal hp, e4, ok_bind, h.sc2, ok_bind,
    convVec_ok hpr e5 e6, ok_bind]
  dsimp only
  rw [subTmp_ok (res := res.over m fun i => res.get i + β i) hO e5 hr (fun i hi => ?_) (fun i hi => ?_), ok_bind]
  · have e : ((res.over m fun i => res.get i + β i).over m fun i =>
        (res.over m fun i => res.get i + β i).get i - γ i) = res.over m fun i => res.get i + β i - γ i := by
      refine Vec.ext' (by rfl) fun k => ?_
      simp only [Vec.over]
      split <;> rfl
    rw [e]
    exact ⟨_, rfl⟩
  · rw [Vec.over_lt hi]
    have := hB i hi
    have := abs_add_le (res.get i) (β i)
    omega
  · rw [Vec.over_lt hi]
    exact (hI i hi).2

theorem aMvmTnnIII_val (hp : cfg.parasitics = false) (hpr : cfg.adcProfile = false) (hO : OutOk E z B)
    {β γ : Nat → Int} {v' : Vec Int} {sc' : K} (hv : encBit0 n vec a.vdP = .ok v)
    (hv' : encBit1 n vec v = .ok v') (h : Tnn23 E cfg c v v' a.tmp m n l sc sc' β γ)
    (hr : m ≤ res.size) (hs : m ≤ c.gd.sumW.size)
    (hB : ∀ i, i < m → |res.get i| + |β i| + |γ i| ≤ B)
    (hI : ∀ i, i < m → InI32 (res.get i + β i) ∧ InI32 (res.get i + β i + γ i) ∧
      InI32 (res.get i + β i + γ i - c.gd.sumW.get i)) :
    ∃ a', aMvmTnnIII E cfg c a res vec m n l
      = .ok (a', res.over m fun i => res.get i + β i + γ i - c.gd.sumW.get i) := by
  obtain ⟨t, e1, e2, e3, t', e4, e5, e6⟩ := h.t1
  unfold aMvmTnnIII
  rw [hv, ok_bind, colCurrents_ideal hp, e1, ok_bind, h.sc1, ok_bind, convVec_ok hpr e2 e3, ok_bind]
  dsimp only
  rw [addTmp_ok hO e2 hr (fun i hi => by have := hB i hi; have := abs_nonneg (γ i); omega)
    (fun i hi => (hI i hi).1), ok_bind, hv', ok_bind, colCurrents_ideal hp, e4, ok_bind, h.sc2, ok_bind,
    convVec_ok hpr e5 e6, ok_bind]
  dsimp only
  rw [addTmp_ok (res := res.over m fun i => res.get i + β i) hO e5 hr (fun i hi => ?_)
    (fun i hi => ?_), ok_bind,
    updG_ok (v := (res.over m fun i => res.get i + β i).over m _)
      (fun i => res.get i + β i + γ i - c.gd.sumW.get i) hr, ok_bind]
  · rw [over_set, over_set]
    exact ⟨_, rfl⟩
  · intro i hi
    rw [Vec.rd_ok (by omega), ok_bind, Vec.over_lt hi, Vec.over_lt hi, subI_ok (hI i hi).2.2]
  · rw [Vec.over_lt hi]
    have := hB i hi
    have := abs_add_le (res.get i) (β i)
    omega
  · rw [Vec.over_lt hi]
    exact (hI i hi).2.1

/-- One step of TNN_IV and TNN_V. -/
structure TcStep (E : Env K) (cfg : Cfg K) (c : Core K) (A : Mat K) (v : Vec Int) (m n M : Nat)
    (sc off : K) (l : String) (z : K) (α β : Nat → Int) : Prop where
  step : ∀ tmp : Vec K, tmp.size = M → ∃ t, accG (faddC E) m n (iaTerm E A v) (tmp.fill 0) = .ok t ∧
    t.size = M ∧ ∀ i, i < m → conv1 E cfg c.adc (t.get i) sc off l = .ok (lin z (α i) (β i))

theorem tcStep_ok {A : Mat K} {M : Nat} {α β : Nat → Int} (hpr : cfg.adcProfile = false)
    (h : TcStep E cfg c A v m n M sc off l z α β) (hm : m ≤ M) {tmp : Vec K} (ht : tmp.size = M)
    (hs : List (String × Hist K)) :
    ∃ t : Vec K, tcStep E cfg c A v m n sc off l tmp hs = .ok (hs, t.over m fun i => lin z (α i) (β i)) ∧
      t.size = M := by
  obtain ⟨t, h1, h2, h3⟩ := h.step tmp ht
  unfold tcStep
  rw [h1, ok_bind, convVec_ok hpr (by omega) h3]
  exact ⟨t, rfl, h2⟩

theorem faddVec_ok (hO : OutOk E z B) {t acc : Vec K} {α β α' β' : Nat → Int} (hm : m ≤ t.size)
    (hr : m ≤ acc.size) (hB : ∀ i, i < m → |α i + α' i| ≤ B ∧ |β i + β' i| ≤ B) :
    faddVec E (t.over m fun i => lin z (α' i) (β' i)) m (acc.over m fun i => lin z (α i) (β i))
      = .ok (acc.over m fun i => lin z (α i + α' i) (β i + β' i)) := by
  unfold faddVec
  rw [updG_ok (v := acc.over m _) (fun i => lin z (α i + α' i) (β i + β' i)) hr, over_set]
  intro i hi
  rw [over_rd hm hi, ok_bind, Vec.over_lt hi, hO.fadd (hB i hi).1 (hB i hi).2]

theorem fsubVec_ok (hO : OutOk E z B) {t acc : Vec K} {α β α' β' : Nat → Int} (hm : m ≤ t.size)
    (hr : m ≤ acc.size) (hB : ∀ i, i < m → |α i - α' i| ≤ B ∧ |β i - β' i| ≤ B) :
    fsubVec E (t.over m fun i => lin z (α' i) (β' i)) m (acc.over m fun i => lin z (α i) (β i))
      = .ok (acc.over m fun i => lin z (α i - α' i) (β i - β' i)) := by
  unfold fsubVec
  rw [updG_ok (v := acc.over m _) (fun i => lin z (α i - α' i) (β i - β' i)) hr, over_set]
  intro i hi
  rw [over_rd hm hi, ok_bind, Vec.over_lt hi, hO.fsub (hB i hi).1 (hB i hi).2]

theorem fill_over {t : Vec K} (hm : m ≤ t.size) :
    t.fill 0 = (t.fill 0).over m fun _ => lin z 0 0 := by
  refine Vec.ext' (by rfl) fun k => ?_
  simp only [Vec.over, ← lin_zero]
  split
  · rw [Vec.fill_get (by omega)]
  · rfl

/-- Data of the four conversions of TNN_IV and TNN_V. -/
structure Tnn45 (E : Env K) (cfg : Cfg K) (c : Core K) (a : Aux K) (vec vp vm : Vec Int) (m n : Nat)
    (l : String) (z s1 s2 o1 o2 : K) (s : Int) (α0 α1 α2 α3 β0 β1 β2 β3 : Nat → Int) (B : Int) : Prop where
  sum : inpSum n vec = .ok s
  enc : encTern n vec a.vdP a.vdM = .ok (vp, vm)
  sc1 : E.fdiv 1 c.iMM = .ok s1
  sc2 : E.fdiv 2 c.iMM = .ok s2
  tmp : m ≤ a.tmp.size
  fp : m ≤ a.tmpFp.size
  p1 : TcStep E cfg c c.ia.p vp m n a.tmp.size s1 o1 l z α0 β0
  p2 : TcStep E cfg c c.ia.p vm m n a.tmp.size s1 o2 l z α1 β1
  m1 : TcStep E cfg c c.ia.m vp m n a.tmp.size s2 0 l z α2 β2
  m2 : TcStep E cfg c c.ia.m vm m n a.tmp.size s2 0 l z α3 β3
  bα : ∀ i, i < m → |α0 i| + |α1 i| + |α2 i| + |α3 i| ≤ B
  bβ : ∀ i, i < m → |β0 i| + |β1 i| + |β2 i| + |β3 i| ≤ B

theorem abs4 {a b c d B : Int} (h : |a| + |b| + |c| + |d| ≤ B) :
    |a| ≤ B ∧ (|a - b| ≤ B ∧ |a + b| ≤ B) ∧ (|a - b - c| ≤ B ∧ |a - b + c| ≤ B) ∧
      |a - b - c + d| ≤ B ∧ |a - b + c - d| ≤ B := by
  have h1 := abs_nonneg a
  have h2 := abs_nonneg b
  have h3 := abs_nonneg c
  have h4 := abs_nonneg d
  have e1 := abs_sub a b
  have e2 := abs_add_le a b
  have e3 := abs_sub (a - b) c
  have e4 := abs_add_le (a - b) c
  have e5 := abs_add_le (a - b - c) d
  have e6 := abs_sub (a - b + c) d
  refine ⟨?_, ⟨?_, ?_⟩, ⟨?_, ?_⟩, ?_, ?_⟩ <;> omega

theorem aMvmTnnIV_val (hp : cfg.parasitics = false) (hpr : cfg.adcProfile = false) (hO : OutOk E z B)
    (hspl : cfg.split = [1, 1]) {vp vm : Vec Int} {s1 s2 o1 o2 : K} {s : Int} {α0 α1 α2 α3 β0 β1 β2 β3 : Nat → Int}
    (h : Tnn45 E cfg c a vec vp vm m n l z s1 s2 o1 o2 s α0 α1 α2 α3 β0 β1 β2 β3 B)
    (ho1 : E.fdiv (E.fmul (E.ofInt s) cfg.hrs) 2 = .ok o1)
    (ho2 : E.fdiv (-(E.fmul (E.ofInt s) cfg.hrs)) 2 = .ok o2)
    (hr : m ≤ res.size) (h0 : ∀ i, i < m → α0 i - α1 i - α2 i + α3 i = 0)
    (hB : ∀ i, i < m → |res.get i| + |β0 i - β1 i - β2 i + β3 i| ≤ B)
    (hI : ∀ i, i < m → InI32 (res.get i + (β0 i - β1 i - β2 i + β3 i))) :
    ∃ a', aMvmTnnIV E cfg c a res vec m n l
      = .ok (a', res.over m fun i => res.get i + (β0 i - β1 i - β2 i + β3 i)) := by
  have bα := fun i hi => abs4 (h.bα i hi)
  have bβ := fun i hi => abs4 (h.bβ i hi)
  unfold aMvmTnnIV
  rw [if_neg (by simpa using hspl), h.sum, ok_bind, h.enc, ok_bind, h.sc1, ok_bind, h.sc2, ok_bind]
  dsimp only
  rw [ho1, ok_bind, ho2, ok_bind, if_neg (by simp [hp])]
  obtain ⟨t1, e1, f1⟩ := tcStep_ok hpr h.p1 h.tmp rfl a.hists
  obtain ⟨t2, e2, f2⟩ := tcStep_ok hpr h.p2 h.tmp (tmp := t1.over m _) f1 a.hists
  obtain ⟨t3, e3, f3⟩ := tcStep_ok hpr h.m1 h.tmp (tmp := t2.over m _) f2 a.hists
  obtain ⟨t4, e4, f4⟩ := tcStep_ok hpr h.m2 h.tmp (tmp := t3.over m _) f3 a.hists
  have ht := h.tmp
  obtain ⟨fp0, hfp0⟩ : ∃ fp0, fp0 = a.tmpFp.fill 0 := ⟨_, rfl⟩
  have hfp : m ≤ fp0.size := by rw [hfp0]; exact h.fp
  have hz : fp0 = fp0.over m fun _ => lin z 0 0 := by rw [hfp0]; exact fill_over h.fp
  rw [← hfp0, hz, e1, ok_bind, faddVec_ok hO (show m ≤ _ by omega) hfp
      (by intro i hi; simp only [zero_add]; exact ⟨(bα i hi).1, (bβ i hi).1⟩), ok_bind, e2, ok_bind,
    fsubVec_ok hO (show m ≤ _ by omega) hfp
      (by intro i hi; simp only [zero_add]; exact ⟨(bα i hi).2.1.1, (bβ i hi).2.1.1⟩), ok_bind, e3,
    ok_bind, fsubVec_ok hO (show m ≤ _ by omega) hfp
      (by intro i hi; simp only [zero_add]; exact ⟨(bα i hi).2.2.1.1, (bβ i hi).2.2.1.1⟩), ok_bind, e4,
    ok_bind, faddVec_ok hO (show m ≤ _ by omega) hfp
      (by intro i hi; simp only [zero_add]; exact ⟨(bα i hi).2.2.2.1, (bβ i hi).2.2.2.1⟩), ok_bind]
  have e : (fp0.over m fun i => lin z (0 + α0 i - α1 i - α2 i + α3 i)
      (0 + β0 i - β1 i - β2 i + β3 i))
      = fp0.over m fun i => ((β0 i - β1 i - β2 i + β3 i : Int) : K) := by
    refine Vec.ext' (by rfl) fun k => ?_
    simp only [Vec.over]
    split
    · rename_i hk
      simp only [zero_add]
      rw [h0 k hk, lin_int]
    · rfl
  rw [e, addTmp_ok hO hfp hr hB hI, ok_bind]
  exact ⟨_, rfl⟩

theorem aMvmTnnV_val (hp : cfg.parasitics = false) (hpr : cfg.adcProfile = false) (hO : OutOk E z B)
    (hspl : cfg.split = [1, 1]) {vp vm : Vec Int} {s1 s2 : K} {s : Int} {α0 α1 α2 α3 β0 β1 β2 β3 : Nat → Int}
    (h : Tnn45 E cfg c a vec vp vm m n l z s1 s2 0 (E.fmul (E.ofInt (3 * s)) cfg.hrs) s α0 α1 α2 α3 β0 β1 β2 β3 B)
    (hs3 : i64 (3 * s) = .ok (3 * s))
    (hr : m ≤ res.size) (h0 : ∀ i, i < m → α0 i - α1 i + α2 i - α3 i = 0)
    (hB : ∀ i, i < m → |res.get i| + |β0 i - β1 i + β2 i - β3 i| ≤ B)
    (hI : ∀ i, i < m → InI32 (res.get i + (β0 i - β1 i + β2 i - β3 i)) ∧
      InI32 (res.get i + (β0 i - β1 i + β2 i - β3 i) - s)) :
    ∃ a', aMvmTnnV E cfg c a res vec m n l
      = .ok (a', res.over m fun i => res.get i + (β0 i - β1 i + β2 i - β3 i) - s) := by
  have bα := fun i hi => abs4 (h.bα i hi)
  have bβ := fun i hi => abs4 (h.bβ i hi)
  unfold aMvmTnnV
  rw [if_neg (by simpa using hspl), h.sum, ok_bind, h.enc, ok_bind, hs3, ok_bind, h.sc1, ok_bind, h.sc2,
    ok_bind]
  dsimp only
  rw [if_neg (by simp [hp])]
  obtain ⟨t1, e1, f1⟩ := tcStep_ok hpr h.p1 h.tmp rfl a.hists
  obtain ⟨t2, e2, f2⟩ := tcStep_ok hpr h.p2 h.tmp (tmp := t1.over m _) f1 a.hists
  obtain ⟨t3, e3, f3⟩ := tcStep_ok hpr h.m1 h.tmp (tmp := t2.over m _) f2 a.hists
  obtain ⟨t4, e4, f4⟩ := tcStep_ok hpr h.m2 h.tmp (tmp := t3.over m _) f3 a.hists
  have ht := h.tmp
  obtain ⟨fp0, hfp0⟩ : ∃ fp0, fp0 = a.tmpFp.fill 0 := ⟨_, rfl⟩
  have hfp : m ≤ fp0.size := by rw [hfp0]; exact h.fp
  have hz : fp0 = fp0.over m fun _ => lin z 0 0 := by rw [hfp0]; exact fill_over h.fp
  rw [← hfp0, hz, e1, ok_bind, faddVec_ok hO (show m ≤ _ by omega) hfp
      (by intro i hi; simp only [zero_add]; exact ⟨(bα i hi).1, (bβ i hi).1⟩), ok_bind, e2, ok_bind,
    fsubVec_ok hO (show m ≤ _ by omega) hfp
      (by intro i hi; simp only [zero_add]; exact ⟨(bα i hi).2.1.1, (bβ i hi).2.1.1⟩), ok_bind, e3,
    ok_bind, faddVec_ok hO (show m ≤ _ by omega) hfp
      (by intro i hi; simp only [zero_add]; exact ⟨(bα i hi).2.2.1.2, (bβ i hi).2.2.1.2⟩), ok_bind, e4,
    ok_bind, fsubVec_ok hO (show m ≤ _ by omega) hfp
      (by intro i hi; simp only [zero_add]; exact ⟨(bα i hi).2.2.2.2, (bβ i hi).2.2.2.2⟩), ok_bind]
  rw [rowLoop_ok (fun i => res.get i + (β0 i - β1 i + β2 i - β3 i) - s), ok_bind]
  · exact ⟨_, rfl⟩
  · intro i hi r hrs hri
    have := hB i hi
    have := abs_add_le (res.get i) (β0 i - β1 i + β2 i - β3 i)
    have := abs_nonneg (β0 i - β1 i + β2 i - β3 i)
    have hf := (hI i hi).2
    rw [over_rd hfp hi, ok_bind]
    simp only [zero_add]
    rw [h0 i hi, lin_int, updAt_set (by omega)
      (by rw [hri]; exact hO.iaddf (by omega) (by omega) (hI i hi).1), ok_bind,
      updAt_set (x := res.get i + (β0 i - β1 i + β2 i - β3 i) - s) (by simp; omega), Vec.set_set]
    rw [Vec.set_get, i64_ok ⟨by have := hf.1; omega, by have := hf.2; omega⟩, ok_bind, wrap32_id hf]

end

end Acs
