import Verif.Lemmas.AMvmIntAdc
import Verif.Lemmas.AWrite
import Verif.Lemmas.Refine

/-!
# Analog multiplications of reachable crossbars
-/

set_option linter.unusedSectionVars false

namespace Acs

open Finset Spec

section
variable {K : Type} [Field K] [LinearOrder K] [IsStrictOrderedRing K] [FloorRing K]
variable {E : Env K} {cfg : Cfg K} {x : Xbar K} {L : Nat → Nat → Option Int}
variable {mat vec res : Vec Int} {m n : Nat} {l : String} {B : Int} {lo hi : K}

/-- A crossbar without variation that holds the store `L`, and a legal call. -/
structure AHyp (E : Env K) (cfg : Cfg K) (x : Xbar K) (L : Nat → Nat → Option Int) (res vec : Vec Int)
    (m n : Nat) : Prop where
  ok : CfgOk cfg
  id : Ideal cfg
  shape : Shape E cfg x
  cells : Cells cfg x.mapper.core.gd L
  cur : ∀ r k, CellOk cfg r (x.mapper.core.gd.p.get r k) (x.mapper.core.ia.p.get r k) ∧
    CellOk cfg r (x.mapper.core.gd.m.get r k) (x.mapper.core.ia.m.get r k)
  legal : Legal cfg L m n
  dims : Accepted cfg m n
  sums : keepsRowSums cfg.mode → ∀ i, i < m → x.mapper.core.gd.sumW.get i = ∑ j ∈ range n, val L i j
  hv : n ≤ vec.size
  hr : m ≤ res.size
  hx : LegalVec cfg vec n

theorem Spec.Ideal.d (h : Ideal cfg) : cfg.lrs - cfg.hrs ≠ 0 := sub_ne_zero.2 h.ne.symm

/-- The crossbar around the analog multiplication. -/
theorem xMvm_analog (h : Ideal cfg) {a' : Aux K} {r : Vec Int}
    (e : aMvm E cfg x.mapper.core x.mapper.aux res vec m n l = .ok (a', r)) :
    xMvm E cfg x res vec mat m n l
      = .ok ({ x with mvms := x.mvms + 1, consec := x.consec + 1, mapper := { x.mapper with aux := a' } }, r) := by
  unfold xMvm
  simp only [h.analog, h.c2c, h.rd, Bool.false_eq_true, if_false, ok_bind, e]

namespace AHyp
variable (A : AHyp E cfg x L res vec m n)
include A

theorem binHyp (hb : cfg.mode.isInt = false) (F : Faith E cfg.hrs (cfg.lrs - cfg.hrs) B)
    (hB : 16 * (n : Int) + 16 ≤ B) :
    BinHyp E cfg x.mapper.core x.mapper.aux x.mapper.core.gd.p.get x.mapper.core.gd.m.get vec res m n B := by
  have hfit := Fits.row A.ok A.dims
  have ha := A.shape.aux
  have hc := A.shape.core
  have h1 := hc.ia.p
  have h2 := hc.ia.m
  have h3 := hc.gd.sumW
  unfold Mat.Is at h1 h2
  obtain ⟨d1, d2, d3⟩ := A.dims
  have hcur : ∀ r g y, CellOk cfg r g y → y = Acs.cur cfg.hrs (cfg.lrs - cfg.hrs) 2 g := fun r g y h => by
    rw [h.cur, nominal_bin hb]; unfold Acs.cur; push_cast; ring
  have h01 : ∀ r g y, CellOk cfg r g y → |g| ≤ 1 := fun r g y h => by
    have k1 := h.lo
    have k2 := h.hi
    rw [topState_bin hb] at k2
    rw [abs_of_nonneg k1]; exact k2
  have ht := ha.tmpFp fun _ => A.id.par
  rw [hb, if_neg (by decide)] at ht
  exact {
    par := A.id.par
    prof := A.id.prof
    F := F
    iMM := by
      rw [hc.iMM, A.id.analog, if_neg (by decide)]
      have := F.cur 0 1 (by simp; omega) (by simp; omega)
      unfold Acs.cur at this
      unfold Env.fsub
      simpa using this
    p := fun i j _ _ => hcur _ _ _ (A.cur i j).1
    q := fun i j _ _ => hcur _ _ _ (A.cur i j).2
    p1 := fun i j _ _ => h01 _ _ _ (A.cur i j).1
    q1 := fun i j _ _ => h01 _ _ _ (A.cur i j).2
    pr := by omega
    pc := by omega
    mr := by omega
    mc := by omega
    sw := by omega
    vdP := by rw [ha.vdP]; omega
    vdM := by rw [ha.vdM]; omega
    tmp := by rw [ha.tmp]; omega
    tmpP := by rw [ha.tmpP]; omega
    tmpM := by rw [ha.tmpM]; omega
    tmpFp := by rw [ht]; omega
    vec := A.hv
    res := A.hr
    n31 := d3
    B8 := hB }

theorem gdP (hrow : ∀ r, rowOf cfg r = (r, 0)) {i j : Nat} (hi : i < m) (hj : j < n) :
    x.mapper.core.gd.p.get i j = encP cfg (val L i j) 0 := by
  rw [A.cells.p]; simp only [hrow]; rw [(A.legal.val hi hj).2]; rfl

theorem gdM (hrow : ∀ r, rowOf cfg r = (r, 0)) {i j : Nat} (hi : i < m) (hj : j < n) :
    x.mapper.core.gd.m.get i j = encM cfg (val L i j) 0 := by
  rw [A.cells.m]; simp only [hrow]; rw [(A.legal.val hi hj).2]; rfl

/-- Legal weights of the binary and ternary mappings are small. -/
theorem absW (hb : cfg.mode.isInt = false) {i j : Nat} (hi : i < m) (hj : j < n) : |val L i j| ≤ 1 := by
  have := (A.legal.val hi hj).1
  unfold LegalW at this
  cases hm : cfg.mode <;> simp only [hm, Mode.isInt, Mode.family] at this hb
  all_goals first
    | (rcases this with h | h | h <;> rw [h] <;> decide)
    | (rcases this with h | h <;> rw [h] <;> decide)
    | (exact absurd hb (by decide))

end AHyp

/-- What the cells of a binary or ternary mapping say about the weight. -/
def CellRel (md : Mode) (p q w : Int) : Prop :=
  match md with
  | .bnn3 => 2 * p - 1 = w
  | .bnn4 => 1 - 2 * p = w
  | .bnn5 => 2 * p - 1 = w ∧ 2 * q - 1 = -w
  | .tnn4 => p - 2 * q = w
  | .tnn5 => p + 2 * q = w + 1
  | _ => p - q = w

theorem cellRel (hb : cfg.mode.isInt = false) {w : Int} (hw : LegalW cfg w) :
    CellRel cfg.mode (encP cfg w 0) (encM cfg w 0) w := by
  unfold LegalW at hw
  unfold CellRel encP encM
  cases hm : cfg.mode <;> simp only [hm, Mode.isInt, Mode.family] at hw hb ⊢
  all_goals first
    | (rcases hw with h | h | h <;> rw [h] <;> decide)
    | (rcases hw with h | h <;> rw [h] <;> decide)
    | (exact absurd hb (by decide))

theorem adc_kind {c : Core K} (h : mkAdc cfg = .ok c.adc) : c.adc.kind = cfg.adcType := by
  unfold mkAdc at h
  simp only [bind_eq_ok] at h
  obtain ⟨st, _, h⟩ := h
  cases ht : cfg.adcType <;> simp only [ht, bind_eq_ok] at h
  · rw [← ok_inj.1 h]
  · obtain ⟨st', _, h⟩ := h; rw [← ok_inj.1 h]
  · rw [← ok_inj.1 h]

namespace AHyp
variable (A : AHyp E cfg x L res vec m n)
include A

theorem rel (hb : cfg.mode.isInt = false) {i j : Nat} (hi : i < m) (hj : j < n) :
    CellRel cfg.mode (x.mapper.core.gd.p.get i j) (x.mapper.core.gd.m.get i j) (val L i j) := by
  rw [A.gdP (rowOf_bin hb) hi hj, A.gdM (rowOf_bin hb) hi hj]
  exact cellRel hb (A.legal.val hi hj).1

/-- Binary and ternary mappings with an ideal converter. -/
theorem infBin (hb : cfg.mode.isInt = false) (F : Faith E cfg.hrs (cfg.lrs - cfg.hrs) B)
    (hB : 16 * (n : Int) + 16 ≤ B) (hinf : cfg.adcType = .inf) (hR : RoomF res m n B) :
    ∃ a', aMvm E cfg x.mapper.core x.mapper.aux res vec m n l
      = .ok (a', res.over m fun i => res.get i + ∑ j ∈ range n, val L i j * vec.get j) := by
  have H := A.binHyp hb F hB
  have hk : x.mapper.core.adc.kind = .inf := by rw [adc_kind A.shape.core.adc, hinf]
  have hW := fun i j (hi : i < m) (hj : j < n) => A.absW hb hi hj
  have hrel := fun i j (hi : i < m) (hj : j < n) => A.rel hb hi hj
  have hx := A.hx
  have hs := A.sums
  have hok := A.ok
  unfold CfgOk at hok
  unfold LegalVec LegalX at hx
  unfold aMvm
  rw [A.shape.core.mode]
  cases hm : cfg.mode <;> simp only [hm, CellRel] at hrel hx hs hok ⊢
  case bnn1 => exact inf_bnn1 H hk hR hW hx hrel (hs trivial)
  case bnn2 => exact inf_bnn2 H hk hR hW hx hrel (hs trivial)
  case bnn3 => exact inf_bnn3 H hk hR hW hx hrel
  case bnn4 => exact inf_bnn4 H hk hR hW hx hrel
  case bnn5 => exact inf_bnn5 H hk hR hW hx (fun i j hi hj => (hrel i j hi hj).1) fun i j hi hj => (hrel i j hi hj).2
  case bnn6 => exact inf_bnn6 H hk hR hW hx hrel
  case tnn1 => exact inf_tnn1 H hk hR hW hx hrel
  case tnn2 => exact inf_tnn2 H hk hR hW hx hrel
  case tnn3 => exact inf_tnn3 H hk hR hW hx hrel (hs trivial)
  case tnn4 => exact inf_tnn4 H hk hR hW hok.1 hx hrel
  case tnn5 => exact inf_tnn5 H hk hR hW hok.1 hx hrel
  all_goals (rw [hm] at hb; exact absurd hb (by decide))

/-! ### Integer mappings -/

/-- The slices of the configuration. -/
theorem slice (hi : cfg.mode.isInt = true) {s : Nat} (hs : s < cfg.S) : 1 ≤ cfg.split.getD s 0 := by
  rw [List.getD_eq_getElem _ _ hs]
  exact A.id.split hi _ (List.getElem_mem hs)

theorem stepOk (hi : cfg.mode.isInt = true) :
    StepOk cfg fun s => (cfg.lrs - cfg.hrs) / (2 ^ cfg.split.getD s 0 - 1) :=
  ⟨A.id.d, fun _ hs => A.slice hi hs, fun _ _ => rfl⟩

theorem intHyp (hi : cfg.mode.isInt = true)
    (F : FaithI E (fun s => (cfg.lrs - cfg.hrs) / (2 ^ cfg.split.getD s 0 - 1)) cfg.S B)
    (hst : ∀ s, s < cfg.S → fieldDiv E (E.fsub cfg.lrs cfg.hrs) (E.ofInt (2 ^ cfg.split.getD s 0 - 1))
      = some ((cfg.lrs - cfg.hrs) / (2 ^ cfg.split.getD s 0 - 1))) :
    IntHyp E cfg x.mapper.core x.mapper.aux (fun s => (cfg.lrs - cfg.hrs) / (2 ^ cfg.split.getD s 0 - 1)) m n B := by
  have hfit := Fits.row A.ok A.dims
  have ha := A.shape.aux
  have hc := A.shape.core
  have h1 := hc.ia.p
  have h2 := hc.ia.m
  have h3 := hc.gd.sumW
  have hI := intOk A.ok hi
  unfold Mat.Is at h1 h2
  obtain ⟨d1, d2, d3⟩ := A.dims
  have ht := ha.tmpFp fun _ => A.id.par
  rw [hi, if_pos rfl] at ht
  exact {
    par := A.id.par
    F := F
    shs := hc.shift_size
    sh := fun s _ => hI.shift_lt hc s
    sts := hc.iStep_size
    st := fun s hs => by
      rw [iStep_get hI hc hs, hc.iMM, A.id.analog, if_neg (by decide)]
      exact hst s hs
    pr := by omega
    pc := by omega
    mr := by omega
    mc := by omega
    sw := by omega
    vdP := by rw [ha.vdP]; omega
    vdM := by rw [ha.vdM]; omega
    vdS := by rw [ha.vdSlice]; omega
    tmpFp := by rw [ht]; omega
    resFp := by rw [ha.resFp]; omega }

theorem diff (hi : cfg.mode.isInt = true)
    (F : FaithI E (fun s => (cfg.lrs - cfg.hrs) / (2 ^ cfg.split.getD s 0 - 1)) cfg.S B)
    (h1 : 1 ≤ B) (h30 : ∀ t, t < m * cfg.S → ∑ j ∈ range n, |x.mapper.core.D t j| ≤ B)
    (hD : ∀ t j, t < m * cfg.S → j < n → |x.mapper.core.D t j| ≤ B) :
    IntHyp.Diff E cfg x.mapper.core (fun s => (cfg.lrs - cfg.hrs) / (2 ^ cfg.split.getD s 0 - 1))
      x.mapper.core.D m n B := by
  refine ⟨fun t j ht hj => ?_, h1, h30⟩
  have hS := cfgOk_S_pos A.ok
  have e1 := (A.cur t j).1.cur
  have e2 := (A.cur t j).2.cur
  have e3 := F.cur (t % cfg.S) (Nat.mod_lt _ hS) (x.mapper.core.D t j) (hD t j ht hj)
  unfold Env.fsub
  rw [← e3]
  congr 1
  rw [e1, e2, nominal_int hi, nominal_int hi]
  unfold Core.D
  push_cast
  ring

/-- The mappings with a pair of cells per slice. -/
theorem encD (hi : cfg.mode.isInt = true) (hm : cfg.mode ≠ .iUintWOffs) :
    Enc cfg.S x.mapper.core.shift.get x.mapper.core.D (val L) m n ∧
      ∀ i j, i < m → j < n → |val L i j| ≤ 2 ^ cfg.wBit := by
  have hI := intOk A.ok hi
  have hlw : ∀ w, LegalW cfg w → |w| < 2 ^ cfg.wBit := fun w h => by
    unfold LegalW at h
    cases hmd : cfg.mode <;> simp only [hmd] at h hm hi <;> first
      | exact h
      | exact absurd rfl hm
      | exact absurd hi (by decide)
  refine ⟨enc_diff hI hlw (fun w s => ?_) (fun w s => ?_) (fun r => ?_) A.shape.core A.cells A.legal,
    fun i j hi' hj => (hlw _ (A.legal.val hi' hj).1).le⟩
  · unfold encP
    cases hmd : cfg.mode <;> simp only [hmd] at hm hi ⊢ <;> first
      | rfl
      | exact absurd rfl hm
      | exact absurd hi (by decide)
  · unfold encM
    cases hmd : cfg.mode <;> simp only [hmd] at hm hi ⊢ <;> first
      | rfl
      | exact absurd rfl hm
      | exact absurd hi (by decide)
  · unfold rowOf
    cases hmd : cfg.mode <;> simp only [hmd] at hm hi ⊢ <;> first
      | rfl
      | exact absurd hi (by decide)

theorem dSum (hi : cfg.mode.isInt = true) (hm : cfg.mode ≠ .iUintWOffs)
    (hB : 0 < m → (n : Int) * 2 ^ (cfg.wBit + cfg.iBit) ≤ B) {t : Nat} (ht : t < m * cfg.S) :
    ∑ j ∈ range n, |x.mapper.core.D t j| ≤ B := by
  obtain ⟨h, hW⟩ := A.encD hi hm
  have hS := cfgOk_S_pos A.ok
  have hm0 : 0 < m := by
    rcases Nat.eq_zero_or_pos m with h0 | h0
    · subst h0; omega
    · exact h0
  have hlt : t / cfg.S < m := Nat.div_lt_of_lt_mul (by rw [Nat.mul_comm]; exact ht)
  have h1 := h.colAbs (fun _ => 1) ht
  simp only [mul_one, abs_one] at h1
  have h2 : ∑ j ∈ range n, |val L (t / cfg.S) j| ≤ n * 2 ^ cfg.wBit := sum_abs_le fun j hj => hW _ j hlt hj
  have h3 : (2 : Int) ^ cfg.wBit ≤ 2 ^ (cfg.wBit + cfg.iBit) := pow_le_pow_right₀ (by norm_num) (by omega)
  have h4 := mul_le_mul_of_nonneg_left h3 (show (0 : Int) ≤ n by omega)
  have := hB hm0
  linarith

theorem diff' (hi : cfg.mode.isInt = true) (hm : cfg.mode ≠ .iUintWOffs)
    (F : FaithI E (fun s => (cfg.lrs - cfg.hrs) / (2 ^ cfg.split.getD s 0 - 1)) cfg.S B)
    (h1 : 1 ≤ B) (hB : 0 < m → (n : Int) * 2 ^ (cfg.wBit + cfg.iBit) ≤ B) :
    IntHyp.Diff E cfg x.mapper.core (fun s => (cfg.lrs - cfg.hrs) / (2 ^ cfg.split.getD s 0 - 1))
      x.mapper.core.D m n B :=
  A.diff hi F h1 (fun _ ht => A.dSum hi hm hB ht) fun t j ht hj =>
    le_trans (single_le_sum (f := fun j => |x.mapper.core.D t j|) (fun _ _ => abs_nonneg _) (mem_range.2 hj))
      (A.dSum hi hm hB ht)

/-- Integer mappings with a pair of cells per slice and an ideal converter. -/
theorem infInt (hi : cfg.mode.isInt = true) (hm : cfg.mode ≠ .iUintWOffs)
    (hgcc : cfg.mode = .iOffsWDiff → E.strict = false)
    (F : FaithI E (fun s => (cfg.lrs - cfg.hrs) / (2 ^ cfg.split.getD s 0 - 1)) cfg.S B)
    (hst : ∀ s, s < cfg.S → fieldDiv E (E.fsub cfg.lrs cfg.hrs) (E.ofInt (2 ^ cfg.split.getD s 0 - 1))
      = some ((cfg.lrs - cfg.hrs) / (2 ^ cfg.split.getD s 0 - 1))) (h1 : 1 ≤ B) (hinf : cfg.adcType = .inf)
    (hB : ∀ i, i < m → |res.get i| + n * 2 ^ (cfg.wBit + cfg.iBit) ≤ B)
    (hI : ∀ i, i < m → |res.get i| + n * 2 ^ (cfg.wBit + cfg.iBit) ≤ 2147483647) :
    ∃ a', aMvm E cfg x.mapper.core x.mapper.aux res vec m n l
      = .ok (a', res.over m fun i => res.get i + ∑ j ∈ range n, val L i j * vec.get j) := by
  have H := A.intHyp hi F hst
  have hk : x.mapper.core.adc.kind = .inf := by rw [adc_kind A.shape.core.adc, hinf]
  obtain ⟨henc, hW⟩ := A.encD hi hm
  have X := A.diff' hi hm F h1 fun h0 => by have := hB 0 h0; have := abs_nonneg (res.get 0); linarith
  have hx := A.hx
  have hs := A.sums
  have hI' := intOk A.ok hi
  have i1 := hI'.i1
  have i31 := hI'.i31
  unfold LegalVec LegalX at hx
  unfold aMvm
  rw [A.shape.core.mode]
  cases hmd : cfg.mode <;> simp only [hmd] at hx hs hm hgcc ⊢
  case iDiffWDiff1 => exact H.infI X henc A.hv A.hr hk hW hB hI i1 i31 hx
  case iDiffWDiff2 => exact H.infI X henc A.hv A.hr hk hW hB hI i1 i31 hx
  case iOffsWDiff => exact H.infII X henc A.hv A.hr hk hW hB hI (hgcc trivial) i1 i31 (hs trivial) hx
  case iTcWDiff => exact H.infIII X henc A.hv A.hr hk hW hB hI i1 (by omega) hx
  case iUintWDiff => exact H.infIV X henc A.hv A.hr hk hW hB hI (by omega) hx
  case iUintWOffs => exact absurd rfl hm
  all_goals (rw [hmd] at hi; exact absurd hi (by decide))

/-! ### The offset mapping -/

theorem delta (hE : ExactArith E) (hm : cfg.mode = .iUintWOffs) :
    x.mapper.core.delta = some (∑ s ∈ range cfg.S, 2 ^ x.mapper.core.shift.get s *
      (cfg.hrs / ((cfg.lrs - cfg.hrs) / (2 ^ cfg.split.getD s 0 - 1)))) := by
  have hi : cfg.mode.isInt = true := by rw [hm]; rfl
  have hI := intOk A.ok hi
  have hc := A.shape.core
  have hd := A.id.d
  have h1 := hc.delta
  unfold optDelta at h1
  rw [if_pos hm, A.id.analog] at h1
  simp only [Bool.false_and, Bool.false_eq_true, if_false] at h1
  unfold deltaOf at h1
  rw [loop_ok (fun k => ((∑ s ∈ range k, 2 ^ x.mapper.core.shift.get s * (2 ^ cfg.split.getD s 0 - 1) : Int) : K))
    (by simp)] at h1
  · rw [ok_bind, ok_inj] at h1
    rw [← h1, hc.iMM, A.id.analog, if_neg (by decide)]
    unfold fieldDiv Env.fsub Env.fmul
    rw [hE.f32, if_neg hd, Option.map_some, hE.f32, hE.f32]
    congr 1
    push_cast
    rw [mul_sum]
    refine sum_congr rfl fun s hs => ?_
    have := (A.stepOk hi).mask (mem_range.1 hs)
    field_simp
  · intro s hs
    have h2 := hI.sp' s hs
    have h3 := hI.shift hc s
    have h4 := shiftOf_add_le cfg.split s
    have h5 := hI.sum
    have h6 := hI.w31
    have h7 := A.slice hi hs
    have h8 : x.mapper.core.shift.get s ≤ 30 := by omega
    rw [Vec.rd_ok (by rw [hc.shift_size]; exact hs), ok_bind, shl_one h8, ok_bind, maskOf_ok h2, ok_bind,
      mulI_ok, ok_bind]
    · unfold Env.fadd Env.ofInt
      rw [hE.f32, hE.f32, sum_range_succ]
      push_cast
      rfl
    · have e1 : (2 : Int) ^ x.mapper.core.shift.get s * 2 ^ cfg.split.getD s 0 ≤ 2147483648 := by
        rw [← pow_add]
        exact two_pow_le (by omega)
      have e2 : (0 : Int) < 2 ^ x.mapper.core.shift.get s := by positivity
      have e3 : (0 : Int) < 2 ^ cfg.split.getD s 0 := by positivity
      have e4 : (0 : Int) ≤ 2 ^ x.mapper.core.shift.get s * (2 ^ cfg.split.getD s 0 - 1) :=
        mul_nonneg e2.le (by omega)
      constructor
      · linarith
      · rw [mul_sub, mul_one]; omega

theorem encO (hm : cfg.mode = .iUintWOffs) :
    Enc cfg.S x.mapper.core.shift.get x.mapper.core.gd.p.get (fun i j => val L i j + 2 ^ (cfg.wBit - 1)) m n ∧
      ∀ i j, i < m → j < n → |val L i j| ≤ 2 ^ cfg.wBit := by
  have hi : cfg.mode.isInt = true := by rw [hm]; rfl
  have hI := intOk A.ok hi
  have hlw : ∀ w, LegalW cfg w → -2 ^ (cfg.wBit - 1) ≤ w ∧ w < 2 ^ (cfg.wBit - 1) := fun w h => by
    simpa only [LegalW, hm] using h
  refine ⟨enc_offs hI hlw (fun w s => by simp only [encP, hm]; rfl)
    (fun r => by simp only [rowOf, hm]) A.shape.core A.cells A.legal, fun i j hi' hj => ?_⟩
  have h1 := hlw _ (A.legal.val hi' hj).1
  have h2 : (2 : Int) ^ (cfg.wBit - 1) ≤ 2 ^ cfg.wBit := pow_le_pow_right₀ (by norm_num) (by omega)
  rw [abs_le]
  constructor <;> linarith

theorem curO (hm : cfg.mode = .iUintWOffs) : ∀ t j, t < m * cfg.S → j < n → x.mapper.core.ia.p.get t j
    = cfg.hrs + (x.mapper.core.gd.p.get t j : K) * ((cfg.lrs - cfg.hrs) / (2 ^ cfg.split.getD (t % cfg.S) 0 - 1)) :=
  fun t j _ _ => by rw [(A.cur t j).1.cur, nominal_int (by rw [hm]; rfl)]

theorem exactI (hE : ExactArith E) (hi : cfg.mode.isInt = true) (B : Int) :
    FaithI E (fun s => (cfg.lrs - cfg.hrs) / (2 ^ cfg.split.getD s 0 - 1)) cfg.S B ∧
    ∀ s, s < cfg.S → fieldDiv E (E.fsub cfg.lrs cfg.hrs) (E.ofInt (2 ^ cfg.split.getD s 0 - 1))
      = some ((cfg.lrs - cfg.hrs) / (2 ^ cfg.split.getD s 0 - 1)) := by
  refine ⟨FaithI.exact hE fun s hs => (A.stepOk hi).st_ne hs, fun s hs => ?_⟩
  have := (A.stepOk hi).mask hs
  unfold fieldDiv Env.fsub Env.ofInt
  rw [hE.f32, hE.f32, hE.f32]
  push_cast
  rw [if_neg this]

theorem infIntV (hE : ExactArith E) (hm : cfg.mode = .iUintWOffs) (hinf : cfg.adcType = .inf)
    (hI : ∀ i, i < m → |res.get i| + n * 2 ^ (cfg.wBit + cfg.iBit) ≤ 2147483647) :
    ∃ a', aMvm E cfg x.mapper.core x.mapper.aux res vec m n l
      = .ok (a', res.over m fun i => res.get i + ∑ j ∈ range n, val L i j * vec.get j) := by
  have hi : cfg.mode.isInt = true := by rw [hm]; rfl
  have hI' := intOk A.ok hi
  obtain ⟨F, hst⟩ := A.exactI hE hi 0
  have H := A.intHyp hi F hst
  have hk : x.mapper.core.adc.kind = .inf := by rw [adc_kind A.shape.core.adc, hinf]
  obtain ⟨henc, hW⟩ := A.encO hm
  have hx := A.hx
  unfold LegalVec LegalX at hx
  simp only [hm] at hx
  unfold aMvm
  rw [A.shape.core.mode]
  simp only [hm]
  exact H.infV hE (A.stepOk hi) henc (A.curO hm) (A.delta hE hm) A.hv A.hr hI'.w1 hI'.w31 hI'.i31 A.dims.2.2 hx hk
    hW hI

/-- All mappings with an ideal converter and exact arithmetic. -/
theorem inf (hE : ExactArith E) (hinf : cfg.adcType = .inf) (hgcc : cfg.mode = .iOffsWDiff → E.strict = false)
    (hroom : Room cfg res m n) :
    ∃ a', aMvm E cfg x.mapper.core x.mapper.aux res vec m n l
      = .ok (a', res.over m fun i => res.get i + ∑ j ∈ range n, val L i j * vec.get j) := by
  unfold Room peak at hroom
  cases hi : cfg.mode.isInt
  · have hr : ∀ i, i < m → |res.get i| + 3 * n ≤ 2147483647 := by
      cases hmd : cfg.mode <;> simp only [hmd] at hroom hi <;> first
        | exact hroom
        | exact absurd hi (by decide)
    exact A.infBin hi (Faith.exact hE A.id.d (B := 2147483647 + 16 * n)) (by omega) hinf
      ⟨hr, fun i hi => by have := hr i hi; omega⟩
  · have hr : ∀ i, i < m → |res.get i| + n * 2 ^ (cfg.wBit + cfg.iBit) ≤ 2147483647 := by
      cases hmd : cfg.mode <;> simp only [hmd] at hroom hi <;> first
        | exact hroom
        | exact absurd hi (by decide)
    by_cases hm : cfg.mode = .iUintWOffs
    · exact A.infIntV hE hm hinf hr
    · obtain ⟨F, hst⟩ := A.exactI hE hi 2147483647
      exact A.infInt hi hm hgcc F hst (by norm_num) hinf hr hr

end AHyp

end

end Acs
