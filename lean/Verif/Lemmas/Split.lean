import Verif.SpecSplit
import Verif.Lemmas.IntMod

/-! # Slices that do not match the word length -/

set_option linter.unusedSectionVars false

namespace Acs

open Finset Spec

theorem shiftsFrom_add (l : List Nat) (r : Nat) (h : l.sum + r ≤ 2147483647) :
    shiftsFrom ((l.sum + r : Nat) : Int) l = (sufs l).map (· + r) := by
  induction l with
  | nil => rfl
  | cons a t ih =>
    simp only [List.sum_cons] at h
    have h1 : (((a :: t).sum + r : Nat) : Int) - (a : Int) = ((t.sum + r : Nat) : Int) := by
      rw [List.sum_cons]; push_cast; ring
    rw [shiftsFrom, sufs, h1, wrap32_id (by constructor <;> omega), ih (by omega), List.map_cons]
    congr 1
    omega

theorem dg_add (a : Int) (sh r sp : Nat) : dg a (sh + r) sp = dg (a / 2 ^ r) sh sp := by
  unfold dg
  rw [add_comm sh r, pow_add, Int.ediv_ediv_of_nonneg (by positivity)]

/-- Digits above the lowest `r` bits. -/
theorem high_sum (l : List Nat) (r : Nat) (a : Int) :
    ∑ s ∈ range l.length, dg a (shiftOf l s + r) (l.getD s 0) * 2 ^ (shiftOf l s + r)
      = bits a r l.sum * 2 ^ r := by
  rw [sum_congr rfl fun s _ => by rw [dg_add, pow_add, ← mul_assoc], ← sum_mul]
  congr 1
  exact bits_sum l (a / 2 ^ r)

section
variable {K : Type} [Field K] [LinearOrder K] [IsStrictOrderedRing K] [FloorRing K]
variable {E : Env K} {cfg : Cfg K} {c : Core K} {gd gd' : Gd} {x x' : Xbar K} {L : Nat → Nat → Option Int}
  {res vec mat r : Vec Int} {h : List Op} {m n : Nat} {l : String} {W : Nat → Nat → Int}

/-- The cell array of an integer mapping encodes the store with the shifts `sh`. -/
structure SCells (cfg : Cfg K) (sh : Nat → Nat) (gd : Gd) (L : Nat → Nat → Option Int) : Prop where
  p : ∀ r j, gd.p.get r j = cellOf (fun w => if cfg.mode = .iUintWOffs then
      dg (w + 2 ^ (cfg.wBit - 1)) (sh (r % cfg.split.length)) (cfg.split.getD (r % cfg.split.length) 0) else
      cellP w (sh (r % cfg.split.length)) (cfg.split.getD (r % cfg.split.length) 0)) (L (r / cfg.split.length) j)
  m : cfg.mode ≠ .iUintWOffs → ∀ r j, gd.m.get r j = cellOf (fun w =>
      cellM w (sh (r % cfg.split.length)) (cfg.split.getD (r % cfg.split.length) 0)) (L (r / cfg.split.length) j)

theorem scells_diff (hm : cfg.mode ≠ .iUintWOffs) (hS : 0 < cfg.split.length) (h : SCells cfg c.shift.get gd L) :
    SCells cfg c.shift.get (gdDiff cfg.split c.shift mat m n gd) (put L mat m n) := by
  constructor
  · intro r j
    have h0 := h.p r j
    simp only [gdDiff, Mat.over_get, put, ← Nat.div_lt_iff_lt_mul hS, if_neg hm] at h0 ⊢
    split
    · simp only [cellOf, entry]
    · exact h0
  · intro _ r j
    have h0 := h.m hm r j
    simp only [gdDiff, Mat.over_get, put, ← Nat.div_lt_iff_lt_mul hS] at h0 ⊢
    split
    · simp only [cellOf, entry]
    · exact h0

theorem scells_offs (hm : cfg.mode = .iUintWOffs) (hS : 0 < cfg.split.length) (h : SCells cfg c.shift.get gd L) :
    SCells cfg c.shift.get (gdOffs cfg.wBit cfg.split c.shift mat m n gd) (put L mat m n) := by
  constructor
  · intro r j
    have h0 := h.p r j
    simp only [gdOffs, Mat.over_get, put, ← Nat.div_lt_iff_lt_mul hS, if_pos hm] at h0 ⊢
    split
    · simp only [cellOf, entry]
    · exact h0
  · intro h1
    exact absurd hm h1

theorem dWriteGd_scells (hfam : cfg.mode.family = .int) (hS : 0 < cfg.split.length) (w1 : 1 ≤ cfg.wBit)
    (w31 : cfg.wBit ≤ 31) (hc : CoreShape E cfg c) (h : SCells cfg c.shift.get c.gd L)
    (hw : dWriteGd E cfg c mat m n = .ok gd') : SCells cfg c.shift.get gd' (put L mat m n) := by
  unfold dWriteGd at hw
  rw [hc.mode] at hw
  cases hm : cfg.mode <;> simp only [hm] at hw <;> rw [hm] at hfam <;>
    simp only [Mode.family, reduceCtorEq] at hfam
  case iUintWOffs =>
    rw [dWriteOffs_inv w1 w31 hw]
    exact scells_offs hm hS h
  all_goals
    rw [dWriteDiff_inv hw]
    exact scells_diff (by rw [hm]; decide) hS h

theorem runs_scells (hfam : cfg.mode.family = .int) (hS : 0 < cfg.split.length) (w1 : 1 ≤ cfg.wBit)
    (w31 : cfg.wBit ≤ 31) (hr : Runs E cfg h x) :
    SCells cfg x.mapper.core.shift.get x.mapper.core.gd (lastWrite h) := by
  induction hr with
  | init h =>
    rw [(mkCore_inv (mkXbar_inv h).1).2.2.1]
    exact ⟨fun _ _ => rfl, fun _ _ _ => rfl⟩
  | write hr h' ih =>
    have h1 := dWriteGd_scells hfam hS w1 w31 (runs_shape hr).core ih (xWrite_frame h').1
    have h2 := (runs_shape hr).core.shift
    have h3 := (runs_shape (.write hr h')).core.shift
    rw [h3, ← h2]
    exact h1
  | mvm hr h' ih =>
    have h2 := (runs_shape hr).core.shift
    have h3 := (runs_shape (.mvm hr h')).core.shift
    rw [h3, ← h2, (xMvm_frame h').1]
    exact ih

theorem _root_.Acs.Spec.ShortSplit.pos (h : ShortSplit cfg) : 0 < cfg.S := List.length_pos_iff.2 h.some

theorem _root_.Acs.Spec.ShortSplit.shift (hfam : cfg.mode.family = .int) (h : ShortSplit cfg) (hc : CoreShape E cfg c) {s : Nat}
    (hs : s < cfg.S) : c.shift.get s = shiftOf cfg.split s + lost cfg := by
  have h1 := h.sum
  have h2 := h.w31
  have hw : wrap32 (cfg.wBit : Int) = ((cfg.split.sum + lost cfg : Nat) : Int) := by
    rw [wrap32_id (by constructor <;> omega)]
    unfold lost
    omega
  have hl : s < (sufs cfg.split).length := by rw [sufs_length]; exact hs
  rw [hc.shift, if_pos (by simp [Mode.isInt, hfam]), hw, shiftsFrom_add _ _ (by unfold lost; omega), ← sufs_getD]
  show ((sufs cfg.split).map (· + lost cfg)).getD s 0 = (sufs cfg.split).getD s 0 + lost cfg
  rw [List.getD_eq_getElem _ _ (by rw [List.length_map]; exact hl), List.getD_eq_getElem _ _ hl, List.getElem_map]

theorem sdecode_diff (hfam : cfg.mode.family = .int) (hi : ShortSplit cfg) (hm : cfg.mode ≠ .iUintWOffs)
    (hc : CoreShape E cfg c) (h : SCells cfg c.shift.get c.gd L) {i j : Nat} {w : Int} (hl : L i j = some w) :
    ∑ s ∈ range cfg.S, c.D (i * cfg.S + s) j * 2 ^ c.shift.get s = keptW cfg w := by
  have hD : ∀ s, s < cfg.S → c.D (i * cfg.S + s) j
      = cellP w (c.shift.get s) (cfg.split.getD s 0) - cellM w (c.shift.get s) (cfg.split.getD s 0) := by
    intro s hs
    unfold Core.D
    have e1 : (i * cfg.S + s) / cfg.split.length = i := blk_div hs
    have e2 : (i * cfg.S + s) % cfg.split.length = s := blk_mod hs
    rw [h.p, h.m hm, e1, e2, hl]
    simp only [cellOf, if_neg hm]
  unfold keptW
  rw [if_neg hm, sum_congr rfl fun s hs => by rw [hD s (mem_range.1 hs), hi.shift hfam hc (mem_range.1 hs)]]
  by_cases h0 : 0 ≤ w
  · rw [if_pos h0, sum_congr rfl fun s _ => by rw [cellP, cellM, if_pos h0, if_pos h0, sub_zero]]
    exact high_sum _ _ _
  · rw [if_neg h0, sum_congr rfl fun s _ => by rw [cellP, cellM, if_neg h0, if_neg h0, zero_sub, neg_mul]]
    rw [sum_neg_distrib]
    exact congrArg _ (high_sum _ _ _)

theorem sdecode_offs (hfam : cfg.mode.family = .int) (hi : ShortSplit cfg) (hm : cfg.mode = .iUintWOffs)
    (hc : CoreShape E cfg c) (h : SCells cfg c.shift.get c.gd L) {i j : Nat} {w : Int} (hl : L i j = some w) :
    ∑ s ∈ range cfg.S, c.gd.p.get (i * cfg.S + s) j * 2 ^ c.shift.get s = keptW cfg w + 2 ^ (cfg.wBit - 1) := by
  have hD : ∀ s, s < cfg.S → c.gd.p.get (i * cfg.S + s) j
      = dg (w + 2 ^ (cfg.wBit - 1)) (c.shift.get s) (cfg.split.getD s 0) := by
    intro s hs
    have e1 : (i * cfg.S + s) / cfg.split.length = i := blk_div hs
    have e2 : (i * cfg.S + s) % cfg.split.length = s := blk_mod hs
    rw [h.p, e1, e2, hl]
    simp only [cellOf, if_pos hm]
  unfold keptW
  rw [if_pos hm, sum_congr rfl fun s hs => by rw [hD s (mem_range.1 hs), hi.shift hfam hc (mem_range.1 hs)],
    sub_add_cancel]
  exact high_sum _ _ _

/-- A digital multiplication of an integer crossbar whose slices hold at most the bits of a weight. -/
theorem xMvm_kept (hfam : cfg.mode.family = .int) (hi : ShortSplit cfg) (hdo : cfg.digitalOnly = true)
    (hr : Runs E cfg h x) (hd : Accepted cfg m n)
    (hw : ∀ i j, i < m → j < n → lastWrite h i j = some (W i j)) (hs : cfg.mode = .iOffsWDiff → WidthIs n h)
    (hx : xMvm E cfg x res vec mat m n l = .ok (x', r)) :
    AddsMod r res (fun i => ∑ j ∈ range n, keptW cfg (W i j) * usedX cfg (vec.get j) + keptError cfg (W i) n) m := by
  have sh := runs_shape hr
  have hc := sh.core
  have hS := hi.pos
  have hcells := runs_scells hfam hS hi.w1 hi.w31 hr
  have ht : m * cfg.S ≤ x.mapper.aux.tmpInt.size := by
    rw [sh.aux.tmpInt]
    exact Nat.mul_le_mul_right _ hd.1
  unfold xMvm at hx
  dsimp only at hx
  rw [if_pos hdo, bind_eq_ok] at hx
  obtain ⟨q, hq, hx⟩ := hx
  simp only [ok_inj, Prod.mk.injEq] at hx
  obtain ⟨_, rfl⟩ := hx
  have hoff : cfg.mode ≠ .iOffsWDiff → ∀ i, keptError cfg (W i) n = 0 := fun hm i => if_neg hm
  have hus : cfg.mode ≠ .iTcWDiff → ∀ y, usedX cfg y = y := fun hm y => if_neg hm
  have dd : cfg.mode ≠ .iUintWOffs → ∀ i j, i < m → j < n →
      ∑ s ∈ range cfg.S, x.mapper.core.D (i * cfg.S + s) j * 2 ^ x.mapper.core.shift.get s = keptW cfg (W i j) :=
    fun hm i j h1 h2 => sdecode_diff hfam hi hm hc hcells (hw i j h1 h2)
  have hfam' := hfam
  have hq' : dMvm E cfg x.mapper.core x.mapper.aux res vec m n = .ok (q.1, q.2) := hq
  unfold dMvm at hq'
  rw [hc.mode] at hq'
  cases hmd : cfg.mode <;> rw [hmd] at hfam hq' hoff hus dd <;> simp only [Mode.family, reduceCtorEq] at hfam <;>
    dsimp only at hq'
  case iDiffWDiff1 =>
    have := dMvmIntI_mod hS ht (dd (by decide)) hq'
    simpa only [hoff (by decide), hus (by decide), add_zero] using this
  case iDiffWDiff2 =>
    have := dMvmIntI_mod hS ht (dd (by decide)) hq'
    simpa only [hoff (by decide), hus (by decide), add_zero] using this
  case iOffsWDiff =>
    have := dMvmIntII_mod hi.i1 ht (dd (by decide)) hq'
    have e : ∀ i, i < m → keptError cfg (W i) n =
        2 ^ (cfg.iBit - 1) * (∑ j ∈ range n, keptW cfg (W i j) - x.mapper.core.gd.sumW.get i) := fun i h1 => by
      unfold keptError
      rw [if_pos hmd, runs_sums hr (by rw [hmd]; rfl) (hs hmd), sum_sub_distrib]
      congr 2
      exact sum_congr rfl fun j hj => by rw [val, hw i j h1 (mem_range.1 hj)]; rfl
    refine ⟨this.1, this.2.1, fun i h1 => ⟨(this.2.2 i h1).1, ?_⟩⟩
    have := (this.2.2 i h1).2
    simp only [hus (by decide), e i h1]
    exact this
  case iTcWDiff =>
    have := dMvmIntIII_mod hS hi.i1 hi.i31 ht (dd (by decide)) hq'
    simpa only [hoff (by decide), usedX, if_pos hmd, add_zero] using this
  case iUintWDiff =>
    have := dMvmIntIV_mod hS ht (dd (by decide)) hq'
    simpa only [hoff (by decide), hus (by decide), add_zero] using this
  case iUintWOffs =>
    have := dMvmIntV_mod (W := fun i j => keptW cfg (W i j)) hi.w1 ht (fun i j h1 h2 => sdecode_offs hfam' hi hmd
      hc hcells (hw i j h1 h2)) hq'
    simpa only [hoff (by decide), hus (by decide), add_zero] using this

/-! ## What is kept of a weight -/

theorem bits_low (a : Int) (r T : Nat) : bits a r T * 2 ^ r = a % 2 ^ (T + r) - a % 2 ^ r := by
  rw [← emod_split a T r]
  unfold bits
  ring

/-- Legal weights lose less than the lowest bit that is kept. -/
theorem keptW_legal (hfam : cfg.mode.family = .int) (hi : ShortSplit cfg) {w : Int} (h1 : LegalW cfg w) :
    |keptW cfg w - w| < 2 ^ lost cfg ∧
    (0 < cfg.split.sum → 2 ^ lost cfg ∣ w → keptW cfg w = w) := by
  have hT : cfg.split.sum + lost cfg = cfg.wBit := by have := hi.sum; unfold lost; omega
  have hp : (0 : Int) < 2 ^ lost cfg := by positivity
  have hpow : (2 : Int) ^ cfg.wBit = 2 ^ (cfg.wBit - 1) + 2 ^ (cfg.wBit - 1) := by
    obtain ⟨k, hk⟩ : ∃ k, cfg.wBit = k + 1 := ⟨cfg.wBit - 1, by have := hi.w1; omega⟩
    rw [hk, pow_succ, Nat.add_sub_cancel]; ring
  have key : ∀ a : Int, 0 ≤ a → a < 2 ^ cfg.wBit →
      bits a (lost cfg) cfg.split.sum * 2 ^ lost cfg = a - a % 2 ^ lost cfg := fun a h0 h1 => by
    rw [bits_low, hT, Int.emod_eq_of_lt h0 h1]
  have low : ∀ a : Int, 0 ≤ a % 2 ^ lost cfg ∧ a % 2 ^ lost cfg < 2 ^ lost cfg := fun a =>
    ⟨Int.emod_nonneg _ hp.ne', Int.emod_lt_of_pos _ hp⟩
  unfold keptW
  split
  · rename_i hm
    simp only [LegalW, hm] at h1
    rw [key _ (by linarith [h1.1]) (by linarith [h1.2])]
    have := low (w + 2 ^ (cfg.wBit - 1))
    refine ⟨by rw [abs_lt]; constructor <;> linarith [this.1, this.2], fun hs hd => ?_⟩
    have h3 : (2 : Int) ^ lost cfg ∣ 2 ^ (cfg.wBit - 1) := pow_dvd_pow _ (by unfold lost; omega)
    rw [Int.emod_eq_zero_of_dvd (dvd_add hd h3)]
    ring
  · rename_i hm
    have h2 : -(2 : Int) ^ cfg.wBit < w ∧ w < 2 ^ cfg.wBit := by
      unfold LegalW at h1
      cases hmd : cfg.mode <;> rw [hmd] at h1 hfam hm <;> dsimp only [Mode.family] at h1 hfam <;>
        first | exact absurd rfl hm | exact abs_lt.1 h1 | exact absurd hfam (by decide)
    split
    · rename_i h0
      rw [key _ h0 h2.2]
      have := low w
      refine ⟨by rw [abs_lt]; constructor <;> linarith [this.1, this.2], fun hs hd => ?_⟩
      rw [Int.emod_eq_zero_of_dvd hd, sub_zero]
    · rename_i h0
      rw [key _ (by linarith) (by linarith [h2.1])]
      have := low (-w)
      refine ⟨by rw [abs_lt]; constructor <;> linarith [this.1, this.2], fun hs hd => ?_⟩
      rw [Int.emod_eq_zero_of_dvd ((Int.dvd_neg).2 hd), sub_zero, neg_neg]

/-! ## Slices of more bits than a weight has -/

theorem digit_range {strict : Bool} {w d : Int} {sh sp : Nat} (h : digit strict w sh sp = .ok d) :
    sh < 32 ∧ sp ≤ 30 := by
  unfold digit at h
  rw [bind_eq_ok] at h
  obtain ⟨a, h1, h⟩ := h
  rw [bind_eq_ok] at h
  obtain ⟨b, h2, h3⟩ := h
  exact ⟨(shrI_eq_ok.1 h1).1, maskOf_inv h2⟩

theorem rd_get {α : Type} {v : Vec α} {i : Nat} {a : α} (h : v.rd i = .ok a) : a = v.get i := by
  unfold Vec.rd at h
  split at h
  · exact (Except.ok.inj h).symm
  · cases h

theorem dWriteDiff_range {strict : Bool} {split : List Nat} {shift : Vec Nat} (hm : 0 < m) (hn : 0 < n)
    (h : dWriteDiff strict split shift mat m n gd = .ok gd') {s : Nat} (hs : s < split.length) :
    shift.get s < 32 ∧ split.getD s 0 ≤ 30 := by
  unfold dWriteDiff at h
  refine loop_all (P := fun _ => shift.get s < 32 ∧ split.getD s 0 ≤ 30) (fun i _ a b h => ?_) h 0 hm
  rw [bind_eq_ok] at h
  obtain ⟨q, h, _⟩ := h
  refine loop_all (P := fun _ => shift.get s < 32 ∧ split.getD s 0 ≤ 30) (fun j _ a b h => ?_) h 0 hn
  rw [bind_eq_ok] at h
  obtain ⟨w, _, h⟩ := h
  rw [bind_eq_ok] at h
  obtain ⟨_, _, h⟩ := h
  rw [bind_eq_ok] at h
  obtain ⟨_, h, _⟩ := h
  refine loop_all (P := fun s => shift.get s < 32 ∧ split.getD s 0 ≤ 30) (fun s _ a b h => ?_) h s hs
  rw [bind_eq_ok] at h
  obtain ⟨sh, h1, h⟩ := h
  rw [← rd_get h1]
  split at h
  · rw [bind_eq_ok] at h
    obtain ⟨d, h2, _⟩ := h
    exact digit_range h2
  · rw [bind_eq_ok] at h
    obtain ⟨_, _, h⟩ := h
    rw [bind_eq_ok] at h
    obtain ⟨_, _, h⟩ := h
    rw [bind_eq_ok] at h
    obtain ⟨d, h2, _⟩ := h
    exact digit_range h2

theorem dWriteOffs_range {strict : Bool} {wBit : Nat} {split : List Nat} {shift : Vec Nat} (hm : 0 < m) (hn : 0 < n)
    (h : dWriteOffs strict wBit split shift mat m n gd = .ok gd') {s : Nat} (hs : s < split.length) :
    shift.get s < 32 ∧ split.getD s 0 ≤ 30 := by
  unfold dWriteOffs at h
  refine loop_all (P := fun _ => shift.get s < 32 ∧ split.getD s 0 ≤ 30) (fun i _ a b h => ?_) h 0 hm
  refine loop_all (P := fun _ => shift.get s < 32 ∧ split.getD s 0 ≤ 30) (fun j _ a b h => ?_) h 0 hn
  rw [bind_eq_ok] at h
  obtain ⟨w, _, h⟩ := h
  rw [bind_eq_ok] at h
  obtain ⟨_, _, h⟩ := h
  rw [bind_eq_ok] at h
  obtain ⟨_, _, h⟩ := h
  refine loop_all (P := fun s => shift.get s < 32 ∧ split.getD s 0 ≤ 30) (fun s _ a b h => ?_) h s hs
  rw [bind_eq_ok] at h
  obtain ⟨sh, h1, h⟩ := h
  rw [bind_eq_ok] at h
  obtain ⟨d, h2, _⟩ := h
  rw [← rd_get h1]
  exact digit_range h2

theorem shiftsFrom_sum (l : List Nat) {w : Int} (h0 : 0 ≤ w) (h1 : w ≤ 31)
    (h : ∀ s, s < l.length → (shiftsFrom w l).getD s 0 < 32 ∧ l.getD s 0 ≤ 30) : (l.sum : Int) ≤ w := by
  induction l generalizing w with
  | nil => simpa using h0
  | cons a t ih =>
    have h2 := h 0 (by simp)
    simp only [shiftsFrom, List.getD_cons_zero] at h2
    have h3 : 0 ≤ w - a := by omega
    have h4 := ih h3 (by omega) fun s hs => by
      have := h (s + 1) (by simpa using hs)
      simp only [shiftsFrom, List.getD_cons_succ] at this
      rwa [wrap32_id (by constructor <;> omega)] at this
    rw [List.sum_cons]
    omega

/-- A crossbar of an integer mapping that stores anything has slices of at most the bits of a weight. -/
theorem xWrite_split (hfam : cfg.mode.family = .int) (w31 : cfg.wBit ≤ 31) (hr : Runs E cfg h x) (hm : 0 < m)
    (hn : 0 < n) (hw : xWrite E cfg x mat m n = .ok x') : cfg.split.sum ≤ cfg.wBit := by
  have hc := (runs_shape hr).core
  have hw := (xWrite_frame hw).1
  have key : ∀ s, s < cfg.split.length → x.mapper.core.shift.get s < 32 ∧ cfg.split.getD s 0 ≤ 30 := by
    intro s hs
    unfold dWriteGd at hw
    rw [hc.mode] at hw
    cases hmd : cfg.mode <;> simp only [hmd] at hw <;> rw [hmd] at hfam <;>
      simp only [Mode.family, reduceCtorEq] at hfam
    case iUintWOffs => exact dWriteOffs_range hm hn hw hs
    all_goals exact dWriteDiff_range hm hn hw hs
  rw [hc.shift, if_pos (by simp [Mode.isInt, hfam]), wrap32_id (by constructor <;> omega)] at key
  have := shiftsFrom_sum cfg.split (w := (cfg.wBit : Int)) (by omega) (by omega) key
  omega

end

end Acs
