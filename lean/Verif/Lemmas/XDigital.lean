import Verif.Lemmas.Frame

/-!
# The digital crossbar as a matrix store

`Cells cfg gd L`: the cell array holds the encoding of the store `L` (last written value per
position).  Writes update the store, multiplications read it.
-/

set_option linter.unusedSectionVars false

namespace Acs

open Finset Spec

/-- A store after writing a block. -/
def put (L : Nat → Nat → Option Int) (mat : Vec Int) (m n : Nat) (i j : Nat) : Option Int :=
  if i < m ∧ j < n then some (entry mat n i j) else L i j

section
variable {K : Type}

/-- Content of a cell whose weight is given by the store. -/
def cellOf (f : Int → Int) (o : Option Int) : Int :=
  match o with
  | none => 0
  | some w => f w

/-- The cell array encodes the store. -/
structure Cells (cfg : Cfg K) (gd : Gd) (L : Nat → Nat → Option Int) : Prop where
  p : ∀ r j, gd.p.get r j = cellOf (fun w => encP cfg w (rowOf cfg r).2) (L (rowOf cfg r).1 j)
  m : ∀ r j, gd.m.get r j = cellOf (fun w => encM cfg w (rowOf cfg r).2) (L (rowOf cfg r).1 j)

/-- The mappings that keep row sums. -/
def hasSums : Mode → Bool
  | .iUintWOffs | .bnn3 | .bnn4 | .tnn4 | .tnn5 => false
  | _ => true

end

theorem sufs_getD (l : List Nat) (s : Nat) : (sufs l).getD s 0 = shiftOf l s := by
  induction l generalizing s with
  | nil => simp [sufs, shiftOf]
  | cons a t ih =>
    cases s with
    | zero => simp [sufs, shiftOf]
    | succ s => simpa [sufs, shiftOf] using ih s

theorem shiftOf_le (l : List Nat) (s : Nat) : shiftOf l s ≤ l.sum := by
  rw [← sufs_getD]; exact sufs_le l s

theorem shiftOf_add_le (l : List Nat) (s : Nat) : shiftOf l s + l.getD s 0 ≤ l.sum := by
  induction l generalizing s with
  | nil => simp [shiftOf]
  | cons a t ih =>
    cases s with
    | zero => simp [shiftOf]; omega
    | succ s =>
      have := ih s
      simp only [shiftOf, List.drop_succ_cons, List.getD_cons_succ, List.sum_cons] at this ⊢
      omega

/-- Cutting to `k` bits keeps the lower bits. -/
theorem bits_emod {a : Int} {lo w k : Nat} (h : lo + w ≤ k) : bits (a % 2 ^ k) lo w = bits a lo w := by
  obtain ⟨d, rfl⟩ := Nat.exists_eq_add_of_le h
  have hlo : (2 : Int) ^ lo ≠ 0 := by positivity
  unfold bits
  rw [Int.emod_def a, pow_add, pow_add, mul_assoc, mul_assoc, Int.sub_mul_ediv_left _ _ hlo, mul_assoc,
    Int.sub_mul_emod_self_left]

theorem bits_sum (l : List Nat) (a : Int) :
    ∑ s ∈ range l.length, bits a (shiftOf l s) (l.getD s 0) * 2 ^ shiftOf l s = a % 2 ^ l.sum := by
  have := digits_sum l a
  simp only [sufs_getD] at this
  exact this

theorem bits_nonneg (a : Int) (lo w : Nat) : 0 ≤ bits a lo w := dg_nonneg a lo w

section
variable {K : Type} [Field K] [LinearOrder K] [IsStrictOrderedRing K] [FloorRing K]
variable {F : Fault → Prop} {E : Env K} {cfg : Cfg K} {c : Core K} {a : Aux K} {gd gd' : Gd}
variable {mat vec res v w : Vec Int} {m n : Nat} {l : String} {rd : Rd K} {x x' : Xbar K}
variable {L : Nat → Nat → Option Int}

/-! ## Slicing parameters -/

/-- The slicing parameters of an integer mapping. -/
structure IntOk (cfg : Cfg K) : Prop where
  isInt : cfg.mode.isInt = true
  w1 : 1 ≤ cfg.wBit
  w31 : cfg.wBit ≤ 31
  sum : cfg.split.sum = cfg.wBit
  sp : ∀ s ∈ cfg.split, s ≤ 30
  i1 : 1 ≤ cfg.iBit
  i31 : cfg.iBit ≤ 31

theorem intOk (h : CfgOk cfg) (hi : cfg.mode.isInt = true) : IntOk cfg := by
  unfold CfgOk at h
  cases hm : cfg.mode <;> simp only [hm] at h hi <;> first
    | exact ⟨by rw [hm]; rfl, h.1, h.2.1, h.2.2.1, h.2.2.2.1, h.2.2.2.2.1, h.2.2.2.2.2⟩
    | simp [Mode.isInt, Mode.family] at hi

theorem IntOk.pos (h : IntOk cfg) : 0 < cfg.split.length := by
  rcases Nat.eq_zero_or_pos cfg.split.length with h0 | h0
  · have := h.sum
    rw [List.length_eq_zero_iff.1 h0] at this
    have := h.w1
    simp at *
    omega
  · exact h0

theorem IntOk.sp' (h : IntOk cfg) (s : Nat) (hs : s < cfg.split.length) :
    cfg.split.getD s 0 ≤ 30 := by
  rw [List.getD_eq_getElem _ _ hs]
  exact h.sp _ (List.getElem_mem hs)

theorem IntOk.shift (h : IntOk cfg) (hc : CoreShape E cfg c) (s : Nat) :
    c.shift.get s = shiftOf cfg.split s := by
  rw [hc.shift, if_pos (by simp [h.isInt])]
  have hw : wrap32 (cfg.wBit : Int) = (cfg.split.sum : Int) := by
    rw [h.sum]
    have := h.w31
    exact wrap32_id (by constructor <;> omega)
  rw [hw, shiftsFrom_eq _ (by rw [h.sum]; have := h.w31; omega)]
  exact sufs_getD _ _

theorem IntOk.shift_lt (h : IntOk cfg) (hc : CoreShape E cfg c) (s : Nat) : c.shift.get s < 32 := by
  rw [h.shift hc]
  have := shiftOf_le cfg.split s
  have := h.sum
  have := h.w31
  omega

/-- One-slice mappings. -/
theorem split_one (h : CfgOk cfg) (hi : cfg.mode.isInt = false) (h4 : cfg.mode ≠ .tnn4)
    (h5 : cfg.mode ≠ .tnn5) : cfg.split = [0] := by
  unfold CfgOk at h
  cases hm : cfg.mode <;> simp only [hm] at h hi h4 h5 <;> first
    | exact h
    | exact absurd rfl h4
    | exact absurd rfl h5
    | exact absurd hi (by decide)

theorem cfgOk_S_pos (h : CfgOk cfg) : 1 ≤ cfg.S := by
  rcases hi : cfg.mode.isInt with _ | _
  · by_cases h4 : cfg.mode = .tnn4
    · simp [CfgOk, h4] at h; simp [Cfg.S, h.1]
    · by_cases h5 : cfg.mode = .tnn5
      · simp [CfgOk, h5] at h; simp [Cfg.S, h.1]
      · simp [Cfg.S, split_one h hi h4 h5]
  · exact (intOk h hi).pos

/-! ## Writes update the store -/

theorem cells_diff (hdiff : ∀ w s, encP cfg w s = cellP w (shiftOf cfg.split s) (cfg.split.getD s 0))
    (hdiff' : ∀ w s, encM cfg w s = cellM w (shiftOf cfg.split s) (cfg.split.getD s 0))
    (hrow : ∀ r, rowOf cfg r = (r / cfg.split.length, r % cfg.split.length))
    (hS : 0 < cfg.split.length) (hsh : ∀ s, c.shift.get s = shiftOf cfg.split s)
    (h : Cells cfg gd L) : Cells cfg (gdDiff cfg.split c.shift mat m n gd) (put L mat m n) := by
  constructor
  · intro r j
    have h0 := h.p r j
    simp only [gdDiff, Mat.over_get, put, hrow, ← Nat.div_lt_iff_lt_mul hS] at h0 ⊢
    split
    · simp only [cellOf, hdiff, hsh, entry]
    · exact h0
  · intro r j
    have h0 := h.m r j
    simp only [gdDiff, Mat.over_get, put, hrow, ← Nat.div_lt_iff_lt_mul hS] at h0 ⊢
    split
    · simp only [cellOf, hdiff', hsh, entry]
    · exact h0

theorem cells_offs (henc : ∀ w s, encP cfg w s
      = dg (w + 2 ^ (cfg.wBit - 1)) (shiftOf cfg.split s) (cfg.split.getD s 0))
    (henc' : ∀ w s, encM cfg w s = 0)
    (hrow : ∀ r, rowOf cfg r = (r / cfg.split.length, r % cfg.split.length))
    (hS : 0 < cfg.split.length) (hsh : ∀ s, c.shift.get s = shiftOf cfg.split s)
    (h : Cells cfg gd L) :
    Cells cfg (gdOffs cfg.wBit cfg.split c.shift mat m n gd) (put L mat m n) := by
  constructor
  · intro r j
    have h0 := h.p r j
    simp only [gdOffs, Mat.over_get, put, hrow, ← Nat.div_lt_iff_lt_mul hS] at h0 ⊢
    split
    · simp only [cellOf, henc, hsh, entry]
    · exact h0
  · intro r j
    have h0 := h.m r j
    simp only [gdOffs, put, hrow] at h0 ⊢
    rw [h0]
    split
    · simp only [cellOf, henc']; split <;> rfl
    · rfl

theorem cells_flat {fp fm : Int → Int}
    (hp : ∀ w s, encP cfg w s = fp w) (hm : ∀ w s, encM cfg w s = fm w)
    (hrow : ∀ r, rowOf cfg r = (r, 0)) (h : Cells cfg gd L)
    (ep : ∀ r j, gd'.p.get r j = if r < m ∧ j < n then fp (mat.get (n * r + j)) else gd.p.get r j)
    (em : (∀ r j, gd'.m.get r j = if r < m ∧ j < n then fm (mat.get (n * r + j)) else gd.m.get r j)
      ∨ gd'.m = gd.m ∧ ∀ w, fm w = 0) :
    Cells cfg gd' (put L mat m n) := by
  constructor
  · intro r j
    have h0 := h.p r j
    rw [ep]
    simp only [put, hrow] at h0 ⊢
    split
    · simp only [cellOf, hp, entry]
    · exact h0
  · intro r j
    have h0 := h.m r j
    rcases em with em | ⟨em, hz⟩
    · rw [em]
      simp only [put, hrow] at h0 ⊢
      split
      · simp only [cellOf, hm, entry]
      · exact h0
    · rw [em, h0]
      simp only [put, hrow]
      split
      · simp only [cellOf, hm, hz]; split <;> rfl
      · rfl

theorem tdiv_neg_two (a : Int) : (a - 1).tdiv (-2) = (1 - a).tdiv 2 := by
  rw [Int.tdiv_neg, ← Int.neg_tdiv, neg_sub]

/-- A successful write of any matrix updates the store. -/
theorem dWriteGd_cells (hok : CfgOk cfg) (hc : CoreShape E cfg c) (h : Cells cfg c.gd L)
    (hw : dWriteGd E cfg c mat m n = .ok gd') : Cells cfg gd' (put L mat m n) := by
  unfold dWriteGd at hw
  rw [hc.mode] at hw
  cases hm : cfg.mode <;> simp only [hm] at hw
  case iDiffWDiff1 | iDiffWDiff2 | iOffsWDiff | iTcWDiff | iUintWDiff =>
    have hi := intOk hok (by rw [hm]; rfl)
    rw [dWriteDiff_inv hw]
    exact cells_diff (fun w s => by simp only [encP, hm]; rfl) (fun w s => by simp only [encM, hm]; rfl)
      (fun r => by simp only [rowOf, hm]) hi.pos (hi.shift hc) h
  case iUintWOffs =>
    have hi := intOk hok (by rw [hm]; rfl)
    rw [dWriteOffs_inv hi.w1 hi.w31 hw]
    exact cells_offs (fun w s => by simp only [encP, hm]; rfl) (fun w s => by simp only [encM, hm])
      (fun r => by simp only [rowOf, hm]) hi.pos (hi.shift hc) h
  case bnn1 | bnn2 | bnn5 | bnn6 =>
    rw [(dWriteDiffBnn_inv hw).1]
    exact cells_flat (fp := fun w => if w = 1 then 1 else 0) (fm := fun w => if w = -1 then 1 else 0) (fun w s => by simp only [encP, hm])
      (fun w s => by simp only [encM, hm])
      (fun r => by simp only [rowOf, hm]) h (fun r j => rfl) (Or.inl fun r j => rfl)
  case tnn1 | tnn2 | tnn3 =>
    rw [(dWriteDiffTnn_inv hw).1]
    exact cells_flat (fp := fun w => if w = 1 then 1 else 0) (fm := fun w => if w = -1 then 1 else 0) (fun w s => by simp only [encP, hm])
      (fun w s => by simp only [encM, hm])
      (fun r => by simp only [rowOf, hm]) h (fun r j => rfl) (Or.inl fun r j => rfl)
  case bnn3 =>
    rw [dWriteBnn3_inv hw]
    exact cells_flat (fp := fun w => (w + 1) / 2) (fm := fun _ => 0) (fun w s => by simp only [encP, hm])
      (fun w s => by simp only [encM, hm])
      (fun r => by simp only [rowOf, hm]) h (fun r j => rfl) (Or.inr ⟨rfl, fun _ => rfl⟩)
  case bnn4 =>
    rw [dWriteBnn4_inv hw]
    refine cells_flat (fp := fun w => (1 - w).tdiv 2) (fm := fun _ => 0) (fun w s => by simp only [encP, hm])
      (fun w s => by simp only [encM, hm])
      (fun r => by simp only [rowOf, hm]) h (fun r j => ?_) (Or.inr ⟨rfl, fun _ => rfl⟩)
    simp only [← tdiv_neg_two]
    rfl
  case tnn4 =>
    rw [dWriteTcTnn_inv hw]
    refine cells_flat (fp := fun w => bits w 0 1) (fm := fun w => bits w 1 1) (fun w s => by simp only [encP, hm])
      (fun w s => by simp only [encM, hm])
      (fun r => by simp only [rowOf, hm]) h (fun r j => ?_) (Or.inl fun r j => ?_)
    · simp [gdTc, Mat.over_get, bits]
    · simp [gdTc, Mat.over_get, bits]
  case tnn5 =>
    rw [dWriteTcTnn_inv hw]
    refine cells_flat (fp := fun w => bits (w + 1) 0 1) (fm := fun w => bits (w + 1) 1 1) (fun w s => by simp only [encP, hm])
      (fun w s => by simp only [encM, hm])
      (fun r => by simp only [rowOf, hm]) h (fun r j => ?_) (Or.inl fun r j => ?_)
    · simp [gdTc, Mat.over_get, bits]
    · simp [gdTc, Mat.over_get, bits]

/-- Row sums after a successful write. -/
theorem dWriteGd_sums (hc : CoreShape E cfg c) (hs : hasSums cfg.mode = true)
    (hw : dWriteGd E cfg c mat m n = .ok gd') :
    gd'.sumW = c.gd.sumW.over m fun i => ∑ j ∈ range n, mat.get (n * i + j) := by
  unfold dWriteGd at hw
  rw [hc.mode] at hw
  cases hm : cfg.mode <;> simp only [hm] at hw hs
  case iDiffWDiff1 | iDiffWDiff2 | iOffsWDiff | iTcWDiff | iUintWDiff => rw [dWriteDiff_inv hw]; rfl
  case bnn1 | bnn2 | bnn5 | bnn6 => rw [(dWriteDiffBnn_inv hw).1]; rfl
  case tnn1 | tnn2 | tnn3 => rw [(dWriteDiffTnn_inv hw).1]; rfl
  all_goals simp [hasSums] at hs

/-! ## Legal writes succeed -/

theorem two_pow_le {k : Nat} (h : k ≤ 31) : (2 : Int) ^ k ≤ 2147483648 := by
  calc (2 : Int) ^ k ≤ 2 ^ 31 := pow_le_pow_right₀ (by norm_num) h
    _ = _ := by norm_num

theorem Fits.row (h : CfgOk cfg) (hd : Accepted cfg m n) : m ≤ cfg.R ∧ m * cfg.S ≤ cfg.R := by
  have h1 := cfgOk_S_pos h
  have h2 := hd.1
  unfold Cfg.R
  constructor
  · nlinarith
  · exact Nat.mul_le_mul_right _ h2

theorem dWriteGd_total (hok : CfgOk cfg) (hc : CoreShape E cfg c) (hd : Accepted cfg m n)
    (hmat : m * n ≤ mat.size) (hl : LegalMat cfg (entry mat n) m n) (hr : SumRoom cfg m n) :
    ∃ gd', dWriteGd E cfg c mat m n = .ok gd' := by
  have hfit := Fits.row hok hd
  have hpr := hc.gd.p
  have hmr := hc.gd.m
  have hsw := hc.gd.sumW
  unfold Mat.Is at hpr hmr
  have hR : m * cfg.split.length ≤ cfg.R := hfit.2
  obtain ⟨hd1, hd2, hd3⟩ := hd
  unfold dWriteGd
  rw [hc.mode]
  cases hm : cfg.mode <;> simp only []
  case iDiffWDiff1 | iDiffWDiff2 | iOffsWDiff | iTcWDiff | iUintWDiff =>
    have hi := intOk hok (by rw [hm]; rfl)
    refine ⟨_, dWriteDiff_ok hc.shift_size (fun s _ => hi.shift_lt hc s) (fun s hs => hi.sp' s hs)
      (by omega) (by omega) (by omega) (by omega) (by omega) hmat fun i him => ?_⟩
    refine le_trans ?_ (hr hi.isInt (by omega))
    calc ∑ j ∈ range n, |mat.get (n * i + j)| ≤ ∑ j ∈ range n, 2 ^ cfg.wBit := by
          refine sum_le_sum fun j hj => ?_
          have := hl i j him (mem_range.1 hj)
          simp only [LegalW, hm, entry] at this
          exact this.le
      _ = _ := by simp
  case iUintWOffs =>
    have hi := intOk hok (by rw [hm]; rfl)
    refine ⟨_, dWriteOffs_ok hc.shift_size (fun s _ => hi.shift_lt hc s) (fun s hs => hi.sp' s hs)
      hi.w1 hi.w31 (by omega) (by omega) hmat fun i j him hj => ?_⟩
    have := hl i j him hj
    simp only [LegalW, hm, entry] at this
    have h2 : (2 : Int) ^ (cfg.wBit - 1) ≤ 2 ^ 30 :=
      pow_le_pow_right₀ (by norm_num) (by have := hi.w31; omega)
    constructor <;> norm_num at h2 ⊢ <;> linarith [this.1, this.2]
  case bnn1 | bnn2 | bnn5 | bnn6 =>
    refine ⟨_, dWriteDiffBnn_ok (by omega) (by omega) (by omega) (by omega) (by omega) hmat hd3
      fun i j him hj => ?_⟩
    have := hl i j him hj
    simpa only [LegalW, hm, entry, IsBin] using this
  case tnn1 | tnn2 | tnn3 =>
    refine ⟨_, dWriteDiffTnn_ok (by omega) (by omega) (by omega) (by omega) (by omega) hmat hd3
      fun i j him hj => ?_⟩
    have := hl i j him hj
    simpa only [LegalW, hm, entry, IsTern] using this
  case bnn3 =>
    refine ⟨_, dWriteBnn3_ok (by omega) (by omega) hmat fun i j him hj => ?_⟩
    have := hl i j him hj
    simp only [LegalW, hm, entry] at this
    rcases this with h | h <;> rw [h] <;> decide
  case bnn4 =>
    refine ⟨_, dWriteBnn4_ok (by omega) (by omega) hmat fun i j him hj => ?_⟩
    have := hl i j him hj
    simp only [LegalW, hm, entry] at this
    rcases this with h | h <;> rw [h] <;> decide
  case tnn4 | tnn5 =>
    have hsp : cfg.split = [1, 1] := by
      have := hok
      simp only [CfgOk, hm] at this
      exact this.1
    rw [hsp]
    refine ⟨_, dWriteTcTnn_ok (by omega) (by omega) (by omega) (by omega) hmat fun i j him hj => ?_⟩
    have := hl i j him hj
    simp only [LegalW, hm, entry] at this
    rcases this with h | h | h <;> rw [h] <;> decide

/-- The digital part of a write succeeds when the states do, with or without read-disturb bookkeeping. -/
theorem xWriteD_of_gd (hs : Shape E cfg x) {gd' : Gd} (hgd : dWriteGd E cfg x.mapper.core mat m n = .ok gd') :
    ∃ r, xWriteD E cfg x mat m n = .ok r := by
  have hgs : GdShape cfg gd' := (sat_dWriteGd lax_true hs.core (Fits.mk' fun h => absurd trivial h)
    (fun h => absurd trivial h)).of_ok hgd
  have hdw : dWrite E cfg x.mapper mat m n
      = .ok { x.mapper with core := { x.mapper.core with gd := gd' } } := by
    unfold dWrite; rw [hgd, ok_bind]
  unfold xWriteD
  split
  · next hrd =>
    obtain ⟨rd, hx, hrs⟩ := hs.rd hrd
    rw [hdw, ok_bind, hx]
    dsimp only
    have tot : Sat (fun _ => False) (do
        let up ← resetMat cfg x.mapper.core.gd.p gd'.p
        let um ← resetMat cfg x.mapper.core.gd.m gd'.m
        let rd ← updateCycles rd up um
        let rd ← (if cfg.strategy = .cellBased then resetReads cfg rd else .ok rd)
        .ok ((⟨{ x.mapper.core with gd := gd' }, x.mapper.aux⟩ : Mapper K), some rd))
        fun _ => True := by
      refine Sat.bind (sat_resetMat hs.core.gd.p hgs.p) fun up hup => ?_
      refine Sat.bind (sat_resetMat hs.core.gd.m hgs.m) fun um hum => ?_
      refine Sat.bind (sat_updateCycles hrs hup hum) fun rd' hrd' => ?_
      refine Sat.bind (P := fun _ => True) (Sat.ite (fun _ => (sat_resetReads hrd').true)
        fun _ => trivial) fun _ _ => trivial
    rcases tot.elim with ⟨r, h, _⟩ | ⟨e, _, h⟩
    · exact ⟨r, h⟩
    · exact h.elim
  · rw [hdw, ok_bind]; exact ⟨_, rfl⟩

/-- The digital part of a legal write succeeds, with or without read-disturb bookkeeping. -/
theorem xWriteD_total (hok : CfgOk cfg) (hs : Shape E cfg x) (hd : Accepted cfg m n)
    (hmat : m * n ≤ mat.size) (hl : LegalMat cfg (entry mat n) m n) (hr : SumRoom cfg m n) :
    ∃ r, xWriteD E cfg x mat m n = .ok r := by
  obtain ⟨gd', hgd⟩ := dWriteGd_total hok hs.core hd hmat hl hr
  exact xWriteD_of_gd hs hgd

/-- A digital legal write succeeds. -/
theorem xWrite_total (hok : CfgOk cfg) (hs : Shape E cfg x) (hdo : cfg.digitalOnly = true)
    (hd : Accepted cfg m n)
    (hmat : m * n ≤ mat.size) (hl : LegalMat cfg (entry mat n) m n) (hr : SumRoom cfg m n) :
    ∃ x', xWrite E cfg x mat m n = .ok x' := by
  obtain ⟨r, hr'⟩ := xWriteD_total hok hs hd hmat hl hr
  unfold xWrite
  rw [hr', ok_bind, if_pos hdo, ok_bind]
  exact ⟨_, rfl⟩

/-! ## Multiplications read the store -/

/-- Every position of the block was written with a legal weight. -/
def Legal (cfg : Cfg K) (L : Nat → Nat → Option Int) (m n : Nat) : Prop :=
  ∀ i j, i < m → j < n → ∃ w, L i j = some w ∧ LegalW cfg w

/-- Value of a position. -/
def val (L : Nat → Nat → Option Int) (i j : Nat) : Int := (L i j).getD 0

theorem Legal.val (h : Legal cfg L m n) {i j : Nat} (hi : i < m) (hj : j < n) :
    LegalW cfg (val L i j) ∧ L i j = some (val L i j) := by
  obtain ⟨w, h1, h2⟩ := h i j hi hj
  simp only [Acs.val, h1, Option.getD_some]
  exact ⟨h2, trivial⟩

theorem abs_lt_emod {w : Int} {k : Nat} (h0 : 0 ≤ w) (h : |w| < 2 ^ k) : w % 2 ^ k = w := by
  rw [abs_of_nonneg h0] at h
  exact Int.emod_eq_of_lt h0 h

theorem enc_diff (hi : IntOk cfg) (hw : ∀ w, LegalW cfg w → |w| < 2 ^ cfg.wBit)
    (hp : ∀ w s, encP cfg w s = cellP w (shiftOf cfg.split s) (cfg.split.getD s 0))
    (hm' : ∀ w s, encM cfg w s = cellM w (shiftOf cfg.split s) (cfg.split.getD s 0))
    (hrow : ∀ r, rowOf cfg r = (r / cfg.split.length, r % cfg.split.length))
    (hc : CoreShape E cfg c) (h : Cells cfg c.gd L) (hl : Legal cfg L m n) :
    Enc cfg.S c.shift.get c.D (val L) m n := by
  have hD : ∀ i j s, i < m → j < n → s < cfg.S → c.D (i * cfg.S + s) j
      = cellP (val L i j) (shiftOf cfg.split s) (cfg.split.getD s 0)
        - cellM (val L i j) (shiftOf cfg.split s) (cfg.split.getD s 0) := by
    intro i j s hi' hj hs
    unfold Core.D
    rw [h.p, h.m]
    simp only [hrow]
    have e1 : (i * cfg.S + s) / cfg.split.length = i := blk_div hs
    have e2 : (i * cfg.S + s) % cfg.split.length = s := blk_mod hs
    rw [e1, e2, (hl.val hi' hj).2]
    simp only [cellOf, hp, hm']
  have hsum := hi.sum
  constructor
  · intro i j hi' hj
    have hlw := hw _ (hl.val hi' hj).1
    rw [sum_congr rfl fun s hs => by rw [hD i j s hi' hj (mem_range.1 hs), hi.shift hc]]
    by_cases h0 : 0 ≤ val L i j
    · rw [sum_congr rfl fun s _ => by rw [cellP, cellM, if_pos h0, if_pos h0, sub_zero]]
      rw [show (∑ s ∈ range cfg.S, dg (val L i j) (shiftOf cfg.split s) (cfg.split.getD s 0)
        * 2 ^ shiftOf cfg.split s) = _ from bits_sum _ _, hsum, abs_lt_emod h0 hlw]
    · rw [sum_congr rfl fun s _ => by rw [cellP, cellM, if_neg h0, if_neg h0, zero_sub, neg_mul]]
      rw [sum_neg_distrib, show (∑ s ∈ range cfg.S, dg (-val L i j) (shiftOf cfg.split s)
        (cfg.split.getD s 0) * 2 ^ shiftOf cfg.split s) = _ from bits_sum _ _, hsum,
        abs_lt_emod (by omega) (by rwa [abs_neg]), neg_neg]
  · intro i j hi' hj
    have hlw := hw _ (hl.val hi' hj).1
    rw [sum_congr rfl fun s hs => by rw [hD i j s hi' hj (mem_range.1 hs), hi.shift hc]]
    by_cases h0 : 0 ≤ val L i j
    · rw [sum_congr rfl fun s _ => by rw [cellP, cellM, if_pos h0, if_pos h0, sub_zero,
        abs_of_nonneg (dg_nonneg _ _ _)]]
      rw [show (∑ s ∈ range cfg.S, dg (val L i j) (shiftOf cfg.split s) (cfg.split.getD s 0)
        * 2 ^ shiftOf cfg.split s) = _ from bits_sum _ _, hsum, abs_lt_emod h0 hlw, abs_of_nonneg h0]
    · rw [sum_congr rfl fun s _ => by rw [cellP, cellM, if_neg h0, if_neg h0, zero_sub, abs_neg,
        abs_of_nonneg (dg_nonneg _ _ _)]]
      rw [show (∑ s ∈ range cfg.S, dg (-val L i j) (shiftOf cfg.split s)
        (cfg.split.getD s 0) * 2 ^ shiftOf cfg.split s) = _ from bits_sum _ _, hsum,
        abs_lt_emod (by omega) (by rwa [abs_neg]), abs_of_neg (by omega)]

theorem enc_offs (hi : IntOk cfg)
    (hw : ∀ w, LegalW cfg w → -2 ^ (cfg.wBit - 1) ≤ w ∧ w < 2 ^ (cfg.wBit - 1))
    (hp : ∀ w s, encP cfg w s
      = dg (w + 2 ^ (cfg.wBit - 1)) (shiftOf cfg.split s) (cfg.split.getD s 0))
    (hrow : ∀ r, rowOf cfg r = (r / cfg.split.length, r % cfg.split.length))
    (hc : CoreShape E cfg c) (h : Cells cfg c.gd L) (hl : Legal cfg L m n) :
    Enc cfg.S c.shift.get c.gd.p.get (fun i j => val L i j + 2 ^ (cfg.wBit - 1)) m n := by
  have hD : ∀ i j s, i < m → j < n → s < cfg.S → c.gd.p.get (i * cfg.S + s) j
      = dg (val L i j + 2 ^ (cfg.wBit - 1)) (shiftOf cfg.split s) (cfg.split.getD s 0) := by
    intro i j s hi' hj hs
    rw [h.p]
    simp only [hrow]
    have e1 : (i * cfg.S + s) / cfg.split.length = i := blk_div hs
    have e2 : (i * cfg.S + s) % cfg.split.length = s := blk_mod hs
    rw [e1, e2, (hl.val hi' hj).2]
    simp only [cellOf, hp]
  have hsum := hi.sum
  have hpow : (2 : Int) ^ cfg.wBit = 2 ^ (cfg.wBit - 1) + 2 ^ (cfg.wBit - 1) := by
    obtain ⟨k, hk⟩ : ∃ k, cfg.wBit = k + 1 := ⟨cfg.wBit - 1, by have := hi.w1; omega⟩
    rw [hk, pow_succ]; simp; ring
  have hval : ∀ i j, i < m → j < n →
      ∑ s ∈ range cfg.S, c.gd.p.get (i * cfg.S + s) j * 2 ^ c.shift.get s
        = val L i j + 2 ^ (cfg.wBit - 1) := by
    intro i j hi' hj
    have hlw := hw _ (hl.val hi' hj).1
    rw [sum_congr rfl fun s hs => by rw [hD i j s hi' hj (mem_range.1 hs), hi.shift hc]]
    rw [show (∑ s ∈ range cfg.S, dg (val L i j + 2 ^ (cfg.wBit - 1)) (shiftOf cfg.split s)
      (cfg.split.getD s 0) * 2 ^ shiftOf cfg.split s) = _ from bits_sum _ _, hsum]
    exact Int.emod_eq_of_lt (by linarith [hlw.1]) (by rw [hpow]; linarith [hlw.2])
  refine ⟨hval, fun i j hi' hj => ?_⟩
  have hlw := hw _ (hl.val hi' hj).1
  rw [abs_of_nonneg (by linarith [hlw.1]), ← hval i j hi' hj]
  refine sum_congr rfl fun s hs => ?_
  rw [abs_of_nonneg]
  rw [hD i j s hi' hj (mem_range.1 hs)]
  exact dg_nonneg _ _ _

theorem pm_of_cells (hp : ∀ w s, encP cfg w s = if w = 1 then 1 else 0)
    (hm : ∀ w s, encM cfg w s = if w = -1 then 1 else 0) (hrow : ∀ r, rowOf cfg r = (r, 0))
    (ht : ∀ w, LegalW cfg w → IsTern w) (h : Cells cfg c.gd L) (hl : Legal cfg L m n) :
    PM c.gd (val L) m n := by
  refine ⟨fun i j hi hj => ?_, fun i j hi hj => ?_, fun i j hi hj => ht _ (hl.val hi hj).1⟩
  · rw [h.p]; simp only [hrow]; rw [(hl.val hi hj).2]; simp only [cellOf, hp]
  · rw [h.m]; simp only [hrow]; rw [(hl.val hi hj).2]; simp only [cellOf, hm]

theorem sum_abs_le {f : Nat → Int} {B : Int} (h : ∀ j, j < n → |f j| ≤ B) :
    ∑ j ∈ range n, |f j| ≤ n * B := by
  calc ∑ j ∈ range n, |f j| ≤ ∑ j ∈ range n, B := sum_le_sum fun j hj => h j (mem_range.1 hj)
    _ = n * B := by simp

theorem sum_mul_abs_le {f g : Nat → Int} {B D : Int} (hB : 0 ≤ B) (h : ∀ j, j < n → |f j| ≤ B)
    (h' : ∀ j, j < n → |g j| ≤ D) : ∑ j ∈ range n, |f j| * |g j| ≤ n * (B * D) := by
  calc ∑ j ∈ range n, |f j| * |g j| ≤ ∑ j ∈ range n, B * D := sum_le_sum fun j hj =>
        mul_le_mul (h j (mem_range.1 hj)) (h' j (mem_range.1 hj)) (abs_nonneg _) hB
    _ = _ := by simp

/-- Hypotheses of an exact multiplication. -/
structure MvmHyp (E : Env K) (cfg : Cfg K) (c : Core K) (a : Aux K) (L : Nat → Nat → Option Int)
    (res vec : Vec Int) (m n : Nat) : Prop where
  hstrict' : shiftsSigned cfg.mode → E.strict = false
  hok : CfgOk cfg
  hc : CoreShape E cfg c
  ha : AuxShape cfg a
  h : Cells cfg c.gd L
  hl : Legal cfg L m n
  hd : Accepted cfg m n
  hsums : keepsRowSums cfg.mode → ∀ i, i < m → c.gd.sumW.get i = ∑ j ∈ range n, val L i j
  hv : n ≤ vec.size
  hr : m ≤ res.size
  hx : LegalVec cfg vec n
  hroom : Room cfg res m n

theorem dMvm_exact_iDiffWDiff1 (H : MvmHyp E cfg c a L res vec m n) (hm : cfg.mode = .iDiffWDiff1) :
    Exact (dMvm E cfg c a res vec m n) a res vec (val L) m n := by
  obtain ⟨hstrict', hok, hc, ha, h, hl, hd, hsums, hv, hr, hx, hroom⟩ := H
  have hstrict := hstrict' (by rw [hm]; trivial)
  have hfit := Fits.row hok hd
  have hpr := hc.gd.p
  have hmr := hc.gd.m
  have hsw := hc.gd.sumW
  unfold Mat.Is at hpr hmr
  obtain ⟨hd1, hd2, hd3⟩ := hd
  have hdim : GdDims c.gd (m * cfg.S) m n := ⟨by omega, by omega, by omega, by omega, by omega⟩
  have hdim1 : GdDims c.gd m m n := ⟨by omega, by omega, by omega, by omega, by omega⟩
  have hscr : IntScratch a cfg.S m n :=
    ⟨by rw [ha.vdP]; omega, by rw [ha.vdM]; omega, by rw [ha.tmpInt]; omega⟩
  have hins : InScratch a n := ⟨by rw [ha.vdP]; omega, by rw [ha.vdM]; omega⟩
  unfold dMvm
  rw [hc.mode, hm]
  dsimp only
  have hi := intOk hok (by rw [hm]; rfl)
  have hw31 := two_pow_le hi.w31
  have hlw : ∀ w, LegalW cfg w → |w| < 2 ^ cfg.wBit := fun w h => by
    simpa only [LegalW, hm] using h
  have henc := enc_diff hi hlw (fun w s => by simp only [encP, hm]; rfl)
    (fun w s => by simp only [encM, hm]; rfl) (fun r => by simp only [rowOf, hm]) hc h hl
  have hW : ∀ i j, i < m → j < n → |val L i j| ≤ 2147483647 := fun i j him hj => by
    have := hlw _ (hl.val him hj).1; linarith
  have hpow : (2 : Int) ^ (cfg.iBit - 1) ≤ 2 ^ cfg.iBit :=
    pow_le_pow_right₀ (by norm_num) (by omega)
  have hpow' : (2 : Int) ^ cfg.iBit = 2 ^ (cfg.iBit - 1) + 2 ^ (cfg.iBit - 1) := by
    obtain ⟨k, hk⟩ : ∃ k, cfg.iBit = k + 1 := ⟨cfg.iBit - 1, by have := hi.i1; omega⟩
    rw [hk, pow_succ]; simp; ring
  have hi31 := two_pow_le hi.i31
  have hrm : ∀ i, i < m → |res.get i| + (n : Int) * (2 ^ cfg.wBit * 2 ^ cfg.iBit) ≤ 2147483647 :=
    fun i him => by
      have := hroom i him
      simp only [peak, hm, pow_add] at this
      exact this
  have hb1 : ∀ i, i < m → |res.get i| + ∑ j ∈ range n, |val L i j| * |vec.get j| ≤ 2147483647 := by
    intro i him
    have := sum_mul_abs_le (n := n) (f := val L i) (g := vec.get) (B := 2 ^ cfg.wBit)
      (D := 2 ^ cfg.iBit) (by positivity) (fun j hj => (hlw _ (hl.val him hj).1).le)
      (fun j hj => by
        have := hx j hj
        simp only [LegalX, hm] at this
        rw [abs_le]; constructor <;> linarith [this.1, this.2])
    linarith [hrm i him]
  have hb2 : ∀ i, i < m →
      |res.get i| + (∑ j ∈ range n, |val L i j|) * 2 ^ cfg.iBit ≤ 2147483647 := by
    intro i him
    have := sum_abs_le (n := n) (f := val L i) fun j hj => (hlw _ (hl.val him hj).1).le
    have h2 : (∑ j ∈ range n, |val L i j|) * 2 ^ cfg.iBit
        ≤ (n * 2 ^ cfg.wBit) * 2 ^ cfg.iBit :=
      mul_le_mul_of_nonneg_right this (by positivity)
    have := hrm i him
    linarith
  exact dMvmIntI_ok hstrict hdim hscr hc.shift_size (fun s _ => hi.shift_lt hc s) henc hv hr
      (fun j hj => by
        have := hx j hj
        simp only [LegalX, hm] at this
        rw [abs_le]; constructor <;> linarith [this.1, this.2]) hW hb1

theorem dMvm_exact_iDiffWDiff2 (H : MvmHyp E cfg c a L res vec m n) (hm : cfg.mode = .iDiffWDiff2) :
    Exact (dMvm E cfg c a res vec m n) a res vec (val L) m n := by
  obtain ⟨hstrict', hok, hc, ha, h, hl, hd, hsums, hv, hr, hx, hroom⟩ := H
  have hstrict := hstrict' (by rw [hm]; trivial)
  have hfit := Fits.row hok hd
  have hpr := hc.gd.p
  have hmr := hc.gd.m
  have hsw := hc.gd.sumW
  unfold Mat.Is at hpr hmr
  obtain ⟨hd1, hd2, hd3⟩ := hd
  have hdim : GdDims c.gd (m * cfg.S) m n := ⟨by omega, by omega, by omega, by omega, by omega⟩
  have hdim1 : GdDims c.gd m m n := ⟨by omega, by omega, by omega, by omega, by omega⟩
  have hscr : IntScratch a cfg.S m n :=
    ⟨by rw [ha.vdP]; omega, by rw [ha.vdM]; omega, by rw [ha.tmpInt]; omega⟩
  have hins : InScratch a n := ⟨by rw [ha.vdP]; omega, by rw [ha.vdM]; omega⟩
  unfold dMvm
  rw [hc.mode, hm]
  dsimp only
  have hi := intOk hok (by rw [hm]; rfl)
  have hw31 := two_pow_le hi.w31
  have hlw : ∀ w, LegalW cfg w → |w| < 2 ^ cfg.wBit := fun w h => by
    simpa only [LegalW, hm] using h
  have henc := enc_diff hi hlw (fun w s => by simp only [encP, hm]; rfl)
    (fun w s => by simp only [encM, hm]; rfl) (fun r => by simp only [rowOf, hm]) hc h hl
  have hW : ∀ i j, i < m → j < n → |val L i j| ≤ 2147483647 := fun i j him hj => by
    have := hlw _ (hl.val him hj).1; linarith
  have hpow : (2 : Int) ^ (cfg.iBit - 1) ≤ 2 ^ cfg.iBit :=
    pow_le_pow_right₀ (by norm_num) (by omega)
  have hpow' : (2 : Int) ^ cfg.iBit = 2 ^ (cfg.iBit - 1) + 2 ^ (cfg.iBit - 1) := by
    obtain ⟨k, hk⟩ : ∃ k, cfg.iBit = k + 1 := ⟨cfg.iBit - 1, by have := hi.i1; omega⟩
    rw [hk, pow_succ]; simp; ring
  have hi31 := two_pow_le hi.i31
  have hrm : ∀ i, i < m → |res.get i| + (n : Int) * (2 ^ cfg.wBit * 2 ^ cfg.iBit) ≤ 2147483647 :=
    fun i him => by
      have := hroom i him
      simp only [peak, hm, pow_add] at this
      exact this
  have hb1 : ∀ i, i < m → |res.get i| + ∑ j ∈ range n, |val L i j| * |vec.get j| ≤ 2147483647 := by
    intro i him
    have := sum_mul_abs_le (n := n) (f := val L i) (g := vec.get) (B := 2 ^ cfg.wBit)
      (D := 2 ^ cfg.iBit) (by positivity) (fun j hj => (hlw _ (hl.val him hj).1).le)
      (fun j hj => by
        have := hx j hj
        simp only [LegalX, hm] at this
        rw [abs_le]; constructor <;> linarith [this.1, this.2])
    linarith [hrm i him]
  have hb2 : ∀ i, i < m →
      |res.get i| + (∑ j ∈ range n, |val L i j|) * 2 ^ cfg.iBit ≤ 2147483647 := by
    intro i him
    have := sum_abs_le (n := n) (f := val L i) fun j hj => (hlw _ (hl.val him hj).1).le
    have h2 : (∑ j ∈ range n, |val L i j|) * 2 ^ cfg.iBit
        ≤ (n * 2 ^ cfg.wBit) * 2 ^ cfg.iBit :=
      mul_le_mul_of_nonneg_right this (by positivity)
    have := hrm i him
    linarith
  exact dMvmIntI_ok hstrict hdim hscr hc.shift_size (fun s _ => hi.shift_lt hc s) henc hv hr
      (fun j hj => by
        have := hx j hj
        simp only [LegalX, hm] at this
        rw [abs_le]; constructor <;> linarith [this.1, this.2]) hW hb1

theorem dMvm_exact_iOffsWDiff (H : MvmHyp E cfg c a L res vec m n) (hm : cfg.mode = .iOffsWDiff) :
    Exact (dMvm E cfg c a res vec m n) a res vec (val L) m n := by
  obtain ⟨hstrict', hok, hc, ha, h, hl, hd, hsums, hv, hr, hx, hroom⟩ := H
  have hstrict := hstrict' (by rw [hm]; trivial)
  have hfit := Fits.row hok hd
  have hpr := hc.gd.p
  have hmr := hc.gd.m
  have hsw := hc.gd.sumW
  unfold Mat.Is at hpr hmr
  obtain ⟨hd1, hd2, hd3⟩ := hd
  have hdim : GdDims c.gd (m * cfg.S) m n := ⟨by omega, by omega, by omega, by omega, by omega⟩
  have hdim1 : GdDims c.gd m m n := ⟨by omega, by omega, by omega, by omega, by omega⟩
  have hscr : IntScratch a cfg.S m n :=
    ⟨by rw [ha.vdP]; omega, by rw [ha.vdM]; omega, by rw [ha.tmpInt]; omega⟩
  have hins : InScratch a n := ⟨by rw [ha.vdP]; omega, by rw [ha.vdM]; omega⟩
  unfold dMvm
  rw [hc.mode, hm]
  dsimp only
  have hi := intOk hok (by rw [hm]; rfl)
  have hw31 := two_pow_le hi.w31
  have hlw : ∀ w, LegalW cfg w → |w| < 2 ^ cfg.wBit := fun w h => by
    simpa only [LegalW, hm] using h
  have henc := enc_diff hi hlw (fun w s => by simp only [encP, hm]; rfl)
    (fun w s => by simp only [encM, hm]; rfl) (fun r => by simp only [rowOf, hm]) hc h hl
  have hW : ∀ i j, i < m → j < n → |val L i j| ≤ 2147483647 := fun i j him hj => by
    have := hlw _ (hl.val him hj).1; linarith
  have hpow : (2 : Int) ^ (cfg.iBit - 1) ≤ 2 ^ cfg.iBit :=
    pow_le_pow_right₀ (by norm_num) (by omega)
  have hpow' : (2 : Int) ^ cfg.iBit = 2 ^ (cfg.iBit - 1) + 2 ^ (cfg.iBit - 1) := by
    obtain ⟨k, hk⟩ : ∃ k, cfg.iBit = k + 1 := ⟨cfg.iBit - 1, by have := hi.i1; omega⟩
    rw [hk, pow_succ]; simp; ring
  have hi31 := two_pow_le hi.i31
  have hrm : ∀ i, i < m → |res.get i| + (n : Int) * (2 ^ cfg.wBit * 2 ^ cfg.iBit) ≤ 2147483647 :=
    fun i him => by
      have := hroom i him
      simp only [peak, hm, pow_add] at this
      exact this
  have hb1 : ∀ i, i < m → |res.get i| + ∑ j ∈ range n, |val L i j| * |vec.get j| ≤ 2147483647 := by
    intro i him
    have := sum_mul_abs_le (n := n) (f := val L i) (g := vec.get) (B := 2 ^ cfg.wBit)
      (D := 2 ^ cfg.iBit) (by positivity) (fun j hj => (hlw _ (hl.val him hj).1).le)
      (fun j hj => by
        have := hx j hj
        simp only [LegalX, hm] at this
        rw [abs_le]; constructor <;> linarith [this.1, this.2])
    linarith [hrm i him]
  have hb2 : ∀ i, i < m →
      |res.get i| + (∑ j ∈ range n, |val L i j|) * 2 ^ cfg.iBit ≤ 2147483647 := by
    intro i him
    have := sum_abs_le (n := n) (f := val L i) fun j hj => (hlw _ (hl.val him hj).1).le
    have h2 : (∑ j ∈ range n, |val L i j|) * 2 ^ cfg.iBit
        ≤ (n * 2 ^ cfg.wBit) * 2 ^ cfg.iBit :=
      mul_le_mul_of_nonneg_right this (by positivity)
    have := hrm i him
    linarith
  exact dMvmIntII_ok hstrict hdim hscr hc.shift_size (fun s _ => hi.shift_lt hc s) henc
      (hsums (by rw [hm]; trivial)) hi.i1 hi.i31 hv hr
      (fun j hj => by
        have := hx j hj
        simp only [LegalX, hm] at this
        constructor <;> linarith [this.1, this.2]) hW hb2
      (fun j hj => by
        have := hx j hj
        simp only [LegalX, hm] at this
        constructor <;> linarith [this.1, this.2])

theorem dMvm_exact_iTcWDiff (H : MvmHyp E cfg c a L res vec m n) (hm : cfg.mode = .iTcWDiff) :
    Exact (dMvm E cfg c a res vec m n) a res vec (val L) m n := by
  obtain ⟨hstrict', hok, hc, ha, h, hl, hd, hsums, hv, hr, hx, hroom⟩ := H
  have hstrict := hstrict' (by rw [hm]; trivial)
  have hfit := Fits.row hok hd
  have hpr := hc.gd.p
  have hmr := hc.gd.m
  have hsw := hc.gd.sumW
  unfold Mat.Is at hpr hmr
  obtain ⟨hd1, hd2, hd3⟩ := hd
  have hdim : GdDims c.gd (m * cfg.S) m n := ⟨by omega, by omega, by omega, by omega, by omega⟩
  have hdim1 : GdDims c.gd m m n := ⟨by omega, by omega, by omega, by omega, by omega⟩
  have hscr : IntScratch a cfg.S m n :=
    ⟨by rw [ha.vdP]; omega, by rw [ha.vdM]; omega, by rw [ha.tmpInt]; omega⟩
  have hins : InScratch a n := ⟨by rw [ha.vdP]; omega, by rw [ha.vdM]; omega⟩
  unfold dMvm
  rw [hc.mode, hm]
  dsimp only
  have hi := intOk hok (by rw [hm]; rfl)
  have hw31 := two_pow_le hi.w31
  have hlw : ∀ w, LegalW cfg w → |w| < 2 ^ cfg.wBit := fun w h => by
    simpa only [LegalW, hm] using h
  have henc := enc_diff hi hlw (fun w s => by simp only [encP, hm]; rfl)
    (fun w s => by simp only [encM, hm]; rfl) (fun r => by simp only [rowOf, hm]) hc h hl
  have hW : ∀ i j, i < m → j < n → |val L i j| ≤ 2147483647 := fun i j him hj => by
    have := hlw _ (hl.val him hj).1; linarith
  have hpow : (2 : Int) ^ (cfg.iBit - 1) ≤ 2 ^ cfg.iBit :=
    pow_le_pow_right₀ (by norm_num) (by omega)
  have hpow' : (2 : Int) ^ cfg.iBit = 2 ^ (cfg.iBit - 1) + 2 ^ (cfg.iBit - 1) := by
    obtain ⟨k, hk⟩ : ∃ k, cfg.iBit = k + 1 := ⟨cfg.iBit - 1, by have := hi.i1; omega⟩
    rw [hk, pow_succ]; simp; ring
  have hi31 := two_pow_le hi.i31
  have hrm : ∀ i, i < m → |res.get i| + (n : Int) * (2 ^ cfg.wBit * 2 ^ cfg.iBit) ≤ 2147483647 :=
    fun i him => by
      have := hroom i him
      simp only [peak, hm, pow_add] at this
      exact this
  have hb1 : ∀ i, i < m → |res.get i| + ∑ j ∈ range n, |val L i j| * |vec.get j| ≤ 2147483647 := by
    intro i him
    have := sum_mul_abs_le (n := n) (f := val L i) (g := vec.get) (B := 2 ^ cfg.wBit)
      (D := 2 ^ cfg.iBit) (by positivity) (fun j hj => (hlw _ (hl.val him hj).1).le)
      (fun j hj => by
        have := hx j hj
        simp only [LegalX, hm] at this
        rw [abs_le]; constructor <;> linarith [this.1, this.2])
    linarith [hrm i him]
  have hb2 : ∀ i, i < m →
      |res.get i| + (∑ j ∈ range n, |val L i j|) * 2 ^ cfg.iBit ≤ 2147483647 := by
    intro i him
    have := sum_abs_le (n := n) (f := val L i) fun j hj => (hlw _ (hl.val him hj).1).le
    have h2 : (∑ j ∈ range n, |val L i j|) * 2 ^ cfg.iBit
        ≤ (n * 2 ^ cfg.wBit) * 2 ^ cfg.iBit :=
      mul_le_mul_of_nonneg_right this (by positivity)
    have := hrm i him
    linarith
  exact dMvmIntIII_ok hstrict hdim hscr hc.shift_size (fun s _ => hi.shift_lt hc s) henc
      hi.i1 hi.i31 hv hr
      (fun j hj => by
        have := hx j hj
        simpa only [LegalX, hm] using this) hW hb2

theorem dMvm_exact_iUintWDiff (H : MvmHyp E cfg c a L res vec m n) (hm : cfg.mode = .iUintWDiff) :
    Exact (dMvm E cfg c a res vec m n) a res vec (val L) m n := by
  obtain ⟨hstrict', hok, hc, ha, h, hl, hd, hsums, hv, hr, hx, hroom⟩ := H
  have hstrict := hstrict' (by rw [hm]; trivial)
  have hfit := Fits.row hok hd
  have hpr := hc.gd.p
  have hmr := hc.gd.m
  have hsw := hc.gd.sumW
  unfold Mat.Is at hpr hmr
  obtain ⟨hd1, hd2, hd3⟩ := hd
  have hdim : GdDims c.gd (m * cfg.S) m n := ⟨by omega, by omega, by omega, by omega, by omega⟩
  have hdim1 : GdDims c.gd m m n := ⟨by omega, by omega, by omega, by omega, by omega⟩
  have hscr : IntScratch a cfg.S m n :=
    ⟨by rw [ha.vdP]; omega, by rw [ha.vdM]; omega, by rw [ha.tmpInt]; omega⟩
  have hins : InScratch a n := ⟨by rw [ha.vdP]; omega, by rw [ha.vdM]; omega⟩
  unfold dMvm
  rw [hc.mode, hm]
  dsimp only
  have hi := intOk hok (by rw [hm]; rfl)
  have hw31 := two_pow_le hi.w31
  have hlw : ∀ w, LegalW cfg w → |w| < 2 ^ cfg.wBit := fun w h => by
    simpa only [LegalW, hm] using h
  have henc := enc_diff hi hlw (fun w s => by simp only [encP, hm]; rfl)
    (fun w s => by simp only [encM, hm]; rfl) (fun r => by simp only [rowOf, hm]) hc h hl
  have hW : ∀ i j, i < m → j < n → |val L i j| ≤ 2147483647 := fun i j him hj => by
    have := hlw _ (hl.val him hj).1; linarith
  have hpow : (2 : Int) ^ (cfg.iBit - 1) ≤ 2 ^ cfg.iBit :=
    pow_le_pow_right₀ (by norm_num) (by omega)
  have hpow' : (2 : Int) ^ cfg.iBit = 2 ^ (cfg.iBit - 1) + 2 ^ (cfg.iBit - 1) := by
    obtain ⟨k, hk⟩ : ∃ k, cfg.iBit = k + 1 := ⟨cfg.iBit - 1, by have := hi.i1; omega⟩
    rw [hk, pow_succ]; simp; ring
  have hi31 := two_pow_le hi.i31
  have hrm : ∀ i, i < m → |res.get i| + (n : Int) * (2 ^ cfg.wBit * 2 ^ cfg.iBit) ≤ 2147483647 :=
    fun i him => by
      have := hroom i him
      simp only [peak, hm, pow_add] at this
      exact this
  have hb1 : ∀ i, i < m → |res.get i| + ∑ j ∈ range n, |val L i j| * |vec.get j| ≤ 2147483647 := by
    intro i him
    have := sum_mul_abs_le (n := n) (f := val L i) (g := vec.get) (B := 2 ^ cfg.wBit)
      (D := 2 ^ cfg.iBit) (by positivity) (fun j hj => (hlw _ (hl.val him hj).1).le)
      (fun j hj => by
        have := hx j hj
        simp only [LegalX, hm] at this
        rw [abs_le]; constructor <;> linarith [this.1, this.2])
    linarith [hrm i him]
  have hb2 : ∀ i, i < m →
      |res.get i| + (∑ j ∈ range n, |val L i j|) * 2 ^ cfg.iBit ≤ 2147483647 := by
    intro i him
    have := sum_abs_le (n := n) (f := val L i) fun j hj => (hlw _ (hl.val him hj).1).le
    have h2 : (∑ j ∈ range n, |val L i j|) * 2 ^ cfg.iBit
        ≤ (n * 2 ^ cfg.wBit) * 2 ^ cfg.iBit :=
      mul_le_mul_of_nonneg_right this (by positivity)
    have := hrm i him
    linarith
  exact dMvmIntIV_ok hstrict hdim hscr hc.shift_size (fun s _ => hi.shift_lt hc s) henc hv hr
      hW hb1

theorem dMvm_exact_iUintWOffs (H : MvmHyp E cfg c a L res vec m n) (hm : cfg.mode = .iUintWOffs) :
    Exact (dMvm E cfg c a res vec m n) a res vec (val L) m n := by
  obtain ⟨hstrict', hok, hc, ha, h, hl, hd, hsums, hv, hr, hx, hroom⟩ := H
  have hstrict := hstrict' (by rw [hm]; trivial)
  have hfit := Fits.row hok hd
  have hpr := hc.gd.p
  have hmr := hc.gd.m
  have hsw := hc.gd.sumW
  unfold Mat.Is at hpr hmr
  obtain ⟨hd1, hd2, hd3⟩ := hd
  have hdim : GdDims c.gd (m * cfg.S) m n := ⟨by omega, by omega, by omega, by omega, by omega⟩
  have hdim1 : GdDims c.gd m m n := ⟨by omega, by omega, by omega, by omega, by omega⟩
  have hscr : IntScratch a cfg.S m n :=
    ⟨by rw [ha.vdP]; omega, by rw [ha.vdM]; omega, by rw [ha.tmpInt]; omega⟩
  have hins : InScratch a n := ⟨by rw [ha.vdP]; omega, by rw [ha.vdM]; omega⟩
  unfold dMvm
  rw [hc.mode, hm]
  dsimp only
  have hi := intOk hok (by rw [hm]; rfl)
  have hlw : ∀ w, LegalW cfg w → -2 ^ (cfg.wBit - 1) ≤ w ∧ w < 2 ^ (cfg.wBit - 1) := fun w h => by
    simpa only [LegalW, hm] using h
  have henc := enc_offs hi hlw (fun w s => by simp only [encP, hm]; rfl)
    (fun r => by simp only [rowOf, hm]) hc h hl
  have hlx : ∀ j, j < n → 0 ≤ vec.get j ∧ vec.get j < 2 ^ cfg.iBit := fun j hj => by
    simpa only [LegalX, hm] using hx j hj
  have hi31 := two_pow_le hi.i31
  have hpow' : (2 : Int) ^ cfg.wBit = 2 ^ (cfg.wBit - 1) + 2 ^ (cfg.wBit - 1) := by
    obtain ⟨k, hk⟩ : ∃ k, cfg.wBit = k + 1 := ⟨cfg.wBit - 1, by have := hi.w1; omega⟩
    rw [hk, pow_succ]; simp; ring
  have hp1 : (1 : Int) ≤ 2 ^ (cfg.wBit - 1) := one_le_pow₀ (by norm_num)
  have hrm : ∀ i, i < m → |res.get i| + (n : Int) * (2 ^ cfg.wBit * 2 ^ cfg.iBit) ≤ 2147483647 :=
    fun i him => by
      have := hroom i him
      simp only [peak, hm, pow_add] at this
      exact this
  have habsx : ∀ j, j < n → |vec.get j| ≤ 2 ^ cfg.iBit := fun j hj => by
    rw [abs_of_nonneg (hlx j hj).1]; exact (hlx j hj).2.le
  refine dMvmIntV_ok hstrict hdim hscr hc.shift_size (fun s _ => hi.shift_lt hc s) henc
    (fun i j _ _ => rfl) hi.w1 hi.w31 hd3 hv hr
    (fun j hj => by constructor <;> linarith [(hlx j hj).1, (hlx j hj).2]) (fun h0 => ?_)
    (fun i him => ?_) (fun i him => ?_)
  · have h1 := hrm 0 h0
    refine (abs_sum_le_sum_abs _ _).trans ((sum_abs_le (n := n) habsx).trans ?_)
    have h2 : (n : Int) * 2 ^ cfg.iBit ≤ n * (2 ^ cfg.wBit * 2 ^ cfg.iBit) := by
      refine mul_le_mul_of_nonneg_left ?_ (by positivity)
      exact le_mul_of_one_le_left (by positivity) (one_le_pow₀ (by norm_num))
    linarith [abs_nonneg (res.get 0)]
  · have := sum_mul_abs_le (n := n) (f := fun j => val L i j + 2 ^ (cfg.wBit - 1)) (g := vec.get)
      (B := 2 ^ cfg.wBit) (D := 2 ^ cfg.iBit) (by positivity) (fun j hj => by
        have := hlw _ (hl.val him hj).1
        rw [abs_le]; constructor <;> linarith [this.1, this.2]) habsx
    linarith [hrm i him]
  · have := sum_mul_abs_le (n := n) (f := val L i) (g := vec.get)
      (B := 2 ^ cfg.wBit) (D := 2 ^ cfg.iBit) (by positivity) (fun j hj => by
        have := hlw _ (hl.val him hj).1
        rw [abs_le]; constructor <;> linarith [this.1, this.2]) habsx
    refine inI32_of_abs ((abs_add_le _ _).trans ?_)
    have h2 := abs_sum_le_sum_abs (fun j => val L i j * vec.get j) (range n)
    simp only [abs_mul] at h2
    linarith [hrm i him]

theorem dMvm_exact_bnn1 (H : MvmHyp E cfg c a L res vec m n) (hm : cfg.mode = .bnn1) :
    Exact (dMvm E cfg c a res vec m n) a res vec (val L) m n := by
  obtain ⟨_, hok, hc, ha, h, hl, hd, hsums, hv, hr, hx, hroom⟩ := H
  have hfit := Fits.row hok hd
  have hpr := hc.gd.p
  have hmr := hc.gd.m
  have hsw := hc.gd.sumW
  unfold Mat.Is at hpr hmr
  obtain ⟨hd1, hd2, hd3⟩ := hd
  have hdim : GdDims c.gd (m * cfg.S) m n := ⟨by omega, by omega, by omega, by omega, by omega⟩
  have hdim1 : GdDims c.gd m m n := ⟨by omega, by omega, by omega, by omega, by omega⟩
  have hscr : IntScratch a cfg.S m n :=
    ⟨by rw [ha.vdP]; omega, by rw [ha.vdM]; omega, by rw [ha.tmpInt]; omega⟩
  have hins : InScratch a n := ⟨by rw [ha.vdP]; omega, by rw [ha.vdM]; omega⟩
  unfold dMvm
  rw [hc.mode, hm]
  dsimp only
  have hlw : ∀ w, LegalW cfg w → IsBin w := fun w h => by simpa only [LegalW, hm, IsBin] using h
  have hpm := pm_of_cells (fun w s => by simp only [encP, hm]) (fun w s => by simp only [encM, hm])
    (fun r => by simp only [rowOf, hm]) (fun w h => (hlw w h).tern) h hl
  have hxb : ∀ j, j < n → IsBin (vec.get j) := fun j hj => by
    simpa only [LegalX, hm, IsBin] using hx j hj
  have hb : ∀ i, i < m → |res.get i| + 3 * n ≤ 2147483647 := fun i him => by
    simpa only [peak, hm] using hroom i him
  exact dMvmBnnI_ok hdim1 hins hpm (hsums (by rw [hm]; trivial)) hv hr hxb hb

theorem dMvm_exact_bnn2 (H : MvmHyp E cfg c a L res vec m n) (hm : cfg.mode = .bnn2) :
    Exact (dMvm E cfg c a res vec m n) a res vec (val L) m n := by
  obtain ⟨_, hok, hc, ha, h, hl, hd, hsums, hv, hr, hx, hroom⟩ := H
  have hfit := Fits.row hok hd
  have hpr := hc.gd.p
  have hmr := hc.gd.m
  have hsw := hc.gd.sumW
  unfold Mat.Is at hpr hmr
  obtain ⟨hd1, hd2, hd3⟩ := hd
  have hdim : GdDims c.gd (m * cfg.S) m n := ⟨by omega, by omega, by omega, by omega, by omega⟩
  have hdim1 : GdDims c.gd m m n := ⟨by omega, by omega, by omega, by omega, by omega⟩
  have hscr : IntScratch a cfg.S m n :=
    ⟨by rw [ha.vdP]; omega, by rw [ha.vdM]; omega, by rw [ha.tmpInt]; omega⟩
  have hins : InScratch a n := ⟨by rw [ha.vdP]; omega, by rw [ha.vdM]; omega⟩
  unfold dMvm
  rw [hc.mode, hm]
  dsimp only
  have hlw : ∀ w, LegalW cfg w → IsBin w := fun w h => by simpa only [LegalW, hm, IsBin] using h
  have hpm := pm_of_cells (fun w s => by simp only [encP, hm]) (fun w s => by simp only [encM, hm])
    (fun r => by simp only [rowOf, hm]) (fun w h => (hlw w h).tern) h hl
  have hxb : ∀ j, j < n → IsBin (vec.get j) := fun j hj => by
    simpa only [LegalX, hm, IsBin] using hx j hj
  have hb : ∀ i, i < m → |res.get i| + 3 * n ≤ 2147483647 := fun i him => by
    simpa only [peak, hm] using hroom i him
  exact dMvmBnnII_ok hdim1 hins hpm (hsums (by rw [hm]; trivial)) hv hr hxb hb

theorem dMvm_exact_bnn5 (H : MvmHyp E cfg c a L res vec m n) (hm : cfg.mode = .bnn5) :
    Exact (dMvm E cfg c a res vec m n) a res vec (val L) m n := by
  obtain ⟨_, hok, hc, ha, h, hl, hd, hsums, hv, hr, hx, hroom⟩ := H
  have hfit := Fits.row hok hd
  have hpr := hc.gd.p
  have hmr := hc.gd.m
  have hsw := hc.gd.sumW
  unfold Mat.Is at hpr hmr
  obtain ⟨hd1, hd2, hd3⟩ := hd
  have hdim : GdDims c.gd (m * cfg.S) m n := ⟨by omega, by omega, by omega, by omega, by omega⟩
  have hdim1 : GdDims c.gd m m n := ⟨by omega, by omega, by omega, by omega, by omega⟩
  have hscr : IntScratch a cfg.S m n :=
    ⟨by rw [ha.vdP]; omega, by rw [ha.vdM]; omega, by rw [ha.tmpInt]; omega⟩
  have hins : InScratch a n := ⟨by rw [ha.vdP]; omega, by rw [ha.vdM]; omega⟩
  unfold dMvm
  rw [hc.mode, hm]
  dsimp only
  have hlw : ∀ w, LegalW cfg w → IsBin w := fun w h => by simpa only [LegalW, hm, IsBin] using h
  have hpm := pm_of_cells (fun w s => by simp only [encP, hm]) (fun w s => by simp only [encM, hm])
    (fun r => by simp only [rowOf, hm]) (fun w h => (hlw w h).tern) h hl
  have hxb : ∀ j, j < n → IsBin (vec.get j) := fun j hj => by
    simpa only [LegalX, hm, IsBin] using hx j hj
  have hb : ∀ i, i < m → |res.get i| + 3 * n ≤ 2147483647 := fun i him => by
    simpa only [peak, hm] using hroom i him
  exact dMvmBnnV_ok hdim1 hins hpm (fun i j hi hj => hlw _ (hl.val hi hj).1) hv hr hxb hb

theorem dMvm_exact_bnn6 (H : MvmHyp E cfg c a L res vec m n) (hm : cfg.mode = .bnn6) :
    Exact (dMvm E cfg c a res vec m n) a res vec (val L) m n := by
  obtain ⟨_, hok, hc, ha, h, hl, hd, hsums, hv, hr, hx, hroom⟩ := H
  have hfit := Fits.row hok hd
  have hpr := hc.gd.p
  have hmr := hc.gd.m
  have hsw := hc.gd.sumW
  unfold Mat.Is at hpr hmr
  obtain ⟨hd1, hd2, hd3⟩ := hd
  have hdim : GdDims c.gd (m * cfg.S) m n := ⟨by omega, by omega, by omega, by omega, by omega⟩
  have hdim1 : GdDims c.gd m m n := ⟨by omega, by omega, by omega, by omega, by omega⟩
  have hscr : IntScratch a cfg.S m n :=
    ⟨by rw [ha.vdP]; omega, by rw [ha.vdM]; omega, by rw [ha.tmpInt]; omega⟩
  have hins : InScratch a n := ⟨by rw [ha.vdP]; omega, by rw [ha.vdM]; omega⟩
  unfold dMvm
  rw [hc.mode, hm]
  dsimp only
  have hlw : ∀ w, LegalW cfg w → IsBin w := fun w h => by simpa only [LegalW, hm, IsBin] using h
  have hpm := pm_of_cells (fun w s => by simp only [encP, hm]) (fun w s => by simp only [encM, hm])
    (fun r => by simp only [rowOf, hm]) (fun w h => (hlw w h).tern) h hl
  have hxb : ∀ j, j < n → IsBin (vec.get j) := fun j hj => by
    simpa only [LegalX, hm, IsBin] using hx j hj
  have hb : ∀ i, i < m → |res.get i| + 3 * n ≤ 2147483647 := fun i him => by
    simpa only [peak, hm] using hroom i him
  exact dMvmBnnVI_ok hdim1 hins hpm hv hr hxb hb

theorem dMvm_exact_bnn3 (H : MvmHyp E cfg c a L res vec m n) (hm : cfg.mode = .bnn3) :
    Exact (dMvm E cfg c a res vec m n) a res vec (val L) m n := by
  obtain ⟨_, hok, hc, ha, h, hl, hd, hsums, hv, hr, hx, hroom⟩ := H
  have hfit := Fits.row hok hd
  have hpr := hc.gd.p
  have hmr := hc.gd.m
  have hsw := hc.gd.sumW
  unfold Mat.Is at hpr hmr
  obtain ⟨hd1, hd2, hd3⟩ := hd
  have hdim : GdDims c.gd (m * cfg.S) m n := ⟨by omega, by omega, by omega, by omega, by omega⟩
  have hdim1 : GdDims c.gd m m n := ⟨by omega, by omega, by omega, by omega, by omega⟩
  have hscr : IntScratch a cfg.S m n :=
    ⟨by rw [ha.vdP]; omega, by rw [ha.vdM]; omega, by rw [ha.tmpInt]; omega⟩
  have hins : InScratch a n := ⟨by rw [ha.vdP]; omega, by rw [ha.vdM]; omega⟩
  unfold dMvm
  rw [hc.mode, hm]
  dsimp only
  have hlw : ∀ w, LegalW cfg w → IsBin w := fun w h => by simpa only [LegalW, hm, IsBin] using h
  have hxb : ∀ j, j < n → IsBin (vec.get j) := fun j hj => by
    simpa only [LegalX, hm, IsBin] using hx j hj
  have hb : ∀ i, i < m → |res.get i| + 3 * n ≤ 2147483647 := fun i him => by
    simpa only [peak, hm] using hroom i him
  have hg : ∀ i j, i < m → j < n → c.gd.p.get i j = encP cfg (val L i j) 0 := by
    intro i j hi hj
    rw [h.p]; simp only [rowOf, hm]; rw [(hl.val hi hj).2]; rfl
  exact dMvmBnnIII_ok hdim1.pr hdim1.pc hins (fun i j hi hj => by
      rw [hg i j hi hj]
      simp only [encP, hm]
      rcases hlw _ (hl.val hi hj).1 with h | h <;> rw [h] <;> rfl)
      (fun i j hi hj => hlw _ (hl.val hi hj).1) hv hr hxb hd3 hb

theorem dMvm_exact_bnn4 (H : MvmHyp E cfg c a L res vec m n) (hm : cfg.mode = .bnn4) :
    Exact (dMvm E cfg c a res vec m n) a res vec (val L) m n := by
  obtain ⟨_, hok, hc, ha, h, hl, hd, hsums, hv, hr, hx, hroom⟩ := H
  have hfit := Fits.row hok hd
  have hpr := hc.gd.p
  have hmr := hc.gd.m
  have hsw := hc.gd.sumW
  unfold Mat.Is at hpr hmr
  obtain ⟨hd1, hd2, hd3⟩ := hd
  have hdim : GdDims c.gd (m * cfg.S) m n := ⟨by omega, by omega, by omega, by omega, by omega⟩
  have hdim1 : GdDims c.gd m m n := ⟨by omega, by omega, by omega, by omega, by omega⟩
  have hscr : IntScratch a cfg.S m n :=
    ⟨by rw [ha.vdP]; omega, by rw [ha.vdM]; omega, by rw [ha.tmpInt]; omega⟩
  have hins : InScratch a n := ⟨by rw [ha.vdP]; omega, by rw [ha.vdM]; omega⟩
  unfold dMvm
  rw [hc.mode, hm]
  dsimp only
  have hlw : ∀ w, LegalW cfg w → IsBin w := fun w h => by simpa only [LegalW, hm, IsBin] using h
  have hxb : ∀ j, j < n → IsBin (vec.get j) := fun j hj => by
    simpa only [LegalX, hm, IsBin] using hx j hj
  have hb : ∀ i, i < m → |res.get i| + 3 * n ≤ 2147483647 := fun i him => by
    simpa only [peak, hm] using hroom i him
  have hg : ∀ i j, i < m → j < n → c.gd.p.get i j = encP cfg (val L i j) 0 := by
    intro i j hi hj
    rw [h.p]; simp only [rowOf, hm]; rw [(hl.val hi hj).2]; rfl
  exact dMvmBnnIV_ok hdim1.pr hdim1.pc hins (fun i j hi hj => by
      rw [hg i j hi hj]
      simp only [encP, hm]
      rcases hlw _ (hl.val hi hj).1 with h | h <;> rw [h] <;> rfl)
      (fun i j hi hj => hlw _ (hl.val hi hj).1) hv hr hxb hd3 hb

theorem dMvm_exact_tnn1 (H : MvmHyp E cfg c a L res vec m n) (hm : cfg.mode = .tnn1) :
    Exact (dMvm E cfg c a res vec m n) a res vec (val L) m n := by
  obtain ⟨_, hok, hc, ha, h, hl, hd, hsums, hv, hr, hx, hroom⟩ := H
  have hfit := Fits.row hok hd
  have hpr := hc.gd.p
  have hmr := hc.gd.m
  have hsw := hc.gd.sumW
  unfold Mat.Is at hpr hmr
  obtain ⟨hd1, hd2, hd3⟩ := hd
  have hdim : GdDims c.gd (m * cfg.S) m n := ⟨by omega, by omega, by omega, by omega, by omega⟩
  have hdim1 : GdDims c.gd m m n := ⟨by omega, by omega, by omega, by omega, by omega⟩
  have hscr : IntScratch a cfg.S m n :=
    ⟨by rw [ha.vdP]; omega, by rw [ha.vdM]; omega, by rw [ha.tmpInt]; omega⟩
  have hins : InScratch a n := ⟨by rw [ha.vdP]; omega, by rw [ha.vdM]; omega⟩
  unfold dMvm
  rw [hc.mode, hm]
  dsimp only
  have hlw : ∀ w, LegalW cfg w → IsTern w := fun w h => by simpa only [LegalW, hm, IsTern] using h
  have hpm := pm_of_cells (fun w s => by simp only [encP, hm]) (fun w s => by simp only [encM, hm])
    (fun r => by simp only [rowOf, hm]) hlw h hl
  have hxb : ∀ j, j < n → IsTern (vec.get j) := fun j hj => by
    simpa only [LegalX, hm, IsTern] using hx j hj
  have hb : ∀ i, i < m → |res.get i| + 3 * n ≤ 2147483647 := fun i him => by
    simpa only [peak, hm] using hroom i him
  exact dMvmTnnI_ok hdim1 hins hpm hv hr hxb hb

theorem dMvm_exact_tnn2 (H : MvmHyp E cfg c a L res vec m n) (hm : cfg.mode = .tnn2) :
    Exact (dMvm E cfg c a res vec m n) a res vec (val L) m n := by
  obtain ⟨hstrict', hok, hc, ha, h, hl, hd, hsums, hv, hr, hx, hroom⟩ := H
  have hstrict := hstrict' (by rw [hm]; trivial)
  have hfit := Fits.row hok hd
  have hpr := hc.gd.p
  have hmr := hc.gd.m
  have hsw := hc.gd.sumW
  unfold Mat.Is at hpr hmr
  obtain ⟨hd1, hd2, hd3⟩ := hd
  have hdim : GdDims c.gd (m * cfg.S) m n := ⟨by omega, by omega, by omega, by omega, by omega⟩
  have hdim1 : GdDims c.gd m m n := ⟨by omega, by omega, by omega, by omega, by omega⟩
  have hscr : IntScratch a cfg.S m n :=
    ⟨by rw [ha.vdP]; omega, by rw [ha.vdM]; omega, by rw [ha.tmpInt]; omega⟩
  have hins : InScratch a n := ⟨by rw [ha.vdP]; omega, by rw [ha.vdM]; omega⟩
  unfold dMvm
  rw [hc.mode, hm]
  dsimp only
  have hlw : ∀ w, LegalW cfg w → IsTern w := fun w h => by simpa only [LegalW, hm, IsTern] using h
  have hpm := pm_of_cells (fun w s => by simp only [encP, hm]) (fun w s => by simp only [encM, hm])
    (fun r => by simp only [rowOf, hm]) hlw h hl
  have hxb : ∀ j, j < n → IsTern (vec.get j) := fun j hj => by
    simpa only [LegalX, hm, IsTern] using hx j hj
  have hb : ∀ i, i < m → |res.get i| + 3 * n ≤ 2147483647 := fun i him => by
    simpa only [peak, hm] using hroom i him
  exact dMvmTnnII_ok hstrict hdim1 hins hpm hv hr hxb hb

theorem dMvm_exact_tnn3 (H : MvmHyp E cfg c a L res vec m n) (hm : cfg.mode = .tnn3) :
    Exact (dMvm E cfg c a res vec m n) a res vec (val L) m n := by
  obtain ⟨hstrict', hok, hc, ha, h, hl, hd, hsums, hv, hr, hx, hroom⟩ := H
  have hstrict := hstrict' (by rw [hm]; trivial)
  have hfit := Fits.row hok hd
  have hpr := hc.gd.p
  have hmr := hc.gd.m
  have hsw := hc.gd.sumW
  unfold Mat.Is at hpr hmr
  obtain ⟨hd1, hd2, hd3⟩ := hd
  have hdim : GdDims c.gd (m * cfg.S) m n := ⟨by omega, by omega, by omega, by omega, by omega⟩
  have hdim1 : GdDims c.gd m m n := ⟨by omega, by omega, by omega, by omega, by omega⟩
  have hscr : IntScratch a cfg.S m n :=
    ⟨by rw [ha.vdP]; omega, by rw [ha.vdM]; omega, by rw [ha.tmpInt]; omega⟩
  have hins : InScratch a n := ⟨by rw [ha.vdP]; omega, by rw [ha.vdM]; omega⟩
  unfold dMvm
  rw [hc.mode, hm]
  dsimp only
  have hlw : ∀ w, LegalW cfg w → IsTern w := fun w h => by simpa only [LegalW, hm, IsTern] using h
  have hpm := pm_of_cells (fun w s => by simp only [encP, hm]) (fun w s => by simp only [encM, hm])
    (fun r => by simp only [rowOf, hm]) hlw h hl
  have hxb : ∀ j, j < n → IsTern (vec.get j) := fun j hj => by
    simpa only [LegalX, hm, IsTern] using hx j hj
  have hb : ∀ i, i < m → |res.get i| + 3 * n ≤ 2147483647 := fun i him => by
    simpa only [peak, hm] using hroom i him
  exact dMvmTnnIII_ok hstrict hdim1 hins hpm (hsums (by rw [hm]; trivial)) hv hr hxb hb

theorem dMvm_exact_tnn4 (H : MvmHyp E cfg c a L res vec m n) (hm : cfg.mode = .tnn4) :
    Exact (dMvm E cfg c a res vec m n) a res vec (val L) m n := by
  obtain ⟨hstrict', hok, hc, ha, h, hl, hd, hsums, hv, hr, hx, hroom⟩ := H
  have hstrict := hstrict' (by rw [hm]; trivial)
  have hfit := Fits.row hok hd
  have hpr := hc.gd.p
  have hmr := hc.gd.m
  have hsw := hc.gd.sumW
  unfold Mat.Is at hpr hmr
  obtain ⟨hd1, hd2, hd3⟩ := hd
  have hdim : GdDims c.gd (m * cfg.S) m n := ⟨by omega, by omega, by omega, by omega, by omega⟩
  have hdim1 : GdDims c.gd m m n := ⟨by omega, by omega, by omega, by omega, by omega⟩
  have hscr : IntScratch a cfg.S m n :=
    ⟨by rw [ha.vdP]; omega, by rw [ha.vdM]; omega, by rw [ha.tmpInt]; omega⟩
  have hins : InScratch a n := ⟨by rw [ha.vdP]; omega, by rw [ha.vdM]; omega⟩
  unfold dMvm
  rw [hc.mode, hm]
  dsimp only
  have hsp : cfg.split = [1, 1] := by
    have := hok
    simp only [CfgOk, hm] at this
    exact this.1
  have hlw : ∀ w, LegalW cfg w → IsTern w := fun w h => by simpa only [LegalW, hm, IsTern] using h
  have hxb : ∀ j, j < n → IsTern (vec.get j) := fun j hj => by
    simpa only [LegalX, hm, IsTern] using hx j hj
  have hb : ∀ i, i < m → |res.get i| + 3 * n ≤ 2147483647 := fun i him => by
    simpa only [peak, hm] using hroom i him
  have hg : ∀ i j, i < m → j < n → c.gd.p.get i j = encP cfg (val L i j) 0 := by
    intro i j hi hj
    rw [h.p]; simp only [rowOf, hm]; rw [(hl.val hi hj).2]; rfl
  have hg' : ∀ i j, i < m → j < n → c.gd.m.get i j = encM cfg (val L i j) 0 := by
    intro i j hi hj
    rw [h.m]; simp only [rowOf, hm]; rw [(hl.val hi hj).2]; rfl
  exact dMvmTnnIV_ok hstrict hsp hdim1 hins
      (fun i j hi hj => by
        rw [hg i j hi hj]; simp only [encP, hm]
        rcases hlw _ (hl.val hi hj).1 with h | h | h <;> rw [h] <;> decide)
      (fun i j hi hj => by
        rw [hg' i j hi hj]; simp only [encM, hm]
        rcases hlw _ (hl.val hi hj).1 with h | h | h <;> rw [h] <;> decide)
      (fun i j hi hj => by
        rw [hg i j hi hj, hg' i j hi hj]; simp only [encP, encM, hm]
        rcases hlw _ (hl.val hi hj).1 with h | h | h <;> rw [h] <;> rfl)
      (fun i j hi hj => hlw _ (hl.val hi hj).1) hv hr hxb hb

theorem dMvm_exact_tnn5 (H : MvmHyp E cfg c a L res vec m n) (hm : cfg.mode = .tnn5) :
    Exact (dMvm E cfg c a res vec m n) a res vec (val L) m n := by
  obtain ⟨hstrict', hok, hc, ha, h, hl, hd, hsums, hv, hr, hx, hroom⟩ := H
  have hstrict := hstrict' (by rw [hm]; trivial)
  have hfit := Fits.row hok hd
  have hpr := hc.gd.p
  have hmr := hc.gd.m
  have hsw := hc.gd.sumW
  unfold Mat.Is at hpr hmr
  obtain ⟨hd1, hd2, hd3⟩ := hd
  have hdim : GdDims c.gd (m * cfg.S) m n := ⟨by omega, by omega, by omega, by omega, by omega⟩
  have hdim1 : GdDims c.gd m m n := ⟨by omega, by omega, by omega, by omega, by omega⟩
  have hscr : IntScratch a cfg.S m n :=
    ⟨by rw [ha.vdP]; omega, by rw [ha.vdM]; omega, by rw [ha.tmpInt]; omega⟩
  have hins : InScratch a n := ⟨by rw [ha.vdP]; omega, by rw [ha.vdM]; omega⟩
  unfold dMvm
  rw [hc.mode, hm]
  dsimp only
  have hsp : cfg.split = [1, 1] := by
    have := hok
    simp only [CfgOk, hm] at this
    exact this.1
  have hlw : ∀ w, LegalW cfg w → IsTern w := fun w h => by simpa only [LegalW, hm, IsTern] using h
  have hxb : ∀ j, j < n → IsTern (vec.get j) := fun j hj => by
    simpa only [LegalX, hm, IsTern] using hx j hj
  have hb : ∀ i, i < m → |res.get i| + 3 * n ≤ 2147483647 := fun i him => by
    simpa only [peak, hm] using hroom i him
  have hg : ∀ i j, i < m → j < n → c.gd.p.get i j = encP cfg (val L i j) 0 := by
    intro i j hi hj
    rw [h.p]; simp only [rowOf, hm]; rw [(hl.val hi hj).2]; rfl
  have hg' : ∀ i j, i < m → j < n → c.gd.m.get i j = encM cfg (val L i j) 0 := by
    intro i j hi hj
    rw [h.m]; simp only [rowOf, hm]; rw [(hl.val hi hj).2]; rfl
  exact dMvmTnnV_ok hstrict hsp hdim1 hins hd3
      (fun i j hi hj => by
        rw [hg i j hi hj]; simp only [encP, hm]
        rcases hlw _ (hl.val hi hj).1 with h | h | h <;> rw [h] <;> decide)
      (fun i j hi hj => by
        rw [hg' i j hi hj]; simp only [encM, hm]
        rcases hlw _ (hl.val hi hj).1 with h | h | h <;> rw [h] <;> decide)
      (fun i j hi hj => by
        rw [hg i j hi hj, hg' i j hi hj]; simp only [encP, encM, hm]
        rcases hlw _ (hl.val hi hj).1 with h | h | h <;> rw [h] <;> rfl)
      (fun i j hi hj => hlw _ (hl.val hi hj).1) hv hr hxb hb

/-- The digital multiplication of any mapping is exact on a legal store. -/
theorem dMvm_exact (H : MvmHyp E cfg c a L res vec m n) :
    Exact (dMvm E cfg c a res vec m n) a res vec (val L) m n := by
  cases hm : cfg.mode
  case iDiffWDiff1 => exact dMvm_exact_iDiffWDiff1 H hm
  case iDiffWDiff2 => exact dMvm_exact_iDiffWDiff2 H hm
  case iOffsWDiff => exact dMvm_exact_iOffsWDiff H hm
  case iTcWDiff => exact dMvm_exact_iTcWDiff H hm
  case iUintWDiff => exact dMvm_exact_iUintWDiff H hm
  case iUintWOffs => exact dMvm_exact_iUintWOffs H hm
  case bnn1 => exact dMvm_exact_bnn1 H hm
  case bnn2 => exact dMvm_exact_bnn2 H hm
  case bnn5 => exact dMvm_exact_bnn5 H hm
  case bnn6 => exact dMvm_exact_bnn6 H hm
  case bnn3 => exact dMvm_exact_bnn3 H hm
  case bnn4 => exact dMvm_exact_bnn4 H hm
  case tnn1 => exact dMvm_exact_tnn1 H hm
  case tnn2 => exact dMvm_exact_tnn2 H hm
  case tnn3 => exact dMvm_exact_tnn3 H hm
  case tnn4 => exact dMvm_exact_tnn4 H hm
  case tnn5 => exact dMvm_exact_tnn5 H hm

/-- The digital multiplication of a crossbar. -/
theorem xMvm_exact (hstrict : shiftsSigned cfg.mode → E.strict = false) (hok : CfgOk cfg) (hs : Shape E cfg x)
    (hdo : cfg.digitalOnly = true) (h : Cells cfg x.mapper.core.gd L) (hl : Legal cfg L m n)
    (hd : Accepted cfg m n)
    (hsums : keepsRowSums cfg.mode →
      ∀ i, i < m → x.mapper.core.gd.sumW.get i = ∑ j ∈ range n, val L i j)
    (hv : n ≤ vec.size) (hr : m ≤ res.size) (hx : LegalVec cfg vec n) (hroom : Room cfg res m n) :
    ∃ x' r, xMvm E cfg x res vec mat m n l = .ok (x', r) ∧ x'.mapper.core = x.mapper.core ∧
      x'.mapper.aux.rng = x.mapper.aux.rng ∧ Adds r res (val L) vec m n := by
  obtain ⟨a', h1, _, h3, _⟩ :=
    dMvm_exact ⟨hstrict, hok, hs.core, hs.aux, h, hl, hd, hsums, hv, hr, hx, hroom⟩
  unfold xMvm
  dsimp only
  rw [if_pos hdo, h1, ok_bind]
  exact ⟨_, _, rfl, rfl, h3, ⟨rfl, fun i hi => Vec.over_lt hi, fun i hi => Vec.over_ge hi⟩⟩

/-! ## Reachable crossbars -/

theorem cells_init (cfg : Cfg K) :
    Cells cfg ⟨Mat.const cfg.R cfg.N 0, Mat.const cfg.R cfg.N 0, Vec.const cfg.M 0⟩ fun _ _ => none :=
  ⟨fun _ _ => rfl, fun _ _ => rfl⟩

theorem runs_cells (hok : CfgOk cfg) {h : List Op} (hr : Runs E cfg h x) :
    Cells cfg x.mapper.core.gd (lastWrite h) := by
  induction hr with
  | init h =>
    rw [(mkCore_inv (mkXbar_inv h).1).2.2.1]
    exact cells_init cfg
  | write hr h' ih => exact dWriteGd_cells hok (runs_shape hr).core ih (xWrite_frame h').1
  | mvm hr h' ih =>
    rw [(xMvm_frame h').1]
    exact ih

theorem runs_sums {h : List Op} (hr : Runs E cfg h x) (hs : hasSums cfg.mode = true)
    (hn : WidthIs n h) (i : Nat) :
    x.mapper.core.gd.sumW.get i = ∑ j ∈ range n, val (lastWrite h) i j := by
  induction hr with
  | init h =>
    rw [(mkCore_inv (mkXbar_inv h).1).2.2.1]
    simp [val, lastWrite]
  | @write hs' x x' mat m n' hr h' ih =>
    have hn' : n' = n := hn _ (List.mem_cons_self ..)
    subst hn'
    have ih := ih fun op hop => hn op (List.mem_cons_of_mem _ hop)
    rw [dWriteGd_sums (runs_shape hr).core hs (xWrite_frame h').1, Vec.over_get]
    split
    · next hi =>
      refine sum_congr rfl fun j hj => ?_
      simp only [val, lastWrite, entry]
      rw [if_pos ⟨hi, mem_range.1 hj⟩]; rfl
    · next hi =>
      rw [ih]
      refine sum_congr rfl fun j hj => ?_
      simp only [val, lastWrite]
      rw [if_neg (by omega)]
  | mvm hr h' ih =>
    rw [(xMvm_frame h').1]
    exact ih fun op hop => hn op (List.mem_cons_of_mem _ hop)

theorem hasSums_of_keeps {md : Mode} (h : keepsRowSums md) : hasSums md = true := by
  cases md <;> first | rfl | exact h.elim

end

end Acs
