import Verif.Lemmas.Refine
import Verif.Props.Ex

/-!
# Digital crossbar

Exactness of multiplications, the matrix store, cell contents.  Vocabulary: `Verif/Spec.lean`.
`Runs E cfg h x` ranges over all crossbars reachable by any sequence of calls that returned.
-/

namespace Acs.Props

open Finset Spec

variable {K : Type} [Field K] [LinearOrder K] [IsStrictOrderedRing K] [FloorRing K]
variable {E : Env K} {cfg : Cfg K} {mat mat' vec res : Vec Int} {m n m' n' w : Nat} {l : String}
variable {x x' : Xbar K} {h : List Op}

/-! ## C01 – C03: exact products -/

/-- C01.  A digital integer crossbar in any state: writing an in-range matrix and multiplying adds
the exact product.  `E.strict = false`: gcc semantics of `<<`; see `C01_strict_uninit`. -/
theorem C01_int_mvm_exact (hfam : cfg.mode.family = .int) (hok : CfgOk cfg)
    (hdo : cfg.digitalOnly = true) (hgcc : E.strict = false) (hr : Runs E cfg h x)
    (hd : Accepted cfg m n) (hbuf : m * n ≤ mat.size) (hW : LegalMat cfg (entry mat n) m n)
    (hsum : SumRoom cfg m n) (hv : n ≤ vec.size) (hx : LegalVec cfg vec n) (hres : m ≤ res.size)
    (hroom : Room cfg res m n) :
    ∃ x1 x2 r, xWrite E cfg x mat m n = .ok x1 ∧ xMvm E cfg x1 res vec mat' m n l = .ok (x2, r) ∧
      Adds r res (entry mat n) vec m n :=
  write_mvm hok (fun _ => hgcc) hdo hr hd hbuf hW hsum le_rfl le_rfl (fun _ => rfl) hv hx hres hroom

/-- A crossbar with a history; 3 bit weights, both slices and signs in use. -/
example : ∃ h x x1 x2 r, h ≠ [] ∧ Runs Ex.env (Ex.cfg .iOffsWDiff) h x ∧
    xWrite Ex.env (Ex.cfg .iOffsWDiff) x Ex.matI 2 3 = .ok x1 ∧
    xMvm Ex.env (Ex.cfg .iOffsWDiff) x1 Ex.res Ex.vecI Ex.matI 2 3 "" = .ok (x2, r) ∧
    Adds r Ex.res (entry Ex.matI 3) Ex.vecI 2 3 := by
  obtain ⟨x, hr⟩ := Ex.ran
  obtain ⟨x1, x2, r, h⟩ := C01_int_mvm_exact (mat' := Ex.matI) (l := "") rfl (Ex.cfg_ok .iOffsWDiff)
    rfl rfl hr (Ex.accepted _) (by decide) Ex.legal_matI (Ex.sum_room _) (by decide) Ex.legal_vecI
    (by decide) (Ex.room _)
  exact ⟨_, x, x1, x2, r, by simp, hr, h⟩

/-- Under ISO C++17 alone the digital integer constructors read the uninitialised `i_mm_`. -/
theorem C01_strict_uninit (hfam : cfg.mode.family = .int) (hok : CfgOk cfg)
    (hdo : cfg.digitalOnly = true) (hstrict : E.strict = true) (rng : Nat)
    (hists : List (String × Hist K)) : ∀ x, mkXbar E cfg rng hists ≠ .ok x := by
  intro x hx
  have hS : cfg.S ≠ 0 := by have := cfgOk_S_pos hok; omega
  have hi : cfg.mode.isInt = true := by simp [Mode.isInt, hfam]
  have h1 := (mkXbar_inv hx).1
  unfold mkCore at h1
  simp only [bind_eq_ok] at h1
  obtain ⟨adc, _, par, _, h1⟩ := h1
  rw [if_pos (by simp [hi, hS, hdo, hstrict])] at h1
  simp at h1

example : Ex.envStrict.strict = true ∧ (Ex.cfg .iTcWDiff).digitalOnly = true ∧
    CfgOk (Ex.cfg .iTcWDiff) := ⟨rfl, rfl, Ex.cfg_ok _⟩

/-- C02. -/
theorem C02_bnn_mvm_exact (hfam : cfg.mode.family = .bnn) (hok : CfgOk cfg)
    (hdo : cfg.digitalOnly = true) (hr : Runs E cfg h x)
    (hd : Accepted cfg m n) (hbuf : m * n ≤ mat.size)
    (hW : ∀ i j, i < m → j < n → entry mat n i j = 1 ∨ entry mat n i j = -1)
    (hv : n ≤ vec.size) (hx : ∀ j, j < n → vec.get j = 1 ∨ vec.get j = -1) (hres : m ≤ res.size)
    (hroom : ∀ i, i < m → |res.get i| + 3 * n ≤ 2147483647) :
    ∃ x1 x2 r, xWrite E cfg x mat m n = .ok x1 ∧ xMvm E cfg x1 res vec mat' m n l = .ok (x2, r) ∧
      Adds r res (entry mat n) vec m n := by
  refine write_mvm hok (fun h => ?_) hdo hr hd hbuf (fun i j hi hj => ?_) (fun h => ?_) le_rfl le_rfl
    (fun _ => rfl) hv (fun j hj => ?_) hres (fun i hi => ?_)
  · cases hm : cfg.mode <;> simp [hm, Mode.family, shiftsSigned] at hfam h
  · have := hW i j hi hj
    unfold LegalW
    cases hm : cfg.mode <;> simp only [hm, Mode.family, reduceCtorEq] at hfam <;> exact this
  · simp [Mode.isInt, hfam] at h
  · have := hx j hj
    unfold LegalX
    cases hm : cfg.mode <;> simp only [hm, Mode.family, reduceCtorEq] at hfam <;> exact this
  · have := hroom i hi
    unfold peak
    cases hm : cfg.mode <;> simp only [hm, Mode.family, reduceCtorEq] at hfam <;> exact this

example (md : Mode) (hmd : md.family = .bnn) : ∃ x x1 x2 r, Runs Ex.env (Ex.cfg md) [] x ∧
    xWrite Ex.env (Ex.cfg md) x Ex.mat 2 3 = .ok x1 ∧
    xMvm Ex.env (Ex.cfg md) x1 Ex.res Ex.vec Ex.mat 2 3 "" = .ok (x2, r) ∧
    Adds r Ex.res (entry Ex.mat 3) Ex.vec 2 3 := by
  obtain ⟨x, hx⟩ := Ex.fresh md
  obtain ⟨x1, x2, r, h⟩ := C02_bnn_mvm_exact (mat := Ex.mat) (mat' := Ex.mat) (vec := Ex.vec)
    (res := Ex.res) (l := "") hmd (Ex.cfg_ok md) rfl (.init hx) (Ex.accepted _) (by decide) Ex.mat_bin
    (by decide) Ex.vec_bin (by decide) (Ex.two (by decide) (by decide))
  exact ⟨x, x1, x2, r, .init hx, h⟩

/-- C03.  TNN_II – TNN_V left-shift possibly negative sums, hence the gcc hypothesis. -/
theorem C03_tnn_mvm_exact (hfam : cfg.mode.family = .tnn) (hok : CfgOk cfg)
    (hdo : cfg.digitalOnly = true) (hgcc : cfg.mode ≠ .tnn1 → E.strict = false) (hr : Runs E cfg h x)
    (hd : Accepted cfg m n) (hbuf : m * n ≤ mat.size)
    (hW : ∀ i j, i < m → j < n →
      entry mat n i j = 1 ∨ entry mat n i j = -1 ∨ entry mat n i j = 0)
    (hv : n ≤ vec.size) (hx : ∀ j, j < n → vec.get j = 1 ∨ vec.get j = -1 ∨ vec.get j = 0)
    (hres : m ≤ res.size) (hroom : ∀ i, i < m → |res.get i| + 3 * n ≤ 2147483647) :
    ∃ x1 x2 r, xWrite E cfg x mat m n = .ok x1 ∧ xMvm E cfg x1 res vec mat' m n l = .ok (x2, r) ∧
      Adds r res (entry mat n) vec m n := by
  refine write_mvm hok (fun h => hgcc fun h1 => ?_) hdo hr hd hbuf (fun i j hi hj => ?_) (fun h => ?_)
    le_rfl le_rfl (fun _ => rfl) hv (fun j hj => ?_) hres (fun i hi => ?_)
  · rw [h1] at h; exact h
  · have := hW i j hi hj
    unfold LegalW
    cases hm : cfg.mode <;> simp only [hm, Mode.family, reduceCtorEq] at hfam <;> exact this
  · simp [Mode.isInt, hfam] at h
  · have := hx j hj
    unfold LegalX
    cases hm : cfg.mode <;> simp only [hm, Mode.family, reduceCtorEq] at hfam <;> exact this
  · have := hroom i hi
    unfold peak
    cases hm : cfg.mode <;> simp only [hm, Mode.family, reduceCtorEq] at hfam <;> exact this

example (md : Mode) (hmd : md.family = .tnn) : ∃ x x1 x2 r, Runs Ex.env (Ex.cfg md) [] x ∧
    xWrite Ex.env (Ex.cfg md) x Ex.matT 2 3 = .ok x1 ∧
    xMvm Ex.env (Ex.cfg md) x1 Ex.res Ex.vecT Ex.mat 2 3 "" = .ok (x2, r) ∧
    Adds r Ex.res (entry Ex.matT 3) Ex.vecT 2 3 := by
  obtain ⟨x, hx⟩ := Ex.fresh md
  obtain ⟨x1, x2, r, h⟩ := C03_tnn_mvm_exact (mat := Ex.matT) (mat' := Ex.mat) (vec := Ex.vecT)
    (res := Ex.res) (l := "") hmd (Ex.cfg_ok md) rfl (fun _ => rfl) (.init hx) (Ex.accepted _)
    (by decide) (Ex.block (P := fun i j => entry Ex.matT 3 i j = 1 ∨ entry Ex.matT 3 i j = -1 ∨
      entry Ex.matT 3 i j = 0) (by decide))
    (by decide) (Ex.three (by decide) (by decide) (by decide)) (by decide)
    (Ex.two (by decide) (by decide))
  exact ⟨x, x1, x2, r, .init hx, h⟩

/-! ## C05: the programmed cells -/

/-- C05.  In every reachable state, digital or analog, whatever was written (legal or not): every
cell holds the encoding of what the last write covering its position wrote, and zero if there was
none. -/
theorem C05_cells_are_last_write (hok : CfgOk cfg) (hr : Runs E cfg h x) (r j : Nat) :
    x.mapper.core.gd.p.get r j = (match lastWrite h (rowOf cfg r).1 j with
      | none => 0
      | some w => encP cfg w (rowOf cfg r).2) ∧
    x.mapper.core.gd.m.get r j = (match lastWrite h (rowOf cfg r).1 j with
      | none => 0
      | some w => encM cfg w (rowOf cfg r).2) :=
  ⟨(runs_cells hok hr).p r j, (runs_cells hok hr).m r j⟩

/-- After a full write, a multiplication and a write of the leading `1 × 2` block. -/
example : ∃ h x, CfgOk (Ex.cfg .iOffsWDiff) ∧ Runs Ex.env (Ex.cfg .iOffsWDiff) h x ∧
    lastWrite h 0 0 = some 1 ∧ lastWrite h 0 2 = some 5 ∧ lastWrite h 1 2 = some (-2) := by
  obtain ⟨x, hr⟩ := Ex.ran
  exact ⟨_, x, Ex.cfg_ok _, hr, by decide, by decide, by decide⟩

/-! ## C06: refinement of a matrix store -/

/-- C06.  Any sequence of legal calls on a fresh digital crossbar succeeds and returns the answers of
the ideal matrix store.  In the mappings that keep row sums (`I_OFFS_W_DIFF`, `BNN_I`, `BNN_II`,
`TNN_III`) all calls have the same width `w`; in the others widths are arbitrary. -/
theorem C06_refines_matrix_store (hok : CfgOk cfg) (hdo : cfg.digitalOnly = true)
    (hgcc : shiftsSigned cfg.mode → E.strict = false) {rng : Nat} {hists : List (String × Hist K)}
    (hx : mkXbar E cfg rng hists = .ok x) {ops : List Op} (hl : LegalOps cfg w [] ops) :
    ∃ x' rs, exec E cfg x ops = .ok (x', rs) ∧ Answers [] ops rs :=
  exec_refines hok hgcc hdo (.init hx) .nil hl

/-- Two writes of different heights around multiplications, in every mode with signed inputs. -/
example (md : Mode) (h : md ≠ .iUintWDiff ∧ md ≠ .iUintWOffs) : LegalOps (Ex.cfg md) 3 []
    [.write Ex.mat 2 3, .mvm Ex.res Ex.vec Ex.mat 2 3 "a", .write Ex.mat 1 3,
      .mvm Ex.res Ex.vec Ex.mat 2 3 "b"] := by
  have hw : ∀ {h i j}, lastWrite (.write Ex.mat 2 3 :: h) i j = some (entry Ex.mat 3 i j) ∨
      ¬(i < 2 ∧ j < 3) := fun {h i j} => by
    by_cases hij : i < 2 ∧ j < 3
    · exact Or.inl (by simp only [lastWrite]; rw [if_pos hij])
    · exact Or.inr hij
  have hd := Ex.accepted md
  refine ⟨⟨hd, by decide, Ex.legal_mat md, Ex.sum_room md, fun _ => rfl⟩,
    ⟨hd, by decide, by decide, Ex.legal_vec md h, Ex.room md, fun i j hi hj => ?_, fun _ => rfl⟩,
    ⟨⟨le_trans (by decide) hd.1, hd.2⟩, by decide, fun i j hi hj => Ex.legal_mat md i j (by omega) hj,
      fun h1 _ => Ex.sum_room md h1 (by decide), fun _ => rfl⟩,
    ⟨hd, by decide, by decide, Ex.legal_vec md h, Ex.room md, fun i j hi hj => ?_, fun _ => rfl⟩, trivial⟩
  · simp [lastWrite, hi, hj]
  · simp only [lastWrite]
    split
    · rfl
    · simp [hi, hj]

/-! ## C07: the matrix argument of a multiplication -/

/-- C07.  Digital and analog. -/
theorem C07_matrix_argument_ignored (E : Env K) (cfg : Cfg K) (x : Xbar K) (res vec mat mat' : Vec Int)
    (m n : Nat) (l : String) : xMvm E cfg x res vec mat m n l = xMvm E cfg x res vec mat' m n l := rfl

example : Ex.mat.get 1 ≠ Ex.matI.get 1 := by decide

/-! ## C08: leading sub-blocks -/

/-- C08, the part that holds: any number of rows, and any number of columns in the mappings without
row sums.  Missing: fewer columns in the mappings with row sums, where the claim is false
(`C08_false_for_row_sums`). -/
theorem C08_subblock_partial (hok : CfgOk cfg) (hdo : cfg.digitalOnly = true)
    (hgcc : shiftsSigned cfg.mode → E.strict = false) (hr : Runs E cfg h x)
    (hd : Accepted cfg m n) (hbuf : m * n ≤ mat.size) (hW : LegalMat cfg (entry mat n) m n)
    (hsum : SumRoom cfg m n) (hm' : m' ≤ m) (hn' : n' ≤ n) (hn : keepsRowSums cfg.mode → n' = n)
    (hv : n' ≤ vec.size) (hx : LegalVec cfg vec n') (hres : m' ≤ res.size)
    (hroom : Room cfg res m' n') :
    ∃ x1 x2 r, xWrite E cfg x mat m n = .ok x1 ∧ xMvm E cfg x1 res vec mat' m' n' l = .ok (x2, r) ∧
      Adds r res (entry mat n) vec m' n' :=
  write_mvm hok hgcc hdo hr hd hbuf hW hsum hm' hn' hn hv hx hres hroom

/-- The full claim of C08 for one mode. -/
def SubblockClaim (md : Mode) : Prop :=
  ∀ (x : Xbar ℚ) (h : List Op) (mat vec res : Vec Int) (m n m' n' : Nat),
    Runs Ex.env (Ex.cfg md) h x → Accepted (Ex.cfg md) m n → m * n ≤ mat.size →
    LegalMat (Ex.cfg md) (entry mat n) m n → SumRoom (Ex.cfg md) m n → m' ≤ m → n' ≤ n →
    n' ≤ vec.size → LegalVec (Ex.cfg md) vec n' → m' ≤ res.size → Room (Ex.cfg md) res m' n' →
    ∃ x1 x2 r, xWrite Ex.env (Ex.cfg md) x mat m n = .ok x1 ∧
      xMvm Ex.env (Ex.cfg md) x1 res vec mat m' n' "" = .ok (x2, r) ∧
      Adds r res (entry mat n) vec m' n'

/-- C08 fails in every mapping that keeps row sums: after a `2 × 3` write, the `1 × 2` product is
wrong. -/
theorem C08_false_for_row_sums (md : Mode) (hk : keepsRowSums md) : ¬SubblockClaim md := by
  intro hc
  have hmd : md ≠ .iUintWDiff ∧ md ≠ .iUintWOffs := by
    constructor <;> (rintro rfl; exact hk)
  obtain ⟨x, hx⟩ := Ex.fresh md
  obtain ⟨x1, x2, r, h1, h2, h3⟩ := hc x [] Ex.mat Ex.vec Ex.res 2 3 1 2 (.init hx) (Ex.accepted md)
    (by decide) (Ex.legal_mat md) (Ex.sum_room md) (by decide) (by decide) (by decide)
    (fun j hj => Ex.legal_vec md hmd j (by omega)) (by decide)
    (Ex.room12 md)
  have hv := h3.head 0 (by decide)
  have he : (do
      let x ← mkXbar Ex.env (Ex.cfg md) 0 []
      let x ← xWrite Ex.env (Ex.cfg md) x Ex.mat 2 3
      let r ← xMvm Ex.env (Ex.cfg md) x Ex.res Ex.vec Ex.mat 1 2 ""
      .ok (r.2.get 0) : C Int) = .ok (r.get 0) := by
    rw [hx, ok_bind, h1, ok_bind, h2, ok_bind]
  rw [hv] at he
  revert he
  cases md <;> first | exact hk.elim | decide

example : keepsRowSums .iOffsWDiff ∧ keepsRowSums .bnn1 ∧ keepsRowSums .bnn2 ∧ keepsRowSums .tnn3 :=
  ⟨trivial, trivial, trivial, trivial⟩

/-- A `1 × 2` block of a `2 × 3` matrix, in the modes without row sums and with signed inputs. -/
example (md : Mode) (hk : ¬keepsRowSums md) (hmd : md ≠ .iUintWDiff ∧ md ≠ .iUintWOffs) :
    ∃ x x1 x2 r, xWrite Ex.env (Ex.cfg md) x Ex.mat 2 3 = .ok x1 ∧
      xMvm Ex.env (Ex.cfg md) x1 Ex.res Ex.vec Ex.mat 1 2 "" = .ok (x2, r) ∧
      Adds r Ex.res (entry Ex.mat 3) Ex.vec 1 2 := by
  obtain ⟨x, hx⟩ := Ex.fresh md
  exact ⟨x, C08_subblock_partial (Ex.cfg_ok md) rfl (fun _ => rfl) (.init hx) (Ex.accepted md)
    (by decide) (Ex.legal_mat md) (Ex.sum_room md) (by decide) (by decide) (fun h => (hk h).elim)
    (by decide) (fun j hj => Ex.legal_vec md hmd j (by omega)) (by decide)
    (Ex.room12 md)⟩

/-! ## C12: weight slicing -/

/-- C12.  The cells that hold a legal weight of an integer mapping: legal states, never plus and
minus at once, and recombination with the slice positions gives the weight (plus the offset in offset
encoding).  Cell row `i * SPLIT.size() + s` holds slice `s` of matrix row `i`. -/
theorem C12_slicing_lossless (hfam : cfg.mode.family = .int) (hok : CfgOk cfg) (hr : Runs E cfg h x)
    {i j : Nat} {wt : Int} (hw : lastWrite h i j = some wt) (hl : LegalW cfg wt) :
    (∀ s, s < cfg.split.length →
      0 ≤ x.mapper.core.gd.p.get (i * cfg.split.length + s) j ∧
      x.mapper.core.gd.p.get (i * cfg.split.length + s) j < 2 ^ cfg.split.getD s 0 ∧
      0 ≤ x.mapper.core.gd.m.get (i * cfg.split.length + s) j ∧
      x.mapper.core.gd.m.get (i * cfg.split.length + s) j < 2 ^ cfg.split.getD s 0) ∧
    ((∀ s, s < cfg.split.length → x.mapper.core.gd.p.get (i * cfg.split.length + s) j = 0) ∨
      ∀ s, s < cfg.split.length → x.mapper.core.gd.m.get (i * cfg.split.length + s) j = 0) ∧
    ∑ s ∈ range cfg.split.length, (x.mapper.core.gd.p.get (i * cfg.split.length + s) j
      - x.mapper.core.gd.m.get (i * cfg.split.length + s) j) * 2 ^ shiftOf cfg.split s
      = if cfg.mode = .iUintWOffs then wt + 2 ^ (cfg.wBit - 1) else wt := by
  have hio := intOk hok (by simp [Mode.isInt, hfam])
  have hp : ∀ s, s < cfg.split.length →
      x.mapper.core.gd.p.get (i * cfg.split.length + s) j = encP cfg wt s := fun s hs => by
    have hrow : rowOf cfg (i * cfg.split.length + s) = (i, s) := by
      unfold rowOf
      cases hm : cfg.mode <;> simp only [hm, Mode.family, reduceCtorEq] at hfam <;>
        simp only [blk_div hs, blk_mod hs]
    rw [(runs_cells hok hr).p, hrow, hw]; rfl
  have hq : ∀ s, s < cfg.split.length →
      x.mapper.core.gd.m.get (i * cfg.split.length + s) j = encM cfg wt s := fun s hs => by
    have hrow : rowOf cfg (i * cfg.split.length + s) = (i, s) := by
      unfold rowOf
      cases hm : cfg.mode <;> simp only [hm, Mode.family, reduceCtorEq] at hfam <;>
        simp only [blk_div hs, blk_mod hs]
    rw [(runs_cells hok hr).m, hrow, hw]; rfl
  have hb : ∀ (a : Int) s, 0 ≤ bits a (shiftOf cfg.split s) (cfg.split.getD s 0) ∧
      bits a (shiftOf cfg.split s) (cfg.split.getD s 0) < 2 ^ cfg.split.getD s 0 := fun a s =>
    ⟨dg_nonneg _ _ _, dg_lt _ _ _⟩
  rw [sum_congr rfl fun s hs => by rw [hp s (mem_range.1 hs), hq s (mem_range.1 hs)]]
  have key : (∀ s, (0 ≤ encP cfg wt s ∧ encP cfg wt s < 2 ^ cfg.split.getD s 0) ∧
      0 ≤ encM cfg wt s ∧ encM cfg wt s < 2 ^ cfg.split.getD s 0) ∧
      ((∀ s, encP cfg wt s = 0) ∨ ∀ s, encM cfg wt s = 0) ∧
      ∑ s ∈ range cfg.split.length, (encP cfg wt s - encM cfg wt s) * 2 ^ shiftOf cfg.split s
        = if cfg.mode = .iUintWOffs then wt + 2 ^ (cfg.wBit - 1) else wt := by
    have hz : ∀ s, (0 : Int) < 2 ^ cfg.split.getD s 0 := fun s => by positivity
    cases hm : cfg.mode <;> simp only [hm, Mode.family, reduceCtorEq] at hfam
    case iUintWOffs =>
      simp only [encP, encM, hm, LegalW] at hl ⊢
      refine ⟨fun s => ⟨hb _ s, le_rfl, hz s⟩, Or.inr fun _ => trivial, ?_⟩
      simp only [sub_zero]
      rw [bits_sum, hio.sum, if_pos trivial]
      have hpow : (2 : Int) ^ cfg.wBit = 2 ^ (cfg.wBit - 1) + 2 ^ (cfg.wBit - 1) := by
        obtain ⟨k, hk⟩ : ∃ k, cfg.wBit = k + 1 := ⟨cfg.wBit - 1, by have := hio.w1; omega⟩
        rw [hk, pow_succ]; simp; ring
      exact Int.emod_eq_of_lt (by linarith [hl.1]) (by linarith [hl.2])
    all_goals
      simp only [encP, encM, hm, LegalW] at hl ⊢
      rw [if_neg (by decide)]
      by_cases h0 : 0 ≤ wt
      · simp only [if_pos h0]
        refine ⟨fun s => ⟨hb _ s, le_rfl, hz s⟩, Or.inr fun _ => trivial, ?_⟩
        simp only [sub_zero]
        rw [bits_sum, hio.sum, abs_lt_emod h0 hl]
      · simp only [if_neg h0]
        refine ⟨fun s => ⟨⟨le_rfl, hz s⟩, hb _ s⟩, Or.inl fun _ => trivial, ?_⟩
        simp only [zero_sub, neg_mul]
        rw [sum_neg_distrib, bits_sum, hio.sum, abs_lt_emod (by omega) (by rwa [abs_neg]), neg_neg]
  refine ⟨fun s hs => ?_, ?_, key.2.2⟩
  · rw [hp s hs, hq s hs]
    have := key.1 s
    exact ⟨this.1.1, this.1.2, this.2.1, this.2.2⟩
  · exact key.2.1.imp (fun h s hs => (hp s hs).trans (h s)) fun h s hs => (hq s hs).trans (h s)

/-- Weight -2 at position (1, 2) after the calls of `Ex.ran`. -/
example : ∃ h x, (Ex.cfg .iOffsWDiff).mode.family = .int ∧ CfgOk (Ex.cfg .iOffsWDiff) ∧
    Runs Ex.env (Ex.cfg .iOffsWDiff) h x ∧ lastWrite h 1 2 = some (-2) ∧
    LegalW (Ex.cfg .iOffsWDiff) (-2) := by
  obtain ⟨x, hr⟩ := Ex.ran
  exact ⟨_, x, rfl, Ex.cfg_ok _, hr, by decide, show |(-2 : Int)| < 2 ^ 3 by decide⟩

/-! ## C13: mode independence -/

/-- C13.  Two digital crossbars with different configurations — in particular different mapping
modes —, each in any state: the same matrix and vector, legal for both, give the same result. -/
theorem C13_mode_independent {K' : Type} [Field K'] [LinearOrder K'] [IsStrictOrderedRing K']
    [FloorRing K'] {E' : Env K'} {cfg' : Cfg K'} {y : Xbar K'} {h' : List Op}
    (hok : CfgOk cfg) (hok' : CfgOk cfg') (hdo : cfg.digitalOnly = true)
    (hdo' : cfg'.digitalOnly = true) (hgcc : shiftsSigned cfg.mode → E.strict = false)
    (hgcc' : shiftsSigned cfg'.mode → E'.strict = false) (hr : Runs E cfg h x)
    (hr' : Runs E' cfg' h' y)
    (hd : Accepted cfg m n ∧ Accepted cfg' m n) (hbuf : m * n ≤ mat.size)
    (hW : LegalMat cfg (entry mat n) m n ∧ LegalMat cfg' (entry mat n) m n)
    (hsum : SumRoom cfg m n ∧ SumRoom cfg' m n) (hv : n ≤ vec.size)
    (hx : LegalVec cfg vec n ∧ LegalVec cfg' vec n) (hres : m ≤ res.size)
    (hroom : Room cfg res m n ∧ Room cfg' res m n) :
    ∃ x1 x2 y1 y2 r, xWrite E cfg x mat m n = .ok x1 ∧ xMvm E cfg x1 res vec mat m n l = .ok (x2, r) ∧
      xWrite E' cfg' y mat m n = .ok y1 ∧ xMvm E' cfg' y1 res vec mat m n l = .ok (y2, r) := by
  obtain ⟨x1, x2, r, h1, h2, h3⟩ := write_mvm (l := l) (mat' := mat) hok hgcc hdo hr hd.1 hbuf hW.1
    hsum.1 le_rfl le_rfl (fun _ => rfl) hv hx.1 hres hroom.1
  obtain ⟨y1, y2, r', h1', h2', h3'⟩ := write_mvm (l := l) (mat' := mat) hok' hgcc' hdo' hr' hd.2 hbuf
    hW.2 hsum.2 le_rfl le_rfl (fun _ => rfl) hv hx.2 hres hroom.2
  have hrr : r' = r := Vec.ext' (h3'.size.trans h3.size.symm) fun i => by
    rcases Nat.lt_or_ge i m with hi | hi
    · rw [h3.head i hi, h3'.head i hi]
    · rw [h3.tail i hi, h3'.tail i hi]
  subst hrr
  exact ⟨x1, x2, y1, y2, r', h1, h2, h1', h2'⟩

/-- Any two modes with signed inputs agree on the example matrix. -/
example (md md' : Mode) (h : md ≠ .iUintWDiff ∧ md ≠ .iUintWOffs)
    (h' : md' ≠ .iUintWDiff ∧ md' ≠ .iUintWOffs) : ∃ x y x1 x2 y1 y2 r,
    xWrite Ex.env (Ex.cfg md) x Ex.mat 2 3 = .ok x1 ∧
    xMvm Ex.env (Ex.cfg md) x1 Ex.res Ex.vec Ex.mat 2 3 "" = .ok (x2, r) ∧
    xWrite Ex.env (Ex.cfg md') y Ex.mat 2 3 = .ok y1 ∧
    xMvm Ex.env (Ex.cfg md') y1 Ex.res Ex.vec Ex.mat 2 3 "" = .ok (y2, r) := by
  obtain ⟨x, hx⟩ := Ex.fresh md
  obtain ⟨y, hy⟩ := Ex.fresh md'
  exact ⟨x, y, C13_mode_independent (Ex.cfg_ok md) (Ex.cfg_ok md') rfl rfl (fun _ => rfl)
    (fun _ => rfl) (.init hx) (.init hy) ⟨Ex.accepted _, Ex.accepted _⟩ (by decide)
    ⟨Ex.legal_mat _, Ex.legal_mat _⟩ ⟨Ex.sum_room _, Ex.sum_room _⟩ (by decide)
    ⟨Ex.legal_vec _ h, Ex.legal_vec _ h'⟩ (by decide) ⟨Ex.room _, Ex.room _⟩⟩

/-! ## C55: superposition -/

/-- C55.  On a digital integer crossbar holding a matrix `mat`, from zero result buffers:
`M (v + w) = M v + M w`. -/
theorem C55_superposition (hfam : cfg.mode.family = .int) (hok : CfgOk cfg)
    (hdo : cfg.digitalOnly = true) (hgcc : E.strict = false) (hr : Runs E cfg h x)
    (hd : Accepted cfg m n) (hbuf : m * n ≤ mat.size) (hW : LegalMat cfg (entry mat n) m n)
    (hsum : SumRoom cfg m n) {v₁ v₂ v₃ : Vec Int}
    (hv : n ≤ v₁.size ∧ n ≤ v₂.size ∧ n ≤ v₃.size) (hadd : ∀ j, j < n → v₃.get j = v₁.get j + v₂.get j)
    (hx : LegalVec cfg v₁ n ∧ LegalVec cfg v₂ n ∧ LegalVec cfg v₃ n)
    (hroom : Room cfg (Vec.const m 0) m n) :
    ∃ x0 x1 x2 x3 r₁ r₂ r₃, xWrite E cfg x mat m n = .ok x0 ∧
      xMvm E cfg x0 (Vec.const m 0) v₁ mat m n l = .ok (x1, r₁) ∧
      xMvm E cfg x1 (Vec.const m 0) v₂ mat m n l = .ok (x2, r₂) ∧
      xMvm E cfg x2 (Vec.const m 0) v₃ mat m n l = .ok (x3, r₃) ∧
      ∀ i, i < m → r₃.get i = r₁.get i + r₂.get i := by
  obtain ⟨x0, hx0⟩ := xWrite_total hok (runs_shape hr) hdo hd hbuf hW hsum
  have step : ∀ {y : Xbar K} {v : Vec Int} {h' : List Op}, Runs E cfg h' y →
      (∀ i j, i < m → j < n → lastWrite h' i j = some (entry mat n i j)) →
      (y.mapper.core.gd.sumW = x0.mapper.core.gd.sumW) → n ≤ v.size → LegalVec cfg v n →
      ∃ y' r, xMvm E cfg y (Vec.const m 0) v mat m n l = .ok (y', r) ∧
        Adds r (Vec.const m 0) (entry mat n) v m n := by
    intro y v h' hy hL hs hv hx
    obtain ⟨y', r, h1, _, _, h2⟩ := xMvm_exact (L := lastWrite h') (mat := mat) (l := l)
      (fun _ => hgcc) hok (runs_shape hy) hdo (runs_cells hok hy)
      (fun i j hi hj => ⟨_, hL i j hi hj, hW i j hi hj⟩) hd
      (fun hk i hi => by
        rw [hs, dWriteGd_sums (runs_shape hr).core (hasSums_of_keeps hk) (xWrite_frame hx0).1,
          Vec.over_lt hi]
        refine sum_congr rfl fun j hj => ?_
        rw [val, hL i j hi (mem_range.1 hj)]
        rfl) hv (le_of_eq rfl) hx hroom
    exact ⟨y', r, h1, adds_congr h2 fun i j hi hj => by rw [val, hL i j hi hj]; rfl⟩
  have hr0 : Runs E cfg (.write mat m n :: h) x0 := .write hr hx0
  have hL0 : ∀ i j, i < m → j < n →
      lastWrite (.write mat m n :: h) i j = some (entry mat n i j) := fun i j hi hj => by
    simp only [lastWrite]; rw [if_pos ⟨hi, hj⟩]
  obtain ⟨x1, r₁, e1, a1⟩ := step hr0 hL0 rfl hv.1 hx.1
  have hr1 := Runs.mvm hr0 e1
  have hg1 := (xMvm_frame e1).1
  obtain ⟨x2, r₂, e2, a2⟩ := step hr1 hL0 (by rw [hg1]) hv.2.1 hx.2.1
  have hr2 := Runs.mvm hr1 e2
  have hg2 := (xMvm_frame e2).1
  obtain ⟨x3, r₃, e3, a3⟩ := step hr2 hL0 (by rw [hg2, hg1]) hv.2.2 hx.2.2
  refine ⟨x0, x1, x2, x3, r₁, r₂, r₃, hx0, e1, e2, e3, fun i hi => ?_⟩
  rw [a1.head i hi, a2.head i hi, a3.head i hi]
  have hz : (Vec.const m (0 : Int)).get i = 0 := rfl
  rw [hz, zero_add, zero_add, zero_add, prod, prod, prod, ← sum_add_distrib]
  refine sum_congr rfl fun j hj => ?_
  rw [hadd j (mem_range.1 hj), mul_add]

/-- Inputs `(3, -4, -1)`, `(0, 1, -1)` and their sum. -/
example : ∃ x x0 x1 x2 x3 r₁ r₂ r₃, xWrite Ex.env (Ex.cfg .iOffsWDiff) x Ex.matI 2 3 = .ok x0 ∧
    xMvm Ex.env (Ex.cfg .iOffsWDiff) x0 (Vec.const 2 0) Ex.vecI Ex.matI 2 3 "" = .ok (x1, r₁) ∧
    xMvm Ex.env (Ex.cfg .iOffsWDiff) x1 (Vec.const 2 0) (Vec.ofList [0, 1, -1]) Ex.matI 2 3 "" =
      .ok (x2, r₂) ∧
    xMvm Ex.env (Ex.cfg .iOffsWDiff) x2 (Vec.const 2 0) (Vec.ofList [3, -3, -2]) Ex.matI 2 3 "" =
      .ok (x3, r₃) ∧ ∀ i, i < 2 → r₃.get i = r₁.get i + r₂.get i := by
  have lx : ∀ z : Int, -2 ^ 2 ≤ z ∧ z < 2 ^ 2 → LegalX (Ex.cfg .iOffsWDiff) z := fun z h => h
  obtain ⟨x, hr⟩ := Ex.ran
  exact ⟨x, C55_superposition (v₁ := Ex.vecI) (v₂ := Vec.ofList [0, 1, -1])
    (v₃ := Vec.ofList [3, -3, -2]) rfl (Ex.cfg_ok .iOffsWDiff) rfl rfl hr (Ex.accepted _) (by decide)
    Ex.legal_matI (Ex.sum_room _) ⟨by decide, by decide, by decide⟩
    (Ex.three (by decide) (by decide) (by decide))
    ⟨Ex.legal_vecI, Ex.three (lx _ (by decide)) (lx _ (by decide)) (lx _ (by decide)),
      Ex.three (lx _ (by decide)) (lx _ (by decide)) (lx _ (by decide))⟩
    (Ex.two (by simp [peak, Ex.cfg, Vec.const, Mode.isInt, Mode.family])
      (by simp [peak, Ex.cfg, Vec.const, Mode.isInt, Mode.family]))⟩

end Acs.Props
