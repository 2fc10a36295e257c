import Verif.Lemmas.Numpy
import Verif.Props.ExApi
import Verif.Props.Return

/-!
# Arrays passed from Python (C103)

The full claim is that `cpy_mtrx` and `exe_mvm`, called from Python, store and multiply the elements of the arrays they are
given and add the products to the elements of `res`.  It fails for arrays of `int32` that are not stored row by row and for
result arrays of another type.
-/

set_option linter.unusedSectionVars false

namespace Acs.Props

open Spec Finset

/-- C103.  An array of `int32` is read as numpy shows it, whatever it contains, exactly if it is stored row by row. -/
theorem C103_layout {a : NpArray} (hm : InMem a) (ht : a.int32 = true) :
    (∀ mem : Vec Int, mem.size = a.mem.size → ∀ i j, i < a.rows → j < a.cols →
      entry { a with mem := mem }.pass a.cols i j = elem { a with mem := mem } i j) ↔
    a.rows = 0 ∨ a.cols = 0 ∨ RowByRow a := by
  constructor
  · intro h
    rcases Nat.eq_zero_or_pos a.rows with h0 | h0
    · exact .inl h0
    rcases Nat.eq_zero_or_pos a.cols with h1 | h1
    · exact .inr (.inl h1)
    refine .inr (.inr ⟨?_, ?_⟩)
    · by_cases hr : a.rows ≤ 1
      · exact .inl hr
      · have := h ⟨a.mem.size, fun k => k⟩ rfl 1 0 (by omega) h1
        simp only [entry, NpArray.pass, ht, if_true, elem] at this
        have := (hm 1 0 (by omega) h1).1
        omega
    · by_cases hc : a.cols ≤ 1
      · exact .inl hc
      · have := h ⟨a.mem.size, fun k => k⟩ rfl 0 1 h0 (by omega)
        simp only [entry, NpArray.pass, ht, if_true, elem] at this
        have := (hm 0 1 h0 (by omega)).1
        omega
  · rintro h mem hs i j hi hj
    have hr : RowByRow { a with mem := mem } := by
      rcases h with h | h | h
      · omega
      · omega
      · exact h
    refine shown_get (a := { a with mem := mem }) ⟨fun i j hi hj => ?_, ?_⟩ hi hj
    · have := hm i j hi hj
      exact ⟨this.1, by rw [hs]; exact this.2⟩
    · show if a.int32 then _ else _
      rw [if_pos ht]
      exact hr

/-- C103.  An array of another type is read as numpy shows it, whatever it contains, exactly if its rows are the outer axis
or it has one row or one column. -/
theorem C103_converted {a : NpArray} (hm : InMem a) (ht : a.int32 = false) :
    (∀ mem : Vec Int, mem.size = a.mem.size → ∀ i j, i < a.rows → j < a.cols →
      entry { a with mem := mem }.pass a.cols i j = elem { a with mem := mem } i j) ↔
    a.rows ≤ 1 ∨ a.cols ≤ 1 ∨ a.sc.natAbs ≤ a.sr.natAbs := by
  constructor
  · intro h
    by_contra hc
    have h1 : 1 < a.rows ∧ 1 < a.cols ∧ ¬a.sc.natAbs ≤ a.sr.natAbs := by omega
    have h2 := h ⟨a.mem.size, fun k => k⟩ rfl 0 1 (by omega) h1.2.1
    simp only [entry, NpArray.pass, ht, Bool.false_eq_true, if_false, if_neg h1.2.2, NpArray.item, elem, Nat.mul_zero,
      Nat.zero_add, Nat.mod_eq_of_lt h1.1, Nat.div_eq_of_lt h1.1] at h2
    have h3 := (hm 0 1 (by omega) h1.2.1).1
    have h4 := (hm 1 0 h1.1 (by omega)).1
    push_cast at h2 h3 h4
    omega
  · rintro h mem hs i j hi hj
    have hb : ¬a.int32 = true := by rw [ht]; decide
    by_cases hc : a.rows ≤ 1 ∨ a.sc.natAbs ≤ a.sr.natAbs
    · refine shown_get (a := { a with mem := mem }) ⟨fun i j hi hj => ?_, ?_⟩ hi hj
      · have := hm i j hi hj
        exact ⟨this.1, by rw [hs]; exact this.2⟩
      · show if a.int32 then _ else _
        rw [if_neg hb]
        exact hc
    · have h1 : a.cols = 1 := by omega
      have h2 : j = 0 := by omega
      simp only [entry, NpArray.pass, ht, Bool.false_eq_true, if_false, if_neg (show ¬a.sc.natAbs ≤ a.sr.natAbs by omega),
        NpArray.item, elem, h1, h2, Nat.one_mul, Nat.add_zero, Nat.mod_eq_of_lt hi, Nat.div_eq_of_lt hi]

/-- C103.  A result array of another type is not changed. -/
theorem C103_lost {a : NpArray} (ht : a.int32 = false) (r : Vec Int) : a.back r = a := by
  unfold NpArray.back
  rw [if_neg (by rw [ht]; decide)]

section
variable {K : Type} [Field K] [LinearOrder K] [IsStrictOrderedRing K] [FloorRing K]
variable {E : Env K} {w : World K} {hs : List Op} {m n k : Nat}

/-- C103, writes: a readable array of legal weights is stored. -/
theorem C103_write_partial (h : Session E hs w) (hok : CfgOk w.cfg) (hdo : w.cfg.digitalOnly = true) {a : NpArray}
    (ha : AsShown a) (hr : a.rows = m) (hc : a.cols = n) (hm : m < 2147483648) (hd : Accepted w.cfg m n)
    (hW : ∀ i j, i < m → j < n → LegalW w.cfg (elem a i j)) (hsum : SumRoom w.cfg m n) :
    ∃ w', npCpyMtrx E a m n w = .ok (w', 0) ∧ Session E (.write a.pass m n :: hs) w' ∧
      ∀ i j, i < m → j < n → lastWrite (.write a.pass m n :: hs) i j = some (elem a i j) := by
  subst hr hc
  have e : ∀ i j, i < a.rows → j < a.cols → entry a.pass a.cols i j = elem a i j :=
    fun i j hi hj => shown_get ha hi hj
  have hn : a.cols < 2147483648 := by have := hd.2.2; omega
  obtain ⟨w', h'⟩ := session_write (k := a.cols) h hok hdo ⟨hd, shown_size ha,
    fun i j hi hj => by rw [e i j hi hj]; exact hW i j hi hj, hsum, fun _ => rfl⟩ ⟨hm, hn⟩
  refine ⟨w', h', .write h ⟨hm, hn⟩ h', fun i j hi hj => ?_⟩
  simp only [lastWrite]
  rw [if_pos ⟨hi, hj⟩, e i j hi hj]

/-- C103, multiplications: the products with the elements of a readable array are added to the elements of a result array
of `int32` whose elements follow each other, and nothing else in its memory changes. -/
theorem C103_mvm_partial (h : Session E hs w) (hok : CfgOk w.cfg)
    (hgcc : shiftsSigned w.cfg.mode → E.strict = false) (hdo : w.cfg.digitalOnly = true)
    (hv : ∀ i j v, lastWrite hs i j = some v → LegalW w.cfg v) (hw : keepsRowSums w.cfg.mode → WidthIs k hs)
    {res vec mat : NpArray} (hx : AsShown vec) (hx1 : vec.rows = 1) (hxn : vec.cols = n)
    (hr : InMem res) (hrr : RowByRow res) (hrt : res.int32 = true) (hr1 : res.rows = 1) (hrm : res.cols = m)
    (hm : m < 2147483648) (hd : Accepted w.cfg m n) (hX : ∀ j, j < n → LegalX w.cfg (elem vec 0 j))
    (hroom : ∀ i, i < m → |elem res 0 i| + peak w.cfg n ≤ 2147483647)
    (hwr : ∀ i j, i < m → j < n → (lastWrite hs i j).isSome) (hk : keepsRowSums w.cfg.mode → n = k) :
    ∃ w' res', npExeMvm E res vec mat m n w = .ok (w', res', 0) ∧
      (∀ i, i < m → elem res' 0 i = elem res 0 i + ∑ j ∈ range n, stored hs i j * elem vec 0 j) ∧
      ∀ p, p < res.offs ∨ res.offs + m ≤ p → res'.mem.get p = res.mem.get p := by
  subst hrm hxn
  have hn : vec.cols < 2147483648 := by have := hd.2.2; omega
  have hR : AsShown res := ⟨hr, by rw [if_pos hrt]; exact hrr⟩
  have e : ∀ j, j < vec.cols → vec.pass.get j = elem vec 0 j := fun j hj => by
    have := shown_get hx (i := 0) (by omega) hj
    rwa [Nat.mul_zero, Nat.zero_add] at this
  have e' : ∀ j, j < res.cols → res.pass.get j = elem res 0 j := fun j hj => by
    have := shown_get hR (i := 0) (by omega) hj
    rwa [Nat.mul_zero, Nat.zero_add] at this
  have s := shown_size hx
  have s' := shown_size hR
  rw [hx1, one_mul] at s
  rw [hr1, one_mul] at s'
  obtain ⟨w', r, h1, h2⟩ := session_mvm (mat := mat.pass) (l := "Unknown") h hok hgcc hdo ⟨hv, hw⟩
    ⟨hd, s', s, fun j hj => by rw [e j hj]; exact hX j hj, fun i hi => by rw [e' i hi]; exact hroom i hi, hwr, hk⟩
    ⟨hm, hn⟩
  have h3 : exeMvmPb E res.pass vec.pass mat.pass (res.cols : Int) (vec.cols : Int) w = .ok (w', r, 0) := by
    rw [← h1]
    obtain ⟨_, x, hxb⟩ := session_inv h
    unfold exeMvmPb exeMvm
    rw [hxb.xbar]
    dsimp only
    rw [if_neg (not_tooBig hd ⟨hm, hn⟩)]
  refine ⟨w', res.back r, ?_, fun i hi => ?_, fun p hp => ?_⟩
  · unfold npExeMvm
    rw [h3]
    rfl
  · have h4 := h2.head i hi
    rw [e' i hi] at h4
    have h5 : elem (res.back r) 0 i = r.get i := by
      unfold NpArray.back
      rw [if_pos hrt]
      have hb : RowByRow { res with mem := ⟨res.mem.size, fun k => if res.offs ≤ k then r.get (k - res.offs) else
        res.mem.get k⟩ } := hrr
      refine (rowByRow_elem hb (by show 0 < res.rows; omega) hi).trans ?_
      show (if res.offs ≤ res.offs + (res.cols * 0 + i) then r.get (res.offs + (res.cols * 0 + i) - res.offs) else _) = _
      rw [if_pos (by omega)]
      congr 1
      omega
    rw [h5, h4]
    congr 1
    exact sum_congr rfl fun j hj => by rw [e j (mem_range.1 hj)]
  · unfold NpArray.back
    rw [if_pos hrt]
    show (if res.offs ≤ p then r.get (p - res.offs) else res.mem.get p) = _
    split
    · next hq =>
      rw [h2.tail (p - res.offs) (by omega)]
      unfold NpArray.pass
      rw [if_pos hrt]
      show res.mem.get (res.offs + (p - res.offs)) = _
      congr 1
      omega
    · rfl

end

namespace Ex'

/-- `np.array([[1, 2], [3, 4]], dtype=np.int32)` and its transpose `.T`. -/
def square : NpArray := ⟨true, Vec.ofList [1, 2, 3, 4], 0, 2, 2, 2, 1⟩
def squareT : NpArray := ⟨true, Vec.ofList [1, 2, 3, 4], 0, 2, 2, 1, 2⟩
/-- `np.array([1, 0], dtype=np.int32)`, `np.array([1, 7, 0, 7], dtype=np.int32)[::2]`. -/
def unit : NpArray := ⟨true, Vec.ofList [1, 0], 0, 1, 2, 2, 1⟩
def everySecond : NpArray := ⟨true, Vec.ofList [1, 7, 0, 7], 0, 1, 2, 4, 2⟩
/-- `np.zeros(2, dtype=np.int32)`, `np.zeros(2, dtype=np.int64)`. -/
def zeros32 : NpArray := ⟨true, Vec.ofList [0, 0], 0, 1, 2, 2, 1⟩
def zeros64 : NpArray := ⟨false, Vec.ofList [0, 0], 0, 1, 2, 2, 1⟩

/-- The elements of the result of writing `a` and multiplying with `v`. -/
def npRun (a v r : NpArray) : R ℚ (Int × Int) := do
  let w ← setConfig Ex.env (.good (digitalFile .iDiffWDiff1)) world0
  let w ← npCpyMtrx Ex.env a 2 2 w
  let q ← npExeMvm Ex.env r v a 2 2 w.1
  .ok (elem q.2.1 0 0, elem q.2.1 0 1)

theorem npRun_spec {a v r : NpArray} {p : Int × Int} (h : Ex.goes (npRun a v r) (fun q => decide (q = p)) = true) :
    npRun a v r = .ok p := by
  obtain ⟨q, h1, h2⟩ := Ex.goes_spec h
  rw [h1, of_decide_eq_true h2]

end Ex'

theorem Ex'.square_shown : AsShown Ex'.square ∧ AsShown Ex'.unit ∧ AsShown Ex'.zeros32 ∧ AsShown Ex'.zeros64 := by
  have k : ∀ a : NpArray, (∀ i < a.rows, ∀ j < a.cols, 0 ≤ (a.offs : Int) + i * a.sr + j * a.sc ∧
      (a.offs : Int) + i * a.sr + j * a.sc < a.mem.size) → InMem a := fun a h i j hi hj => h i hi j hj
  exact ⟨⟨k _ (by decide), .inr rfl, .inr rfl⟩, ⟨k _ (by decide), .inl le_rfl, .inr rfl⟩,
    ⟨k _ (by decide), .inl le_rfl, .inr rfl⟩, ⟨k _ (by decide), .inl le_rfl⟩⟩

/-- An array that is stored row by row, and one that is not. -/
example : InMem Ex'.square ∧ RowByRow Ex'.square ∧ ¬RowByRow Ex'.squareT :=
  ⟨Ex'.square_shown.1.1, ⟨.inr rfl, .inr rfl⟩, fun h => h.1.elim (by decide) (by decide)⟩

/-- The transpose of `np.array([[1, 2], [3, 4]])`, whose elements have 64 bits, is converted column by column. -/
example : InMem { Ex'.squareT with int32 := false } ∧
    entry { Ex'.squareT with int32 := false }.pass 2 0 1 = 2 ∧ elem { Ex'.squareT with int32 := false } 0 1 = 3 :=
  ⟨fun i j hi hj => (by decide : ∀ i < 2, ∀ j < 2, 0 ≤ (Ex'.squareT.offs : Int) + (i : Nat) * Ex'.squareT.sr + (j : Nat) * Ex'.squareT.sc ∧
    (Ex'.squareT.offs : Int) + (i : Nat) * Ex'.squareT.sr + (j : Nat) * Ex'.squareT.sc < Ex'.squareT.mem.size) i hi j hj, rfl, rfl⟩

/-- The hypotheses of both theorems, in this order. -/
example : ∃ w w' w'' r, Session Ex.env [] w ∧ npCpyMtrx Ex.env Ex'.square (2 : Nat) (2 : Nat) w = .ok (w', 0) ∧
    npExeMvm Ex.env Ex'.zeros32 Ex'.unit Ex'.square (2 : Nat) (2 : Nat) w' = .ok (w'', r, 0) ∧
    elem r 0 0 = 1 ∧ elem r 0 1 = 3 := by
  obtain ⟨w, h, h1⟩ := Ex.goes_spec (x := setConfig Ex.env (.good (digitalFile .iDiffWDiff1)) world0)
    (p := fun w => w.cfg.mode == .iDiffWDiff1 && w.cfg.digitalOnly && w.cfg.M == 32 && w.cfg.N == 32 &&
      w.cfg.wBit == 8 && w.cfg.iBit == 8 && w.cfg.split == [1, 3, 4]) (by decide +kernel)
  simp only [Bool.and_eq_true, beq_iff_eq] at h1
  obtain ⟨⟨⟨⟨⟨⟨h1, h2⟩, h3⟩, h4⟩, h5⟩, h6⟩, h7⟩ := h1
  have hok : CfgOk w.cfg := by
    unfold CfgOk
    rw [h1]
    dsimp only
    rw [h5, h6, h7]
    decide
  have hd : Accepted w.cfg 2 2 := ⟨by omega, by omega, by decide⟩
  have hW : ∀ z : Int, |z| < 256 → LegalW w.cfg z := fun z hz => by
    unfold LegalW
    rw [h1]
    dsimp only
    rw [h5]
    exact hz
  have k : ∀ i < 2, ∀ j < 2, |elem Ex'.square i j| < 256 := by decide
  obtain ⟨w', g1, g2, g3⟩ := C103_write_partial (.load h) hok h2 Ex'.square_shown.1 rfl rfl (by decide) hd
    (fun i j hi hj => hW _ (k i hi j hj)) (fun _ _ => by rw [h5]; decide)
  have hc : w'.cfg = w.cfg := by
    rcases cpyMtrx_inv g1 with ⟨_, q, _⟩ | ⟨_, _, _, _, _, _, rfl⟩
    · cases q
    · rfl
  have hs : ∀ i j v, lastWrite [.write Ex'.square.pass 2 2] i j = some v → i < 2 ∧ j < 2 := by
    intro i j v q
    by_contra q'
    simp only [lastWrite] at q
    rw [if_neg q'] at q
    cases q
  obtain ⟨w'', r, f1, f2, -⟩ := C103_mvm_partial (m := 2) (n := 2) (k := 2) (mat := Ex'.square) g2 (by rw [hc]; exact hok)
    (fun _ => rfl) (by rw [hc]; exact h2)
    (fun i j v q => by
      have q' := hs i j v q
      rw [g3 i j q'.1 q'.2] at q
      rw [hc, ← Option.some.inj q]
      exact hW _ (k i q'.1 j q'.2))
    (fun q => by rw [hc, h1] at q; exact q.elim) Ex'.square_shown.2.1 rfl rfl Ex'.square_shown.2.2.1.1
    Ex'.square_shown.2.2.1.2 rfl rfl rfl (by decide) (by rw [hc]; exact hd)
    (fun j hj => by
      have k : ∀ j < 2, -128 ≤ elem Ex'.unit 0 j ∧ elem Ex'.unit 0 j < 128 := by decide
      unfold LegalX
      rw [hc, h1]
      dsimp only
      rw [h6]
      exact k j hj)
    (fun i hi => by
      have k : ∀ i < 2, |elem Ex'.zeros32 0 i| + 2 * 2 ^ 16 ≤ 2147483647 := by decide
      unfold peak
      rw [hc, h1]
      dsimp only
      rw [h5, h6]
      exact k i hi)
    (fun i j hi hj => by rw [g3 i j hi hj]; rfl) (fun _ => rfl)
  exact ⟨w, w', w'', r, .load h, g1, f1, f2 0 (by decide), f2 1 (by decide)⟩

/-- The full claim holds for `square`, `unit`, `zeros32`. -/
theorem C103_witness : Ex'.npRun Ex'.square Ex'.unit Ex'.zeros32 = .ok (1, 3) :=
  Ex'.npRun_spec (by decide +kernel)

/-- The full claim fails for a transposed matrix: its first column is `1, 2`. -/
theorem C103_false_matrix : elem Ex'.squareT 0 0 = 1 ∧ elem Ex'.squareT 1 0 = 2 ∧
    Ex'.npRun Ex'.squareT Ex'.unit Ex'.zeros32 = .ok (1, 3) :=
  ⟨rfl, rfl, Ex'.npRun_spec (by decide +kernel)⟩

/-- It fails for every second element of a vector: `1, 0` are its elements. -/
theorem C103_false_vector : elem Ex'.everySecond 0 0 = 1 ∧ elem Ex'.everySecond 0 1 = 0 ∧
    Ex'.npRun Ex'.square Ex'.everySecond Ex'.zeros32 = .ok (15, 31) :=
  ⟨rfl, rfl, Ex'.npRun_spec (by decide +kernel)⟩

/-- It fails for a result array of 64-bit integers. -/
theorem C103_false_type : Ex'.npRun Ex'.square Ex'.unit Ex'.zeros64 = .ok (0, 0) :=
  Ex'.npRun_spec (by decide +kernel)

end Acs.Props
