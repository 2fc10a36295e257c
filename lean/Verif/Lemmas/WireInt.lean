import Verif.Lemmas.WireRun
import Verif.Lemmas.FlIntAbs
import Verif.SpecWireInt

/-! # Integer mappings with resistive wires -/

set_option linter.unusedSectionVars false

namespace Acs

open Finset Spec

section
variable {K : Type} [Field K] [LinearOrder K] [IsStrictOrderedRing K] [FloorRing K]
variable {E : Env K} {cfg : Cfg K} {mat vec res r : Vec Int} {m n w : Nat} {l : String}
variable {x x' : Xbar K} {h : List Op} {lo hi A : K} {rg : String → K × K} {L : Nat → Nat → Option Int}
variable {W : Nat → Nat → Int}

/-! ## Errors -/

/-- A deviation of every cell that has the effect of the wires. -/
def wireEps (cfg : Cfg K) (n : Nat) : K := lineLoss cfg cfg.lrs n / (2 * n)

theorem sliceDev_wire : sliceDev cfg.noPar (wireEps cfg n) ⟨0, 0, 0⟩ n = lineLoss cfg cfg.lrs n := by
  unfold sliceDev wireEps columnError colRound cellRound
  rcases Nat.eq_zero_or_pos n with rfl | hn
  · simp [lineLoss]
  · have : (n : K) ≠ 0 := Nat.cast_ne_zero.2 hn.ne'
    field_simp
    ring

theorem levelError_wire {s : K} :
    levelError cfg.noPar lo hi (wireEps cfg n) ⟨0, 0, 0⟩ n s = wireLevel cfg lo hi n s := by
  unfold levelError wireLevel
  rw [sliceDev_wire]
  unfold adcRound
  simp
  left
  rfl

theorem stepError_wire {s : K} :
    stepError cfg.noPar lo hi (wireEps cfg n) ⟨0, 0, 0⟩ A n s = wireStep cfg lo hi n s := by
  have h1 : scaledError cfg.noPar (wireEps cfg n) ⟨0, 0, 0⟩ n s = |s| * lineLoss cfg cfg.lrs n := by
    unfold scaledError
    rw [sliceDev_wire]
    simp
  unfold stepError wireStep
  rw [levelError_wire, h1]
  have e1 : cfg.noPar.mode = cfg.mode := rfl
  have e2 : cfg.noPar.adcType = cfg.adcType := rfl
  rw [e1, e2]
  cases cfg.mode <;> cases cfg.adcType <;> simp only [zero_mul, add_zero]

theorem intError_wire {i : Nat} :
    intError cfg.noPar lo hi (wireEps cfg n) ⟨0, 0, 0⟩ A W vec n i = wireRow cfg lo hi W vec n i := by
  have h1 : offsetRound cfg.noPar ⟨0, 0, 0⟩ A n = 0 := by
    unfold offsetRound offsetError
    simp
  unfold intError wireRow
  simp only [stepError_wire, h1, add_zero]
  rfl

theorem intRounds_wire (hI : ResistiveInt cfg) (h : WireRoom cfg l lo hi W res vec m n) :
    IntRounds cfg.noPar l lo hi (wireEps cfg n) ⟨0, 0, 0⟩ (2 ^ 24) W res vec m n where
  prec := by norm_num
  col := by
    have h1 : columnError cfg.noPar (wireEps cfg n) ⟨0, 0, 0⟩ n = 0 := by
      unfold columnError colRound cellRound; simp
    rw [h1]
    unfold topCurrent wireEps
    have := lineLoss_nonneg (cfg := cfg) (I := cfg.lrs) hI.wire.le hI.read (n : K)
    have h2 : (0 : K) ≤ max |cfg.noPar.hrs| |cfg.noPar.lrs| := (abs_nonneg _).trans (le_max_left _ _)
    have h3 : (0 : K) ≤ n := Nat.cast_nonneg _
    have : 0 ≤ lineLoss cfg cfg.lrs n / (2 * n) := by positivity
    linarith
  pos := by positivity
  big := le_rfl
  input := h.input
  real := fun hr => by
    obtain ⟨h1, h2, h3, h4⟩ := h.real hr
    have hs := adcOk_step_pos h1
    refine ⟨⟨h1.1, h1.2, h1.3, h1.4, h1.5⟩, ⟨by norm_num, by norm_num, h2, h3, ?_, ?_⟩, h4⟩
    · unfold adcRound
      simp [h1.lt.le]
    · change 2 * (0 : K) < adcStep cfg lo hi
      linarith
  room := fun i hi' => by
    simp only [stepError_wire]
    exact h.room i hi'
  int := fun i hi' => by
    rw [intError_wire]
    exact h.int i hi'

theorem wireRow_absorbed (hb : WireIntAbsorbed cfg lo hi W vec m n) {i : Nat} (hi' : i < m) :
    wireRow cfg lo hi W vec n i = 0 := by
  unfold WireIntAbsorbed at hb
  unfold wireRow
  dsimp only
  split_ifs at hb ⊢ with hv
  · unfold absorb
    rw [if_pos (hb i hi')]
  · refine List.sum_eq_zero fun z hz => ?_
    obtain ⟨c, hc, rfl⟩ := List.mem_map.1 hz
    have hl := hb.2 i hi' c hc
    have ha := hb.1
    unfold wireStep
    split
    · exact absurd ‹_› hv
    · exact absurd ‹_› hv
    · exact absurd ‹_› ha
    · unfold absorb
      rw [if_pos hl]

/-! ## Columns -/

theorem slices_int (hi : cfg.mode.isInt = true) : slices cfg = cfg.S := by
  unfold slices
  cases hm : cfg.mode <;> first | rfl | (rw [hm] at hi; exact absurd hi (by decide))

theorem lines_int {md : Mode} (hi : md.isInt = true) : lines md = 1 := by
  cases md <;> first | rfl | exact absurd hi (by decide)

theorem taps_int (hi : cfg.mode.isInt = true) : taps cfg m = m * cfg.S := by
  unfold taps
  rw [slices_int hi]
  cases hm : cfg.mode <;> first | rfl | (rw [hm] at hi; exact absurd hi (by decide))

/-- The current that the wires deliver for the inputs `f`. -/
def wireCol (cfg : Cfg K) (c : Core K) (n : Nat) (f : Nat → Int) (t : Nat) : K :=
  tap cfg.mode (fun k => wiredCol (-cfg.vRead) cfg.wRes cfg.mode c.ia.p.get c.ia.m.get
    ((Vec.const n (0 : Int)).over n f).get ((Vec.const n (0 : Int)).over n f).get n cfg.N k) t

theorem wiredCol_inputs {u R : K} {md : Mode} {p q : Nat → Nat → K} {v v' : Nat → Int} {N c : Nat} (hl : lines md = 1)
    (h : ∀ j, j < n → v j = v' j) (vm vm' : Nat → Int) :
    wiredCol u R md p q v vm n N c = wiredCol u R md p q v' vm' n N c := by
  unfold wiredCol
  congr 1
  refine chain_congr fun r _ => ?_
  unfold onLine driven
  simp only [hl, Nat.div_one, Nat.mod_one, if_true]
  by_cases hr : r < n
  · rw [h r hr]
  · rw [if_neg fun h => hr h.1, if_neg fun h => hr h.1]

/-- A crossbar in sync delivers the currents of its wires. -/
theorem wire_delivers {b : Nat × Nat} (hE : ExactArith E) (hI : ResistiveInt cfg) (hsh : Shape E cfg x)
    (htn : Tuned cfg x.mapper.core.par) (hsy : InSync E cfg x b.1 b.2) (hpos : Conducts cfg x b.1 b.2)
    (hm : m ≤ b.1) (hn : n ≤ b.2) (hN : b.2 ≤ cfg.N) (hM : b.1 * cfg.S ≤ cfg.M) (term : Vec Int → Nat → Nat → C K) :
    Delivers E cfg x.mapper.core term (wireCol cfg x.mapper.core n) m n := by
  intro f sl t0 _ hsl _
  obtain ⟨s, hs⟩ := sync_solver hsy
  have hl := lines_int hI.int
  have hmM : m * cfg.S ≤ cfg.M := (Nat.mul_le_mul_right _ hm).trans hM
  have hb2 : cfg.mode ≠ .bnn2 := fun e => by have := hI.int; rw [e] at this; exact absurd this (by decide)
  have e1 := sync_currents (vp := sl.over n f) (vm := sl.over n f) (V := none) hE hsh htn hsy hs hI.read hI.wire hpos
    (Or.inr hl) hsl hsl hm hn (by rw [hl]; omega) (by rw [taps_int hI.int]; exact hmM)
  rw [taps_int hI.int] at e1
  have e3 : intCurrents E cfg x.mapper.core (term (sl.over n f)) (sl.over n f) (t0.fill 0) m n
      = computeCurrents E s (sl.over n f) none (m * cfg.S) n := by
    unfold intCurrents
    rw [if_pos hI.par, hs]
  refine ⟨_, e3.trans e1, hmM, fun k hk => ?_⟩
  · rw [Vec.over_lt hk]
    unfold wireCol firstArray secondArray
    rw [if_neg hb2, if_neg hb2]
    unfold tap
    have e2 : ∀ k, wiredCol (-cfg.vRead) cfg.wRes cfg.mode x.mapper.core.ia.p.get x.mapper.core.ia.m.get
        (sl.over n f).get (sl.over n f).get n cfg.N k = wiredCol (-cfg.vRead) cfg.wRes cfg.mode x.mapper.core.ia.p.get
        x.mapper.core.ia.m.get ((Vec.const n (0 : Int)).over n f).get ((Vec.const n (0 : Int)).over n f).get n cfg.N k :=
      fun k => wiredCol_inputs hl (fun j hj => by rw [Vec.over_lt hj, Vec.over_lt hj]) _ _
    simp only [e2]

theorem bits_sum_le {f : Nat → Int} (hf : Bits f n) : ((∑ j ∈ range n, f j : Int) : K) ≤ n ∧ (0 : K) ≤ ((∑ j ∈ range n, f j : Int) : K) := by
  constructor
  · have : ∑ j ∈ range n, f j ≤ ∑ _j ∈ range n, (1 : Int) := sum_le_sum fun j hj => by
      rcases hf j (mem_range.1 hj) with e | e <;> simp [e]
    rw [sum_const, card_range, nsmul_eq_mul, mul_one] at this
    exact_mod_cast this
  · exact_mod_cast sum_nonneg fun j hj => by
      rcases hf j (mem_range.1 hj) with e | e <;> simp [e]

theorem lineLoss_le {I y k : K} (hR : 0 ≤ cfg.wRes) (hv : cfg.vRead < 0) (hI : 0 ≤ I) (h0 : 0 ≤ y) (h : y ≤ k) :
    lineLoss cfg I y ≤ lineLoss cfg I k := by
  have := lineLoss_mono (cfg := cfg) (I := I) hR hv (y := y * I) (k := k) (mul_nonneg h0 hI) (mul_le_mul_of_nonneg_right h hI)
  exact this

theorem Lossy.mono {y z d d' : K} (h : Lossy y z d) (hd : d ≤ d') : Lossy y z d' := ⟨h.1, by have := h.2; linarith⟩

/-- The current of a bit line of a column of cells with currents from 0 to `LRS`. -/
theorem line_int (hI : ResistiveInt cfg) (hn : n ≤ cfg.N) {A B : Nat → Nat → K} {k : Nat} {f : Nat → Int} (hf : Bits f n)
    (hA : ∀ j, j < n → 0 ≤ cross cfg.mode A B j k ∧ cross cfg.mode A B j k ≤ cfg.lrs) (u : Vec Int) (vm : Nat → Int) :
    Lossy (wiredCol (-cfg.vRead) cfg.wRes cfg.mode A B (u.over n f).get vm n cfg.N k)
      (∑ j ∈ range n, cross cfg.mode A B j k * f j) (lineLoss cfg cfg.lrs n) :=
  (line_one hI.read hI.wire (lines_int hI.int) hn hf hA vm).mono
    (lineLoss_le hI.wire.le hI.read (hI.hrs.trans hI.lt.le) (bits_sum_le hf).2 (bits_sum_le hf).1)

/-- Pairs of bit lines. -/
theorem wireCol_diff (hI : ResistiveInt cfg) (hp : pair cfg.mode = 2) (hn : n ≤ cfg.N) {c : Core K} {t : Nat}
    {f : Nat → Int} (hf : Bits f n) (hA : ∀ j, j < n → (0 ≤ c.ia.p.get t j ∧ c.ia.p.get t j ≤ cfg.lrs) ∧
      (0 ≤ c.ia.m.get t j ∧ c.ia.m.get t j ≤ cfg.lrs)) :
    |wireCol cfg c n f t - ∑ j ∈ range n, (c.ia.p.get t j - c.ia.m.get t j) * (f j : K)| ≤ lineLoss cfg cfg.lrs n := by
  have hl := lines_int hI.int
  have hx := fun j => cross_12 (A := c.ia.p.get) (B := c.ia.m.get) hl hp j t
  have h1 := line_int hI hn (A := c.ia.p.get) (B := c.ia.m.get) (k := 2 * t) hf
    (fun j hj => by rw [(hx j).1]; exact (hA j hj).1) (Vec.const n 0) ((Vec.const n (0 : Int)).over n f).get
  have h2 := line_int hI hn (A := c.ia.p.get) (B := c.ia.m.get) (k := 2 * t + 1) hf
    (fun j hj => by rw [(hx j).2]; exact (hA j hj).2) (Vec.const n 0) ((Vec.const n (0 : Int)).over n f).get
  have h3 := h1.sub (e := 0) h2 (Y := ∑ j ∈ range n, (c.ia.p.get t j - c.ia.m.get t j) * (f j : K)) (by
    rw [← sum_sub_distrib, ← sum_sub_distrib]
    simp only [fun j => (hx j).1, fun j => (hx j).2, sub_mul, sub_self, sum_const_zero, abs_zero, le_refl])
  rw [zero_add] at h3
  unfold wireCol tap
  rw [if_neg]
  · exact h3
  · have := hI.int
    rintro (e | e | e)
    · omega
    all_goals rw [e] at this; exact absurd this (by decide)

/-- Single bit lines. -/
theorem wireCol_one (hI : ResistiveInt cfg) (hp : pair cfg.mode = 1) (hn : n ≤ cfg.N) {c : Core K} {t : Nat}
    {f : Nat → Int} (hf : Bits f n) (hA : ∀ j, j < n → 0 ≤ c.ia.p.get t j ∧ c.ia.p.get t j ≤ cfg.lrs) :
    |wireCol cfg c n f t - ∑ j ∈ range n, c.ia.p.get t j * (f j : K)| ≤ lineLoss cfg cfg.lrs n := by
  have hl := lines_int hI.int
  have hx := fun j => cross_11 (A := c.ia.p.get) (B := c.ia.m.get) hl hp j t
  have h1 := line_int hI hn (A := c.ia.p.get) (B := c.ia.m.get) (k := t) hf
    (fun j hj => by rw [hx j]; exact hA j hj) (Vec.const n 0) ((Vec.const n (0 : Int)).over n f).get
  have h3 := h1.near (e := 0) (Y := ∑ j ∈ range n, c.ia.p.get t j * (f j : K)) (by
    simp only [hx, sub_self, abs_zero, le_refl])
  rw [zero_add] at h3
  unfold wireCol tap
  rw [if_pos (Or.inl hp)]
  exact h3

end

end Acs
