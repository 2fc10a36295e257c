import Verif.Lemmas.Refine
import Verif.Lemmas.XAnalogAdc

/-! # Call sequences on an ideal analog crossbar -/

set_option linter.unusedSectionVars false

namespace Acs

open Finset Spec

section
variable {K : Type} [Field K] [LinearOrder K] [IsStrictOrderedRing K] [FloorRing K]
variable {E : Env K} {cfg : Cfg K} {mat vec res : Vec Int} {m n m' n' w : Nat} {l : String}
variable {x x' : Xbar K} {h : List Op} {lo hi : K}

/-- The state of an ideal crossbar, from its history. -/
theorem aHyp (hE : ExactArith E) (hok : CfgOk cfg) (hid : Ideal cfg) (hr : Runs E cfg h x)
    (hl : Legal cfg (lastWrite h) m n) (hd : Accepted cfg m n)
    (hs : keepsRowSums cfg.mode → ∀ i, i < m →
      x.mapper.core.gd.sumW.get i = ∑ j ∈ range n, val (lastWrite h) i j)
    (hv : n ≤ vec.size) (hres : m ≤ res.size) (hx : LegalVec cfg vec n) :
    AHyp E cfg x (lastWrite h) res vec m n where
  ok := hok
  id := hid
  shape := runs_shape hr
  cells := runs_cells hok hr
  cur := runs_nominal (curExact hE) hok hid.analog hid.c2c hid.rd hid.quiet hr
  legal := hl
  dims := hd
  sums := hs
  hv := hv
  hr := hres
  hx := hx

theorem iStep_some (hE : ExactArith E) (hok : CfgOk cfg) (hid : Ideal cfg) (hs : Shape E cfg x)
    (hi : cfg.mode.isInt = true) : ∀ s, s < cfg.S → x.mapper.core.iStep.get s ≠ none := fun s hs' => by
  rw [iStep_get (intOk hok hi) hs.core hs', hs.core.iMM, hid.analog, if_neg (by decide)]
  have hp : 1 ≤ cfg.split.getD s 0 := by
    rw [List.getD_eq_getElem _ _ hs']; exact hid.split hi _ (List.getElem_mem hs')
  have := (⟨hid.d, fun s hs => by
    rw [List.getD_eq_getElem _ _ hs]; exact hid.split hi _ (List.getElem_mem hs), fun _ _ => rfl⟩ :
    StepOk cfg fun s => (cfg.lrs - cfg.hrs) / (2 ^ cfg.split.getD s 0 - 1)).mask hs'
  unfold fieldDiv Env.ofInt
  rw [hE.f32]
  push_cast
  rw [if_neg this]
  simp

theorem xWrite_ideal (hE : ExactArith E) (hok : CfgOk cfg) (hid : Ideal cfg) (hr : Runs E cfg h x)
    (hd : Accepted cfg m n) (hbuf : m * n ≤ mat.size) (hW : LegalMat cfg (entry mat n) m n)
    (hsum : SumRoom cfg m n) : ∃ x1, xWrite E cfg x mat m n = .ok x1 :=
  xWrite_total_a hok (runs_shape hr) (runs_cells hok hr) hid.par hd hbuf hW hsum
    (iStep_some hE hok hid (runs_shape hr))

/-- The stored matrix right after a write of which a leading block is used. -/
theorem after_write (hok : CfgOk cfg) (hr : Runs E cfg h x) {x1 : Xbar K}
    (hx1 : xWrite E cfg x mat m n = .ok x1) (hW : LegalMat cfg (entry mat n) m n) (hm' : m' ≤ m) (hn' : n' ≤ n)
    (hn : keepsRowSums cfg.mode → n' = n) :
    (∀ i j, i < m' → j < n' → val (lastWrite (.write mat m n :: h)) i j = entry mat n i j) ∧
    Legal cfg (lastWrite (.write mat m n :: h)) m' n' ∧
    (keepsRowSums cfg.mode → ∀ i, i < m' →
      x1.mapper.core.gd.sumW.get i = ∑ j ∈ range n', val (lastWrite (.write mat m n :: h)) i j) := by
  have hL : ∀ i j, i < m' → j < n' → lastWrite (.write mat m n :: h) i j = some (entry mat n i j) :=
    fun i j hi hj => by simp only [lastWrite]; rw [if_pos ⟨by omega, by omega⟩]
  refine ⟨fun i j hi hj => by rw [val, hL i j hi hj]; rfl,
    fun i j hi hj => ⟨_, hL i j hi hj, hW i j (by omega) (by omega)⟩, fun hk i hi => ?_⟩
  have hw := hn hk
  subst hw
  rw [dWriteGd_sums (runs_shape hr).core (hasSums_of_keeps hk) (xWrite_frame hx1).1,
    Vec.over_lt (by omega)]
  refine sum_congr rfl fun j hj => ?_
  rw [val, hL i j hi (mem_range.1 hj)]
  rfl

/-- A legal multiplication of an ideal crossbar in a given state, with an ideal converter. -/
theorem mvm_inf (A : AHyp E cfg x (lastWrite h) res vec m n) (hE : ExactArith E) (hinf : cfg.adcType = .inf)
    (hgcc : cfg.mode = .iOffsWDiff → E.strict = false) (hroom : Room cfg res m n) :
    ∃ x' r, xMvm E cfg x res vec mat m n l = .ok (x', r) ∧ Adds r res (stored h) vec m n := by
  obtain ⟨a', e⟩ := A.inf (l := l) hE hinf hgcc hroom
  exact ⟨_, _, xMvm_analog A.id e, rfl, fun i hi => by rw [Vec.over_lt hi]; rfl,
    fun i hi => Vec.over_ge hi⟩

theorem mvm_adc (A : AHyp E cfg x (lastWrite h) res vec m n) (hE : ExactArith E)
    (hgcc : cfg.mode = .iOffsWDiff → E.strict = false) (hA : AdcOk cfg l lo hi)
    (hr : ∀ i, i < m → ∀ c ∈ conversions cfg (stored h) vec n i, lo ≤ c.1 ∧ c.1 ≤ hi)
    (hroom : ∀ i, i < m → ((|res.get i| + peak cfg n : Int) : K)
      + convPeak lo hi (conversions cfg (stored h) vec n i) ≤ 2147483647) :
    ∃ x' r, xMvm E cfg x res vec mat m n l = .ok (x', r) ∧
      AddsUpTo (fun i => rowErr cfg lo hi (conversions cfg (stored h) vec n i)) r res (stored h) vec m n := by
  obtain ⟨a', f, e, h⟩ := A.adc hE hgcc hA hr hroom
  exact ⟨_, _, xMvm_analog A.id e, rfl, fun i hi => by rw [Vec.over_lt hi]; exact h i hi,
    fun i hi => Vec.over_ge hi⟩

theorem conversions_congr {W W' : Nat → Nat → Int} {i : Nat} (h : ∀ j, j < n → W i j = W' i j) :
    conversions cfg W vec n i = conversions cfg W' vec n i := by
  have e1 : ∀ (r s : Nat) (v : Nat → Int), ∑ j ∈ range n, nominal cfg r (encP cfg (W i j) s) * (v j : K)
      = ∑ j ∈ range n, nominal cfg r (encP cfg (W' i j) s) * (v j : K) := fun r s v =>
    sum_congr rfl fun j hj => by rw [h j (mem_range.1 hj)]
  have e2 : ∀ (r s : Nat) (v : Nat → Int), ∑ j ∈ range n, nominal cfg r (encM cfg (W i j) s) * (v j : K)
      = ∑ j ∈ range n, nominal cfg r (encM cfg (W' i j) s) * (v j : K) := fun r s v =>
    sum_congr rfl fun j hj => by rw [h j (mem_range.1 hj)]
  have e3 : ∀ (r s : Nat) (v : Nat → Int), ∑ j ∈ range n, (nominal cfg r (encP cfg (W i j) s)
        - nominal cfg r (encM cfg (W i j) s)) * (v j : K)
      = ∑ j ∈ range n, (nominal cfg r (encP cfg (W' i j) s)
        - nominal cfg r (encM cfg (W' i j) s)) * (v j : K) := fun r s v =>
    sum_congr rfl fun j hj => by rw [h j (mem_range.1 hj)]
  unfold conversions
  simp only [e1, e2, e3]

/-- A legal write and a legal multiplication of a leading block, in any state. -/
theorem write_mvm_inf (hE : ExactArith E) (hok : CfgOk cfg) (hid : Ideal cfg) (hinf : cfg.adcType = .inf)
    (hgcc : cfg.mode = .iOffsWDiff → E.strict = false) (hr : Runs E cfg h x) {mat' : Vec Int}
    (hd : Accepted cfg m n) (hbuf : m * n ≤ mat.size) (hW : LegalMat cfg (entry mat n) m n)
    (hsum : SumRoom cfg m n) (hm' : m' ≤ m) (hn' : n' ≤ n) (hn : keepsRowSums cfg.mode → n' = n)
    (hv : n' ≤ vec.size) (hx : LegalVec cfg vec n') (hres : m' ≤ res.size)
    (hroom : Room cfg res m' n') :
    ∃ x1 x2 r, xWrite E cfg x mat m n = .ok x1 ∧ xMvm E cfg x1 res vec mat' m' n' l = .ok (x2, r) ∧
      Adds r res (entry mat n) vec m' n' := by
  obtain ⟨x1, hx1⟩ := xWrite_ideal hE hok hid hr hd hbuf hW hsum
  obtain ⟨e, hl, hs⟩ := after_write hok hr hx1 hW hm' hn' hn
  obtain ⟨x2, r, h1, h2⟩ := mvm_inf (mat := mat') (l := l) (aHyp hE hok hid (.write hr hx1) hl
    ⟨hm'.trans hd.1, hn'.trans hd.2.1, hn'.trans hd.2.2⟩ hs hv hres hx) hE hinf hgcc hroom
  exact ⟨x1, x2, r, hx1, h1, adds_congr h2 e⟩

theorem write_mvm_adc (hE : ExactArith E) (hok : CfgOk cfg) (hid : Ideal cfg)
    (hgcc : cfg.mode = .iOffsWDiff → E.strict = false) (hr : Runs E cfg h x) {mat' : Vec Int}
    (hd : Accepted cfg m n) (hbuf : m * n ≤ mat.size) (hW : LegalMat cfg (entry mat n) m n)
    (hsum : SumRoom cfg m n) (hv : n ≤ vec.size) (hx : LegalVec cfg vec n) (hres : m ≤ res.size)
    (hA : AdcOk cfg l lo hi)
    (hin : ∀ i, i < m → ∀ c ∈ conversions cfg (entry mat n) vec n i, lo ≤ c.1 ∧ c.1 ≤ hi)
    (hroom : ∀ i, i < m → ((|res.get i| + peak cfg n : Int) : K)
      + convPeak lo hi (conversions cfg (entry mat n) vec n i) ≤ 2147483647) :
    ∃ x1 x2 r, xWrite E cfg x mat m n = .ok x1 ∧ xMvm E cfg x1 res vec mat' m n l = .ok (x2, r) ∧
      AddsUpTo (fun i => rowErr cfg lo hi (conversions cfg (entry mat n) vec n i)) r res (entry mat n) vec m n := by
  obtain ⟨x1, hx1⟩ := xWrite_ideal hE hok hid hr hd hbuf hW hsum
  obtain ⟨e, hl, hs⟩ := after_write hok hr hx1 hW le_rfl le_rfl fun _ => rfl
  have hc : ∀ i, i < m → conversions cfg (stored (.write mat m n :: h)) vec n i
      = conversions cfg (entry mat n) vec n i := fun i hi => conversions_congr fun j hj => e i j hi hj
  obtain ⟨x2, r, h1, h2⟩ := mvm_adc (mat := mat') (l := l) (aHyp hE hok hid (.write hr hx1) hl hd hs hv hres hx) hE
    hgcc hA (fun i hi => by rw [hc i hi]; exact hin i hi) fun i hi => by rw [hc i hi]; exact hroom i hi
  refine ⟨x1, x2, r, hx1, h1, h2.size, fun i hi => ?_, h2.tail⟩
  have := h2.head i hi
  rw [hc i hi] at this
  have e' : prod (stored (.write mat m n :: h)) vec n i = prod (entry mat n) vec n i :=
    sum_congr rfl fun j hj => by rw [show stored (.write mat m n :: h) i j = _ from e i j hi (mem_range.1 hj)]
  rw [e'] at this
  exact this

/-- Legal calls on an ideal crossbar. -/
theorem exec_refines_inf (hE : ExactArith E) (hok : CfgOk cfg) (hid : Ideal cfg) (hinf : cfg.adcType = .inf)
    (hgcc : cfg.mode = .iOffsWDiff → E.strict = false) {ops : List Op} (hr : Runs E cfg h x)
    (hh : HistOk cfg w h) (hl : LegalOps cfg w h ops) :
    ∃ x' rs, exec E cfg x ops = .ok (x', rs) ∧ Answers h ops rs := by
  induction ops generalizing h x with
  | nil => exact ⟨x, [], rfl, .nil⟩
  | cons op ops ih =>
    cases op with
    | write mat m n =>
      obtain ⟨h1, h2⟩ := hl
      obtain ⟨x1, hx1⟩ := xWrite_ideal hE hok hid hr h1.dims h1.buf h1.vals h1.sums
      obtain ⟨x', rs, h3, h4⟩ := ih (.write hr hx1) (hh.write h1) h2
      exact ⟨x', rs, by rw [exec, hx1, ok_bind, h3], .write h4⟩
    | mvm res vec mat m n l =>
      obtain ⟨h1, h2⟩ := hl
      have A : AHyp E cfg x (lastWrite h) res vec m n := aHyp hE hok hid hr
        (fun i j hi hj => by
          obtain ⟨v, hv⟩ := Option.isSome_iff_exists.1 (h1.written i j hi hj)
          exact ⟨v, hv, hh.vals i j v hv⟩) h1.dims
        (fun hk i _ => by
          have hw := h1.width hk
          subst hw
          exact runs_sums hr (hasSums_of_keeps hk) (hh.width hk) i) h1.vecBuf h1.resBuf h1.vals
      obtain ⟨x1, r, hx1, ha⟩ := mvm_inf (mat := mat) (l := l) A hE hinf hgcc h1.room
      obtain ⟨x', rs, h3, h4⟩ := ih (.mvm hr hx1) hh.mvm h2
      refine ⟨x', r :: rs, ?_, .mvm ha h4⟩
      rw [exec, hx1, ok_bind]
      dsimp only
      rw [h3, ok_bind]

end

end Acs
