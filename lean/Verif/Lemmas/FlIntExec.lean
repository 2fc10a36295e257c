import Verif.Lemmas.FlIntRun
import Verif.Lemmas.RefineA

/-!
# Sessions of integer mappings in floating point
-/

set_option linter.unusedSectionVars false

namespace Acs

open Finset Spec

section
variable {K : Type} [Field K] [LinearOrder K] [IsStrictOrderedRing K] [FloorRing K]
variable {E : Env K} {cfg : Cfg K} {x : Xbar K} {q : Prec K} {h : List Op} {w : Nat}
variable {mat vec res : Vec Int} {m n : Nat} {l : String} {A lo hi ε : K}

/-- The step size of a slice. -/
theorem iStep_fl (hok : CfgOk cfg) (hd : cfg.digitalOnly = false) (hsp : ∀ s ∈ cfg.split, 1 ≤ s)
    (hi : cfg.mode.isInt = true) (hq : Rounds E q)
    (hsc : IntScale E cfg q) (hs : Shape E cfg x) {s : Nat} (hs' : s < cfg.S) :
    x.mapper.core.iStep.get s = some (stateStep E cfg s) := by
  have hI := intOk hok hi
  have hp : 1 ≤ cfg.split.getD s 0 := by
    rw [List.getD_eq_getElem _ _ hs']; exact hsp _ (List.getElem_mem hs')
  have h1 : (1 : Int) < 2 ^ cfg.split.getD s 0 := one_lt_pow₀ (by norm_num) (by omega)
  have h2 : cfg.split.getD s 0 ≤ 24 := by
    have := shiftOf_add_le cfg.split s
    have := hI.sum
    have := hsc.width
    omega
  have h3 : (2 : Int) ^ cfg.split.getD s 0 ≤ 2 ^ 24 := pow_le_pow_right₀ (by norm_num) h2
  have e1 : E.ofInt (2 ^ cfg.split.getD s 0 - 1) = sliceTop cfg s := by
    have := hq.int (2 ^ cfg.split.getD s 0 - 1) (by rw [abs_of_nonneg (by omega)]; omega)
    unfold Env.ofInt
    rw [this]
    unfold sliceTop
    push_cast
    rfl
  rw [iStep_get hI hs.core hs', hs.core.iMM, hd, if_neg (by decide), e1]
  unfold fieldDiv
  rw [if_neg (lt_of_lt_of_le one_pos (sliceTop_pos hp)).ne']
  rfl

/-- The current of a cell. -/
theorem cell_near (hq : Rounds E q) (hθ : q.θ ≤ 1) (h0 : 0 ≤ ε) (hc : CellsRound cfg ε q) {st top : K} (ht : 1 ≤ top)
    (ht' : top ≤ 2 ^ 24) (hst : |st * top - (cfg.lrs - cfg.hrs)| ≤ q.θ * |cfg.lrs - cfg.hrs|) {g : Int} (g0 : 0 ≤ g)
    (g1 : (g : K) ≤ top) :
    |cellCurrent E cfg.hrs st g - (cfg.hrs + g * ((cfg.lrs - cfg.hrs) / top))| ≤ ε := by
  have hu := hq.pos
  have ht0 : 0 < top := lt_of_lt_of_le one_pos ht
  have e1 : E.ofInt g = (g : K) := ofInt_small hq (A := 2 ^ 24)
    (by rw [abs_of_nonneg (Int.cast_nonneg g0)]; exact g1.trans ht') le_rfl
  have hr0 : (0 : K) ≤ g / top := div_nonneg (Int.cast_nonneg g0) ht0.le
  have hr1 : (g : K) / top ≤ 1 := (div_le_one ht0).2 g1
  have hw := window_le (cfg := cfg)
  have hm : (0 : K) ≤ max |cfg.hrs| |cfg.lrs| := (abs_nonneg _).trans (le_max_left _ _)
  have k1 : |g * st - g * ((cfg.lrs - cfg.hrs) / top)| ≤ q.θ * |cfg.lrs - cfg.hrs| := by
    have e : (g : K) * st - g * ((cfg.lrs - cfg.hrs) / top) = g / top * (st * top - (cfg.lrs - cfg.hrs)) := by
      field_simp
    rw [e, abs_mul, abs_of_nonneg hr0]
    exact (mul_le_of_le_one_left (abs_nonneg _) hr1).trans hst
  have k2 : |(g : K) * ((cfg.lrs - cfg.hrs) / top)| ≤ |cfg.lrs - cfg.hrs| := by
    have e : (g : K) * ((cfg.lrs - cfg.hrs) / top) = g / top * (cfg.lrs - cfg.hrs) := by field_simp
    rw [e, abs_mul, abs_of_nonneg hr0]
    exact mul_le_of_le_one_left (abs_nonneg _) hr1
  have k3 : |(g : K) * st| ≤ 5 * topCurrent cfg ε := by
    have := near_size k1 k2
    have := mul_le_mul_of_nonneg_right hθ (abs_nonneg (cfg.lrs - cfg.hrs))
    unfold topCurrent
    linarith
  have k4 : |E.fmul g st - g * st| ≤ cellRound cfg ε q := by
    have := hq.err (g * st)
    have := mul_le_mul_of_nonneg_left k3 hu
    unfold Env.fmul cellRound
    linarith
  have k5 := near_trans k4 k1
  have k6 : |E.fmul g st + cfg.hrs - (cfg.hrs + g * ((cfg.lrs - cfg.hrs) / top))|
      ≤ cellRound cfg ε q + q.θ * |cfg.lrs - cfg.hrs| := by
    have e : E.fmul g st + cfg.hrs - (cfg.hrs + g * ((cfg.lrs - cfg.hrs) / top))
        = E.fmul g st - g * ((cfg.lrs - cfg.hrs) / top) := by ring
    rw [e]; exact k5
  have hcr : 0 ≤ cellRound cfg ε q := (abs_nonneg _).trans k4
  unfold CellsRound at hc
  have k7 : |E.fmul g st + cfg.hrs| ≤ 5 * topCurrent cfg ε := by
    have e : cfg.hrs + g * ((cfg.lrs - cfg.hrs) / top) = cfg.hrs + g / top * (cfg.lrs - cfg.hrs) := by field_simp
    have := near_size k6 (e ▸ between_abs hr0 hr1)
    unfold topCurrent
    linarith
  have k8 : |E.fadd (E.fmul g st) cfg.hrs - (E.fmul g st + cfg.hrs)| ≤ cellRound cfg ε q := by
    have := hq.err (E.fmul g st + cfg.hrs)
    have := mul_le_mul_of_nonneg_left k7 hu
    unfold Env.fadd
    unfold cellRound
    linarith
  unfold cellCurrent
  rw [e1]
  have := near_trans k8 k6
  linarith

/-- The currents of the cells of an integer mapping, from its history. -/
theorem iCells (hq : Rounds E q) (hsc : IntScale E cfg q) (h0 : 0 ≤ ε) (hc : CellsRound cfg ε q) (hok : CfgOk cfg)
    (hd : cfg.digitalOnly = false) (hc2 : cfg.c2c = false) (hrd : cfg.readDisturb = false) (hsp : ∀ s ∈ cfg.split, 1 ≤ s)
    (hi : cfg.mode.isInt = true) (hr : Runs E cfg h x) (r k : Nat) :
    (|x.mapper.core.ia.p.get r k - nominal cfg r (x.mapper.core.gd.p.get r k)| ≤ ε ∧
        0 ≤ x.mapper.core.gd.p.get r k ∧ x.mapper.core.gd.p.get r k ≤ topState cfg r) ∧
      (|x.mapper.core.ia.m.get r k - nominal cfg r (x.mapper.core.gd.m.get r k)| ≤ ε ∧
        0 ≤ x.mapper.core.gd.m.get r k ∧ x.mapper.core.gd.m.get r k ≤ topState cfg r) := by
  have hsh := runs_shape hr
  have hcell := runs_cells hok hr
  have h1 := runs_intCur hok hi hd hc2 hrd hr
  have hio := intOk hok hi
  have hns : x.mapper.core.numSeg = cfg.S := by rw [hsh.core.numSeg, hi]; rfl
  have hS := cfgOk_S_pos hok
  have zero : ∀ r (y : K), y = cfg.hrs → |y - nominal cfg r 0| ≤ ε ∧ (0 : Int) ≤ 0 ∧ 0 ≤ topState cfg r := fun r y hy => by
    rw [nominal_zero, hy, sub_self, abs_zero]
    exact ⟨h0, le_refl 0, topState_nonneg r⟩
  have some' : ∀ r (g : Int) (y : K), 0 ≤ g → g ≤ 2 ^ cfg.split.getD (r % cfg.S) 0 - 1 →
      IntCell E cfg x.mapper.core r g y → |y - nominal cfg r g| ≤ ε ∧ 0 ≤ g ∧ g ≤ topState cfg r :=
    fun r g y g0 g1 ⟨st, e1, e2⟩ => by
      have hlt : r % cfg.S < cfg.S := Nat.mod_lt _ hS
      refine ⟨?_, g0, by rw [topState_int hi]; exact g1⟩
      rw [hns, iStep_fl hok hd hsp hi hq hsc hsh hlt] at e1
      rw [e2, ← Option.some.inj e1, nominal_int hi]
      have hp : 1 ≤ cfg.split.getD (r % cfg.S) 0 := by
        rw [List.getD_eq_getElem _ _ hlt]; exact hsp _ (List.getElem_mem hlt)
      have h2 : cfg.split.getD (r % cfg.S) 0 ≤ 24 := by
        have := shiftOf_add_le cfg.split (r % cfg.S)
        have := hio.sum
        have := hsc.width
        omega
      refine cell_near hq hsc.th h0 hc (sliceTop_pos hp) ?_ (hsc.step _ hlt) g0 ?_
      · have : (2 : K) ^ cfg.split.getD (r % cfg.S) 0 ≤ 2 ^ 24 := pow_le_pow_right₀ (by norm_num) h2
        unfold sliceTop
        linarith
      · have : (g : K) ≤ ((2 ^ cfg.split.getD (r % cfg.S) 0 - 1 : Int) : K) := Int.cast_le.2 g1
        push_cast at this
        exact this
  have hrow := rowOf_int hi r
  constructor
  · rw [hcell.p]
    have := h1.p r k
    split at this
    · next e => rw [e]; exact zero _ _ this
    · next w e =>
      rw [e]
      have hg := (enc_int_range hi w (r % cfg.S)).1
      rw [hrow] at this ⊢
      exact some' _ _ _ hg.1 hg.2 this
  · rw [hcell.m]
    by_cases hm : cfg.mode = .iUintWOffs
    · have e0 : ∀ w s, encM cfg w s = 0 := fun w s => by unfold encM; simp only [hm]
      have : cellOf (fun w => encM cfg w (rowOf cfg r).2) (lastWrite h (rowOf cfg r).1 k) = 0 := by
        unfold cellOf; split
        · rfl
        · exact e0 _ _
      rw [this]
      exact zero _ _ (h1.m' hm r k)
    · have := h1.m hm r k
      split at this
      · next e => rw [e]; exact zero _ _ this
      · next w e =>
        rw [e]
        have hg := (enc_int_range hi w (r % cfg.S)).2
        rw [hrow] at this ⊢
        exact some' _ _ _ hg.1 hg.2 this

theorem wires_false (hp : cfg.parasitics = false) : cfg.wires false = cfg := by
  rw [← hp]

/-- The state of an integer mapping, from its history. -/
theorem iHyp (hq : Rounds E q) (hsc : IntScale E cfg q) (h0 : 0 ≤ ε) (hc : CellsRound cfg ε q) (hok : CfgOk cfg)
    (hid : Ideal cfg) (hi : cfg.mode.isInt = true) (hr : Runs E cfg h x) (hl : Legal cfg (lastWrite h) m n)
    (hd : Accepted cfg m n) (hs : keepsRowSums cfg.mode → ∀ i, i < m →
      x.mapper.core.gd.sumW.get i = ∑ j ∈ range n, val (lastWrite h) i j)
    (hv : n ≤ vec.size) (hres : m ≤ res.size) (hx : LegalVec cfg vec n)
    (hcol : columnError cfg ε q n ≤ topCurrent cfg ε) :
    IHyp E cfg false x (lastWrite h) res vec m n (sliceDev cfg ε q n) := by
  have hsh := runs_shape hr
  have hcell := runs_cells hok hr
  have key := iCells hq hsc h0 hc hok hid.analog hid.c2c hid.rd (hid.split hi) hi hr
  have hfit := Fits.row hok hd
  have base : AHyp E cfg (nomX cfg x) (lastWrite h) res vec m n := {
    ok := hok
    id := hid
    shape := nomX_shape (pr := false) hid.par (by rw [wires_false hid.par]; exact hsh)
    cells := hcell
    cur := fun r k => ⟨⟨rfl, (key r k).1.2.1, (key r k).1.2.2⟩, ⟨rfl, (key r k).2.2.1, (key r k).2.2.2⟩⟩
    legal := hl
    dims := hd
    sums := hs
    hv := hv
    hr := hres
    hx := hx }
  have ht := hsh.aux.tmpFp fun _ => hid.par
  rw [hi, if_pos rfl] at ht
  have tmp : m * cfg.S ≤ x.mapper.aux.tmpFp.size := by omega
  have htop := (top_pos (cfg := cfg) hid.ne h0).le
  have hab : ∀ r g, 0 ≤ g → g ≤ topState cfg r → |nominal cfg r g| ≤ max |cfg.hrs| |cfg.lrs| := fun r g =>
    nominal_abs_le hok hi (hid.split hi)
  have absP : ∀ r k, |x.mapper.core.ia.p.get r k| ≤ topCurrent cfg ε := fun r k =>
    near_size (key r k).1.1 (hab _ _ (key r k).1.2.1 (key r k).1.2.2)
  have absM : ∀ r k, |x.mapper.core.ia.m.get r k| ≤ topCurrent cfg ε := fun r k =>
    near_size (key r k).2.1 (hab _ _ (key r k).2.2.1 (key r k).2.2.2)
  have HS := intShape (pr := false) hi base (fun _ => tmp) hq hsc
  rw [wires_false hid.par] at HS
  exact {
    int := hi
    base := base
    tmp := fun _ => tmp
    diff := fun _ => ⟨_, by rw [wires_false hid.par]; exact HS.cols hid.par, fun v b i s hi' hs' =>
      colDiff_near (c := x.mapper.core) (t := i * cfg.S + s) (g := fun j => bitOf (v j) b)
        (P := fun j => nominal cfg (i * cfg.split.length + s) (encP cfg (val (lastWrite h) i j) s))
        (Q := fun j => nominal cfg (i * cfg.split.length + s) (encM cfg (val (lastWrite h) i j) s))
        hq h0 htop hcol (fun j _ => bit_abs _ _)
        (fun j hj => by rw [← base.gdPs hi hi' hs' hj]; exact (key _ _).1.1)
        (fun j hj => by rw [← base.gdMs hi hi' hs' hj]; exact (key _ _).2.1)
        (fun j _ => absP _ _) (fun j _ => absM _ _)⟩
    one := fun _ => ⟨_, by rw [wires_false hid.par]; exact HS.colsV hid.par, fun v b i s hi' hs' =>
      colOne_near (c := x.mapper.core) (t := i * cfg.S + s) (g := fun j => bitOf (v j) b)
        (P := fun j => nominal cfg (i * cfg.split.length + s) (encP cfg (val (lastWrite h) i j) s))
        hq h0 htop hcol (fun j _ => bit_abs _ _)
        (fun j hj => by rw [← base.gdPs hi hi' hs' hj]; exact (key _ _).1.1)
        (fun j _ => absP _ _)⟩ }

/-- Legal calls of an integer mapping. -/
theorem exec_int (hq : Rounds E q) (hsc : IntScale E cfg q) (h0 : 0 ≤ ε) (hc : CellsRound cfg ε q) (hok : CfgOk cfg)
    (hid : Ideal cfg) (hi : cfg.mode.isInt = true) (hgcc : cfg.mode = .iOffsWDiff → E.strict = false)
    {rg : String → K × K} {ops : List Op} (hr : Runs E cfg h x) (hh : HistOk cfg w h) (hl : LegalOps cfg w h ops)
    (hP : AllIntRounds cfg rg ε q A h ops) :
    ∃ x' rs, exec E cfg x ops = .ok (x', rs) ∧ AnswersBy (IntWithin cfg rg ε q A) h ops rs := by
  unfold AllIntRounds at hP
  induction ops generalizing h x with
  | nil => exact ⟨x, [], rfl, .nil⟩
  | cons op ops ih =>
    cases op with
    | write mat m n =>
      obtain ⟨k1, k2⟩ := hl
      obtain ⟨x1, hx1⟩ := xWrite_total_a hok (runs_shape hr) (runs_cells hok hr) hid.par k1.dims k1.buf k1.vals k1.sums
        fun _ s hs => by rw [iStep_fl hok hid.analog (hid.split hi) hi hq hsc (runs_shape hr) hs]; exact Option.some_ne_none _
      obtain ⟨x', rs, h3, h4⟩ := ih (.write hr hx1) (hh.write k1) k2 hP
      exact ⟨x', rs, by rw [exec, hx1, ok_bind, h3], .write h4⟩
    | mvm res vec mat m n l =>
      obtain ⟨k1, k2⟩ := hl
      have H := iHyp (res := res) hq hsc h0 hc hok hid hi hr (legal_of hh k1) k1.dims (fun hk i _ => sums_of hr hh k1 hk i)
        k1.vecBuf k1.resBuf k1.vals hP.1.col
      obtain ⟨a', r, e1, e2⟩ := H.rounded hgcc hq hsc h0 hP.1
      rw [wires_false hid.par] at e1
      have hx1 := xMvm_analog (mat := mat) hid e1
      obtain ⟨x', rs, h3, h4⟩ := ih (.mvm hr hx1) hh.mvm k2 hP.2
      refine ⟨x', r :: rs, ?_, .mvm e2 h4⟩
      rw [exec, hx1, ok_bind]
      dsimp only
      rw [h3, ok_bind]

end

end Acs
