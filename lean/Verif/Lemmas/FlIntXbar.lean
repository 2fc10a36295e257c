import Verif.Lemmas.FlIntConv
import Verif.Lemmas.NearXbar

/-!
# Multiplications of integer mappings in floating point
-/

set_option linter.unusedSectionVars false

namespace Acs

open Finset Spec

section
variable {K : Type} [Field K] [LinearOrder K] [IsStrictOrderedRing K] [FloorRing K]
variable {E : Env K} {cfg : Cfg K} {x : Xbar K} {L : Nat → Nat → Option Int} {q : Prec K}
variable {mat vec res : Vec Int} {m n : Nat} {l : String} {A lo hi ε δ θ : K} {e f : K → K}

/-- `cfg` with or without wire resistance. -/
abbrev Cfg.wires (cfg : Cfg K) (pr : Bool) : Cfg K := { cfg with parasitics := pr }

/-- The crossbar with nominal currents and ideal wires. -/
def nomX (cfg : Cfg K) (x : Xbar K) : Xbar K :=
  { x with mapper := { x.mapper with
    core := { x.mapper.core with
      ia := { x.mapper.core.ia with
        p := { x.mapper.core.ia.p with get := fun r k => nominal cfg r (x.mapper.core.gd.p.get r k) }
        m := { x.mapper.core.ia.m with get := fun r k => nominal cfg r (x.mapper.core.gd.m.get r k) } } }
    aux := { x.mapper.aux with tmpFp := Vec.const (if cfg.mode.isInt then cfg.R else cfg.M) 0 } } }

/-- The currents of pairs of columns deviate by at most `δ`. -/
def DiffNear (cfg : Cfg K) (L : Nat → Nat → Option Int) (m n : Nat) (δ : K) (col : (Nat → Int) → Nat → K) : Prop :=
  ∀ (v : Nat → Int) (b i s : Nat), i < m → s < cfg.S → |col (fun j => bitOf (v j) b) (i * cfg.S + s)
    - ∑ j ∈ range n, (nominal cfg (i * cfg.split.length + s) (encP cfg (val L i j) s)
        - nominal cfg (i * cfg.split.length + s) (encM cfg (val L i j) s)) * (bitOf (v j) b : K)| ≤ δ

/-- The currents of single columns deviate by at most `δ`. -/
def OneNear (cfg : Cfg K) (L : Nat → Nat → Option Int) (m n : Nat) (δ : K) (col : (Nat → Int) → Nat → K) : Prop :=
  ∀ (v : Nat → Int) (b i s : Nat), i < m → s < cfg.S → |col (fun j => bitOf (v j) b) (i * cfg.S + s)
    - ∑ j ∈ range n, nominal cfg (i * cfg.split.length + s) (encP cfg (val L i j) s) * (bitOf (v j) b : K)| ≤ δ

/-- An integer mapping whose columns deviate by at most `δ`, and a legal call. -/
structure IHyp (E : Env K) (cfg : Cfg K) (pr : Bool) (x : Xbar K) (L : Nat → Nat → Option Int) (res vec : Vec Int)
    (m n : Nat) (δ : K) : Prop where
  int : cfg.mode.isInt = true
  base : AHyp E cfg (nomX cfg x) L res vec m n
  tmp : pr = false → m * cfg.S ≤ x.mapper.aux.tmpFp.size
  diff : cfg.mode ≠ .iUintWOffs → ∃ col, Delivers E (cfg.wires pr) x.mapper.core (iaDiffTerm E x.mapper.core.ia) col m n ∧
    DiffNear cfg L m n δ col
  one : cfg.mode = .iUintWOffs → ∃ col, Delivers E (cfg.wires pr) x.mapper.core (iaTerm E x.mapper.core.ia.p) col m n ∧
    OneNear cfg L m n δ col

theorem nomX_shape {pr : Bool} (hp : cfg.parasitics = false) (h : Shape E (cfg.wires pr) x) : Shape E cfg (nomX cfg x) where
  core := {
    fixed := by
      obtain ⟨c0, h1, h2⟩ := h.core.fixed
      exact ⟨c0, h1, ⟨h2.1, h2.2, h2.3, h2.4, h2.5, h2.6, h2.7, h2.8⟩⟩
    gd := ⟨h.core.gd.p, h.core.gd.m, h.core.gd.sumW⟩
    ia := ⟨h.core.ia.p, h.core.ia.m, h.core.ia.pO, h.core.ia.mO⟩
    par := h.core.par }
  aux := { h.aux with tmpFp := fun _ => rfl }
  rd := fun e => by
    obtain ⟨rd, h1, h2⟩ := h.rd e
    exact ⟨rd, h1, h2.1, h2.2, h2.3, h2.4⟩
  parEx := fun _ h => by rw [hp] at h; cases h

/-- A point between two currents. -/
theorem between_abs {a b t : K} (h0 : 0 ≤ t) (h1 : t ≤ 1) : |a + t * (b - a)| ≤ max |a| |b| := by
  have e : a + t * (b - a) = (1 - t) * a + t * b := by ring
  rw [e]
  refine (abs_add_le _ _).trans ?_
  rw [abs_mul, abs_mul, abs_of_nonneg h0, abs_of_nonneg (by linarith)]
  have k1 := mul_le_mul_of_nonneg_left (le_max_left |a| |b|) (by linarith : 0 ≤ 1 - t)
  have k2 := mul_le_mul_of_nonneg_left (le_max_right |a| |b|) h0
  linarith

theorem sliceTop_pos {s : Nat} (h : 1 ≤ cfg.split.getD s 0) : (1 : K) ≤ sliceTop cfg s := by
  unfold sliceTop
  have : (2 : K) ^ 1 ≤ 2 ^ cfg.split.getD s 0 := pow_le_pow_right₀ (by norm_num) h
  linarith

theorem nominal_abs_le (hok : CfgOk cfg) (hi : cfg.mode.isInt = true) (hsp : ∀ s ∈ cfg.split, 1 ≤ s) {r : Nat} {g : Int} (h1 : 0 ≤ g) (h2 : g ≤ topState cfg r) :
    |nominal cfg r g| ≤ max |cfg.hrs| |cfg.lrs| := by
  have hS := cfgOk_S_pos hok
  have hp : 0 < sliceTop cfg (r % cfg.S) := lt_of_lt_of_le one_pos (sliceTop_pos (by
    have hlt : r % cfg.S < cfg.S := Nat.mod_lt r hS
    rw [List.getD_eq_getElem _ _ hlt]; exact hsp _ (List.getElem_mem hlt)))
  have e : nominal cfg r g = cfg.hrs + (g : K) / sliceTop cfg (r % cfg.S) * (cfg.lrs - cfg.hrs) := by
    rw [nominal_int hi]
    unfold sliceTop
    ring
  rw [topState_int hi] at h2
  have h3 : (g : K) ≤ sliceTop cfg (r % cfg.S) := by
    have : (g : K) ≤ ((2 ^ cfg.split.getD (r % cfg.S) 0 - 1 : Int) : K) := Int.cast_le.2 h2
    push_cast at this
    exact this
  rw [e]
  exact between_abs (div_nonneg (Int.cast_nonneg h1) hp.le) ((div_le_one hp).2 h3)

/-- The sizes of a crossbar with an integer mapping. -/
theorem intShape {pr : Bool} (hi : cfg.mode.isInt = true) (A : AHyp E cfg (nomX cfg x) L res vec m n)
    (htmp : pr = false → m * cfg.S ≤ x.mapper.aux.tmpFp.size) (hq : Rounds E q) (hsc : IntScale E cfg q) :
    IntShape (cfg.wires pr) x.mapper.core x.mapper.aux (stateStep E cfg) m n := by
  have hfit := Fits.row A.ok A.dims
  have ha := A.shape.aux
  have hc := A.shape.core
  have h1 := hc.ia.p
  have h2 := hc.ia.m
  have h3 := hc.gd.sumW
  have hI := intOk A.ok hi
  unfold Mat.Is at h1 h2
  obtain ⟨d1, d2, d3⟩ := A.dims
  have g1 : x.mapper.core.ia.p.rows = cfg.R ∧ x.mapper.core.ia.p.cols = cfg.N := h1
  have g2 : x.mapper.core.ia.m.rows = cfg.R ∧ x.mapper.core.ia.m.cols = cfg.N := h2
  have g3 : x.mapper.core.gd.sumW.size = cfg.M := h3
  exact {
    ne := hsc.ne
    shs := hc.shift_size
    sh := fun s _ => hI.shift_lt hc s
    sts := hc.iStep_size
    st := fun s hs => by
      have e1 := iStep_get hI hc hs
      rw [hc.iMM, A.id.analog, if_neg (by decide)] at e1
      refine e1.trans ?_
      have hle : cfg.split.getD s 0 ≤ 24 := by
        have h4 := shiftOf_add_le cfg.split s
        have h5 := hI.sum
        have h6 := hsc.width
        omega
      have hm : E.ofInt (2 ^ cfg.split.getD s 0 - 1) = sliceTop cfg s := by
        unfold Env.ofInt
        rw [hq.int]
        · unfold sliceTop; push_cast; rfl
        · have k1 : (2 : Int) ^ cfg.split.getD s 0 ≤ 2 ^ 24 := pow_le_pow_right₀ (by norm_num) hle
          have k2 : (0 : Int) < 2 ^ cfg.split.getD s 0 := by positivity
          rw [abs_of_nonneg (by omega)]
          omega
      unfold fieldDiv
      rw [hm, if_neg (lt_of_lt_of_le one_pos (sliceTop_pos (A.slice hi hs))).ne']
      rfl
    pr := by change m * cfg.S ≤ _; omega
    pc := by omega
    mr := by change m * cfg.S ≤ _; omega
    mc := by omega
    sw := by omega
    vdP := by have := ha.vdP; change x.mapper.aux.vdP.size = _ at this; omega
    vdM := by have := ha.vdM; change x.mapper.aux.vdM.size = _ at this; omega
    vdS := by have := ha.vdSlice; change x.mapper.aux.vdSlice.size = _ at this; omega
    tmpFp := htmp
    resFp := by have := ha.resFp; change x.mapper.aux.resFp.size = _ at this; omega }

namespace IHyp
variable {pr : Bool} (H : IHyp E cfg pr x L res vec m n δ)
include H

theorem spos {s : Nat} (hs : s < cfg.S) : (1 : K) ≤ sliceTop cfg s := sliceTop_pos (H.base.slice H.int hs)

theorem nominal_abs {r : Nat} {g : Int} (h1 : 0 ≤ g) (h2 : g ≤ topState cfg r) :
    |nominal cfg r g| ≤ max |cfg.hrs| |cfg.lrs| := nominal_abs_le H.base.ok H.int (H.base.id.split H.int) h1 h2

theorem shape (hq : Rounds E q) (hsc : IntScale E cfg q) :
    IntShape (cfg.wires pr) x.mapper.core x.mapper.aux (stateStep E cfg) m n := intShape H.int H.base H.tmp hq hsc

/-- The factor of a conversion. -/
theorem scl_near (hsc : IntScale E cfg q) {s b : Nat} (hs : s < cfg.S) (hb : b ≤ 32) {sg : K} (hsg : sg = 1 ∨ sg = -1) :
    |scl E x.mapper.core (stateStep E cfg) sg s b
      - sg * (2 ^ (shiftOf cfg.split s + b) * (2 ^ cfg.split.getD s 0 - 1)) / (cfg.lrs - cfg.hrs)|
      ≤ q.θ * |sg * (2 ^ (shiftOf cfg.split s + b) * (2 ^ cfg.split.getD s 0 - 1)) / (cfg.lrs - cfg.hrs)| := by
  have hI := intOk H.base.ok H.int
  have hsh : x.mapper.core.shift.get s = shiftOf cfg.split s := hI.shift H.base.shape.core s
  have hk : shiftOf cfg.split s + b < 64 := by
    have := shiftOf_le cfg.split s
    have := hI.sum
    have := hI.w31
    omega
  have hd := H.base.id.d
  have hd' : 0 < |cfg.lrs - cfg.hrs| := abs_pos.2 hd
  have h1 := hsc.scale s hs _ hk sg hsg
  have hp := H.spos hs
  unfold scl
  rw [hsh]
  change |_ - sg * (2 ^ (shiftOf cfg.split s + b) * sliceTop cfg s) / (cfg.lrs - cfg.hrs)|
    ≤ q.θ * |sg * (2 ^ (shiftOf cfg.split s + b) * sliceTop cfg s) / (cfg.lrs - cfg.hrs)|
  generalize E.f32 (E.f64 (2 ^ (shiftOf cfg.split s + b) / (sg * stateStep E cfg s))) = y at h1 ⊢
  have h2 : |sg * (2 ^ (shiftOf cfg.split s + b) * sliceTop cfg s)| = 2 ^ (shiftOf cfg.split s + b) * sliceTop cfg s := by
    have : 0 ≤ (2 : K) ^ (shiftOf cfg.split s + b) * sliceTop cfg s := mul_nonneg (by positivity) (by linarith)
    rw [abs_mul, abs_of_nonneg this]
    rcases hsg with e | e <;> rw [e] <;> simp
  rw [abs_div, h2]
  generalize sg * (2 ^ (shiftOf cfg.split s + b) * sliceTop cfg s) = z at h1 ⊢
  generalize 2 ^ (shiftOf cfg.split s + b) * sliceTop cfg s = z' at h1 ⊢
  rw [← mul_div_assoc, le_div_iff₀ hd', ← abs_mul, sub_mul, div_mul_cancel₀ _ hd]
  exact h1

/-- The number that a pair of columns stands for. -/
theorem diff_val {i s : Nat} (hi : i < m) (hs : s < cfg.S) (v : Nat → Int) (b : Nat) (sg : Int) :
    (∑ j ∈ range n, (nominal cfg (i * cfg.split.length + s) (encP cfg (val L i j) s)
        - nominal cfg (i * cfg.split.length + s) (encM cfg (val L i j) s)) * (bitOf (v j) b : K))
        * (sg * (2 ^ (shiftOf cfg.split s + b) * (2 ^ cfg.split.getD s 0 - 1)) / (cfg.lrs - cfg.hrs))
      = ((sg * tgt x.mapper.core.shift.get cfg.S x.mapper.core.D v n b i s : Int) : K) := by
  have e1 := H.base.colS H.int hi hs (fun j => bitOf (v j) b)
  change _ = ((∑ j ∈ range n, x.mapper.core.D (i * cfg.S + s) j * bitOf (v j) b : Int) : K) * _ at e1
  rw [e1]
  unfold tgt
  have hsh : x.mapper.core.shift.get s = shiftOf cfg.split s := (intOk H.base.ok H.int).shift H.base.shape.core s
  rw [hsh]
  have hd := H.base.id.d
  have hp : (2 : K) ^ cfg.split.getD s 0 - 1 ≠ 0 := (lt_of_lt_of_le one_pos (H.spos hs)).ne'
  rw [Int.cast_mul, Int.cast_mul, Int.cast_pow]
  generalize ((∑ j ∈ range n, x.mapper.core.D (i * cfg.S + s) j * bitOf (v j) b : Int) : K) = z
  push_cast
  field_simp

/-- Conversions of pairs of columns. -/
theorem convD (hq : Rounds E q) (hsc : IntScale E cfg q) {col : (Nat → Int) → Nat → K} (hn : DiffNear cfg L m n δ col)
    (hC : ConvI E cfg x.mapper.core.adc l lo hi δ q.θ A e f) {v : Nat → Int} {N : Nat} (hN : N ≤ 32)
    {sg : Int} (hsg : sg = 1 ∨ sg = -1)
    (hT : ∀ i, i < m → ∀ b s, b < N → s < cfg.S →
      lo ≤ ∑ j ∈ range n, (nominal cfg (i * cfg.split.length + s) (encP cfg (val L i j) s)
        - nominal cfg (i * cfg.split.length + s) (encM cfg (val L i j) s)) * (bitOf (v j) b : K) ∧
      ∑ j ∈ range n, (nominal cfg (i * cfg.split.length + s) (encP cfg (val L i j) s)
        - nominal cfg (i * cfg.split.length + s) (encM cfg (val L i j) s)) * (bitOf (v j) b : K) ≤ hi) :
    ConvBits E (cfg.wires pr) x.mapper.core col (stateStep E cfg) A (Int.cast : Int → K) E.iaddf v (sg : K) m N l
        (fun b i s => sg * tgtK K x.mapper.core cfg x.mapper.core.D v n b i s)
        (fun b s => e (sg * (2 ^ (shiftOf cfg.split s + b) * (2 ^ cfg.split.getD s 0 - 1)) / (cfg.lrs - cfg.hrs))) ∧
      ConvBits E (cfg.wires pr) x.mapper.core col (stateStep E cfg) A (Int.cast : Int → K) E.isubf v (sg : K) m N l
        (fun b i s => -(sg * tgtK K x.mapper.core cfg x.mapper.core.D v n b i s))
        (fun b s => e (sg * (2 ^ (shiftOf cfg.split s + b) * (2 ^ cfg.split.getD s 0 - 1)) / (cfg.lrs - cfg.hrs))) := by
  have key : ∀ b i s, b < N → i < m → s < cfg.S → _ := fun b i s hb hi hs =>
    hC (col (fun j => bitOf (v j) b) (i * cfg.S + s)) _ (scl E x.mapper.core (stateStep E cfg) sg s b) _
      (hT i hi b s hb hs).1 (hT i hi b s hb hs).2
      (hn v b i s hi hs)
      (H.scl_near hsc hs (b := b) (by omega) (by rcases hsg with h | h <;> simp [h]))
  constructor
  · intro b i s hb hi hs
    obtain ⟨κ, k1, _, k2, k3⟩ := key b i s hb hi hs
    refine ⟨k2, κ, k1, ?_⟩
    have := (k3 _ (H.diff_val hi hs v b sg)).1
    rw [Int.cast_mul] at this
    exact this
  · intro b i s hb hi hs
    obtain ⟨κ, k1, _, k2, k3⟩ := key b i s hb hi hs
    refine ⟨k2, κ, k1, ?_⟩
    have := (k3 _ (H.diff_val hi hs v b sg)).2
    rw [Int.cast_mul] at this
    exact this

/-- Conversions of single columns. -/
theorem convO (hq : Rounds E q) (hsc : IntScale E cfg q) {col : (Nat → Int) → Nat → K} (hn : OneNear cfg L m n δ col) (hA0 : 0 ≤ A)
    (hC : ConvI E cfg x.mapper.core.adc l lo hi δ q.θ A e f) {v : Nat → Int} {N : Nat} (hN : N ≤ 32)
    (hT : ∀ i, i < m → ∀ b s, b < N → s < cfg.S →
      lo ≤ ∑ j ∈ range n, nominal cfg (i * cfg.split.length + s) (encP cfg (val L i j) s) * (bitOf (v j) b : K) ∧
      ∑ j ∈ range n, nominal cfg (i * cfg.split.length + s) (encP cfg (val L i j) s) * (bitOf (v j) b : K) ≤ hi) :
    ConvBits E (cfg.wires pr) x.mapper.core col (stateStep E cfg) A (fun y : K => y) (faddC E) v 1 m N l
        (fun b i s => (∑ j ∈ range n, nominal cfg (i * cfg.split.length + s) (encP cfg (val L i j) s) * (bitOf (v j) b : K))
          * (1 * (2 ^ (shiftOf cfg.split s + b) * (2 ^ cfg.split.getD s 0 - 1)) / (cfg.lrs - cfg.hrs)))
        (fun b s => f (1 * (2 ^ (shiftOf cfg.split s + b) * (2 ^ cfg.split.getD s 0 - 1)) / (cfg.lrs - cfg.hrs))
          + (q.u * A + q.η)) := by
  intro b i s hb hi hs
  obtain ⟨κ, k1, k2, _⟩ :=
    hC (col (fun j => bitOf (v j) b) (i * cfg.S + s)) _ (scl E x.mapper.core (stateStep E cfg) 1 s b) _
      (hT i hi b s hb hs).1 (hT i hi b s hb hs).2
      (hn v b i s hi hs)
      (H.scl_near hsc hs (b := b) (by omega) (Or.inl rfl))
  refine ⟨?_, κ, k1, steps_float hq hA0 k2⟩
  have := (abs_nonneg _).trans k2
  have := mul_nonneg hq.pos hA0
  have := eta_nonneg hq
  linarith

/-- Currents of pairs of columns. -/
theorem diff_range (h0 : 0 ≤ ε) {i s : Nat} (hi : i < m) (hs : s < cfg.S) (g : Nat → Int) (b : Nat) :
    -sliceMax cfg ε n ≤ ∑ j ∈ range n, (nominal cfg (i * cfg.split.length + s) (encP cfg (val L i j) s)
        - nominal cfg (i * cfg.split.length + s) (encM cfg (val L i j) s)) * (bitOf (g j) b : K) ∧
      ∑ j ∈ range n, (nominal cfg (i * cfg.split.length + s) (encP cfg (val L i j) s)
        - nominal cfg (i * cfg.split.length + s) (encM cfg (val L i j) s)) * (bitOf (g j) b : K) ≤ sliceMax cfg ε n := by
  rw [← abs_le]
  refine (abs_sum_le_sum_abs _ _).trans ((sum_le_sum (g := fun _ => 2 * topCurrent cfg ε) fun j hj => ?_).trans_eq ?_)
  · have hj' := mem_range.1 hj
    rw [abs_mul]
    have h1 : |(bitOf (g j) b : K)| ≤ 1 := by rw [← Int.cast_abs]; exact_mod_cast bit_abs (g j) b
    refine (mul_le_of_le_one_right (abs_nonneg _) h1).trans ?_
    rw [← H.base.gdPs H.int hi hs hj', ← H.base.gdMs H.int hi hs hj']
    have k1 := H.nominal_abs (H.base.cur (i * cfg.S + s) j).1.lo (H.base.cur (i * cfg.S + s) j).1.hi
    have k2 := H.nominal_abs (H.base.cur (i * cfg.S + s) j).2.lo (H.base.cur (i * cfg.S + s) j).2.hi
    refine (abs_sub _ _).trans ?_
    unfold topCurrent
    refine (add_le_add k1 k2).trans ?_
    linarith
  · simp only [sum_const, card_range, nsmul_eq_mul]
    unfold sliceMax
    ring

/-- Currents of single columns. -/
theorem one_range (h0 : 0 ≤ ε) {i s : Nat} (hi : i < m) (hs : s < cfg.S) (g : Nat → Int) (b : Nat) :
    -sliceMax cfg ε n ≤ ∑ j ∈ range n, nominal cfg (i * cfg.split.length + s) (encP cfg (val L i j) s) * (bitOf (g j) b : K) ∧
      ∑ j ∈ range n, nominal cfg (i * cfg.split.length + s) (encP cfg (val L i j) s) * (bitOf (g j) b : K)
        ≤ sliceMax cfg ε n := by
  rw [← abs_le]
  refine (abs_sum_le_sum_abs _ _).trans ((sum_le_sum (g := fun _ => 2 * topCurrent cfg ε) fun j hj => ?_).trans_eq ?_)
  · have hj' := mem_range.1 hj
    rw [abs_mul]
    have h1 : |(bitOf (g j) b : K)| ≤ 1 := by rw [← Int.cast_abs]; exact_mod_cast bit_abs (g j) b
    refine (mul_le_of_le_one_right (abs_nonneg _) h1).trans ?_
    rw [← H.base.gdPs H.int hi hs hj']
    have k1 := H.nominal_abs (H.base.cur (i * cfg.S + s) j).1.lo (H.base.cur (i * cfg.S + s) j).1.hi
    have k2 : (0 : K) ≤ max |cfg.hrs| |cfg.lrs| := (abs_nonneg _).trans (le_max_left _ _)
    unfold topCurrent
    refine k1.trans ?_
    linarith
  · simp only [sum_const, card_range, nsmul_eq_mul]
    unfold sliceMax
    ring

end IHyp

end

end Acs
