import Verif.Lemmas.XAnalog

/-!
# Real converters: the conversions of the specification
-/

set_option linter.unusedSectionVars false

namespace Acs

open Finset Spec

section
variable {K : Type} [Field K] [LinearOrder K] [IsStrictOrderedRing K] [FloorRing K]
variable {E : Env K} {cfg : Cfg K} {x : Xbar K} {L : Nat → Nat → Option Int}
variable {mat vec res : Vec Int} {m n : Nat} {l : String} {B T : Int} {lo hi hi' : K}

theorem list_sum_range (f : Nat → K) (N : Nat) : ((List.range N).map f).sum = ∑ b ∈ range N, f b := by
  induction N with
  | zero => simp
  | succ N ih => rw [List.range_succ, List.map_append, List.sum_append, ih, sum_range_succ]; simp

theorem slices_sum {α : Type} (g : Nat → Nat → α) (f : α → K) (N S : Nat) :
    (((List.range N).flatMap fun b => (List.range S).map fun s => g b s).map f).sum
      = ∑ b ∈ range N, ∑ s ∈ range S, f (g b s) := by
  induction N with
  | zero => simp
  | succ N ih =>
    rw [List.range_succ, List.flatMap_append, List.map_append, List.sum_append, ih, sum_range_succ]
    congr 1
    simp only [List.flatMap_cons, List.flatMap_nil, List.append_nil, List.map_map]
    exact list_sum_range _ _

theorem slices_mem {α : Type} {g : Nat → Nat → α} {P : α → Prop} {N S : Nat}
    (h : ∀ c ∈ (List.range N).flatMap fun b => (List.range S).map fun s => g b s, P c) {b s : Nat} (hb : b < N)
    (hs : s < S) : P (g b s) :=
  h _ (List.mem_flatMap.2 ⟨b, List.mem_range.2 hb, List.mem_map.2 ⟨s, List.mem_range.2 hs, rfl⟩⟩)

theorem bits_one (a : Int) (b : Nat) : bits a b 1 = bitOf a b := by unfold bits bitOf; rw [pow_one]

/-- Error of a conversion with scale `y` whose scaled current is an integer. -/
def e1 (cfg : Cfg K) (lo hi y : K) : K :=
  if |y| * (adcStep cfg lo hi / 2) < 1 / 2 then 0 else |y| * (adcStep cfg lo hi / 2) + 1 / 2

theorem intErr_e1 (s : Int) : intErr cfg lo hi s = e1 cfg lo hi ((s : K) / (cfg.lrs - cfg.hrs)) := rfl

/-- Error of the conversions of a row. -/
def rowErr (cfg : Cfg K) (lo hi : K) (l : List (K × K)) : K :=
  match cfg.mode with
  | .iUintWOffs | .bnn3 | .bnn4 | .tnn4 | .tnn5 => convBound cfg lo hi l
  | _ => (l.map fun c => e1 cfg lo hi c.2).sum

theorem step_nonneg (h : AdcOk cfg l lo hi) : 0 ≤ adcStep cfg lo hi / 2 := by
  have h0 := level_near h le_rfl h.lt.le
  exact (abs_nonneg _).trans h0

theorem e1_le (h : AdcOk cfg l lo hi) (y : K) : e1 cfg lo hi y ≤ |y| * (adcStep cfg lo hi / 2) + 1 / 2 := by
  unfold e1
  split
  · have := mul_nonneg (abs_nonneg y) (step_nonneg h); linarith
  · exact le_refl _

theorem rowErr_le (h : AdcOk cfg l lo hi) (cs : List (K × K)) : rowErr cfg lo hi cs ≤ convBound cfg lo hi cs := by
  have : (cs.map fun c => e1 cfg lo hi c.2).sum ≤ convBound cfg lo hi cs := by
    unfold convBound
    have h1 : (cs.map fun c => e1 cfg lo hi c.2).sum
        ≤ (cs.map fun c => |c.2| * (adcStep cfg lo hi / 2) + 1 / 2).sum := by
      induction cs with
      | nil => simp
      | cons c cs ih => simp only [List.map_cons, List.sum_cons]; exact add_le_add (e1_le h _) ih
    split <;> linarith
  unfold rowErr
  split <;> first | exact le_refl _ | exact this

theorem rowErr_zero (hint : integral cfg.mode) {cs : List (K × K)}
    (h : ∀ c ∈ cs, |c.2| * (adcStep cfg lo hi / 2) < 1 / 2) : rowErr cfg lo hi cs = 0 := by
  have : (cs.map fun c => e1 cfg lo hi c.2).sum = 0 := by
    induction cs with
    | nil => rfl
    | cons c cs ih =>
      rw [List.map_cons, List.sum_cons, ih fun c hc => h c (List.mem_cons_of_mem _ hc)]
      unfold e1
      rw [if_pos (h c (List.mem_cons_self ..)), add_zero]
  unfold rowErr
  unfold integral at hint
  cases hm : cfg.mode <;> simp only [hm] at hint ⊢ <;> first | exact this | exact hint.elim

theorem zOf_le (s : Int) :
    (zOf cfg lo hi s : K) ≤ max |lo| |hi| * |(s : K) / (cfg.lrs - cfg.hrs)| + 1 / 2 := Int.floor_le _

theorem inr_of {e : K} {a b : Int} (h : lo ≤ e ∧ e ≤ hi) (he : e = cur cfg.hrs (cfg.lrs - cfg.hrs) a b) :
    InR cfg lo hi a b := by
  unfold InR; rw [← he]; exact h

/-- The multiplication adds the product up to the error of the conversions. -/
def Near (r : C (Aux K × Vec Int)) (cfg : Cfg K) (W : Nat → Nat → Int) (vec res : Vec Int) (m n : Nat) (lo hi : K) :
    Prop :=
  ∃ a' f, r = .ok (a', res.over m f) ∧
    ∀ i, i < m → |(f i : K) - ((res.get i + ∑ j ∈ range n, W i j * vec.get j : Int) : K)|
      ≤ rowErr cfg lo hi (conversions cfg W vec n i)

theorem Within.near {r : C (Aux K × Vec Int)} {W : Nat → Nat → Int} {e : K} (h : Within r W vec res m n e)
    (he : ∀ i, i < m → e = rowErr cfg lo hi (conversions cfg W vec n i)) : Near r cfg W vec res m n lo hi := by
  obtain ⟨a', f, h1, h2⟩ := h
  exact ⟨a', f, h1, fun i hi => by rw [← he i hi]; exact h2 i hi⟩

namespace AHyp
variable (A : AHyp E cfg x L res vec m n)
include A

section
variable (hb : cfg.mode.isInt = false)
include hb

theorem nomP {i j : Nat} (hi : i < m) (hj : j < n) (r : Nat) : nominal cfg r (encP cfg (val L i j) 0)
    = Acs.cur cfg.hrs (cfg.lrs - cfg.hrs) 2 (x.mapper.core.gd.p.get i j) := by
  rw [A.gdP (rowOf_bin hb) hi hj, nominal_bin hb]; unfold Acs.cur; push_cast; ring

theorem nomM {i j : Nat} (hi : i < m) (hj : j < n) (r : Nat) : nominal cfg r (encM cfg (val L i j) 0)
    = Acs.cur cfg.hrs (cfg.lrs - cfg.hrs) 2 (x.mapper.core.gd.m.get i j) := by
  rw [A.gdM (rowOf_bin hb) hi hj, nominal_bin hb]; unfold Acs.cur; push_cast; ring

theorem colP {i : Nat} (hi : i < m) (r : Nat) (v : Nat → Int) :
    ∑ j ∈ range n, nominal cfg r (encP cfg (val L i j) 0) * (v j : K)
      = Acs.cur cfg.hrs (cfg.lrs - cfg.hrs) (∑ j ∈ range n, 2 * v j)
        (∑ j ∈ range n, x.mapper.core.gd.p.get i j * v j) := by
  rw [sum_congr rfl fun j hj => by rw [A.nomP hb hi (mem_range.1 hj)]]
  unfold Acs.cur
  push_cast
  rw [sum_mul, sum_mul, ← sum_add_distrib]
  exact sum_congr rfl fun j _ => by ring

theorem colM {i : Nat} (hi : i < m) (r : Nat) (v : Nat → Int) :
    ∑ j ∈ range n, nominal cfg r (encM cfg (val L i j) 0) * (v j : K)
      = Acs.cur cfg.hrs (cfg.lrs - cfg.hrs) (∑ j ∈ range n, 2 * v j)
        (∑ j ∈ range n, x.mapper.core.gd.m.get i j * v j) := by
  rw [sum_congr rfl fun j hj => by rw [A.nomM hb hi (mem_range.1 hj)]]
  unfold Acs.cur
  push_cast
  rw [sum_mul, sum_mul, ← sum_add_distrib]
  exact sum_congr rfl fun j _ => by ring

theorem colD {i : Nat} (hi : i < m) (r : Nat) (v : Nat → Int) :
    ∑ j ∈ range n, (nominal cfg r (encP cfg (val L i j) 0) - nominal cfg r (encM cfg (val L i j) 0)) * (v j : K)
      = Acs.cur cfg.hrs (cfg.lrs - cfg.hrs) 0
        (∑ j ∈ range n, (x.mapper.core.gd.p.get i j - x.mapper.core.gd.m.get i j) * v j) := by
  rw [sum_congr rfl fun j hj => by rw [A.nomP hb hi (mem_range.1 hj), A.nomM hb hi (mem_range.1 hj)]]
  unfold Acs.cur
  push_cast
  rw [zero_mul, zero_add, sum_mul]
  exact sum_congr rfl fun j _ => by ring

/-- Binary and ternary mappings with a real converter. -/
theorem adcBin (hE : ExactArith E) (hA : AdcOk cfg l lo hi)
    (hr : ∀ i, i < m → ∀ c ∈ conversions cfg (val L) vec n i, lo ≤ c.1 ∧ c.1 ≤ hi)
    (hroom : ∀ i, i < m → ((|res.get i| + 3 * n : Int) : K) + convPeak lo hi (conversions cfg (val L) vec n i)
      ≤ 2147483647) :
    Near (aMvm E cfg x.mapper.core x.mapper.aux res vec m n l) cfg (val L) vec res m n lo hi := by
  have H := A.binHyp hb (Faith.exact hE A.id.d (B := 2147483647 + 16 * n + 16)) (by omega)
  have mkA : ∀ T : Int, (∀ i, i < m → (T : K) ≤ convPeak lo hi (conversions cfg (val L) vec n i)) →
      AdcHyp E cfg x.mapper.core l lo hi res m n (2147483647 + 16 * n + 16) T := fun T hT => by
    have hr : ∀ i, i < m → |res.get i| + T + 3 * n ≤ 2147483647 := fun i hi => by
      have h1 := hroom i hi
      have h2 := hT i hi
      have h3 : ((|res.get i| + T + 3 * n : Int) : K) ≤ ((2147483647 : Int) : K) := by
        push_cast at h1 ⊢
        linarith
      exact Int.cast_le.1 h3
    exact ⟨hE, A.shape.core.adc, hA, hr, fun i hi => by have := hr i hi; omega⟩
  have hW := fun i j (hi : i < m) (hj : j < n) => A.absW hb hi hj
  have hrel := fun i j (hi : i < m) (hj : j < n) => A.rel hb hi hj
  have z1 := zOf_le (cfg := cfg) (lo := lo) (hi := hi) 1
  have z2 := zOf_le (cfg := cfg) (lo := lo) (hi := hi) 2
  have i1 := intErr_e1 (cfg := cfg) (lo := lo) (hi := hi) 1
  have i2 := intErr_e1 (cfg := cfg) (lo := lo) (hi := hi) 2
  have c1 : convErr cfg lo hi 1 = |1 / (cfg.lrs - cfg.hrs)| * (adcStep cfg lo hi / 2) + 1 / 2 := by
    unfold convErr; push_cast; rfl
  have c2 : convErr cfg lo hi 2 = |2 / (cfg.lrs - cfg.hrs)| * (adcStep cfg lo hi / 2) + 1 / 2 := by
    unfold convErr; push_cast; rfl
  rw [Int.cast_one] at z1 i1
  rw [Int.cast_ofNat] at z2 i2
  have hx := A.hx
  have hs := A.sums
  have hok := A.ok
  unfold CfgOk at hok
  unfold LegalVec LegalX at hx
  unfold aMvm
  rw [A.shape.core.mode]
  cases hm : cfg.mode <;>
    simp only [hm, CellRel, conversions, convPeak, List.forall_mem_cons, List.not_mem_nil, false_implies, implies_true, and_true,
      List.map_cons, List.map_nil, List.sum_cons, List.sum_nil, add_zero] at hrel hx hs hok hr mkA ⊢
  case bnn1 =>
    refine Within.near (adc_bnn1 H (mkA (zOf cfg lo hi 2) fun i hi => z2) hW le_rfl hx hrel (hs trivial)
      fun i hi => inr_of (hr i hi) ((A.colD hb hi _ _).trans (congrArg _ (sum_congr rfl fun j hj => ?_))))
      fun i hi => ?_
    · rcases hx j (mem_range.1 hj) with e | e <;> rw [e] <;> norm_num
    · simp only [rowErr, conversions, hm, i2, List.map_cons, List.map_nil, List.sum_cons, List.sum_nil, add_zero]
  case bnn2 =>
    refine Within.near (adc_bnn2 H (mkA (zOf cfg lo hi 2) fun i hi => z2) hW le_rfl hx hrel (hs trivial)
      fun i hi => inr_of (hr i hi) ?_) fun i hi => ?_
    · rw [A.colD hb hi, cur_neg, neg_zero, ← sum_neg_distrib]
      refine congrArg _ (sum_congr rfl fun j hj => ?_)
      rcases hx j (mem_range.1 hj) with e | e <;> rw [e] <;> norm_num
    · simp only [rowErr, conversions, hm, i2, List.map_cons, List.map_nil, List.sum_cons, List.sum_nil, add_zero]
  case bnn3 =>
    refine Within.near (adc_bnn3 H (mkA (2 * zOf cfg lo hi 2) fun i hi => by push_cast; linarith) le_rfl hx hrel
      (fun i hi => inr_of (hr i hi).1 ?_) fun i hi => inr_of (hr i hi).2 (A.colP hb hi _ _)) fun i hi => ?_
    · rw [A.colP hb hi]; unfold Acs.cur; push_cast; ring
    · simp only [rowErr, convBound, conversions, hm, c2, List.map_cons, List.map_nil, List.sum_cons, List.sum_nil,
        add_zero, reduceCtorEq, if_false]; ring
  case bnn4 =>
    refine Within.near (adc_bnn4 H (mkA (2 * zOf cfg lo hi 2) fun i hi => by push_cast; linarith) le_rfl hx hrel
      (fun i hi => inr_of (hr i hi).1 ?_) fun i hi => inr_of (hr i hi).2 (A.colP hb hi _ _)) fun i hi => ?_
    · rw [A.colP hb hi]; unfold Acs.cur; push_cast; ring
    · simp only [rowErr, convBound, conversions, hm, c2, List.map_cons, List.map_nil, List.sum_cons, List.sum_nil,
        add_zero, reduceCtorEq, if_false]; ring
  case bnn5 =>
    refine Within.near (adc_bnn5 H (mkA (zOf cfg lo hi 2) fun i hi => z2) le_rfl hx
      (fun i j hi hj => (hrel i j hi hj).1) (fun i j hi hj => (hrel i j hi hj).2)
      fun i hi => inr_of (hr i hi) ?_) fun i hi => ?_
    · rw [A.colP hb hi, A.colM hb hi, sum_add_distrib, cur_add, ← sum_add_distrib]
      have e0 : ∑ j ∈ range n, (2 * (if vec.get j = 1 then 1 else 0) + 2 * (if vec.get j = -1 then 1 else 0))
          = 2 * (n : Int) := by
        rw [sum_congr rfl (g := fun _ => (2 : Int)) fun j hj => by
          rcases hx j (mem_range.1 hj) with e | e <;> rw [e] <;> norm_num]
        simp [mul_comm]
      rw [e0]; unfold Acs.cur; push_cast; ring
    · simp only [rowErr, conversions, hm, i2, List.map_cons, List.map_nil, List.sum_cons, List.sum_nil, add_zero]
  case bnn6 =>
    refine Within.near (adc_bnn6 H (mkA (zOf cfg lo hi 1) fun i hi => z1) le_rfl hx hrel
      fun i hi => inr_of (hr i hi) ?_) fun i hi => ?_
    · rw [A.colD hb hi, A.colD hb hi, cur_sub, sub_zero, ← sum_sub_distrib]
      exact congrArg _ (sum_congr rfl fun j hj => by ring)
    · simp only [rowErr, conversions, hm, i1, List.map_cons, List.map_nil, List.sum_cons, List.sum_nil, add_zero]
  case tnn1 =>
    refine Within.near (adc_tnn1 H (mkA (zOf cfg lo hi 1) fun i hi => z1) le_rfl hx hrel
      fun i hi => inr_of (hr i hi) ?_) fun i hi => ?_
    · rw [A.colD hb hi, A.colD hb hi, cur_sub, sub_zero, ← sum_sub_distrib]
      exact congrArg _ (sum_congr rfl fun j hj => by ring)
    · simp only [rowErr, conversions, hm, i1, List.map_cons, List.map_nil, List.sum_cons, List.sum_nil, add_zero]
  case tnn2 =>
    refine Within.near (adc_tnn2 H (mkA (zOf cfg lo hi 1 + zOf cfg lo hi 2) fun i hi => by push_cast; linarith)
      le_rfl hx hrel (fun i hi => inr_of (hr i hi).1 ((A.colD hb hi _ _).trans
        (congrArg _ (sum_congr rfl fun j hj => ?_))))
      fun i hi => inr_of (hr i hi).2 (A.colD hb hi _ _)) fun i hi => ?_
    · rcases hx j (mem_range.1 hj) with e | e | e <;> rw [e] <;> norm_num
    · simp only [rowErr, conversions, hm, i1, i2, List.map_cons, List.map_nil, List.sum_cons, List.sum_nil, add_zero]
  case tnn3 =>
    refine Within.near (adc_tnn3 H (mkA (zOf cfg lo hi 1 + zOf cfg lo hi 2) fun i hi => by push_cast; linarith)
      hW le_rfl hx hrel (hs trivial) (fun i hi => inr_of (hr i hi).1 ((A.colD hb hi _ _).trans
        (congrArg _ (sum_congr rfl fun j hj => ?_))))
      fun i hi => inr_of (hr i hi).2 ((A.colD hb hi _ _).trans
        (congrArg _ (sum_congr rfl fun j hj => ?_)))) fun i hi => ?_
    · rcases hx j (mem_range.1 hj) with e | e | e <;> rw [e] <;> norm_num
    · rcases hx j (mem_range.1 hj) with e | e | e <;> rw [e] <;> norm_num
    · simp only [rowErr, conversions, hm, i1, i2, List.map_cons, List.map_nil, List.sum_cons, List.sum_nil, add_zero]
  case tnn4 =>
    refine Within.near (adc_tnn4 H (mkA (2 * zOf cfg lo hi 1 + 2 * zOf cfg lo hi 2) fun i hi => by push_cast; linarith)
      le_rfl hok.1 hx hrel (fun i hi => inr_of (hr i hi).1 ?_) (fun i hi => inr_of (hr i hi).2.1 ?_)
      (fun i hi => inr_of (hr i hi).2.2.1 (A.colM hb hi _ _)) fun i hi => inr_of (hr i hi).2.2.2 (A.colM hb hi _ _))
      fun i hi => ?_
    · rw [A.colP hb hi]; unfold Acs.cur; push_cast; ring
    · rw [A.colP hb hi]; unfold Acs.cur; push_cast; ring
    · simp only [rowErr, convBound, conversions, hm, c1, c2, List.map_cons, List.map_nil, List.sum_cons, List.sum_nil,
        add_zero, reduceCtorEq, if_false]; ring
  case tnn5 =>
    refine Within.near (adc_tnn5 H (mkA (2 * zOf cfg lo hi 1 + 2 * zOf cfg lo hi 2) fun i hi => by push_cast; linarith)
      le_rfl hok.1 hx hrel (fun i hi => inr_of (hr i hi).1 (A.colP hb hi _ _)) (fun i hi => inr_of (hr i hi).2.1 ?_)
      (fun i hi => inr_of (hr i hi).2.2.1 (A.colM hb hi _ _)) fun i hi => inr_of (hr i hi).2.2.2 (A.colM hb hi _ _))
      fun i hi => ?_
    · rw [A.colP hb hi]; unfold Acs.cur; push_cast; ring
    · simp only [rowErr, convBound, conversions, hm, c1, c2, List.map_cons, List.map_nil, List.sum_cons, List.sum_nil,
        add_zero, reduceCtorEq, if_false]; ring
  all_goals (rw [hm] at hb; exact absurd hb (by decide))

end

/-! ### Integer mappings -/

theorem rowInt (hi : cfg.mode.isInt = true) (r : Nat) : rowOf cfg r = (r / cfg.S, r % cfg.S) := by
  unfold rowOf
  cases hmd : cfg.mode <;> simp only [hmd] at hi ⊢ <;> first
    | rfl
    | exact absurd hi (by decide)

theorem gdPs (hi : cfg.mode.isInt = true) {i j s : Nat} (hi' : i < m) (hs : s < cfg.S) (hj : j < n) :
    x.mapper.core.gd.p.get (i * cfg.S + s) j = encP cfg (val L i j) s := by
  rw [A.cells.p]; simp only [A.rowInt hi, blk_div hs, blk_mod hs]; rw [(A.legal.val hi' hj).2]; rfl

theorem gdMs (hi : cfg.mode.isInt = true) {i j s : Nat} (hi' : i < m) (hs : s < cfg.S) (hj : j < n) :
    x.mapper.core.gd.m.get (i * cfg.S + s) j = encM cfg (val L i j) s := by
  rw [A.cells.m]; simp only [A.rowInt hi, blk_div hs, blk_mod hs]; rw [(A.legal.val hi' hj).2]; rfl

/-- The current of the specification for a pair of columns. -/
theorem colS (hi : cfg.mode.isInt = true) {i s : Nat} (hi' : i < m) (hs : s < cfg.S) (v : Nat → Int) :
    ∑ j ∈ range n, (nominal cfg (i * cfg.split.length + s) (encP cfg (val L i j) s)
        - nominal cfg (i * cfg.split.length + s) (encM cfg (val L i j) s)) * (v j : K)
      = ((∑ j ∈ range n, x.mapper.core.D (i * cfg.S + s) j * v j : Int) : K)
        * ((cfg.lrs - cfg.hrs) / (2 ^ cfg.split.getD s 0 - 1)) := by
  push_cast
  rw [sum_mul]
  refine sum_congr rfl fun j hj => ?_
  have hj' := mem_range.1 hj
  have hs' : (i * cfg.split.length + s) % cfg.S = s := blk_mod hs
  rw [← A.gdPs hi hi' hs hj', ← A.gdMs hi hi' hs hj', nominal_int hi, nominal_int hi, hs']
  unfold Core.D
  push_cast
  ring

theorem colO (hm : cfg.mode = .iUintWOffs) {i s : Nat} (hi' : i < m) (hs : s < cfg.S) (v : Nat → Int) :
    ∑ j ∈ range n, nominal cfg (i * cfg.split.length + s) (encP cfg (val L i j) s) * (v j : K)
      = ∑ j ∈ range n, x.mapper.core.ia.p.get (i * cfg.S + s) j * (v j : K) := by
  have hi : cfg.mode.isInt = true := by rw [hm]; rfl
  refine sum_congr rfl fun j hj => ?_
  rw [← A.gdPs hi hi' hs (mem_range.1 hj), (A.cur _ j).1.cur]
  rfl

theorem scS (hi : cfg.mode.isInt = true) (s b : Nat) :
    (scI cfg x.mapper.core s b : K) = 2 ^ (shiftOf cfg.split s + b) * (2 ^ cfg.split.getD s 0 - 1) := by
  unfold scI
  rw [(intOk A.ok hi).shift A.shape.core]
  push_cast
  ring

/-- The largest values of some bits. -/
theorem zI_le (hi : cfg.mode.isInt = true) (N : Nat) (sg : K) (hsg : |sg| = 1) :
    (zI cfg x.mapper.core lo hi' N : K) ≤ ∑ b ∈ range N, ∑ s ∈ range cfg.split.length,
      (max |lo| |hi'| * |sg * (2 ^ (shiftOf cfg.split s + b) * (2 ^ cfg.split.getD s 0 - 1)) / (cfg.lrs - cfg.hrs)|
        + 1 / 2) := by
  unfold zI
  push_cast
  refine sum_le_sum fun b _ => sum_le_sum fun s _ => ?_
  refine le_trans (zOf_le _) (le_of_eq ?_)
  rw [A.scS hi, mul_div_assoc sg, abs_mul sg, hsg, one_mul]

theorem errI_eq (hi : cfg.mode.isInt = true) (N : Nat) (sg : K) (hsg : |sg| = 1) :
    errI cfg x.mapper.core lo hi' N = ∑ b ∈ range N, ∑ s ∈ range cfg.split.length,
      e1 cfg lo hi' (sg * (2 ^ (shiftOf cfg.split s + b) * (2 ^ cfg.split.getD s 0 - 1)) / (cfg.lrs - cfg.hrs)) := by
  unfold errI
  refine sum_congr rfl fun b _ => sum_congr rfl fun s _ => ?_
  rw [intErr_e1, A.scS hi, mul_div_assoc sg]
  unfold e1
  rw [abs_mul sg, hsg, one_mul]

/-- Integer mappings with a pair of cells per slice and a real converter. -/
theorem adcInt (hi' : cfg.mode.isInt = true) (hm : cfg.mode ≠ .iUintWOffs)
    (hgcc : cfg.mode = .iOffsWDiff → E.strict = false) (hE : ExactArith E) (hA : AdcOk cfg l lo hi)
    (hr : ∀ i, i < m → ∀ c ∈ conversions cfg (val L) vec n i, lo ≤ c.1 ∧ c.1 ≤ hi)
    (hroom : ∀ i, i < m → ((|res.get i| + n * 2 ^ (cfg.wBit + cfg.iBit) : Int) : K)
      + convPeak lo hi (conversions cfg (val L) vec n i) ≤ 2147483647) :
    Near (aMvm E cfg x.mapper.core x.mapper.aux res vec m n l) cfg (val L) vec res m n lo hi := by
  obtain ⟨F, hst⟩ := A.exactI hE hi' 2147483647
  have H := A.intHyp hi' F hst
  obtain ⟨henc, hW⟩ := A.encD hi' hm
  have hpk : ∀ cs : List (K × K), 0 ≤ convPeak lo hi cs := fun cs => List.sum_nonneg fun y hy => by
    obtain ⟨c, _, rfl⟩ := List.mem_map.1 hy
    positivity
  have mkA : ∀ T : Int, (∀ i, i < m → (T : K) ≤ convPeak lo hi (conversions cfg (val L) vec n i)) →
      AdcHypI E cfg x.mapper.core (fun s => (cfg.lrs - cfg.hrs) / (2 ^ cfg.split.getD s 0 - 1)) l lo hi res m n
        2147483647 T := fun T hT =>
    ⟨hE, A.shape.core.adc, hA, A.stepOk hi', le_rfl, fun i hi => by
      have h1 := hroom i hi
      have h2 := hT i hi
      have h3 : ((|res.get i| + T + n * 2 ^ (cfg.wBit + cfg.iBit) : Int) : K) ≤ ((2147483647 : Int) : K) := by
        push_cast at h1 ⊢
        linarith
      exact Int.cast_le.1 h3⟩
  have X := A.diff' hi' hm F (by norm_num) fun h0 => by
    have h1 := hroom 0 h0
    have h2 := hpk (conversions cfg (val L) vec n 0)
    have h3 : ((|res.get 0| + n * 2 ^ (cfg.wBit + cfg.iBit) : Int) : K) ≤ ((2147483647 : Int) : K) := by
      push_cast at h1 ⊢
      linarith
    have h4 := Int.cast_le.1 h3
    have := abs_nonneg (res.get 0)
    linarith
  have hx := A.hx
  have hs := A.sums
  have hI' := intOk A.ok hi'
  have i1 := hI'.i1
  have i31 := hI'.i31
  unfold LegalVec LegalX at hx
  unfold aMvm
  rw [A.shape.core.mode]
  have z := fun N => A.zI_le (lo := lo) (hi' := hi) hi' N 1 (by simp)
  have z' := fun N => A.zI_le (lo := lo) (hi' := hi) hi' N (-1) (by simp)
  have e := fun N => A.errI_eq (lo := lo) (hi' := hi) hi' N 1 (by simp)
  have e' := fun N => A.errI_eq (lo := lo) (hi' := hi) hi' N (-1) (by simp)
  have hin : ∀ (sg : K) (v : Int → Int) (v' : Nat → Int) (N : Nat), (∀ j, v (vec.get j) = v' j) →
      (∀ i, i < m → ∀ c ∈ (List.range N).flatMap fun b => (List.range cfg.split.length).map fun s =>
        (∑ j ∈ range n, (nominal cfg (i * cfg.split.length + s) (encP cfg (val L i j) s)
          - nominal cfg (i * cfg.split.length + s) (encM cfg (val L i j) s)) * (bits (v (vec.get j)) b 1 : K),
          sg * (2 ^ (shiftOf cfg.split s + b) * (2 ^ cfg.split.getD s 0 - 1)) / (cfg.lrs - cfg.hrs)),
        lo ≤ c.1 ∧ c.1 ≤ hi) →
      InRI cfg (fun s => (cfg.lrs - cfg.hrs) / (2 ^ cfg.split.getD s 0 - 1)) x.mapper.core.D v' m n N lo hi := by
    intro sg v v' N hv h b i s hb hi hs
    have h1 := slices_mem (h i hi) hb hs
    simp only [bits_one, hv] at h1
    rw [A.colS hi' hi hs] at h1
    exact h1
  have sm : ∀ y : Int, max y 0 = if 0 ≤ y then y else 0 := fun y => by split <;> omega
  have sn : ∀ y : Int, max (-y) 0 = if 0 ≤ y then 0 else -y := fun y => by split <;> omega
  cases hmd : cfg.mode <;> simp only [hmd] at hx hs hm hgcc
  case iDiffWDiff1 =>
    simp only [hmd, conversions, convPeak, List.map_append, List.sum_append, slices_sum, List.forall_mem_append] at hr mkA
    refine Within.near (H.adcI X henc A.hv A.hr (mkA (zI cfg _ lo hi (cfg.iBit - 1) + zI cfg _ lo hi cfg.iBit)
      fun i _ => by rw [Int.cast_add]; exact add_le_add (z _) (z' _)) le_rfl i1 i31 hx
      (hin 1 (fun y => max y 0) _ _ (fun j => sm _) fun i hi => (hr i hi).1)
      (hin (-1) (fun y => max (-y) 0) _ _ (fun j => sn _) fun i hi => (hr i hi).2)) fun i hi => ?_
    simp only [rowErr, hmd, conversions, List.map_append, List.sum_append, slices_sum]
    rw [e, e']
  case iDiffWDiff2 =>
    simp only [hmd, conversions, convPeak, List.map_append, List.sum_append, slices_sum, List.forall_mem_append] at hr mkA
    refine Within.near (H.adcI X henc A.hv A.hr (mkA (zI cfg _ lo hi (cfg.iBit - 1) + zI cfg _ lo hi cfg.iBit)
      fun i _ => by rw [Int.cast_add]; exact add_le_add (z _) (z' _)) le_rfl i1 i31 hx
      (hin 1 (fun y => max y 0) _ _ (fun j => sm _) fun i hi => (hr i hi).1)
      (hin (-1) (fun y => max (-y) 0) _ _ (fun j => sn _) fun i hi => (hr i hi).2)) fun i hi => ?_
    simp only [rowErr, hmd, conversions, List.map_append, List.sum_append, slices_sum]
    rw [e, e']
  case iOffsWDiff =>
    simp only [hmd, conversions, convPeak, slices_sum] at hr mkA
    refine Within.near (H.adcII X henc A.hv A.hr (mkA (zI cfg _ lo hi (cfg.iBit + 1)) fun i _ => z _) le_rfl
      (hgcc trivial) i1 i31 hW (hs trivial) hx
      (hin 1 (fun y => y + 2 ^ (cfg.iBit - 1)) _ _ (fun j => add_comm _ _) fun i hi => hr i hi)) fun i hi => ?_
    simp only [rowErr, hmd, conversions, slices_sum]
    rw [e]
  case iTcWDiff =>
    simp only [hmd, conversions, convPeak, slices_sum] at hr mkA
    refine Within.near (H.adcIII X henc A.hv A.hr (mkA (zI cfg _ lo hi cfg.iBit) fun i _ => z _) le_rfl
      i1 (by omega) hx (hin 1 _root_.id _ _ (fun j => rfl) fun i hi => hr i hi)) fun i hi => ?_
    simp only [rowErr, hmd, conversions, slices_sum]
    rw [e]
  case iUintWDiff =>
    simp only [hmd, conversions, convPeak, slices_sum] at hr mkA
    refine Within.near (H.adcIV X henc A.hv A.hr (mkA (zI cfg _ lo hi cfg.iBit) fun i _ => z _) le_rfl
      (by omega) hx (hin 1 _root_.id _ _ (fun j => rfl) fun i hi => hr i hi)) fun i hi => ?_
    simp only [rowErr, hmd, conversions, slices_sum]
    rw [e]
  case iUintWOffs => exact absurd rfl hm
  all_goals (rw [hmd] at hi'; exact absurd hi' (by decide))

/-- The offset mapping with a real converter. -/
theorem adcIntV (hE : ExactArith E) (hm : cfg.mode = .iUintWOffs) (hA : AdcOk cfg l lo hi)
    (hr : ∀ i, i < m → ∀ c ∈ conversions cfg (val L) vec n i, lo ≤ c.1 ∧ c.1 ≤ hi)
    (hroom : ∀ i, i < m → ((|res.get i| + n * 2 ^ (cfg.wBit + cfg.iBit) : Int) : K)
      + convPeak lo hi (conversions cfg (val L) vec n i) ≤ 2147483647) :
    Near (aMvm E cfg x.mapper.core x.mapper.aux res vec m n l) cfg (val L) vec res m n lo hi := by
  have hi' : cfg.mode.isInt = true := by rw [hm]; rfl
  have hI' := intOk A.ok hi'
  obtain ⟨F, hst⟩ := A.exactI hE hi' 0
  have H := A.intHyp hi' F hst
  obtain ⟨henc, hW⟩ := A.encO hm
  have hx := A.hx
  unfold LegalVec LegalX at hx
  simp only [hm] at hx
  have hstep : adcStep cfg lo hi / 2 ≤ max |lo| |hi| := by
    have h1 := adcOk_step_pos hA
    have h2 : (1 : K) ≤ ((adcLevels cfg - 1 : Int) : K) := by
      have h0 : ((0 : Int) : K) < ((adcLevels cfg - 1 : Int) : K) := by
        by_contra hc
        have h3 : adcStep cfg lo hi ≤ 0 := by
          unfold adcStep
          exact div_nonpos_of_nonneg_of_nonpos (by have := hA.lt; linarith) (by simpa using not_lt.1 hc)
        linarith
      have := Int.cast_lt.1 h0
      exact_mod_cast this
    have h3 : adcStep cfg lo hi ≤ hi - lo := div_le_self (by have := hA.lt; linarith) h2
    have h4 := le_max_left |lo| |hi|
    have h5 := le_max_right |lo| |hi|
    have h6 := neg_abs_le lo
    have h7 := le_abs_self hi
    linarith
  have hconv : ∀ b s, convErr cfg lo hi (scI cfg x.mapper.core s b)
      = |1 * (2 ^ (shiftOf cfg.split s + b) * (2 ^ cfg.split.getD s 0 - 1)) / (cfg.lrs - cfg.hrs)|
        * (adcStep cfg lo hi / 2) + 1 / 2 := fun b s => by
    unfold convErr; rw [A.scS hi', one_mul]
  unfold aMvm
  rw [A.shape.core.mode]
  simp only [hm, conversions, convPeak, slices_sum] at hr hroom ⊢
  refine Within.near (H.adcV hE (A.stepOk hi') henc (A.curO hm) (A.delta hE hm) A.hv A.hr hI'.w1 hI'.w31 hI'.i31
    A.dims.2.2 hx A.shape.core.adc hA hW (fun i hi0 => ?_) fun b i s hb hi0 hs => ?_) fun i hi0 => ?_
  · refine le_trans (add_le_add_right (sum_le_sum fun b _ => sum_le_sum fun s _ => ?_) _) (hroom i hi0)
    rw [hconv, mul_comm (max _ _)]
    have := mul_le_mul_of_nonneg_left hstep (abs_nonneg
      (1 * (2 ^ (shiftOf cfg.split s + b) * (2 ^ cfg.split.getD s 0 - 1)) / (cfg.lrs - cfg.hrs)))
    linarith
  · have h1 := slices_mem (hr i hi0) hb hs
    simp only [bits_one, id_eq] at h1
    rw [A.colO hm hi0 hs] at h1
    exact h1
  · simp only [rowErr, convBound, hm, conversions, slices_sum, if_true, hconv]
    rfl

/-- All mappings with a real converter and exact arithmetic. -/
theorem adc (hE : ExactArith E) (hgcc : cfg.mode = .iOffsWDiff → E.strict = false) (hA : AdcOk cfg l lo hi)
    (hr : ∀ i, i < m → ∀ c ∈ conversions cfg (val L) vec n i, lo ≤ c.1 ∧ c.1 ≤ hi)
    (hroom : ∀ i, i < m → ((|res.get i| + peak cfg n : Int) : K)
      + convPeak lo hi (conversions cfg (val L) vec n i) ≤ 2147483647) :
    Near (aMvm E cfg x.mapper.core x.mapper.aux res vec m n l) cfg (val L) vec res m n lo hi := by
  cases hi' : cfg.mode.isInt
  · have hp : peak cfg n = 3 * n := by
      unfold peak
      cases hmd : cfg.mode <;> simp only [hmd] at hi' ⊢ <;> exact absurd hi' (by decide)
    rw [hp] at hroom
    exact A.adcBin hi' hE hA hr hroom
  · have hp : peak cfg n = n * 2 ^ (cfg.wBit + cfg.iBit) := by
      unfold peak
      cases hmd : cfg.mode <;> simp only [hmd] at hi' ⊢ <;> exact absurd hi' (by decide)
    rw [hp] at hroom
    by_cases hm : cfg.mode = .iUintWOffs
    · exact A.adcIntV hE hm hA hr hroom
    · exact A.adcInt hi' hm hgcc hE hA hr hroom

end AHyp

end

end Acs
