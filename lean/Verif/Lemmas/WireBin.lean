import Verif.Lemmas.ParCur
import Verif.Lemmas.AdcDev
import Verif.SpecWire

/-! # Binary and ternary mappings through resistive wires -/

set_option linter.unusedSectionVars false

namespace Acs

open Finset Spec

section
variable {K : Type} [Field K] [LinearOrder K] [IsStrictOrderedRing K] [FloorRing K]
variable {E : Env K} {cfg : Cfg K} {c : Core K} {a : Aux K} {mat vec res r : Vec Int} {m n w : Nat} {l : String}
variable {x x' : Xbar K} {h : List Op} {ε lo hi : K} {rg : String → K × K} {L : Nat → Nat → Option Int}
variable {P Q W : Nat → Nat → Int} {md : Mode} {A B : Nat → Nat → K} {N k : Nat} {I : K}

/-! ## Ideal lines -/

theorem bit_mul {y : K} {f : Int} (h : f = 0 ∨ f = 1) : (if f ≠ 0 then y else 0) = y * f := by
  rcases h with rfl | rfl <;> simp

/-- A bit line with one word line per input. -/
theorem ideal_one (hl : lines md = 1) (hn : n ≤ N) {u : Vec Int} {f : Nat → Int} (hf : Bits f n) (vm : Nat → Int) :
    idealCol md A B (u.over n f).get vm n N k = ∑ j ∈ range n, cross md A B j k * f j := by
  unfold idealCol
  rw [← sum_subset (range_subset_range.2 hn) fun r _ hr => ?_]
  · refine sum_congr rfl fun j hj => ?_
    have hj := mem_range.1 hj
    rw [← bit_mul (hf j hj)]
    unfold onLine driven
    simp only [hl, Nat.div_one, Nat.mod_one, if_true, hj, true_and, Vec.over_lt hj]
  · unfold onLine
    exact if_neg fun h => hr (mem_range.2 (by have := h.1; rwa [hl, Nat.div_one] at this))

theorem sum_pairs (F : Nat → K) : ∀ n, ∑ r ∈ range (n * 2), F r = ∑ j ∈ range n, (F (2 * j) + F (2 * j + 1))
  | 0 => rfl
  | n + 1 => by
    rw [sum_range_succ, ← sum_pairs F n, Nat.add_mul, Nat.one_mul, sum_range_succ, sum_range_succ, mul_comm n 2, add_assoc]

/-- A bit line with two word lines per input. -/
theorem ideal_two (hl : lines md = 2) (hn : n * 2 ≤ N) {u u' : Vec Int} {f f' : Nat → Int} (hf : Bits f n)
    (hf' : Bits f' n) : idealCol md A B (u.over n f).get (u'.over n f').get n N k
      = ∑ j ∈ range n, (cross md A B (2 * j) k * f j + cross md A B (2 * j + 1) k * f' j) := by
  unfold idealCol
  rw [← sum_subset (range_subset_range.2 hn) fun r _ hr => ?_, sum_pairs]
  · refine sum_congr rfl fun j hj => ?_
    have hj := mem_range.1 hj
    rw [← bit_mul (hf j hj), ← bit_mul (hf' j hj)]
    have h1 : (2 * j + 1) / 2 = j := by omega
    have h2 : (2 * j + 1) % 2 = 1 := by omega
    have h3 : 2 * j / 2 = j := by omega
    have h4 : 2 * j % 2 = 0 := by omega
    unfold onLine driven
    simp only [hl, h1, h2, h3, h4, if_true, if_false, hj, true_and, Vec.over_lt hj, Nat.one_ne_zero]
  · unfold onLine
    exact if_neg fun h => hr (mem_range.2 (by have := h.1; rw [hl] at this; omega))

/-! ## Losses -/

theorem lineLoss_mono (hR : 0 ≤ cfg.wRes) (hv : cfg.vRead < 0) {y k : K} (h0 : 0 ≤ y) (h : y ≤ k * I) :
    cfg.N * y ^ 2 * cfg.wRes / (-cfg.vRead * 1000000) ≤ lineLoss cfg I k := by
  unfold lineLoss
  have hu : 0 < -cfg.vRead * 1000000 := by linarith
  refine div_le_div_of_nonneg_right (mul_le_mul_of_nonneg_right (mul_le_mul_of_nonneg_left ?_ ?_) hR) hu.le
  · exact pow_le_pow_left₀ h0 h 2
  · exact Nat.cast_nonneg _

theorem lineLoss_nonneg (hR : 0 ≤ cfg.wRes) (hv : cfg.vRead < 0) (k : K) : 0 ≤ lineLoss cfg I k := by
  unfold lineLoss
  have hu : 0 < -cfg.vRead * 1000000 := by linarith
  have : (0 : K) ≤ cfg.N := Nat.cast_nonneg _
  positivity

/-- `y` is `z` less something between 0 and `d`. -/
def Lossy (y z d : K) : Prop := y ≤ z ∧ z - d ≤ y

theorem Lossy.near {y z d Y e : K} (h : Lossy y z d) (hz : |z - Y| ≤ e) : |y - Y| ≤ e + d := by
  have h1 := abs_le.1 hz
  obtain ⟨h2, h3⟩ := h
  exact abs_le.2 ⟨by linarith, by linarith⟩

theorem Lossy.sub {y z y' z' d Y e : K} (h : Lossy y z d) (h' : Lossy y' z' d) (hz : |z - z' - Y| ≤ e) :
    |y - y' - Y| ≤ e + d := by
  have h1 := abs_le.1 hz
  obtain ⟨h2, h3⟩ := h
  obtain ⟨h4, h5⟩ := h'
  exact abs_le.2 ⟨by linarith, by linarith⟩

theorem line_one (hv : cfg.vRead < 0) (hR : 0 < cfg.wRes) (hl : lines md = 1) (hn : n ≤ cfg.N) {u : Vec Int}
    {f : Nat → Int} (hf : Bits f n) (hA : ∀ j, j < n → 0 ≤ cross md A B j k ∧ cross md A B j k ≤ I) (vm : Nat → Int) :
    Lossy (wiredCol (-cfg.vRead) cfg.wRes md A B (u.over n f).get vm n cfg.N k)
      (∑ j ∈ range n, cross md A B j k * f j) (lineLoss cfg I ((∑ j ∈ range n, f j : Int) : K)) := by
  have hu : 0 < -cfg.vRead := by linarith
  have hg : ∀ r, r < cfg.N → driven md (u.over n f).get vm n r → 0 ≤ cross md A B r k := fun r _ hd =>
    (hA r (by have := hd.1; rwa [hl, Nat.div_one] at this)).1
  have e := ideal_one (A := A) (B := B) (k := k) (u := u) hl hn hf vm
  have h1 := wiredCol_le hu hR hg
  have h2 := wiredCol_ge hu hR hg
  have h3 := idealCol_nonneg hg
  rw [e] at h1 h2 h3
  refine ⟨h1, (sub_le_sub_left (lineLoss_mono hR.le hv h3 ?_) _).trans h2⟩
  push_cast
  rw [sum_mul]
  refine sum_le_sum fun j hj => ?_
  have := hA j (mem_range.1 hj)
  rcases hf j (mem_range.1 hj) with e | e <;> rw [e] <;> simp
  exact this.2

theorem line_two (hv : cfg.vRead < 0) (hR : 0 < cfg.wRes) (hl : lines md = 2) (hn : n * 2 ≤ cfg.N) {u u' : Vec Int}
    {f f' : Nat → Int} (hf : Bits f n) (hf' : Bits f' n)
    (hA : ∀ r, r < n * 2 → 0 ≤ cross md A B r k ∧ cross md A B r k ≤ I) :
    Lossy (wiredCol (-cfg.vRead) cfg.wRes md A B (u.over n f).get (u'.over n f').get n cfg.N k)
      (∑ j ∈ range n, (cross md A B (2 * j) k * f j + cross md A B (2 * j + 1) k * f' j))
      (lineLoss cfg I ((∑ j ∈ range n, f j + ∑ j ∈ range n, f' j : Int) : K)) := by
  have hu : 0 < -cfg.vRead := by linarith
  have hg : ∀ r, r < cfg.N → driven md (u.over n f).get (u'.over n f').get n r → 0 ≤ cross md A B r k := fun r _ hd =>
    (hA r (by have := hd.1; rw [hl] at this; omega)).1
  have e := ideal_two (A := A) (B := B) (k := k) (u := u) (u' := u') hl hn hf hf'
  have h1 := wiredCol_le hu hR hg
  have h2 := wiredCol_ge hu hR hg
  have h3 := idealCol_nonneg hg
  rw [e] at h1 h2 h3
  refine ⟨h1, (sub_le_sub_left (lineLoss_mono hR.le hv h3 ?_) _).trans h2⟩
  push_cast
  rw [← sum_add_distrib, sum_mul]
  refine sum_le_sum fun j hj => ?_
  have hj := mem_range.1 hj
  have h4 := hA (2 * j) (by omega)
  have h5 := hA (2 * j + 1) (by omega)
  rcases hf j hj with e | e <;> rcases hf' j hj with e' | e' <;> rw [e, e'] <;> simp <;> linarith

/-! ## The columns of a crossbar in sync -/

/-- Deviation of a column current of `k` cells. -/
def wireDev (cfg : Cfg K) (ε : K) (k : Int) : K := k * ε + lineLoss cfg (cfg.lrs + ε) (k / bitLines cfg.mode)

theorem slices_bin (hb : cfg.mode.isInt = false) : slices cfg = 1 := by
  unfold slices
  cases hm : cfg.mode <;> first | rfl | (rw [hm] at hb; exact absurd hb (by decide))

theorem cross_11 (hl : lines md = 1) (hp : pair md = 1) (j i : Nat) : cross md A B j i = A i j := by
  unfold cross
  rw [hl, hp, if_pos (by omega), Nat.div_one, Nat.div_one]

theorem cross_12 (hl : lines md = 1) (hp : pair md = 2) (j i : Nat) :
    cross md A B j (2 * i) = A i j ∧ cross md A B j (2 * i + 1) = B i j := by
  unfold cross
  rw [hl, hp, if_pos (by omega), if_neg (by omega), Nat.div_one, show 2 * i / 2 = i by omega,
    show (2 * i + 1) / 2 = i by omega]
  exact ⟨rfl, rfl⟩

theorem cross_21 (hl : lines md = 2) (hp : pair md = 1) (j i : Nat) :
    cross md A B (2 * j) i = A i j ∧ cross md A B (2 * j + 1) i = B i j := by
  unfold cross
  rw [hl, hp, if_pos (by omega), if_neg (by omega), Nat.div_one, show 2 * j / 2 = j by omega,
    show (2 * j + 1) / 2 = j by omega]
  exact ⟨rfl, rfl⟩

theorem cross_22 (hl : lines md = 2) (hp : pair md = 2) (j i : Nat) :
    (cross md A B (2 * j) (2 * i) = A i j ∧ cross md A B (2 * j + 1) (2 * i) = B i j) ∧
    cross md A B (2 * j) (2 * i + 1) = B i j ∧ cross md A B (2 * j + 1) (2 * i + 1) = A i j := by
  unfold cross
  rw [hl, hp, if_pos (by omega), if_neg (by omega), if_neg (by omega), if_pos (by omega), show 2 * j / 2 = j by omega,
    show (2 * j + 1) / 2 = j by omega, show 2 * i / 2 = i by omega, show (2 * i + 1) / 2 = i by omega]
  exact ⟨⟨rfl, rfl⟩, rfl, rfl⟩

theorem sync_curHyp {s : Solver K} {b : Nat × Nat} (hE : ExactArith E) (hok : CfgOk cfg) (hI : Resistive cfg) (hsh : Shape E cfg x)
    (htn : Tuned cfg x.mapper.core.par) (hs : x.mapper.core.par = some s) (hsy : InSync E cfg x b.1 b.2)
    (hpos : Conducts cfg x b.1 b.2) (hm : m ≤ b.1) (hn : n ≤ b.2) (hN : b.2 * lines cfg.mode ≤ cfg.N)
    (hT : taps cfg m ≤ cfg.M) (hL : Cells cfg x.mapper.core.gd L) (hl : Legal cfg L m n) (hd : Accepted cfg m n)
    (hw : NearNominal cfg ε L x.mapper.core.ia m n) (hv : n ≤ vec.size) (hr : m ≤ res.size) :
    CurHyp E cfg x.mapper.core x.mapper.aux x.mapper.core.gd.p.get x.mapper.core.gd.m.get (val L) vec res m n
      (wireDev cfg ε) 0 := by
  have hfit := Fits.row hok hd
  have h3 := hsh.core.gd.sumW
  have ha := hsh.aux
  have hb := hI.bin
  have hS := slices_bin (cfg := cfg) hb
  obtain ⟨d1, d2, d3⟩ := hd
  have ht := ha.tmpFp fun hi => by rw [hb] at hi; cases hi
  rw [hb, if_neg (by decide)] at ht
  have hN' : n * lines cfg.mode ≤ cfg.N := (Nat.mul_le_mul_right _ hn).trans hN
  -- the cells
  have gp : ∀ i j, i < m → j < n →
      |x.mapper.core.ia.p.get i j - (cfg.hrs + x.mapper.core.gd.p.get i j * (cfg.lrs - cfg.hrs))| ≤ ε := fun i j hi hj => by
    have := (hw i j _ hi hj (hl.val hi hj).2).1
    rw [nominal_bin hb] at this
    rw [stateP hb hL hl hi hj]
    exact this
  have gm : ∀ i j, i < m → j < n →
      |x.mapper.core.ia.m.get i j - (cfg.hrs + x.mapper.core.gd.m.get i j * (cfg.lrs - cfg.hrs))| ≤ ε := fun i j hi hj => by
    have := (hw i j _ hi hj (hl.val hi hj).2).2
    rw [nominal_bin hb] at this
    rw [stateM hb hL hl hi hj]
    exact this
  have top : ∀ {y : K} {g : Int}, (g = 0 ∨ g = 1) → |y - (cfg.hrs + g * (cfg.lrs - cfg.hrs))| ≤ ε → y ≤ cfg.lrs + ε :=
    fun {y g} hg h => by
      have h1 := (abs_le.1 h).2
      have h2 := hI.lt
      rcases hg with rfl | rfl
      · rw [Int.cast_zero, zero_mul] at h1; linarith
      · rw [Int.cast_one, one_mul] at h1; linarith
  have bp : ∀ i j, i < m → j < n → x.mapper.core.ia.p.get i j ≤ cfg.lrs + ε := fun i j hi hj =>
    top (by rw [stateP hb hL hl hi hj]; exact (enc_bin hb (hl.val hi hj).1 0).1) (gp i j hi hj)
  have bm : ∀ i j, i < m → j < n → x.mapper.core.ia.m.get i j ≤ cfg.lrs + ε := fun i j hi hj =>
    top (by rw [stateM hb hL hl hi hj]; exact (enc_bin hb (hl.val hi hj).1 0).2) (gm i j hi hj)
  have bd : ∀ i j, i < m → j < n →
      (0 ≤ (firstArray cfg.mode x.mapper.core.ia).get i j ∧ (firstArray cfg.mode x.mapper.core.ia).get i j ≤ cfg.lrs + ε) ∧
      0 ≤ (secondArray cfg.mode x.mapper.core.ia).get i j ∧ (secondArray cfg.mode x.mapper.core.ia).get i j ≤ cfg.lrs + ε :=
    fun i j hi hj => by
      have := hpos i j (by rw [hS]; omega) (by omega)
      refine ⟨⟨this.1, ?_⟩, this.2, ?_⟩
      · unfold firstArray; split
        · exact bm i j hi hj
        · exact bp i j hi hj
      · unfold secondArray; split
        · exact bp i j hi hj
        · exact bm i j hi hj
  have bc : ∀ k r, k / pair cfg.mode < m → r / lines cfg.mode < n →
      0 ≤ crossing cfg x r k ∧ crossing cfg x r k ≤ cfg.lrs + ε := fun k r hk hr => by
    have := bd _ _ hk hr
    unfold crossing cross
    split
    · exact this.1
    · exact this.2
  -- sums of cells
  have kp := fun i (hi : i < m) {f : Nat → Int} (hf : Bits f n) => sum_dev hf fun j hj => gp i j hi hj
  have kq := fun i (hi : i < m) {f : Nat → Int} (hf : Bits f n) => sum_dev hf fun j hj => gm i j hi hj
  have two : ∀ {x y x' y' : K} {k k' : Int}, |x - x'| ≤ k * ε → |y - y'| ≤ k' * ε →
      |x - y - (x' - y')| ≤ ((k + k' : Int) : K) * ε := fun {x y x' y' k k'} h1 h2 => by
    have := abs_sub (x - x') (y - y')
    rw [show x - y - (x' - y') = x - x' - (y - y') by ring]
    push_cast
    linarith
  have two' : ∀ {x y x' y' : K} {k k' : Int}, |x - x'| ≤ k * ε → |y - y'| ≤ k' * ε →
      |x + y - (x' + y')| ≤ ((k + k' : Int) : K) * ε := fun {x y x' y' k k'} h1 h2 => by
    have := abs_add_le (x - x') (y - y')
    rw [show x + y - (x' + y') = x - x' + (y - y') by ring]
    push_cast
    linarith
  -- what the solver returns
  have sol : ∀ {vp vm : Vec Int} {V : Option (Vec Int)}, V = some vm ∨ lines cfg.mode = 1 → n ≤ vp.size → n ≤ vm.size →
      computeCurrents E s vp V (taps cfg m) n = .ok ((Vec.const cfg.M 0).over (taps cfg m)
        (tap cfg.mode fun c => wiredOf cfg.wRes cfg x vp vm n c)) := fun hV hp hq =>
    sync_currents hE hsh htn hsy hs hI.read hI.wire hpos hV hp hq hm hn hN' hT
  have one : lines cfg.mode = 1 → ∀ {u : Vec Int} {f : Nat → Int}, Bits f n → ∀ k, k / pair cfg.mode < m →
      Lossy (wiredOf cfg.wRes cfg x (u.over n f) (u.over n f) n k) (∑ j ∈ range n, crossing cfg x j k * f j)
        (lineLoss cfg (cfg.lrs + ε) ((∑ j ∈ range n, f j : Int) : K)) := fun h1 {u f} hf k hk =>
    line_one hI.read hI.wire h1 (by rwa [h1, Nat.mul_one] at hN') hf
      (fun j hj => bc k j hk (by rwa [h1, Nat.div_one])) _
  have tw : lines cfg.mode = 2 → ∀ {u u' : Vec Int} {f f' : Nat → Int}, Bits f n → Bits f' n → ∀ k,
      k / pair cfg.mode < m → Lossy (wiredOf cfg.wRes cfg x (u.over n f) (u'.over n f') n k)
        (∑ j ∈ range n, (crossing cfg x (2 * j) k * f j + crossing cfg x (2 * j + 1) k * f' j))
        (lineLoss cfg (cfg.lrs + ε) ((∑ j ∈ range n, f j + ∑ j ∈ range n, f' j : Int) : K)) :=
    fun h1 {u u' f f'} hf hf' k hk => line_two hI.read hI.wire h1 (by rwa [h1] at hN') hf hf'
      fun r hr => bc k r hk (by rw [h1]; omega)
  have cols : ¬(cfg.mode = .tnn4 ∨ cfg.mode = .tnn5) → ∀ {term : Nat → Nat → C K} {vp vm : Vec Int}
      {V : Option (Vec Int)} {Y : Nat → K} {d : K}, V = some vm ∨ lines cfg.mode = 1 → n ≤ vp.size → n ≤ vm.size →
      (∀ i, i < m → |tap cfg.mode (fun c => wiredOf cfg.wRes cfg x vp vm n c) i - Y i| ≤ d) →
      Cols E cfg x.mapper.core term vp V m n Y d := fun h4 {term vp vm V Y d} hV hp hq hY tmp _ => by
    have e : taps cfg m = m := by unfold taps; rw [if_neg h4, hS, Nat.mul_one]
    have := sol hV hp hq
    rw [e] at this
    refine ⟨(Vec.const cfg.M 0).over m (tap cfg.mode fun c => wiredOf cfg.wRes cfg x vp vm n c), ?_, d1, fun i hi => ?_⟩
    · unfold colCurrents
      rw [if_pos hI.par, hs]
      exact this
    · rw [Vec.over_lt hi]
      exact hY i hi
  have lift : ∀ {k : Int} {e : K}, e ≤ lineLoss cfg (cfg.lrs + ε) (k / bitLines cfg.mode) →
      (k : K) * ε + e ≤ wireDev cfg ε k := fun h => add_le_add_right h _
  have half : bitLines cfg.mode = 2 → ∀ k : Int, lineLoss cfg (cfg.lrs + ε) (k : K)
      ≤ lineLoss cfg (cfg.lrs + ε) (((2 * k : Int) : K) / bitLines cfg.mode) := fun h k => le_of_eq (by
    rw [h]; congr 1; push_cast; ring)
  have full : bitLines cfg.mode = 1 → ∀ k : Int, lineLoss cfg (cfg.lrs + ε) (k : K)
      ≤ lineLoss cfg (cfg.lrs + ε) ((k : K) / bitLines cfg.mode) := fun h k => le_of_eq (by
    rw [h, Nat.cast_one, div_one])
  have dif : ∀ i, i < m → ∀ {f : Nat → Int}, Bits f n →
      |∑ j ∈ range n, x.mapper.core.ia.p.get i j * f j - ∑ j ∈ range n, x.mapper.core.ia.m.get i j * f j
        - cur cfg.hrs (cfg.lrs - cfg.hrs) 0
          (∑ j ∈ range n, (x.mapper.core.gd.p.get i j - x.mapper.core.gd.m.get i j) * f j)|
        ≤ ((2 * ∑ j ∈ range n, f j : Int) : K) * ε := fun i hi f hf => by
    have := two (kp i hi hf) (kq i hi hf)
    rw [cur_sub, sub_self, ← two_mul] at this
    rw [sum_congr rfl fun j _ => sub_mul (x.mapper.core.gd.p.get i j) _ _, sum_sub_distrib]
    exact this
  exact {
    ne := sub_ne_zero.2 hI.lt.ne'
    w1 := fun i j hi hj => abs_val hb hl hi hj
    sw := by omega
    vdP := by rw [ha.vdP]; omega
    vdM := by rw [ha.vdM]; omega
    tmp := by rw [ha.tmp]; omega
    tmpP := by rw [ha.tmpP]; omega
    tmpM := by rw [ha.tmpM]; omega
    tmpFp := by rw [ht]; omega
    vec := hv
    res := hr
    n31 := d3
    om := le_rfl
    off := fun k _ => by
      unfold Env.fmul Env.ofInt
      rw [hE.f32, hE.f32, sub_self, abs_zero]
    half := fun k _ => by
      unfold Env.fmul Env.ofInt
      simp only [hE.f32]
      constructor
      · rw [show (k : K) * cfg.hrs / 2 - k * (cfg.hrs / 2) = 0 by ring, abs_zero]
      · rw [show -((k : K) * cfg.hrs) / 2 + k * (cfg.hrs / 2) = 0 by ring, abs_zero]
    p := fun hmd u f hu hf => by
      have l1 : lines cfg.mode = 1 := by rcases hmd with e | e <;> rw [e] <;> rfl
      have p1 : pair cfg.mode = 1 := by rcases hmd with e | e <;> rw [e] <;> rfl
      have b1 : bitLines cfg.mode = 1 := by rcases hmd with e | e <;> rw [e] <;> rfl
      have fa : firstArray cfg.mode x.mapper.core.ia = x.mapper.core.ia.p := by rcases hmd with e | e <;> rw [e] <;> rfl
      refine cols (by rcases hmd with e | e <;> rw [e] <;> decide) (vm := u.over n f) (.inr l1) hu hu fun i hi => ?_
      have h1 := one l1 (u := u) hf i (by rwa [p1, Nat.div_one])
      have h2 := kp i hi hf
      simp only [crossing, cross_11 l1 p1, fa] at h1
      unfold tap
      rw [if_pos (.inl p1)]
      exact (h1.near h2).trans (lift (full b1 _))
    diff := fun hmd u f hu hf => by
      have l1 : lines cfg.mode = 1 := by rcases hmd with e | e | e <;> rw [e] <;> rfl
      have p1 : pair cfg.mode = 2 := by rcases hmd with e | e | e <;> rw [e] <;> rfl
      have b1 : bitLines cfg.mode = 2 := by rcases hmd with e | e | e <;> rw [e] <;> rfl
      have fa : firstArray cfg.mode x.mapper.core.ia = x.mapper.core.ia.p := by rcases hmd with e | e | e <;> rw [e] <;> rfl
      have sa : secondArray cfg.mode x.mapper.core.ia = x.mapper.core.ia.m := by rcases hmd with e | e | e <;> rw [e] <;> rfl
      have n4 : ¬(cfg.mode = .tnn4 ∨ cfg.mode = .tnn5) := by rcases hmd with e | e | e <;> rw [e] <;> decide
      refine cols n4 (vm := u.over n f) (.inr l1) hu hu fun i hi => ?_
      have h1 := one l1 (u := u) hf (2 * i) (by rw [p1]; omega)
      have h1' := one l1 (u := u) hf (2 * i + 1) (by rw [p1]; omega)
      simp only [crossing, (cross_12 l1 p1 _ _).1, (cross_12 l1 p1 _ _).2, fa, sa] at h1 h1'
      unfold tap
      rw [if_neg (by rw [p1]; rintro (h | h); exacts [absurd h (by decide), n4 h])]
      refine le_trans ?_ (lift (half b1 _))
      exact h1.sub h1' (dif i hi hf)
    neg := fun hmd u f hu hf => by
      have l1 : lines cfg.mode = 1 := by rw [hmd]; rfl
      have p1 : pair cfg.mode = 2 := by rw [hmd]; rfl
      have b1 : bitLines cfg.mode = 2 := by rw [hmd]; rfl
      have fa : firstArray cfg.mode x.mapper.core.ia = x.mapper.core.ia.m := by rw [hmd]; rfl
      have sa : secondArray cfg.mode x.mapper.core.ia = x.mapper.core.ia.p := by rw [hmd]; rfl
      have n4 : ¬(cfg.mode = .tnn4 ∨ cfg.mode = .tnn5) := by rw [hmd]; decide
      refine cols n4 (vm := u.over n f) (.inr l1) hu hu fun i hi => ?_
      have h1 := one l1 (u := u) hf (2 * i) (by rw [p1]; omega)
      have h1' := one l1 (u := u) hf (2 * i + 1) (by rw [p1]; omega)
      simp only [crossing, (cross_12 l1 p1 _ _).1, (cross_12 l1 p1 _ _).2, fa, sa] at h1 h1'
      unfold tap
      rw [if_neg (by rw [p1]; rintro (h | h); exacts [absurd h (by decide), n4 h])]
      refine le_trans ?_ (lift (half b1 _))
      refine h1.sub h1' ?_
      have := dif i hi hf
      rw [abs_sub_comm] at this
      refine le_trans (le_of_eq ?_) this
      congr 1
      have e1 : ∑ j ∈ range n, (x.mapper.core.gd.m.get i j - x.mapper.core.gd.p.get i j) * f j
          = -∑ j ∈ range n, (x.mapper.core.gd.p.get i j - x.mapper.core.gd.m.get i j) * f j := by
        rw [← sum_neg_distrib]
        exact sum_congr rfl fun j _ => by ring
      have e2 : ∀ y : Int, cur cfg.hrs (cfg.lrs - cfg.hrs) 0 (-y) = -cur cfg.hrs (cfg.lrs - cfg.hrs) 0 y := fun y => by
        unfold cur
        push_cast
        ring
      rw [e1, e2]
      ring
    five := fun hmd u u' f f' hu hu' hf hf' => by
      have l1 : lines cfg.mode = 2 := by rw [hmd]; rfl
      have p1 : pair cfg.mode = 1 := by rw [hmd]; rfl
      have b1 : bitLines cfg.mode = 1 := by rw [hmd]; rfl
      have fa : firstArray cfg.mode x.mapper.core.ia = x.mapper.core.ia.p := by rw [hmd]; rfl
      have sa : secondArray cfg.mode x.mapper.core.ia = x.mapper.core.ia.m := by rw [hmd]; rfl
      refine cols (by rw [hmd]; decide) (vm := u'.over n f') (.inl rfl) hu hu' fun i hi => ?_
      have h1 := tw l1 (u := u) (u' := u') hf hf' i (by rwa [p1, Nat.div_one])
      simp only [crossing, (cross_21 l1 p1 _ _).1, (cross_21 l1 p1 _ _).2, fa, sa] at h1
      have h2 := two' (kp i hi hf) (kq i hi hf')
      rw [cur_add, ← sum_add_distrib, ← sum_add_distrib, ← sum_add_distrib] at h2
      unfold tap
      rw [if_pos (.inl p1)]
      exact (h1.near h2).trans (lift (full b1 _))
    quad := fun hmd u u' f f' hu hu' hf hf' => by
      have l1 : lines cfg.mode = 2 := by rcases hmd with e | e <;> rw [e] <;> rfl
      have p1 : pair cfg.mode = 2 := by rcases hmd with e | e <;> rw [e] <;> rfl
      have b1 : bitLines cfg.mode = 2 := by rcases hmd with e | e <;> rw [e] <;> rfl
      have fa : firstArray cfg.mode x.mapper.core.ia = x.mapper.core.ia.p := by rcases hmd with e | e <;> rw [e] <;> rfl
      have sa : secondArray cfg.mode x.mapper.core.ia = x.mapper.core.ia.m := by rcases hmd with e | e <;> rw [e] <;> rfl
      have n4 : ¬(cfg.mode = .tnn4 ∨ cfg.mode = .tnn5) := by rcases hmd with e | e <;> rw [e] <;> decide
      refine cols n4 (vm := u'.over n f') (.inl rfl) hu hu' fun i hi => ?_
      have h1 := tw l1 (u := u) (u' := u') hf hf' (2 * i) (by rw [p1]; omega)
      have h1' := tw l1 (u := u) (u' := u') hf hf' (2 * i + 1) (by rw [p1]; omega)
      simp only [crossing, (cross_22 l1 p1 _ _).1.1, (cross_22 l1 p1 _ _).1.2, (cross_22 l1 p1 _ _).2.1,
        (cross_22 l1 p1 _ _).2.2, fa, sa] at h1 h1'
      unfold tap
      rw [if_neg (by rw [p1]; rintro (h | h); exacts [absurd h (by decide), n4 h])]
      refine le_trans ?_ (lift (half b1 _))
      refine h1.sub h1' ?_
      have h2 := two (dif i hi hf) (dif i hi hf')
      rw [cur_sub, sub_zero, ← mul_add] at h2
      rw [sum_congr rfl fun j _ => mul_sub (x.mapper.core.gd.p.get i j - x.mapper.core.gd.m.get i j) _ _, sum_sub_distrib]
      refine le_trans (le_of_eq (congrArg _ ?_)) h2
      simp only [sum_add_distrib]
      ring
    tc := fun hmd u u' f f' hu hu' hf hf' => by
      have l1 : lines cfg.mode = 1 := by rcases hmd with e | e <;> rw [e] <;> rfl
      have p1 : pair cfg.mode = 2 := by rcases hmd with e | e <;> rw [e] <;> rfl
      have b1 : bitLines cfg.mode = 1 := by rcases hmd with e | e <;> rw [e] <;> rfl
      have fa : firstArray cfg.mode x.mapper.core.ia = x.mapper.core.ia.p := by rcases hmd with e | e <;> rw [e] <;> rfl
      have sa : secondArray cfg.mode x.mapper.core.ia = x.mapper.core.ia.m := by rcases hmd with e | e <;> rw [e] <;> rfl
      have e : taps cfg m = 2 * m := by unfold taps; rw [if_pos hmd]
      have cs : ∀ {u : Vec Int} {f : Nat → Int}, n ≤ u.size → Bits f n → FlHyp.SolveSum E x.mapper.core (u.over n f) m n
          (fun i => wiredOf cfg.wRes cfg x (u.over n f) (u.over n f) n (2 * i))
          (fun i => wiredOf cfg.wRes cfg x (u.over n f) (u.over n f) n (2 * i + 1)) := fun {u f} hu hf => by
        have := sol (vp := u.over n f) (vm := u.over n f) (V := none) (.inr l1) hu hu
        rw [e] at this hT
        refine ⟨s, _, hs, this, hT, fun i hi => ?_⟩
        rw [Vec.over_lt (by omega), Vec.over_lt (by omega)]
        unfold tap
        rw [if_pos (.inr hmd), if_pos (.inr hmd)]
        exact ⟨rfl, rfl⟩
      have bp : ∀ {u : Vec Int} {f : Nat → Int}, Bits f n → ∀ i, i < m →
          |wiredOf cfg.wRes cfg x (u.over n f) (u.over n f) n (2 * i) - cur cfg.hrs (cfg.lrs - cfg.hrs)
            (∑ j ∈ range n, 2 * f j) (∑ j ∈ range n, x.mapper.core.gd.p.get i j * f j)|
            ≤ wireDev cfg ε (∑ j ∈ range n, f j) := fun {u f} hf i hi => by
        have h1 := one l1 (u := u) hf (2 * i) (by rw [p1]; omega)
        simp only [crossing, (cross_12 l1 p1 _ _).1, fa] at h1
        exact (h1.near (kp i hi hf)).trans (lift (full b1 _))
      have bq : ∀ {u : Vec Int} {f : Nat → Int}, Bits f n → ∀ i, i < m →
          |wiredOf cfg.wRes cfg x (u.over n f) (u.over n f) n (2 * i + 1) - cur cfg.hrs (cfg.lrs - cfg.hrs)
            (∑ j ∈ range n, 2 * f j) (∑ j ∈ range n, x.mapper.core.gd.m.get i j * f j)|
            ≤ wireDev cfg ε (∑ j ∈ range n, f j) := fun {u f} hf i hi => by
        have h1 := one l1 (u := u) hf (2 * i + 1) (by rw [p1]; omega)
        simp only [crossing, (cross_12 l1 p1 _ _).2, sa] at h1
        exact (h1.near (kq i hi hf)).trans (lift (full b1 _))
      exact ⟨_, _, _, _, .inr ⟨hI.par, by rw [ha.tmpLsb]; omega, by rw [ha.tmpMsb]; omega, cs hu hf, cs hu' hf'⟩,
        bp hf, bp hf', bq hf, bq hf'⟩ }

end

end Acs
