import Verif.Lemmas.RealModes
import Verif.Lemmas.NearRd

/-! # Deviating cells and a real converter -/

set_option linter.unusedSectionVars false

namespace Acs

open Finset Spec

section
variable {K : Type} [Field K] [LinearOrder K] [IsStrictOrderedRing K] [FloorRing K]
variable {E : Env K} {cfg : Cfg K} {c : Core K} {a : Aux K} {mat vec res r : Vec Int} {m n w : Nat} {l : String}
variable {x x' : Xbar K} {h : List Op} {ε lo hi : K} {rg : String → K × K} {L : Nat → Nat → Option Int} {P Q W : Nat → Nat → Int}

/-! ## The converter -/

theorem clip_near {T y δ : K} (h1 : lo ≤ T) (h2 : T ≤ hi) (h : |y - T| ≤ δ) : |clip y lo hi - T| ≤ δ := by
  have h3 := abs_le.1 h
  rcases le_total y lo with h4 | h4
  · rw [clip_low (h1.trans h2) h4]
    exact abs_le.2 ⟨by linarith, by linarith⟩
  · rcases le_total hi y with h5 | h5
    · rw [clip_high h5]
      exact abs_le.2 ⟨by linarith, by linarith⟩
    · rw [clip_id h4 h5]
      exact h

/-- The level of a current near a nominal current inside the range. -/
theorem level_dev (h : AdcOk cfg l lo hi) {T y δ : K} (h1 : lo ≤ T) (h2 : T ≤ hi) (hy : |y - T| ≤ δ) :
    |levelOf cfg lo hi y * adcStep cfg lo hi + lo - T| ≤ δ + adcStep cfg lo hi / 2 := by
  obtain ⟨h3, h4⟩ := clip_mem (lo := lo) (hi := hi) h.lt.le y
  have e1 := level_near h h3 h4
  have e2 : levelOf cfg lo hi (clip y lo hi) = levelOf cfg lo hi y := by
    unfold levelOf
    rw [clip_id h3 h4]
  rw [e2] at e1
  have e3 := abs_add_le (levelOf cfg lo hi y * adcStep cfg lo hi + lo - clip y lo hi) (clip y lo hi - T)
  rw [sub_add_sub_cancel] at e3
  linarith [clip_near h1 h2 hy]

/-- Error of a conversion before the rounding to an integer. -/
def devQ (cfg : Cfg K) (lo hi : K) (s : Int) (δ : K) : K :=
  |(s : K) / (cfg.lrs - cfg.hrs)| * (δ + adcStep cfg lo hi / 2)

theorem realHyp (hE : ExactArith E) (hdo : cfg.digitalOnly = false) (hpr : cfg.adcProfile = false)
    (hne : cfg.hrs ≠ cfg.lrs) (hc : CoreShape E cfg c) (hA : AdcOk cfg l lo hi) (B : Int) :
    RealHyp E cfg c l (fun t off sc => (adcOut cfg lo hi sc (t + off) : K)) lo hi (zOf cfg lo hi) (devQ cfg lo hi) B where
  fl := {
    one := fun t off sc => conv1_exact hE hc.adc hA t sc off
    prof := hpr
    iMM := by rw [hc.iMM, hdo, if_neg (by decide)]
    ne := by
      unfold Env.fsub
      rw [hE.f32]
      exact sub_ne_zero.2 hne.symm }
  int := fun k _ => hE.f32 _
  conv := fun s _ t off T δ h1 h2 ht => by
    have e : scaleOf E cfg s = (s : K) / (cfg.lrs - cfg.hrs) := by
      unfold scaleOf Env.fsub
      rw [hE.f32, hE.f32]
    rw [e]
    refine ⟨_, _, rfl, adcOut_z hA s _, rfl, ?_⟩
    rw [← sub_mul, abs_mul, mul_comm]
    exact mul_le_mul_of_nonneg_left (level_dev hA h1 h2 ht) (abs_nonneg _)

/-! ## The currents -/

theorem sum_dev {p : Nat → K} {f : Nat → Int} {h d : K} {G : Nat → Int} (hf : Bits f n)
    (hp : ∀ j, j < n → |p j - (h + G j * d)| ≤ ε) :
    |∑ j ∈ range n, p j * f j - cur h d (∑ j ∈ range n, 2 * f j) (∑ j ∈ range n, G j * f j)|
      ≤ ((∑ j ∈ range n, f j : Int) : K) * ε := by
  have e : ∑ j ∈ range n, p j * f j - cur h d (∑ j ∈ range n, 2 * f j) (∑ j ∈ range n, G j * f j)
      = ∑ j ∈ range n, (p j - (h + G j * d)) * f j := by
    unfold cur
    push_cast
    rw [sum_mul, sum_mul, ← sum_add_distrib, ← sum_sub_distrib]
    exact sum_congr rfl fun j _ => by ring
  rw [e]
  refine (abs_sum_le_sum_abs _ _).trans ?_
  push_cast
  rw [sum_mul]
  refine sum_le_sum fun j hj => ?_
  have h1 := hp j (mem_range.1 hj)
  rcases hf j (mem_range.1 hj) with e | e <;> rw [e]
  · simp
  · simpa using h1

theorem CellDev.colHyp (H : CellDev E cfg c a P Q W vec res m n ε) :
    ColHyp E cfg c a P Q W vec res m n (fun k => (k : K) * ε) 0 := by
  have kp := fun i (hi : i < m) {f : Nat → Int} (hf : Bits f n) => sum_dev hf fun j hj => H.p i j hi hj
  have kq := fun i (hi : i < m) {f : Nat → Int} (hf : Bits f n) => sum_dev hf fun j hj => H.q i j hi hj
  have two : ∀ {x y x' y' : K} {k k' : Int}, |x - x'| ≤ k * ε → |y - y'| ≤ k' * ε →
      |x - y - (x' - y')| ≤ ((k + k' : Int) : K) * ε := fun {x y x' y' k k'} h1 h2 => by
    have := abs_sub (x - x') (y - y')
    rw [show x - y - (x' - y') = x - x' - (y - y') by ring]
    push_cast
    linarith
  have two' : ∀ {x y x' y' : K} {k k' : Int}, |x - x'| ≤ k * ε → |y - y'| ≤ k' * ε →
      |x + y - (x' + y')| ≤ ((k + k' : Int) : K) * ε := fun {x y x' y' k k'} h1 h2 => by
    have := abs_add_le (x - x') (y - y')
    rw [show x + y - (x' + y') = x - x' + (y - y') by ring]
    push_cast
    linarith
  have dif : ∀ i, i < m → ∀ {f : Nat → Int}, Bits f n →
      |∑ j ∈ range n, (c.ia.p.get i j - c.ia.m.get i j) * f j
        - cur cfg.hrs (cfg.lrs - cfg.hrs) 0 (∑ j ∈ range n, (P i j - Q i j) * f j)|
        ≤ ((2 * ∑ j ∈ range n, f j : Int) : K) * ε := fun i hi f hf => by
    have := two (kp i hi hf) (kq i hi hf)
    rw [cur_sub, sub_self, ← sum_sub_distrib, ← sum_sub_distrib, ← two_mul] at this
    rw [sum_congr rfl fun j _ => sub_mul (c.ia.p.get i j) _ _, sum_congr rfl fun j _ => sub_mul (P i j) _ _]
    exact this
  exact {
    ne := H.ne
    par := H.par
    w1 := H.w1
    sw := H.sw
    vdP := H.vdP
    vdM := H.vdM
    tmp := H.tmp
    tmpP := H.tmpP
    tmpM := H.tmpM
    tmpFp := H.tmpFp
    vec := H.vec
    res := H.res
    n31 := H.n31
    om := le_rfl
    off := fun k _ => by
      unfold Env.fmul Env.ofInt
      rw [H.ex.f32, H.ex.f32, sub_self, abs_zero]
    half := fun k _ => by
      unfold Env.fmul Env.ofInt
      simp only [H.ex.f32]
      constructor
      · rw [show (k : K) * cfg.hrs / 2 - k * (cfg.hrs / 2) = 0 by ring, abs_zero]
      · rw [show -((k : K) * cfg.hrs) / 2 + k * (cfg.hrs / 2) = 0 by ring, abs_zero]
    p := fun u f hu hf => ⟨_, fun tmp ht => H.cp hu ht, fun i hi => kp i hi hf⟩
    q := fun u f hu hf => ⟨_, fun tmp ht => H.cm hu ht, fun i hi => kq i hi hf⟩
    diff := fun u f hu hf => ⟨_, fun tmp ht => H.cDiff hu ht, fun i hi => dif i hi hf⟩
    neg := fun u f hu hf => ⟨_, fun tmp ht => H.cDiffNeg hu ht, fun i hi => by
      have := dif i hi hf
      rw [abs_sub_comm] at this
      refine le_trans (le_of_eq ?_) this
      congr 1
      unfold cur
      push_cast
      rw [sum_mul, sum_mul, ← sub_eq_zero]
      simp only [zero_mul, zero_add]
      rw [← sum_sub_distrib, ← sum_sub_distrib, ← sum_sub_distrib]
      exact sum_eq_zero fun j _ => by ring⟩
    five := fun u u' f f' hu hu' hf hf' => ⟨_, fun tmp ht => H.c5 hu hu' ht, fun i hi => by
      have := two' (kp i hi hf) (kq i hi hf')
      rw [cur_add, ← sum_add_distrib, ← sum_add_distrib, ← sum_add_distrib] at this
      exact this⟩
    quad := fun u u' f f' hu hu' hf hf' => ⟨_, fun tmp ht => H.cQuad hu hu' ht, fun i hi => by
      have := two (dif i hi hf) (dif i hi hf')
      rw [cur_sub, sub_zero, ← sum_sub_distrib, ← sum_sub_distrib, ← mul_add] at this
      rw [sum_congr rfl fun j _ => mul_sub (c.ia.p.get i j - c.ia.m.get i j) _ _,
        sum_congr rfl fun j _ => mul_sub (P i j - Q i j) _ _]
      exact this⟩ }

/-! ## One multiplication -/

theorem roomy_room (hb : cfg.mode.isInt = false) (hC : ∀ i, i < m →
      ((|res.get i| + 3 * n : Int) : K) + convPeak lo hi (conversions cfg W vec n i) ≤ 2147483647) :
    Roomy res m n 2147483647 ((readout cfg.mode vec n).map fun c => zOf cfg lo hi c.1).sum := by
  have key : ∀ i, i < m → |res.get i| + ((readout cfg.mode vec n).map fun c => zOf cfg lo hi c.1).sum + 3 * n
      ≤ 2147483647 := fun i hi' => by
    have h1 := hC i hi'
    rw [convPeak_eq hb] at h1
    have h2 : ((((readout cfg.mode vec n).map fun c => zOf cfg lo hi c.1).sum : Int) : K)
        ≤ ((readout cfg.mode vec n).map fun c => max |lo| |hi| * |(c.1 : K) / (cfg.lrs - cfg.hrs)| + 1 / 2).sum := by
      generalize readout cfg.mode vec n = cs
      induction cs with
      | nil => simp
      | cons c cs ih =>
        simp only [List.map_cons, List.sum_cons, Int.cast_add]
        exact add_le_add (zOf_le c.1) ih
    have h3 : ((|res.get i| + ((readout cfg.mode vec n).map fun c => zOf cfg lo hi c.1).sum + 3 * n : Int) : K)
        ≤ ((2147483647 : Int) : K) := by
      push_cast at h1 ⊢
      push_cast at h2
      linarith
    exact Int.cast_le.1 h3
  exact ⟨key, key⟩

theorem roomy_of (hb : cfg.mode.isInt = false) (hC : Converts cfg lo hi W res vec m n) :
    Roomy res m n 2147483647 ((readout cfg.mode vec n).map fun c => zOf cfg lo hi c.1).sum :=
  roomy_room hb hC.room

theorem rowDev_le (md : Mode) (hs : 0 ≤ adcStep cfg lo hi) (h0 : 0 ≤ ε) (hm : md = cfg.mode) :
    rowDev md (devQ cfg lo hi) (fun k => (k : K) * ε) 0 vec n ≤ deviationBound cfg lo hi ε vec n := by
  unfold rowDev deviationBound
  rw [hm]
  refine List.sum_le_sum fun c hc => ?_
  have hk := (readout_scale c hc).2
  have hk' : (0 : K) ≤ (c.2 : K) := by exact_mod_cast hk
  refine (convE_le _ ?_).trans (le_of_eq ?_)
  · unfold devQ
    exact mul_nonneg (abs_nonneg _) (by nlinarith)
  · unfold devQ deviation
    rw [add_zero]

theorem absorbs_dev (hA : Absorbed cfg lo hi ε vec n) :
    Absorbs cfg (fun c => devQ cfg lo hi c.1 ((c.2 : K) * ε + 0)) vec n := by
  have e : (fun c : Int × Int => devQ cfg lo hi c.1 ((c.2 : K) * ε + 0)) = deviation cfg lo hi ε := funext fun c => by
    unfold devQ deviation
    rw [add_zero]
  rw [e]
  exact hA

/-- The result of a multiplication with deviating cells and a real converter: an error bound, and no error
at all if the rounding absorbs the deviations. -/
def Converted (cfg : Cfg K) (lo hi ε : K) (W : Nat → Nat → Int) (res vec : Vec Int) (m n : Nat) (r : Vec Int) : Prop :=
  AddsUpTo (fun _ => deviationBound cfg lo hi ε vec n) r res W vec m n ∧
    (Absorbed cfg lo hi ε vec n → Adds r res W vec m n)

theorem converted_of {o : C (Aux K × Vec Int)} (hA : AdcOk cfg l lo hi) (h0 : 0 ≤ ε)
    (h : ∃ a' f, o = .ok (a', res.over m f) ∧
      (∀ i, i < m → |((f i : Int) : K) - ((res.get i + ∑ j ∈ range n, W i j * vec.get j : Int) : K)|
        ≤ rowDev cfg.mode (devQ cfg lo hi) (fun k => (k : K) * ε) 0 vec n) ∧
      (Absorbs cfg (fun c => devQ cfg lo hi c.1 ((c.2 : K) * ε + 0)) vec n →
        ∀ i, i < m → f i = res.get i + ∑ j ∈ range n, W i j * vec.get j)) :
    ∃ a' r, o = .ok (a', r) ∧ Converted cfg lo hi ε W res vec m n r := by
  obtain ⟨a', f, e, hf, hz⟩ := h
  refine ⟨a', _, e, ⟨rfl, fun i hi => ?_, fun i hi => Vec.over_ge hi⟩, fun hab => ⟨rfl, fun i hi => ?_, fun i hi => Vec.over_ge hi⟩⟩
  · rw [Vec.over_lt hi]
    exact (hf i hi).trans (rowDev_le _ (adcOk_step_pos hA).le h0 rfl)
  · rw [Vec.over_lt hi]
    exact hz (absorbs_dev hab) i hi

theorem aMvm_converted (hE : ExactArith E) (hok : CfgOk cfg) (hI : Binary cfg) (hc : CoreShape E cfg c)
    (ha : AuxShape cfg a) (hL : Cells cfg c.gd L) (hl : Legal cfg L m n) (hd : Accepted cfg m n) (h0 : 0 ≤ ε)
    (hw : NearNominal cfg ε L c.ia m n) (hv : n ≤ vec.size) (hr : m ≤ res.size) (hx : LegalVec cfg vec n)
    (hs : keepsRowSums cfg.mode → ∀ i, i < m → c.gd.sumW.get i = ∑ j ∈ range n, val L i j)
    (hA : AdcOk cfg l lo hi) (hC : Converts cfg lo hi (val L) res vec m n) :
    ∃ a' r, aMvm E cfg c a res vec m n l = .ok (a', r) ∧ Converted cfg lo hi ε (val L) res vec m n r := by
  have H := cellDev (vec := vec) (res := res) hE hok hI.bin hI.par hI.ne hc ha hL hl hd h0 hw hv hr
  refine converted_of hA h0 (H.colHyp.real (realHyp hE hI.analog hI.prof hI.ne hc hA 2147483647) (roomy_of hI.bin hC) hI.bin hc.mode hok
    (fun i j r hi hj => ?_) (fun i j r hi hj => ?_) (fun i j hi hj => ?_) hx hs hC.range le_rfl)
  · rw [stateP hI.bin hL hl hi hj, nominal_bin hI.bin]; unfold cur; push_cast; ring
  · rw [stateM hI.bin hL hl hi hj, nominal_bin hI.bin]; unfold cur; push_cast; ring
  · rw [stateP hI.bin hL hl hi hj, stateM hI.bin hL hl hi hj]
    exact cellRel hI.bin (hl.val hi hj).1

/-! ## Crossbars -/

/-- Deviating cells without cycle-to-cycle variation; read disturb may follow. -/
theorem mvm_converted (hE : ExactArith E) (hok : CfgOk cfg) (hI : Binary cfg) (hc2 : cfg.c2c = false)
    (hr : Runs E cfg h x) (hl : Legal cfg (lastWrite h) m n) (hd : Accepted cfg m n) (h0 : 0 ≤ ε)
    (hw : NearNominal cfg ε (lastWrite h) x.mapper.core.ia m n) (hv : n ≤ vec.size) (hres : m ≤ res.size)
    (hx : LegalVec cfg vec n)
    (hs : keepsRowSums cfg.mode → ∀ i, i < m →
      x.mapper.core.gd.sumW.get i = ∑ j ∈ range n, val (lastWrite h) i j)
    (hA : AdcOk cfg l lo hi) (hC : Converts cfg lo hi (stored h) res vec m n) :
    (∀ x' r, xMvm E cfg x res vec mat m n l = .ok (x', r) → Converted cfg lo hi ε (stored h) res vec m n r) ∧
    (cfg.readDisturb = false → ∃ x' r, xMvm E cfg x res vec mat m n l = .ok (x', r)) := by
  have hsh := runs_shape hr
  exact mvm_of_aMvm hI.analog hc2 (aMvm_converted hE hok hI hsh.core hsh.aux (runs_cells hok hr) hl hd h0 hw hv
    hres hx hs hA hC)

theorem exec_converted (hE : ExactArith E) (hok : CfgOk cfg) (hI : Binary cfg) (hrd : cfg.readDisturb = false)
    (h1 : 0 ≤ cfg.hrs) (h2 : 0 ≤ cfg.lrs) (hg : ∀ k, |E.gauss k| ≤ ε) {ops : List Op}
    (hr : Runs E cfg h x) (hh : HistOk cfg w h) (hl : LegalOps cfg w h ops) (hC : AllConvert cfg rg h ops) :
    ∃ x' rs, exec E cfg x ops = .ok (x', rs) ∧ AnswersBy (fun h res vec m n l r =>
      Converted cfg (rg l).1 (rg l).2 (spread cfg ε) (stored h) res vec m n r) h ops rs :=
  exec_by hok hI (fun {h x res vec mat m n l} hr hh k1 hC0 =>
    mvm_spread hE hok hI hrd h1 h2 hg hr (legal_of hh k1) k1.dims fun c a hc ha hgd hw =>
      aMvm_converted hE hok hI hc ha (by rw [hgd]; exact runs_cells hok hr) (legal_of hh k1) k1.dims
        (spread_nonneg ((abs_nonneg _).trans (hg 0))) hw k1.vecBuf k1.resBuf k1.vals
        (fun hk i _ => by rw [hgd]; exact sums_of hr hh k1 hk i) hC0.1 hC0.2) hr hh hl hC

theorem answersBy_mono {G G' : List Op → Vec Int → Vec Int → Nat → Nat → String → Vec Int → Prop} {ops : List Op}
    {rs : List (Vec Int)} (hG : ∀ h res vec m n l r, G h res vec m n l r → G' h res vec m n l r)
    (ha : AnswersBy G h ops rs) : AnswersBy G' h ops rs := by
  induction ha with
  | nil => exact .nil
  | write _ ih => exact .write ih
  | mvm a _ ih => exact .mvm (hG _ _ _ _ _ _ _ a) ih

theorem answersBy_absorbed {ops : List Op} {rs : List (Vec Int)}
    (ha : AnswersBy (fun h res vec m n l r =>
      Converted cfg (rg l).1 (rg l).2 ε (stored h) res vec m n r) h ops rs)
    (hb : AllAbsorbed cfg rg ε h ops) : Answers h ops rs := by
  induction ha with
  | nil => exact .nil
  | write _ ih => exact .write (ih hb)
  | mvm a _ ih => exact .mvm (a.2 hb.1) (ih hb.2)

/-- Calls that return, on a crossbar whose cells stay near their nominal currents. -/
theorem near_answers (hE : ExactArith E) (hok : CfgOk cfg) (hI : Binary cfg) (hc2 : cfg.c2c = false) (h0 : 0 ≤ ε)
    (near : ∀ {h : List Op} {x : Xbar K} {m n : Nat}, Runs E cfg h x → Accepted cfg m n →
      NearNominal cfg ε (lastWrite h) x.mapper.core.ia m n) {ops : List Op} {rs : List (Vec Int)} (hr : Runs E cfg h x)
    (hh : HistOk cfg w h) (hl : LegalOps cfg w h ops) (hC : AllConvert cfg rg h ops)
    (he : exec E cfg x ops = .ok (x', rs)) :
    AnswersUpTo (fun l => deviationBound cfg (rg l).1 (rg l).2 ε) h ops rs ∧
      (AllAbsorbed cfg rg ε h ops → Answers h ops rs) := by
  have := exec_after (w := w)
    (G := fun h res vec m n l r => Converted cfg (rg l).1 (rg l).2 ε (stored h) res vec m n r)
    (fun hr hh k1 hC0 hm => (mvm_converted hE hok hI hc2 hr (legal_of hh k1) k1.dims h0 (near hr k1.dims) k1.vecBuf
      k1.resBuf k1.vals (fun hk i _ => sums_of hr hh k1 hk i) hC0.1 hC0.2).1 _ _ hm) hr hh hl hC he
  exact ⟨answersBy_mono (fun _ _ _ _ _ _ _ h => h.1) this, answersBy_absorbed this⟩

end

end Acs
