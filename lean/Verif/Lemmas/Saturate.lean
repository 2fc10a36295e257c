import Verif.Lemmas.AdcDev
import Verif.Lemmas.InRange
import Verif.SpecSaturate

/-! # Real converters whose range is too small -/

set_option linter.unusedSectionVars false

namespace Acs

open Finset Spec

section
variable {K : Type} [Field K] [LinearOrder K] [IsStrictOrderedRing K] [FloorRing K]
variable {E : Env K} {cfg : Cfg K} {c : Core K} {a : Aux K} {mat vec res r : Vec Int} {m n w : Nat} {l : String}
variable {x x' : Xbar K} {h : List Op} {ε lo hi κ : K} {rg : String → K × K} {κs : String → Nat → K}
variable {L : Nat → Nat → Option Int} {P Q W : Nat → Nat → Int}

/-! ## The converter -/

/-- Clipping a current near a nominal current that is outside the range by at most `κ`. -/
theorem clip_sat {T y δ : K} (hle : lo ≤ hi) (h1 : lo - κ ≤ T) (h2 : T ≤ hi + κ) (h : |y - T| ≤ δ) :
    |clip y lo hi - T| ≤ max δ κ := by
  have h3 := abs_le.1 h
  have h6 := le_max_left δ κ
  have h7 := le_max_right δ κ
  rcases le_total y lo with h4 | h4
  · rw [clip_low hle h4]
    exact abs_le.2 ⟨by linarith, by linarith⟩
  · rcases le_total hi y with h5 | h5
    · rw [clip_high h5]
      exact abs_le.2 ⟨by linarith, by linarith⟩
    · rw [clip_id h4 h5]
      exact h.trans h6

theorem level_sat (h : AdcOk cfg l lo hi) {T y δ : K} (h1 : lo - κ ≤ T) (h2 : T ≤ hi + κ) (hy : |y - T| ≤ δ) :
    |levelOf cfg lo hi y * adcStep cfg lo hi + lo - T| ≤ max δ κ + adcStep cfg lo hi / 2 := by
  obtain ⟨h3, h4⟩ := clip_mem (lo := lo) (hi := hi) h.lt.le y
  have e1 := level_near h h3 h4
  have e2 : levelOf cfg lo hi (clip y lo hi) = levelOf cfg lo hi y := by
    unfold levelOf
    rw [clip_id h3 h4]
  rw [e2] at e1
  have e3 := abs_add_le (levelOf cfg lo hi y * adcStep cfg lo hi + lo - clip y lo hi) (clip y lo hi - T)
  rw [sub_add_sub_cancel] at e3
  linarith [clip_sat h.lt.le h1 h2 hy]

/-- Error of a conversion before the rounding to an integer. -/
def satQ (cfg : Cfg K) (lo hi κ : K) (s : Int) (δ : K) : K :=
  |(s : K) / (cfg.lrs - cfg.hrs)| * (max δ κ + adcStep cfg lo hi / 2)

/-- The converter, as one with a wider range and larger errors. -/
theorem realHyp_sat (hE : ExactArith E) (hdo : cfg.digitalOnly = false) (hpr : cfg.adcProfile = false)
    (hne : cfg.hrs ≠ cfg.lrs) (hc : CoreShape E cfg c) (hA : AdcOk cfg l lo hi) (B : Int) :
    RealHyp E cfg c l (fun t off sc => (adcOut cfg lo hi sc (t + off) : K)) (lo - κ) (hi + κ) (zOf cfg lo hi)
      (satQ cfg lo hi κ) B where
  fl := (realHyp hE hdo hpr hne hc hA B).fl
  int := fun k _ => hE.f32 _
  conv := fun s _ t off T δ h1 h2 ht => by
    have e : scaleOf E cfg s = (s : K) / (cfg.lrs - cfg.hrs) := by
      unfold scaleOf Env.fsub
      rw [hE.f32, hE.f32]
    rw [e]
    refine ⟨_, _, rfl, adcOut_z hA s _, rfl, ?_⟩
    rw [← sub_mul, abs_mul, mul_comm]
    exact mul_le_mul_of_nonneg_left (level_sat hA h1 h2 ht) (abs_nonneg _)

/-! ## One multiplication -/

theorem rowDev_sat (hs : 0 ≤ adcStep cfg lo hi) (h0 : 0 ≤ ε) :
    rowDev cfg.mode (satQ cfg lo hi κ) (fun k => (k : K) * ε) 0 vec n ≤ satBound cfg lo hi κ ε vec n := by
  unfold rowDev satBound
  refine List.sum_le_sum fun c hc => ?_
  have hk := (readout_scale c hc).2
  have hk' : (0 : K) ≤ (c.2 : K) := by exact_mod_cast hk
  have h1 : 0 ≤ max ((c.2 : K) * ε) κ := (mul_nonneg hk' h0).trans (le_max_left _ _)
  refine (convE_le _ ?_).trans (le_of_eq ?_)
  · unfold satQ
    rw [add_zero]
    exact mul_nonneg (abs_nonneg _) (by linarith)
  · unfold satQ satDeviation
    rw [add_zero]

theorem absorbs_sat (hA : SatAbsorbed cfg lo hi κ ε vec n) :
    Absorbs cfg (fun c => satQ cfg lo hi κ c.1 ((c.2 : K) * ε + 0)) vec n := by
  have e : (fun c : Int × Int => satQ cfg lo hi κ c.1 ((c.2 : K) * ε + 0)) = satDeviation cfg lo hi κ ε :=
    funext fun c => by
      unfold satQ satDeviation
      rw [add_zero]
  rw [e]
  exact hA

/-- The result of a multiplication with deviating cells and a converter whose range is too small. -/
def Saturated (cfg : Cfg K) (lo hi κ ε : K) (W : Nat → Nat → Int) (res vec : Vec Int) (m n : Nat) (r : Vec Int) : Prop :=
  AddsUpTo (fun _ => satBound cfg lo hi κ ε vec n) r res W vec m n ∧
    (SatAbsorbed cfg lo hi κ ε vec n → Adds r res W vec m n)

theorem roomy_sat (hb : cfg.mode.isInt = false) (hC : Exceeds cfg lo hi κ W res vec m n) :
    Roomy res m n 2147483647 ((readout cfg.mode vec n).map fun c => zOf cfg lo hi c.1).sum :=
  roomy_room hb hC.room

theorem aMvm_saturated (hE : ExactArith E) (hok : CfgOk cfg) (hI : Binary cfg) (hc : CoreShape E cfg c)
    (ha : AuxShape cfg a) (hL : Cells cfg c.gd L) (hl : Legal cfg L m n) (hd : Accepted cfg m n) (h0 : 0 ≤ ε)
    (hw : NearNominal cfg ε L c.ia m n) (hv : n ≤ vec.size) (hr : m ≤ res.size) (hx : LegalVec cfg vec n)
    (hs : keepsRowSums cfg.mode → ∀ i, i < m → c.gd.sumW.get i = ∑ j ∈ range n, val L i j)
    (hA : AdcOk cfg l lo hi) (hC : Exceeds cfg lo hi κ (val L) res vec m n) :
    ∃ a' r, aMvm E cfg c a res vec m n l = .ok (a', r) ∧ Saturated cfg lo hi κ ε (val L) res vec m n r := by
  have H := cellDev (vec := vec) (res := res) hE hok hI.bin hI.par hI.ne hc ha hL hl hd h0 hw hv hr
  obtain ⟨a', f, e, hf, hz⟩ := H.colHyp.real (realHyp_sat (κ := κ) hE hI.analog hI.prof hI.ne hc hA 2147483647)
    (roomy_sat hI.bin hC) hI.bin hc.mode hok (W := val L)
    (fun i j r hi hj => by rw [stateP hI.bin hL hl hi hj, nominal_bin hI.bin]; unfold cur; push_cast; ring)
    (fun i j r hi hj => by rw [stateM hI.bin hL hl hi hj, nominal_bin hI.bin]; unfold cur; push_cast; ring)
    (fun i j hi hj => by
      rw [stateP hI.bin hL hl hi hj, stateM hI.bin hL hl hi hj]
      exact cellRel hI.bin (hl.val hi hj).1) hx hs hC.range le_rfl
  refine ⟨a', _, e, ⟨rfl, fun i hi => ?_, fun i hi => Vec.over_ge hi⟩, fun hab => ⟨rfl, fun i hi => ?_, fun i hi => Vec.over_ge hi⟩⟩
  · rw [Vec.over_lt hi]
    exact (hf i hi).trans (rowDev_sat (adcOk_step_pos hA).le h0)
  · rw [Vec.over_lt hi]
    exact hz (absorbs_sat hab) i hi

/-! ## Crossbars -/

theorem mvm_saturated (hE : ExactArith E) (hok : CfgOk cfg) (hI : Binary cfg) (hc2 : cfg.c2c = false)
    (hr : Runs E cfg h x) (hl : Legal cfg (lastWrite h) m n) (hd : Accepted cfg m n) (h0 : 0 ≤ ε)
    (hw : NearNominal cfg ε (lastWrite h) x.mapper.core.ia m n) (hv : n ≤ vec.size) (hres : m ≤ res.size)
    (hx : LegalVec cfg vec n)
    (hs : keepsRowSums cfg.mode → ∀ i, i < m →
      x.mapper.core.gd.sumW.get i = ∑ j ∈ range n, val (lastWrite h) i j)
    (hA : AdcOk cfg l lo hi) (hC : Exceeds cfg lo hi κ (stored h) res vec m n) :
    (∀ x' r, xMvm E cfg x res vec mat m n l = .ok (x', r) → Saturated cfg lo hi κ ε (stored h) res vec m n r) ∧
    (cfg.readDisturb = false → ∃ x' r, xMvm E cfg x res vec mat m n l = .ok (x', r)) := by
  have hsh := runs_shape hr
  exact mvm_of_aMvm hI.analog hc2 (aMvm_saturated hE hok hI hsh.core hsh.aux (runs_cells hok hr) hl hd h0 hw hv
    hres hx hs hA hC)

theorem exec_saturated (hE : ExactArith E) (hok : CfgOk cfg) (hI : Binary cfg) (hrd : cfg.readDisturb = false)
    (h1 : 0 ≤ cfg.hrs) (h2 : 0 ≤ cfg.lrs) (hg : ∀ k, |E.gauss k| ≤ ε) {ops : List Op}
    (hr : Runs E cfg h x) (hh : HistOk cfg w h) (hl : LegalOps cfg w h ops) (hC : AllExceed cfg rg κs h ops) :
    ∃ x' rs, exec E cfg x ops = .ok (x', rs) ∧ AnswersBy (fun h res vec m n l r =>
      Saturated cfg (rg l).1 (rg l).2 (κs l n) (spread cfg ε) (stored h) res vec m n r) h ops rs :=
  exec_by hok hI (fun {h x res vec mat m n l} hr hh k1 hC0 =>
    mvm_spread hE hok hI hrd h1 h2 hg hr (legal_of hh k1) k1.dims fun c a hc ha hgd hw =>
      aMvm_saturated hE hok hI hc ha (by rw [hgd]; exact runs_cells hok hr) (legal_of hh k1) k1.dims
        (spread_nonneg ((abs_nonneg _).trans (hg 0))) hw k1.vecBuf k1.resBuf k1.vals
        (fun hk i _ => by rw [hgd]; exact sums_of hr hh k1 hk i) hC0.1 hC0.2) hr hh hl hC

theorem answersBy_sat {ops : List Op} {rs : List (Vec Int)}
    (ha : AnswersBy (fun h res vec m n l r =>
      Saturated cfg (rg l).1 (rg l).2 (κs l n) ε (stored h) res vec m n r) h ops rs)
    (hb : AllSatAbsorbed cfg rg κs ε h ops) : Answers h ops rs := by
  induction ha with
  | nil => exact .nil
  | write _ ih => exact .write (ih hb)
  | mvm a _ ih => exact .mvm (a.2 hb.1) (ih hb.2)

/-! ## `MAX` calibration -/

/-- Nominal currents exceed the range by at most `overshoot`. -/
theorem conversions_overshoot (h0 : 0 ≤ cfg.hrs) (hle : cfg.hrs ≤ cfg.lrs) (hc : cfg.calibMode = .max)
    (hfit : adcFits cfg) (hra : adcRange cfg l = some (lo, hi)) (hn : n ≤ cfg.N)
    (hW : LegalMat cfg W m n) (hx : LegalVec cfg vec n) {i : Nat} (hi' : i < m) :
    ∀ c ∈ conversions cfg W vec n i, lo - overshoot cfg n ≤ c.1 ∧ c.1 ≤ hi + overshoot cfg n := by
  by_cases h45 : cfg.mode = .tnn4 ∨ cfg.mode = .tnn5
  swap
  · intro c hcm
    have := conversions_in_range h0 hle hc hfit hra hn (fun h => absurd h h45) hW hx hi' c hcm
    have e : overshoot cfg n = 0 := by
      unfold overshoot
      cases hm : cfg.mode <;> first | rfl | (rw [hm] at h45; simp at h45)
    rw [e, sub_zero, add_zero]
    exact this
  have ht : cfg.adcType = .pos := by
    unfold adcFits at hfit
    rcases h45 with e | e <;> rw [e] at hfit <;> exact hfit
  obtain ⟨e1, e2⟩ := adcRange_pos hc ht hra
  have hl : 0 ≤ cfg.lrs := h0.trans hle
  have hN : (n : K) * cfg.lrs ≤ cfg.N * cfg.lrs := mul_le_mul_of_nonneg_right (by exact_mod_cast hn) hl
  have hb : cfg.mode.isInt = false := by rcases h45 with e | e <;> rw [e] <;> rfl
  have rng : ∀ j, j < n →
      (cfg.hrs ≤ nominal cfg (i * cfg.split.length) (encP cfg (W i j) 0) ∧
        nominal cfg (i * cfg.split.length) (encP cfg (W i j) 0) ≤ cfg.lrs) ∧
      cfg.hrs ≤ nominal cfg (i * cfg.split.length) (encM cfg (W i j) 0) ∧
        nominal cfg (i * cfg.split.length) (encM cfg (W i j) 0) ≤ cfg.lrs := fun j hj => by
    have := enc_range (cfg := cfg) (hW i j hi' hj) (r := i * cfg.split.length) (s := 0)
      fun h => by rw [h] at hb; exact absurd hb (by decide)
    exact ⟨nominal_range hle this.1.1 this.1.2, nominal_range hle this.2.1 this.2.2⟩
  have key : ∀ (t : Nat → K) (o : K), 0 ≤ o → (∀ j, j < n → -o ≤ t j ∧ t j ≤ cfg.lrs + o) →
      lo - n * o ≤ ∑ j ∈ range n, t j ∧ ∑ j ∈ range n, t j ≤ hi + n * o := by
    intro t o ho h
    rw [e1, e2]
    have k1 := Finset.card_nsmul_le_sum (range n) t (-o) fun j hj => (h j (mem_range.1 hj)).1
    have k2 := Finset.sum_le_card_nsmul (range n) t (cfg.lrs + o) fun j hj => (h j (mem_range.1 hj)).2
    rw [card_range, nsmul_eq_mul] at k1 k2
    constructor <;> linarith
  unfold LegalVec LegalX at hx
  unfold conversions overshoot
  rcases h45 with hm | hm
  all_goals
    simp only [hm, List.forall_mem_cons, List.not_mem_nil, false_implies, implies_true, and_true] at hx ⊢
    simp only [Nat.add_zero]
  · have e : (n : K) * cfg.hrs / 2 = n * (cfg.hrs / 2) := by ring
    rw [e, Int.cast_sum, sum_mul, ← sum_add_distrib, ← sum_sub_distrib]
    refine ⟨?_, ?_, ?_, ?_⟩ <;>
    · refine key _ _ (by linarith) fun j hj => ?_
      obtain ⟨⟨a1, a2⟩, b1, b2⟩ := rng j hj
      rcases hx j hj with e | e | e <;> rw [e] <;> norm_num <;> first | linarith | (constructor <;> linarith)
  · have e : 2 * (n : K) * cfg.hrs = n * (2 * cfg.hrs) := by ring
    rw [e, mul_assoc 3, Int.cast_sum, sum_mul, mul_sum, ← sum_add_distrib]
    refine ⟨?_, ?_, ?_, ?_⟩ <;>
    · refine key _ _ (by linarith) fun j hj => ?_
      obtain ⟨⟨a1, a2⟩, b1, b2⟩ := rng j hj
      rcases hx j hj with e | e | e <;> rw [e] <;> norm_num <;> first | linarith | (constructor <;> linarith)

end

end Acs
