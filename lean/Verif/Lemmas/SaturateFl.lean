import Verif.Lemmas.Saturate
import Verif.Lemmas.FlAdc32

/-! # Real converters whose range is too small, with rounded numbers -/

set_option linter.unusedSectionVars false

namespace Acs

open Finset Spec

section
variable {K : Type} [Field K] [LinearOrder K] [IsStrictOrderedRing K] [FloorRing K]
variable {E : Env K} {cfg : Cfg K} {c : Core K} {a : Aux K} {mat vec res r : Vec Int} {m n w : Nat} {l : String}
variable {x x' : Xbar K} {h : List Op} {ε σ lo hi κ : K} {q : Prec K} {rg : String → K × K} {κs : String → Nat → K}
variable {L : Nat → Nat → Option Int} {W : Nat → Nat → Int}

/-! ## The converter -/

theorem clip_sat' {lo' hi' T y d k : K} (hle : lo' ≤ hi') (h1 : lo - κ ≤ T) (h2 : T ≤ hi + κ) (hl : |lo' - lo| ≤ k)
    (hh : |hi' - hi| ≤ k) (h : |y - T| ≤ d) : |clip y lo' hi' - T| ≤ max d κ + k := by
  have h3 := abs_le.1 h
  have h4 := abs_le.1 hl
  have h5 := abs_le.1 hh
  have h6 := le_max_left d κ
  have h7 := le_max_right d κ
  simp only [clip]
  split_ifs <;> refine abs_le.2 ⟨?_, ?_⟩ <;> linarith

theorem clip_shift {lo' hi' y k : K} (hle : lo ≤ hi) (h1 : lo' ≤ y) (h2 : y ≤ hi') (hl : |lo' - lo| ≤ k)
    (hh : |hi' - hi| ≤ k) : |y - clip y lo hi| ≤ k := by
  have h4 := abs_le.1 hl
  have h5 := abs_le.1 hh
  simp only [clip]
  split_ifs <;> refine abs_le.2 ⟨?_, ?_⟩ <;> linarith

/-- Error of a conversion before the rounding to an integer. -/
def rndSatQ (cfg : Cfg K) (lo hi κ : K) (q : Prec K) (s : Int) (δ : K) : K :=
  |(s : K) / (cfg.lrs - cfg.hrs)| *
    ((1 + q.θ) * (max ((1 + q.u) * δ + q.u * κ) κ + adcStep cfg lo hi / 2
      + 10 * adcRound cfg lo hi q) + q.θ * (max |lo| |hi| + κ) + 5 * q.u * max |lo| |hi|) + q.η

theorem realHyp_rounded_sat (hq : Rounds E q) (hsc : ScaleError E cfg q) (hI : Binary cfg) (hc : CoreShape E cfg c)
    (hA : AdcOk cfg l lo hi) (hs : SmallConversion cfg lo hi q) (hκ : 0 ≤ κ) :
    ∃ cf, RealHyp E cfg c l cf (lo - κ) (hi + κ) (rndZ cfg lo hi) (rndSatQ cfg lo hi κ q) (2 ^ 24) := by
  obtain ⟨lo', hi', hg, n1, n2⟩ := getCurrents_near hq hs hA
  have H := rndConv hq hs hA n1 n2
  refine ⟨_, {
    fl := {
      one := fun t off sc => conv1_rounded H hc.adc hA hg t off sc
      prof := hI.prof
      iMM := by rw [hc.iMM, hI.analog, if_neg (by decide)]
      ne := window_ne hq hsc }
    int := hq.int
    conv := fun s hs' t off T δ h1 h2 ht => ?_ }⟩
  have hu := hq.pos
  have hk := H.k0
  have hR := H.R0
  have hδ : 0 ≤ δ := (abs_nonneg _).trans ht
  have hT : |T| ≤ max |lo| |hi| + κ := by
    have h3 := abs_le.1 (le_max_left |lo| |hi|)
    have h4 := abs_le.1 (le_max_right |lo| |hi|)
    exact abs_le.2 ⟨by linarith, by linarith⟩
  -- the current
  have x1 : |E.fadd t off - T| ≤ (1 + q.u) * δ + q.u * κ + adcRound cfg lo hi q := by
    have k1 := hq.err (t + off)
    have k2 : |t + off| ≤ max |lo| |hi| + κ + δ := by
      have := abs_add_le (t + off - T) T
      rw [sub_add_cancel] at this
      linarith
    have k3 := mul_le_mul_of_nonneg_left k2 hu
    have k4 := abs_add_le (E.f32 (t + off) - (t + off)) (t + off - T)
    rw [sub_add_sub_cancel] at k4
    have k5 := H.k4
    have k6 := mul_nonneg hu hR
    unfold Env.fadd
    linarith
  generalize E.fadd t off = y at x1
  obtain ⟨c1, c2⟩ := clip_mem H.le y
  have x2 := clip_sat' H.le h1 h2 n1 n2 x1
  have e1 : rndLevel E lo' hi' (adcLevels cfg - 1) y = rndLevel E lo' hi' (adcLevels cfg - 1) (clip y lo' hi') := by
    unfold rndLevel
    rw [clip_id c1 c2]
  rw [e1]
  generalize clip y lo' hi' = z at c1 c2 x2
  have x3 := clip_shift hA.lt.le c1 c2 n1 n2
  obtain ⟨d1, d2⟩ := clip_mem (lo := lo) (hi := hi) hA.lt.le z
  obtain ⟨u1, u2⟩ := H.level d1 d2 x3 le_rfl
  have e0 : (hi - lo) / ((adcLevels cfg - 1 : Int) : K) = adcStep cfg lo hi := rfl
  rw [e0] at u1
  have u3 : |rndLevel E lo' hi' (adcLevels cfg - 1) z - T| ≤ max ((1 + q.u) * δ + q.u * κ) κ + adcStep cfg lo hi / 2
      + 10 * adcRound cfg lo hi q := by
    have k1 := abs_add_le (rndLevel E lo' hi' (adcLevels cfg - 1) z - clip z lo hi) (clip z lo hi - z)
    rw [sub_add_sub_cancel, abs_sub_comm (clip z lo hi)] at k1
    have k2 := abs_add_le (rndLevel E lo' hi' (adcLevels cfg - 1) z - z) (z - T)
    rw [sub_add_sub_cancel] at k2
    have k3 : max ((1 + q.u) * δ + q.u * κ + adcRound cfg lo hi q) κ
        ≤ max ((1 + q.u) * δ + q.u * κ) κ + adcRound cfg lo hi q :=
      max_le (by linarith [le_max_left ((1 + q.u) * δ + q.u * κ) κ]) (by linarith [le_max_right ((1 + q.u) * δ + q.u * κ) κ])
    linarith
  obtain ⟨r1, r2⟩ := rnd_scaled hq hsc hI hs hs' u3 u2 hT
  exact ⟨_, _, rfl, r1, rfl, r2⟩

/-! ## One multiplication -/

theorem rndSatQ_le (hq : Rounds E q) (hsc : ScaleError E cfg q) (h0 : 0 ≤ topCurrent cfg ε) (c : Int × Int) :
    rndSatQ cfg lo hi κ q c.1 ((c.2 : K) * ε + n * (7 * cellRound cfg ε q + colRound cfg ε q n) + 2 * colRound cfg ε q n)
      ≤ roundSatDeviation cfg lo hi κ ε q n c := by
  have hu := hq.pos
  have he := eta_nonneg hq
  have hθ := theta_nonneg hsc
  have hρ : 0 ≤ colRound cfg ε q n := by unfold colRound; positivity
  unfold rndSatQ roundSatDeviation
  refine add_le_add_left (mul_le_mul_of_nonneg_left (add_le_add_left (add_le_add_left
    (mul_le_mul_of_nonneg_left ?_ (by linarith)) _) _) (abs_nonneg _)) _
  refine add_le_add_left (add_le_add_left (max_le_max (add_le_add_left (mul_le_mul_of_nonneg_left ?_ (by linarith)) _)
    le_rfl) _) _
  unfold columnError
  linarith

theorem aMvm_roundSat (hq : Rounds E q) (hsc : ScaleError E cfg q) (hok : CfgOk cfg) (hI : Binary cfg)
    (hc : CoreShape E cfg c) (ha : AuxShape cfg a) (hL : Cells cfg c.gd L) (hl : Legal cfg L m n)
    (hd : Accepted cfg m n) (h0 : 0 ≤ ε)
    (hw : NearNominal cfg ε L c.ia m n) (hv : n ≤ vec.size) (hr : m ≤ res.size) (hx : LegalVec cfg vec n)
    (hs : keepsRowSums cfg.mode → ∀ i, i < m → c.gd.sumW.get i = ∑ j ∈ range n, val L i j)
    (hA : AdcOk cfg l lo hi) (hS : SmallConversion cfg lo hi q) (hC : RoundExceeds cfg lo hi κ ε q (val L) res vec m n) :
    ∃ a' r, aMvm E cfg c a res vec m n l = .ok (a', r) ∧
      AddsUpTo (fun _ => roundSatBound cfg lo hi κ ε q vec n) r res (val L) vec m n := by
  have htop := (top_pos hI.ne h0).le
  have H := (flCols (vec := vec) (res := res) hq hC.cols hC.col hok hI hc ha hL hl hd h0 hw hv hr).colHyp
  obtain ⟨cf, R⟩ := realHyp_rounded_sat (κ := κ) hq hsc hI hc hA hS hC.pos
  obtain ⟨a', f, e, hf, _⟩ := H.real R (roomy_rounded_room hC.room) hI.bin hc.mode hok (fun i j r hi hj => by
      rw [stateP hI.bin hL hl hi hj, nominal_bin hI.bin]; unfold cur; push_cast; ring) (fun i j r hi hj => by
      rw [stateM hI.bin hL hl hi hj, nominal_bin hI.bin]; unfold cur; push_cast; ring) (fun i j hi hj => by
      rw [stateP hI.bin hL hl hi hj, stateM hI.bin hL hl hi hj]
      exact cellRel hI.bin (hl.val hi hj).1) hx hs hC.range le_rfl
  have hρ : 0 ≤ colRound cfg ε q n := by
    have := hq.pos
    have := eta_nonneg hq
    unfold colRound
    positivity
  have hρ1 := cellRound_nonneg (cfg := cfg) (ε := ε) hq htop
  have hQ : ∀ c ∈ readout cfg.mode vec n, 0 ≤ rndSatQ cfg lo hi κ q c.1
      ((c.2 : K) * ε + n * (7 * cellRound cfg ε q + colRound cfg ε q n) + 2 * colRound cfg ε q n) := fun c hc => by
    have hu := hq.pos
    have he := eta_nonneg hq
    have hθ := theta_nonneg hsc
    have h2 := (adcOk_step_pos hA).le
    have h5 : 0 ≤ max |lo| |hi| := (abs_nonneg _).trans (le_max_left _ _)
    have h4 : 0 ≤ adcRound cfg lo hi q := by unfold adcRound; positivity
    have h6 := hC.pos
    unfold rndSatQ
    have h7 := h6.trans (le_max_right ((1 + q.u) * ((c.2 : K) * ε + n * (7 * cellRound cfg ε q + colRound cfg ε q n)
      + 2 * colRound cfg ε q n) + q.u * κ) κ)
    generalize max ((1 + q.u) * ((c.2 : K) * ε + n * (7 * cellRound cfg ε q + colRound cfg ε q n)
      + 2 * colRound cfg ε q n) + q.u * κ) κ = M at h7
    positivity
  refine ⟨a', _, e, rfl, fun i hi' => ?_, fun i hi => Vec.over_ge hi⟩
  rw [Vec.over_lt hi']
  refine (hf i hi').trans (List.sum_le_sum fun c hc => ?_)
  have k1 := rndSatQ_le (lo := lo) (hi := hi) (κ := κ) (n := n) hq hsc htop c
  exact (convE_le _ (hQ c hc)).trans (by linarith)

/-! ## Crossbars -/

/-- Deviating cells without cycle-to-cycle variation; read disturb may follow. -/
theorem mvm_roundSat (hq : Rounds E q) (hsc : ScaleError E cfg q) (hok : CfgOk cfg) (hI : Binary cfg)
    (hc2 : cfg.c2c = false) (hr : Runs E cfg h x) (hl : Legal cfg (lastWrite h) m n) (hd : Accepted cfg m n) (h0 : 0 ≤ ε)
    (hw : NearNominal cfg ε (lastWrite h) x.mapper.core.ia m n) (hv : n ≤ vec.size) (hres : m ≤ res.size)
    (hx : LegalVec cfg vec n)
    (hs : keepsRowSums cfg.mode → ∀ i, i < m →
      x.mapper.core.gd.sumW.get i = ∑ j ∈ range n, val (lastWrite h) i j)
    (hA : AdcOk cfg l lo hi) (hS : SmallConversion cfg lo hi q)
    (hC : RoundExceeds cfg lo hi κ ε q (stored h) res vec m n) :
    (∀ x' r, xMvm E cfg x res vec mat m n l = .ok (x', r) →
      AddsUpTo (fun _ => roundSatBound cfg lo hi κ ε q vec n) r res (stored h) vec m n) ∧
    (cfg.readDisturb = false → ∃ x' r, xMvm E cfg x res vec mat m n l = .ok (x', r)) := by
  have hsh := runs_shape hr
  exact mvm_of_aMvm hI.analog hc2 (aMvm_roundSat hq hsc hok hI hsh.core hsh.aux (runs_cells hok hr) hl hd h0 hw hv
    hres hx hs hA hS hC)

theorem exec_roundSat (hq : Rounds E q) (hsc : ScaleError E cfg q) (hok : CfgOk cfg) (hI : Binary cfg)
    (hrd : cfg.readDisturb = false) (h1 : 0 ≤ cfg.hrs) (h2 : 0 ≤ cfg.lrs) (hg : NoiseUpTo E cfg σ)
    (hε : spread cfg σ + 5 * cellRound cfg ε q ≤ ε) (h0 : 0 ≤ ε) {ops : List Op}
    (hr : Runs E cfg h x) (hh : HistOk cfg w h) (hl : LegalOps cfg w h ops) (hC : AllRoundExceed cfg rg κs ε q h ops) :
    ∃ x' rs, exec E cfg x ops = .ok (x', rs) ∧
      AnswersUpTo (fun l vec n => roundSatBound cfg (rg l).1 (rg l).2 (κs l n) ε q vec n) h ops rs :=
  exec_by hok hI (fun {h x res vec mat m n l} hr hh k1 hC0 =>
    mvm_spread_rounded hq hok hI hrd h1 h2 hg hε h0 hr (legal_of hh k1) k1.dims fun c a hc ha hgd hw =>
      aMvm_roundSat hq hsc hok hI hc ha (by rw [hgd]; exact runs_cells hok hr) (legal_of hh k1) k1.dims
        h0 hw k1.vecBuf k1.resBuf k1.vals
        (fun hk i _ => by rw [hgd]; exact sums_of hr hh k1 hk i) hC0.1 hC0.2.1 hC0.2.2) hr hh hl hC

end

end Acs
