import Verif.Lemmas.FlModes
import Verif.Lemmas.NearXbar
import Verif.SpecRound

/-! # Crossbars that compute with rounded numbers -/

set_option linter.unusedSectionVars false

namespace Acs

open Finset Spec

section
variable {K : Type} [Field K] [LinearOrder K] [IsStrictOrderedRing K] [FloorRing K]
variable {E : Env K} {cfg : Cfg K} {c : Core K} {a : Aux K} {mat vec res r : Vec Int} {m n w : Nat} {l : String}
variable {x x' : Xbar K} {h : List Op} {ε σ A : K} {L : Nat → Nat → Option Int} {q : Prec K}

theorem rounds_to (hq : Rounds E q) (N : K) : Rnd E (q.u * N + q.η) N := fun x hx => by
  have := hq.err x
  have := mul_le_mul_of_nonneg_left hx hq.pos
  linarith

theorem window_le : |cfg.lrs - cfg.hrs| ≤ 2 * max |cfg.hrs| |cfg.lrs| := by
  have h1 := abs_sub cfg.lrs cfg.hrs
  have h2 := le_max_left |cfg.hrs| |cfg.lrs|
  have h3 := le_max_right |cfg.hrs| |cfg.lrs|
  linarith

theorem top_pos (hne : cfg.hrs ≠ cfg.lrs) (h0 : 0 ≤ ε) : 0 < topCurrent cfg ε := by
  have h1 := window_le (cfg := cfg)
  have h2 : 0 < |cfg.lrs - cfg.hrs| := abs_pos.2 (sub_ne_zero.2 hne.symm)
  unfold topCurrent
  linarith

theorem hrs_top (h0 : 0 ≤ ε) : |cfg.hrs| ≤ topCurrent cfg ε := by
  have := le_max_left |cfg.hrs| |cfg.lrs|
  unfold topCurrent
  linarith

theorem nominal_top (hb : cfg.mode.isInt = false) {g : Int} (hg : g = 0 ∨ g = 1) (i : Nat) :
    |nominal cfg i g| ≤ max |cfg.hrs| |cfg.lrs| := by
  rw [nominal_bin hb]
  rcases hg with rfl | rfl
  · simp
  · simp

theorem cell_top (hb : cfg.mode.isInt = false) {g : Int} (hg : g = 0 ∨ g = 1) {i : Nat} {y : K}
    (hy : |y - nominal cfg i g| ≤ ε) : |y| ≤ topCurrent cfg ε := by
  have h1 := nominal_top hb hg i
  have h2 := abs_add_le (y - nominal cfg i g) (nominal cfg i g)
  rw [sub_add_cancel] at h2
  unfold topCurrent
  linarith

theorem exactly_exact : ExactArith (exactly E) := ⟨fun _ => rfl, fun _ => rfl⟩

theorem flCols (hq : Rounds E q) (hn : 3 * n < 2 ^ 24) (hcol : columnError cfg ε q n ≤ topCurrent cfg ε)
    (hok : CfgOk cfg) (hI : Binary cfg) (hc : CoreShape E cfg c)
    (ha : AuxShape cfg a) (hL : Cells cfg c.gd L) (hl : Legal cfg L m n) (hd : Accepted cfg m n) (h0 : 0 ≤ ε)
    (hw : NearNominal cfg ε L c.ia m n) (hv : n ≤ vec.size) (hr : m ≤ res.size) :
    FlCols E cfg c a c.gd.p.get c.gd.m.get (val L) vec res m n ε (topCurrent cfg ε) (cellRound cfg ε q)
      (colRound cfg ε q n) := by
  have hfit := Fits.row hok hd
  have h1 := hc.ia.p
  have h2 := hc.ia.m
  have h3 := hc.gd.sumW
  unfold Mat.Is at h1 h2
  obtain ⟨d1, d2, d3⟩ := hd
  have ht := ha.tmpFp fun _ => hI.par
  rw [hI.bin, if_neg (by decide)] at ht
  have hbp := fun i j (hi : i < m) (hj : j < n) => enc_bin hI.bin (hl.val hi hj).1 0
  exact {
    cells := {
      ex := exactly_exact
      ne := sub_ne_zero.2 hI.ne.symm
      par := hI.par
      eps := h0
      p := fun i j hi hj => by
        have := (hw i j _ hi hj (hl.val hi hj).2).1
        rw [nominal_bin hI.bin] at this
        rw [stateP hI.bin hL hl hi hj]
        exact this
      q := fun i j hi hj => by
        have := (hw i j _ hi hj (hl.val hi hj).2).2
        rw [nominal_bin hI.bin] at this
        rw [stateM hI.bin hL hl hi hj]
        exact this
      w1 := fun i j hi hj => abs_val hI.bin hl hi hj
      pr := by show m ≤ c.ia.p.rows; omega
      pc := by show n ≤ c.ia.p.cols; omega
      mr := by show m ≤ c.ia.m.rows; omega
      mc := by show n ≤ c.ia.m.cols; omega
      sw := by show m ≤ c.gd.sumW.size; omega
      vdP := by rw [ha.vdP]; omega
      vdM := by rw [ha.vdM]; omega
      tmp := by rw [ha.tmp]; omega
      tmpP := by rw [ha.tmpP]; omega
      tmpM := by rw [ha.tmpM]; omega
      tmpFp := by rw [ht]; omega
      vec := hv
      res := hr
      n31 := d3 }
    hI := hrs_top h0
    pI := fun i j hi hj => cell_top hI.bin (hbp i j hi hj).1 (hw i j _ hi hj (hl.val hi hj).2).1
    mI := fun i j hi hj => cell_top hI.bin (hbp i j hi hj).2 (hw i j _ hi hj (hl.val hi hj).2).2
    r1 := rounds_to hq _
    r2 := rounds_to hq _
    int := fun k hk => hq.int k (by omega)
    col := hcol }

/-- The computed window is not zero. -/
theorem window_ne (hq : Rounds E q) (hsc : ScaleError E cfg q) : E.fsub cfg.lrs cfg.hrs ≠ 0 := fun e => by
  have k := hsc.2 2 (Or.inr rfl)
  have z := hq.int 0 (by norm_num)
  rw [Int.cast_zero] at z
  rw [e, div_zero, z, zero_mul, zero_sub, abs_neg, abs_two] at k
  linarith [hsc.1]

theorem flDev (hq : Rounds E q) (hsc : ScaleError E cfg q) (hsm : SmallRounding cfg ε q A n)
    (hok : CfgOk cfg) (hI : Imperfect cfg) (hc : CoreShape E cfg c)
    (ha : AuxShape cfg a) (hL : Cells cfg c.gd L) (hl : Legal cfg L m n) (hd : Accepted cfg m n) (h0 : 0 ≤ ε)
    (hw : NearNominal cfg ε L c.ia m n) (hv : n ≤ vec.size) (hr : m ≤ res.size) (hA0 : 0 ≤ A)
    (hA : ∀ i, i < m → |(res.get i : K)| ≤ A) :
    FlDev E cfg c a c.gd.p.get c.gd.m.get (val L) vec res m n ε (topCurrent cfg ε) (cellRound cfg ε q)
      (colRound cfg ε q n) (numRound cfg ε q A n) q.θ (12 * (n + 1) * topCurrent cfg ε / |cfg.lrs - cfg.hrs|) A := by
  have htop := top_pos hI.ne h0
  have hdp : 0 < |cfg.lrs - cfg.hrs| := abs_pos.2 (sub_ne_zero.2 hI.ne.symm)
  have hn : (0 : K) ≤ n := Nat.cast_nonneg n
  have hV : (n : K) ≤ 12 * (n + 1) * topCurrent cfg ε / |cfg.lrs - cfg.hrs| := by
    rw [le_div_iff₀ hdp]
    have k1 := window_le (cfg := cfg)
    have k2 : |cfg.lrs - cfg.hrs| ≤ 2 * topCurrent cfg ε := by unfold topCurrent; linarith
    have k3 := mul_le_mul_of_nonneg_left k2 hn
    have k4 := mul_nonneg hn htop.le
    linarith
  exact {
    flCols hq hsm.cols hsm.col hok (binary_of hI) hc ha hL hl hd h0 hw hv hr with
    fl := fun l => {
      one := fun t off sc => by
        unfold conv1 cv
        rw [adc_kind hc.adc, hI.adc]
      prof := hI.prof
      iMM := by rw [hc.iMM, hI.analog, if_neg (by decide)]
      ne := window_ne hq hsc }
    inf := {
      ex := exactly_exact
      kind := by show c.adc.kind = _; rw [adc_kind hc.adc, hI.adc]
      prof := hI.prof
      iMM := rfl
      ne := sub_ne_zero.2 hI.ne.symm }
    rn := rounds_to hq _
    sc := hsc.2
    th := hsc.1
    one := hsm.num
    hV := le_rfl
    nV := hV
    A0 := hA0
    hA := hA }

theorem totErr_eq {g κ : Nat} (hg : roundGain cfg.mode = g) (hκ : noiseGain cfg.mode = κ) :
    totErr (cfg.lrs - cfg.hrs) n κ g ε (topCurrent cfg ε) (cellRound cfg ε q) (colRound cfg ε q n)
      (numRound cfg ε q A n) q.θ = noiseGain cfg.mode * n * ε / |cfg.lrs - cfg.hrs| + roundError cfg ε q A n := by
  rw [hκ]
  unfold totErr flErr roundError
  rw [hg]
  rfl

/-- An analog multiplication with deviating cells and rounded numbers. -/
theorem aMvm_rounded (hq : Rounds E q) (hsc : ScaleError E cfg q) (hsm : SmallRounding cfg ε q A n)
    (hok : CfgOk cfg) (hI : Imperfect cfg) (hc : CoreShape E cfg c)
    (ha : AuxShape cfg a) (hL : Cells cfg c.gd L) (hl : Legal cfg L m n) (hd : Accepted cfg m n) (h0 : 0 ≤ ε)
    (hw : NearNominal cfg ε L c.ia m n) (hv : n ≤ vec.size) (hr : m ≤ res.size) (hx : LegalVec cfg vec n)
    (hs : keepsRowSums cfg.mode → ∀ i, i < m → c.gd.sumW.get i = ∑ j ∈ range n, val L i j) (hA0 : 0 ≤ A)
    (hR : RoundRoom cfg ε q A res m n) :
    ∃ a' r, aMvm E cfg c a res vec m n l = .ok (a', r) ∧
      AddsWithin (noiseBound cfg ε n + roundError cfg ε q A n) r res (val L) vec m n := by
  have H := flDev (vec := vec) (res := res) hq hsc hsm hok hI hc ha hL hl hd h0 hw hv hr hA0 fun i hi => (hR i hi).1
  have hrel : ∀ i j, i < m → j < n → CellRel cfg.mode (c.gd.p.get i j) (c.gd.m.get i j) (val L i j) :=
    fun i j hi hj => by
      rw [stateP hI.bin hL hl hi hj, stateM hI.bin hL hl hi hj]
      exact cellRel hI.bin (hl.val hi hj).1
  have key : NearBy (aMvm E cfg c a res vec m n l) res vec (val L) m n
      (noiseGain cfg.mode * n * ε / |cfg.lrs - cfg.hrs| + roundError cfg ε q A n + truncations cfg.mode) := by
    have hb := hI.bin
    have hR' : FlRoom (noiseGain cfg.mode * n * ε / |cfg.lrs - cfg.hrs| + roundError cfg ε q A n) res m n :=
      fun i hi => (hR i hi).2
    have T := fun g κ => totErr_eq (cfg := cfg) (n := n) (ε := ε) (A := A) (q := q) (g := g) (κ := κ)
    generalize noiseGain cfg.mode * n * ε / |cfg.lrs - cfg.hrs| + roundError cfg ε q A n = δ at hR' T ⊢
    unfold CfgOk at hok
    unfold LegalVec LegalX at hx
    unfold aMvm
    rw [hc.mode]
    cases hm : cfg.mode <;>
      simp only [hm, CellRel, truncations, Nat.cast_ofNat, Nat.cast_one] at hrel hx hs hok T ⊢
    case bnn1 => exact (T _ _ rfl rfl) ▸ H.bnn1 hx hrel (hs trivial) ((T _ _ rfl rfl).symm ▸ hR')
    case bnn2 => exact (T _ _ rfl rfl) ▸ H.bnn2 hx hrel (hs trivial) ((T _ _ rfl rfl).symm ▸ hR')
    case bnn3 => exact (T _ _ rfl rfl) ▸ H.bnn3 hx hrel ((T _ _ rfl rfl).symm ▸ hR')
    case bnn4 => exact (T _ _ rfl rfl) ▸ H.bnn4 hx hrel ((T _ _ rfl rfl).symm ▸ hR')
    case bnn5 => exact (T _ _ rfl rfl) ▸ H.bnn5 hx (fun i j hi hj => (hrel i j hi hj).1) (fun i j hi hj => (hrel i j hi hj).2) ((T _ _ rfl rfl).symm ▸ hR')
    case bnn6 => exact (T _ _ rfl rfl) ▸ H.bnn6 hx hrel ((T _ _ rfl rfl).symm ▸ hR')
    case tnn1 => exact (T _ _ rfl rfl) ▸ H.tnn1 hx hrel ((T _ _ rfl rfl).symm ▸ hR')
    case tnn2 => exact (T _ _ rfl rfl) ▸ H.tnn2 hx hrel ((T _ _ rfl rfl).symm ▸ hR')
    case tnn3 => exact (T _ _ rfl rfl) ▸ H.tnn3 hx hrel (hs trivial) ((T _ _ rfl rfl).symm ▸ hR')
    case tnn4 => exact (T _ _ rfl rfl) ▸ H.tnn4 hok.1 hx hrel ((T _ _ rfl rfl).symm ▸ hR')
    case tnn5 => exact (T _ _ rfl rfl) ▸ H.tnn5 hok.1 hx hrel ((T _ _ rfl rfl).symm ▸ hR')
    all_goals (rw [hm] at hb; exact absurd hb (by decide))
  obtain ⟨a', f, e, hf⟩ := key
  refine ⟨a', _, e, rfl, fun i hi => ?_, fun i hi => Vec.over_ge hi⟩
  rw [Vec.over_lt hi]
  have := hf i hi
  unfold noiseBound
  rw [add_right_comm]
  exact this

/-! ## Variation -/

theorem eta_nonneg (hq : Rounds E q) : 0 ≤ q.η := by
  have := hq.err 0
  rw [abs_zero, mul_zero, zero_add] at this
  exact (abs_nonneg _).trans this

theorem cellRound_nonneg (hq : Rounds E q) (h0 : 0 ≤ topCurrent cfg ε) : 0 ≤ cellRound cfg ε q := by
  have := eta_nonneg hq
  have := hq.pos
  unfold cellRound
  positivity

/-- The programmed current of a cell without variation. -/
theorem cellCurrent_near (hq : Rounds E q) (hb : cfg.mode.isInt = false) (h0 : 0 ≤ ε)
    (hs : cellRound cfg ε q ≤ topCurrent cfg ε) {g : Int} (hg : g = 0 ∨ g = 1) (i : Nat) :
    |cellCurrent E cfg.hrs (E.fsub cfg.lrs cfg.hrs) g - nominal cfg i g| ≤ 3 * cellRound cfg ε q := by
  have k0 : |cfg.hrs| ≤ topCurrent cfg ε := hrs_top h0
  have ht : 0 ≤ topCurrent cfg ε := (abs_nonneg _).trans k0
  have hρ := cellRound_nonneg (cfg := cfg) (ε := ε) hq ht
  have R : Rnd E (cellRound cfg ε q) (5 * topCurrent cfg ε) := rounds_to hq _
  rw [nominal_bin hb]
  unfold cellCurrent Env.fadd Env.fmul Env.fsub Env.ofInt
  rcases hg with rfl | rfl
  · have z : E.f32 (0 : K) = 0 := by
      have := hq.int 0 (by norm_num)
      rwa [Int.cast_zero] at this
    rw [Int.cast_zero, z, zero_mul, z, zero_add, zero_mul, add_zero]
    have := R cfg.hrs (by linarith)
    linarith
  · have z : E.f32 (1 : K) = 1 := by
      have := hq.int 1 (by norm_num)
      rwa [Int.cast_one] at this
    rw [Int.cast_one, z, one_mul, one_mul]
    have k1 := window_le (cfg := cfg)
    have k2 : |cfg.lrs - cfg.hrs| ≤ 2 * topCurrent cfg ε := by unfold topCurrent; linarith
    have r1 := abs_le.1 (R (cfg.lrs - cfg.hrs) (by linarith))
    have k2' := abs_le.1 k2
    have r2 := abs_le.1 (R (E.f32 (cfg.lrs - cfg.hrs)) (abs_le.2 ⟨by linarith [r1.1], by linarith [r1.2]⟩))
    have k3 : |cfg.lrs| ≤ topCurrent cfg ε := by
      have := le_max_right |cfg.hrs| |cfg.lrs|
      unfold topCurrent
      linarith
    have k3' := abs_le.1 k3
    have r3 := abs_le.1 (R (E.f32 (E.f32 (cfg.lrs - cfg.hrs)) + cfg.hrs)
      (abs_le.2 ⟨by linarith [r1.1, r2.1], by linarith [r1.2, r2.2]⟩))
    exact abs_le.2 ⟨by linarith [r1.1, r2.1, r3.1], by linarith [r1.2, r2.2, r3.2]⟩

theorem max_near {a b e : K} (hb : 0 ≤ b) (h : |a - b| ≤ e) : |max 0 a - b| ≤ e := by
  have h1 := abs_le.1 h
  rcases le_total 0 a with h2 | h2
  · rwa [max_eq_right h2]
  · rw [max_eq_left h2]
    exact abs_le.2 ⟨by linarith [h1.1], by linarith [h1.1, h1.2]⟩

/-- One noise sample. -/
theorem noisy_rounded {ρ N e s y t : K} {g : Int} (R : Rnd E ρ N) (hρ : 0 ≤ ρ) (hg : NoiseUpTo E cfg σ) (ht : 0 ≤ t)
    (hs : |s - t| ≤ e) (hN : |s| + σ ≤ N) (h : Noisy E cfg s g y) : |y - t| ≤ e + σ + ρ := by
  have key : ∀ sd, (¬sd ≤ 0 → ∀ k, |E.gauss k| ≤ σ) → Varied E sd s y → |y - t| ≤ e + σ + ρ := fun sd hsd h => by
    unfold Varied at h
    split at h
    · rw [h]; linarith [hg.1]
    next hsd' =>
      obtain ⟨k, rfl⟩ := h
      have g1 := hsd hsd' k
      have r := R (s + E.gauss k) (by have := abs_add_le s (E.gauss k); linarith)
      refine max_near ht ?_
      have g2 := abs_le.1 g1
      have r2 := abs_le.1 r
      have s2 := abs_le.1 hs
      exact abs_le.2 ⟨by linarith [g2.1, r2.1, s2.1], by linarith [g2.2, r2.2, s2.2]⟩
  rcases h with ⟨_, h2⟩ | ⟨_, h2⟩
  · exact key _ (fun h => hg.2 (Or.inl (not_le.1 h))) h2
  · exact key _ (fun h => hg.2 (Or.inr (not_le.1 h))) h2

/-- The programmed currents of a crossbar without read disturb. -/
theorem runs_near_rounded (hq : Rounds E q) (hok : CfgOk cfg) (hI : Binary cfg) (hrd : cfg.readDisturb = false)
    (h1 : 0 ≤ cfg.hrs) (h2 : 0 ≤ cfg.lrs) (hg : NoiseUpTo E cfg σ) (h0 : σ + 5 * cellRound cfg ε q ≤ ε)
    (hε : 0 ≤ ε) (hr : Runs E cfg h x) (hl : Legal cfg (lastWrite h) m n) :
    NearNominal cfg (σ + 4 * cellRound cfg ε q) (lastWrite h) x.mapper.core.ia m n := by
  have H := runs_binCur hok hI.bin hI.analog hrd hr
  have ht := (top_pos hI.ne hε).le
  have hρ := cellRound_nonneg (cfg := cfg) (ε := ε) hq ht
  have R : Rnd E (cellRound cfg ε q) (5 * topCurrent cfg ε) := rounds_to hq _
  have htop : ε ≤ topCurrent cfg ε := by
    have := (abs_nonneg cfg.hrs).trans (le_max_left |cfg.hrs| |cfg.lrs|)
    unfold topCurrent
    linarith
  have hσ := hg.1
  intro i j w hi hj hw
  have hw' : LegalW cfg w := by
    obtain ⟨v, e, hv⟩ := hl i j hi hj
    rw [hw] at e
    cases e
    exact hv
  have hb := enc_bin hI.bin hw' 0
  have key : ∀ (g : Int) (y : K), g = 0 ∨ g = 1 → BinCell E cfg i g y →
      |y - nominal cfg i g| ≤ σ + 4 * cellRound cfg ε q := fun g y hg' hy => by
    unfold BinCell at hy
    have c1 := cellCurrent_near (E := E) hq hI.bin hε (by linarith) hg' i
    have c2 := nominal_top hI.bin hg' i
    have c3 := abs_add_le (cellCurrent E cfg.hrs (E.fsub cfg.lrs cfg.hrs) g - nominal cfg i g) (nominal cfg i g)
    rw [sub_add_cancel] at c3
    have := noisy_rounded R hρ hg (nominal_nonneg hI.bin h1 h2 hg' i) c1 (by unfold topCurrent at ht htop ⊢; linarith) hy
    linarith
  rw [H.eqP, H.eqM]
  constructor
  · have := H.p i j
    simp only [rowOf_bin hI.bin, hw] at this
    exact key _ _ hb.1 this
  · by_cases hm : cfg.mode = .bnn3 ∨ cfg.mode = .bnn4
    · rw [H.m' hm]
      have e : encM cfg w 0 = 0 := by
        unfold encM
        rcases hm with hm | hm <;> rw [hm]
      rw [e, nominal_zero, sub_self, abs_zero]
      linarith
    · rw [not_or] at hm
      have := H.m hm i j
      simp only [rowOf_bin hI.bin, hw] at this
      exact key _ _ hb.2 this

/-! ## Crossbars -/

/-- Deviating cells without cycle-to-cycle variation; read disturb may follow. -/
theorem mvm_dev_rounded (hq : Rounds E q) (hsc : ScaleError E cfg q) (hsm : SmallRounding cfg ε q A n)
    (hok : CfgOk cfg) (hI : Imperfect cfg) (hc2 : cfg.c2c = false)
    (hr : Runs E cfg h x) (hl : Legal cfg (lastWrite h) m n) (hd : Accepted cfg m n) (h0 : 0 ≤ ε)
    (hw : NearNominal cfg ε (lastWrite h) x.mapper.core.ia m n) (hv : n ≤ vec.size) (hres : m ≤ res.size)
    (hx : LegalVec cfg vec n)
    (hs : keepsRowSums cfg.mode → ∀ i, i < m →
      x.mapper.core.gd.sumW.get i = ∑ j ∈ range n, val (lastWrite h) i j) (hA0 : 0 ≤ A)
    (hR : RoundRoom cfg ε q A res m n) :
    (∀ x' r, xMvm E cfg x res vec mat m n l = .ok (x', r) →
      AddsWithin (noiseBound cfg ε n + roundError cfg ε q A n) r res (stored h) vec m n) ∧
    (cfg.readDisturb = false → ∃ x' r, xMvm E cfg x res vec mat m n l = .ok (x', r)) := by
  have hsh := runs_shape hr
  exact mvm_of_aMvm hI.analog hc2 (aMvm_rounded hq hsc hsm hok hI hsh.core hsh.aux (runs_cells hok hr) hl hd h0 hw hv
    hres hx hs hA0 hR)

/-- A multiplication with variation whose samples are bounded. -/
theorem mvm_spread_rounded {G : Vec Int → Prop} (hq : Rounds E q) (hok : CfgOk cfg) (hI : Binary cfg)
    (hrd : cfg.readDisturb = false) (h1 : 0 ≤ cfg.hrs) (h2 : 0 ≤ cfg.lrs) (hg : NoiseUpTo E cfg σ)
    (hε : spread cfg σ + 5 * cellRound cfg ε q ≤ ε) (h0 : 0 ≤ ε)
    (hr : Runs E cfg h x) (hl : Legal cfg (lastWrite h) m n) (hd : Accepted cfg m n)
    (hm : ∀ (c : Core K) (a : Aux K), CoreShape E cfg c → AuxShape cfg a → c.gd = x.mapper.core.gd →
      NearNominal cfg ε (lastWrite h) c.ia m n → ∃ a' r, aMvm E cfg c a res vec m n l = .ok (a', r) ∧ G r) :
    ∃ x' r, xMvm E cfg x res vec mat m n l = .ok (x', r) ∧ G r := by
  have hσ := hg.1
  have ht := (top_pos hI.ne h0).le
  have hρ := cellRound_nonneg (cfg := cfg) (ε := ε) hq ht
  have hle : σ ≤ spread cfg σ := by unfold spread; split <;> linarith
  have hnear := runs_near_rounded hq hok hI hrd h1 h2 hg (by linarith) h0 hr hl
  cases hc2 : cfg.c2c
  · have hw : NearNominal cfg ε (lastWrite h) x.mapper.core.ia m n := fun i j w hi hj hL => by
      have := hnear i j w hi hj hL
      exact ⟨by linarith [this.1], by linarith [this.2]⟩
    have hsh := runs_shape hr
    obtain ⟨h3, h4⟩ := mvm_of_aMvm (mat := mat) hI.analog hc2 (hm _ _ hsh.core hsh.aux rfl hw)
    obtain ⟨x', r, h5⟩ := h4 hrd
    exact ⟨x', r, h5, h3 _ _ h5⟩
  · have e : spread cfg σ = 2 * σ := by unfold spread; rw [hc2]; rfl
    have hsh := runs_shape hr
    have hL := runs_cells hok hr
    have hcur := runs_binCur hok hI.bin hI.analog hrd hr
    obtain ⟨mp, e1⟩ := addC2C_total (E := E) (mp := x.mapper) hok hsh.core hd fun i j hi hj => by
      rw [stateP hI.bin hL hl hi hj, stateM hI.bin hL hl hi hj]
      exact enc_bin hI.bin (hl.val hi hj).1 0
    obtain ⟨_, _, _, h3⟩ := addC2C_cont e1 hsh.core.ia
    obtain ⟨f1, _, _, f2⟩ := addC2C_frame e1
    have hcs : CoreShape E cfg mp.core := ((sat_addC2C lax_true hsh.core fun h => absurd trivial h).of_ok e1).1
    have has : AuxShape cfg mp.aux := by
      rw [f2]
      have := hsh.aux
      exact ⟨this.vdP, this.vdM, this.vdSlice, this.tmpInt, this.tmpFp, this.tmp, this.tmpP, this.tmpM, this.tmpLsb,
        this.tmpMsb, this.resFp⟩
    have R : Rnd E (cellRound cfg ε q) (5 * topCurrent cfg ε) := rounds_to hq _
    have hw' : NearNominal cfg ε (lastWrite h) mp.core.ia m n := fun i j w hi hj hL' => by
      have k1 := h3 i j
      rw [if_pos ⟨hi, hj⟩] at k1
      have k2 := hnear i j w hi hj hL'
      rw [hcur.eqP, hcur.eqM] at k2
      have hw' : LegalW cfg w := by
        obtain ⟨v, e, hv⟩ := hl i j hi hj
        rw [hL'] at e
        cases e
        exact hv
      have hb := enc_bin hI.bin hw' 0
      have step : ∀ (g g' : Int) (s y : K), g = 0 ∨ g = 1 → |s - nominal cfg i g| ≤ σ + 4 * cellRound cfg ε q →
          Noisy E cfg s g' y → |y - nominal cfg i g| ≤ ε := fun g g' s y hg' hs' hy => by
        have c2 := nominal_top hI.bin hg' i
        have c3 := abs_add_le (s - nominal cfg i g) (nominal cfg i g)
        rw [sub_add_cancel] at c3
        have c4 := (abs_nonneg cfg.hrs).trans (le_max_left |cfg.hrs| |cfg.lrs|)
        have := noisy_rounded R hρ hg (nominal_nonneg hI.bin h1 h2 hg' i) hs' (by unfold topCurrent; linarith) hy
        linarith
      exact ⟨step _ _ _ _ hb.1 k2.1 k1.1, step _ _ _ _ hb.2 k2.2 k1.2⟩
    obtain ⟨a', r, e2, hA⟩ := hm _ _ hcs has f1 hw'
    obtain ⟨mp2, e3⟩ := removeC2C_total (mp := { mp with aux := a' }) hok hcs hd
    refine ⟨{ x with mvms := x.mvms + 1, consec := x.consec + 1, mapper := mp2 }, r, ?_, hA⟩
    unfold xMvm
    simp only [hI.analog, hc2, hrd, Bool.false_eq_true, if_false, if_true, ok_bind, e1, e2, e3]

theorem everyMvm_round {ops : List Op} (hR : RoundRooms cfg ε q A ops) (h : List Op) :
    EveryMvm (fun _ res _ m n _ => SmallRounding cfg ε q A n ∧ RoundRoom cfg ε q A res m n) h ops := by
  induction ops generalizing h with
  | nil => trivial
  | cons op ops ih =>
    have hR' : RoundRooms cfg ε q A ops := fun op ho => hR op (List.mem_cons_of_mem _ ho)
    cases op with
    | write mat m n => exact ih hR' _
    | mvm res vec mat m n l => exact ⟨hR _ List.mem_cons_self, ih hR' _⟩

/-- Legal calls on a crossbar with variation and rounding. -/
theorem exec_rounded (hq : Rounds E q) (hsc : ScaleError E cfg q) (hok : CfgOk cfg) (hI : Imperfect cfg)
    (hrd : cfg.readDisturb = false) (h1 : 0 ≤ cfg.hrs) (h2 : 0 ≤ cfg.lrs) (hg : NoiseUpTo E cfg σ)
    (hε : spread cfg σ + 5 * cellRound cfg ε q ≤ ε) (h0 : 0 ≤ ε) (hA0 : 0 ≤ A) {ops : List Op} (hr : Runs E cfg h x)
    (hh : HistOk cfg w h) (hl : LegalOps cfg w h ops) (hR : RoundRooms cfg ε q A ops) :
    ∃ x' rs, exec E cfg x ops = .ok (x', rs) ∧
      AnswersWithin (fun n => noiseBound cfg ε n + roundError cfg ε q A n) h ops rs := by
  obtain ⟨x', rs, h3, h4⟩ := exec_by (P := fun _ res _ m n _ => SmallRounding cfg ε q A n ∧ RoundRoom cfg ε q A res m n)
    (G := fun h res vec m n _ r => AddsWithin (noiseBound cfg ε n + roundError cfg ε q A n) r res (stored h) vec m n)
    hok (binary_of hI) (fun {h x res vec mat m n l} hr hh k1 hR0 =>
      mvm_spread_rounded hq hok (binary_of hI) hrd h1 h2 hg hε h0 hr (legal_of hh k1) k1.dims fun c a hc ha hgd hw =>
        aMvm_rounded hq hsc hR0.1 hok hI hc ha (by rw [hgd]; exact runs_cells hok hr) (legal_of hh k1) k1.dims h0 hw
          k1.vecBuf k1.resBuf k1.vals (fun hk i _ => by rw [hgd]; exact sums_of hr hh k1 hk i) hA0 hR0.2) hr hh hl
      (everyMvm_round hR h)
  exact ⟨x', rs, h3, answersWithin_of h4⟩

end

end Acs
