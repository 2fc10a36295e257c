import Verif.Lemmas.NearBin
import Verif.Lemmas.RefineA
import Verif.SpecAdcNoise

/-! # Crossbars whose cells deviate -/

set_option linter.unusedSectionVars false

namespace Acs

open Finset Spec

section
variable {K : Type} [Field K] [LinearOrder K] [IsStrictOrderedRing K] [FloorRing K]
variable {E : Env K} {cfg : Cfg K} {c : Core K} {a : Aux K} {mat vec res r : Vec Int} {m n w : Nat} {l : String}
variable {x x' : Xbar K} {h : List Op} {ε : K} {L : Nat → Nat → Option Int}

theorem binary_of (hI : Imperfect cfg) : Binary cfg := ⟨hI.analog, hI.bin, hI.par, hI.prof, hI.ne⟩

/-! ## One multiplication -/

theorem stateP (hb : cfg.mode.isInt = false) (hL : Cells cfg c.gd L) (hl : Legal cfg L m n) {i j : Nat}
    (hi : i < m) (hj : j < n) : c.gd.p.get i j = encP cfg (val L i j) 0 := by
  rw [hL.p]; simp only [rowOf_bin hb]; rw [(hl.val hi hj).2]; rfl

theorem stateM (hb : cfg.mode.isInt = false) (hL : Cells cfg c.gd L) (hl : Legal cfg L m n) {i j : Nat}
    (hi : i < m) (hj : j < n) : c.gd.m.get i j = encM cfg (val L i j) 0 := by
  rw [hL.m]; simp only [rowOf_bin hb]; rw [(hl.val hi hj).2]; rfl

theorem abs_val (hb : cfg.mode.isInt = false) (hl : Legal cfg L m n) {i j : Nat} (hi : i < m) (hj : j < n) :
    |val L i j| ≤ 1 := by
  have := (hl.val hi hj).1
  unfold LegalW at this
  cases hm : cfg.mode <;> simp only [hm, Mode.isInt, Mode.family] at this hb
  all_goals first
    | (rcases this with h | h | h <;> rw [h] <;> decide)
    | (rcases this with h | h <;> rw [h] <;> decide)
    | (exact absurd hb (by decide))

theorem cellDev (hE : ExactArith E) (hok : CfgOk cfg) (hb : cfg.mode.isInt = false) (hp : cfg.parasitics = false)
    (hne : cfg.hrs ≠ cfg.lrs) (hc : CoreShape E cfg c)
    (ha : AuxShape cfg a) (hL : Cells cfg c.gd L) (hl : Legal cfg L m n) (hd : Accepted cfg m n) (h0 : 0 ≤ ε)
    (hw : NearNominal cfg ε L c.ia m n) (hv : n ≤ vec.size) (hr : m ≤ res.size) :
    CellDev E cfg c a c.gd.p.get c.gd.m.get (val L) vec res m n ε := by
  have hfit := Fits.row hok hd
  have h1 := hc.ia.p
  have h2 := hc.ia.m
  have h3 := hc.gd.sumW
  unfold Mat.Is at h1 h2
  obtain ⟨d1, d2, d3⟩ := hd
  have ht := ha.tmpFp fun _ => hp
  rw [hb, if_neg (by decide)] at ht
  exact {
    ex := hE
    ne := sub_ne_zero.2 hne.symm
    par := hp
    eps := h0
    p := fun i j hi hj => by
      have := (hw i j _ hi hj (hl.val hi hj).2).1
      rw [nominal_bin hb] at this
      rw [stateP hb hL hl hi hj]
      exact this
    q := fun i j hi hj => by
      have := (hw i j _ hi hj (hl.val hi hj).2).2
      rw [nominal_bin hb] at this
      rw [stateM hb hL hl hi hj]
      exact this
    w1 := fun i j hi hj => abs_val hb hl hi hj
    pr := by omega
    pc := by omega
    mr := by omega
    mc := by omega
    sw := by omega
    vdP := by rw [ha.vdP]; omega
    vdM := by rw [ha.vdM]; omega
    tmp := by rw [ha.tmp]; omega
    tmpP := by rw [ha.tmpP]; omega
    tmpM := by rw [ha.tmpM]; omega
    tmpFp := by rw [ht]; omega
    vec := hv
    res := hr
    n31 := d3 }

theorem devHyp (hE : ExactArith E) (hok : CfgOk cfg) (hI : Imperfect cfg) (hc : CoreShape E cfg c)
    (ha : AuxShape cfg a) (hL : Cells cfg c.gd L) (hl : Legal cfg L m n) (hd : Accepted cfg m n) (h0 : 0 ≤ ε)
    (hw : NearNominal cfg ε L c.ia m n) (hv : n ≤ vec.size) (hr : m ≤ res.size) :
    DevHyp E cfg c a c.gd.p.get c.gd.m.get (val L) vec res m n ε where
  toCellDev := cellDev hE hok hI.bin hI.par hI.ne hc ha hL hl hd h0 hw hv hr
  inf := {
    ex := hE
    kind := by rw [adc_kind hc.adc, hI.adc]
    prof := hI.prof
    iMM := by
      rw [hc.iMM, hI.analog, if_neg (by decide)]
      unfold Env.fsub
      rw [hE.f32]
    ne := sub_ne_zero.2 hI.ne.symm }

/-- An analog multiplication with deviating cells. -/
theorem aMvm_within (hE : ExactArith E) (hok : CfgOk cfg) (hI : Imperfect cfg) (hc : CoreShape E cfg c)
    (ha : AuxShape cfg a) (hL : Cells cfg c.gd L) (hl : Legal cfg L m n) (hd : Accepted cfg m n) (h0 : 0 ≤ ε)
    (hw : NearNominal cfg ε L c.ia m n) (hv : n ≤ vec.size) (hr : m ≤ res.size) (hx : LegalVec cfg vec n)
    (hs : keepsRowSums cfg.mode → ∀ i, i < m → c.gd.sumW.get i = ∑ j ∈ range n, val L i j)
    (hR : NoiseRoom cfg ε res m n) :
    ∃ a' r, aMvm E cfg c a res vec m n l = .ok (a', r) ∧
      AddsWithin (noiseBound cfg ε n) r res (val L) vec m n := by
  have H := devHyp (vec := vec) (res := res) hE hok hI hc ha hL hl hd h0 hw hv hr
  have hrel : ∀ i j, i < m → j < n → CellRel cfg.mode (c.gd.p.get i j) (c.gd.m.get i j) (val L i j) :=
    fun i j hi hj => by
      rw [stateP hI.bin hL hl hi hj, stateM hI.bin hL hl hi hj]
      exact cellRel hI.bin (hl.val hi hj).1
  have key : NearBy (aMvm E cfg c a res vec m n l) res vec (val L) m n (noiseBound cfg ε n) := by
    have hb := hI.bin
    unfold CfgOk at hok
    unfold LegalVec LegalX at hx
    unfold NoiseRoom at hR
    unfold noiseBound aMvm
    rw [hc.mode]
    cases hm : cfg.mode <;>
      simp only [hm, CellRel, noiseGain, truncations, Nat.cast_ofNat, Nat.cast_one] at hrel hx hs hok hR ⊢
    case bnn1 => exact H.bnn1 hx hrel (hs trivial) (by unfold DevRoom; exact_mod_cast hR)
    case bnn2 => exact H.bnn2 hx hrel (hs trivial) (by unfold DevRoom; exact_mod_cast hR)
    case bnn3 => exact H.bnn3 hx hrel (by unfold DevRoom; exact_mod_cast hR)
    case bnn4 => exact H.bnn4 hx hrel (by unfold DevRoom; exact_mod_cast hR)
    case bnn5 => exact H.bnn5 hx (fun i j hi hj => (hrel i j hi hj).1) (fun i j hi hj => (hrel i j hi hj).2) (by unfold DevRoom; exact_mod_cast hR)
    case bnn6 => exact H.bnn6 hx hrel (by unfold DevRoom; exact_mod_cast hR)
    case tnn1 => exact H.tnn1 hx hrel (by unfold DevRoom; exact_mod_cast hR)
    case tnn2 => exact H.tnn2 hx hrel (by unfold DevRoom; exact_mod_cast hR)
    case tnn3 => exact H.tnn3 hx hrel (hs trivial) (by unfold DevRoom; exact_mod_cast hR)
    case tnn4 => exact H.tnn4 hok.1 hx hrel (by unfold DevRoom; exact_mod_cast hR)
    case tnn5 => exact H.tnn5 hok.1 hx hrel (by unfold DevRoom; exact_mod_cast hR)
    all_goals (rw [hm] at hb; exact absurd hb (by decide))
  obtain ⟨a', f, e, hf⟩ := key
  exact ⟨a', _, e, rfl, fun i hi => by rw [Vec.over_lt hi]; exact hf i hi, fun i hi => Vec.over_ge hi⟩

/-! ## Variation -/

theorem cellCurrent_exact (hE : ExactArith E) (hb : cfg.mode.isInt = false) (i : Nat) (g : Int) :
    cellCurrent E cfg.hrs (E.fsub cfg.lrs cfg.hrs) g = nominal cfg i g := by
  rw [nominal_bin hb]
  unfold cellCurrent Env.fadd Env.fmul Env.fsub Env.ofInt
  simp only [hE.f32]
  ring

theorem noisy_near (hE : ExactArith E) (hg : ∀ k, |E.gauss k| ≤ ε) {s y : K} {g : Int} (hs : 0 ≤ s)
    (h : Noisy E cfg s g y) : |y - s| ≤ ε ∧ 0 ≤ y ∧ (g = 0 ∨ g = 1) := by
  have h0 : 0 ≤ ε := (abs_nonneg _).trans (hg 0)
  have key : ∀ sd, Varied E sd s y → |y - s| ≤ ε ∧ 0 ≤ y := fun sd h => by
    unfold Varied at h
    split at h
    · rw [h, sub_self, abs_zero]; exact ⟨h0, hs⟩
    · obtain ⟨k, rfl⟩ := h
      rw [hE.f32]
      have h1 := abs_le.1 (hg k)
      refine ⟨abs_le.2 ?_, le_max_left _ _⟩
      rcases le_total 0 (s + E.gauss k) with h2 | h2
      · rw [max_eq_right h2]; constructor <;> linarith
      · rw [max_eq_left h2]; constructor <;> linarith
  rcases h with ⟨h1, h2⟩ | ⟨h1, h2⟩
  · exact ⟨(key _ h2).1, (key _ h2).2, Or.inl h1⟩
  · exact ⟨(key _ h2).1, (key _ h2).2, Or.inr h1⟩

theorem nominal_nonneg (hb : cfg.mode.isInt = false) (h1 : 0 ≤ cfg.hrs) (h2 : 0 ≤ cfg.lrs) {g : Int}
    (hg : g = 0 ∨ g = 1) (i : Nat) : 0 ≤ nominal cfg i g := by
  rw [nominal_bin hb]
  rcases hg with rfl | rfl
  · simpa using h1
  · simpa using h2

/-- The programmed currents of a crossbar without read disturb. -/
theorem runs_near (hE : ExactArith E) (hok : CfgOk cfg) (hb : cfg.mode.isInt = false) (hdo : cfg.digitalOnly = false)
    (hrd : cfg.readDisturb = false)
    (h1 : 0 ≤ cfg.hrs) (h2 : 0 ≤ cfg.lrs) (hg : ∀ k, |E.gauss k| ≤ ε) (hr : Runs E cfg h x)
    (hl : Legal cfg (lastWrite h) m n) :
    NearNominal cfg ε (lastWrite h) x.mapper.core.ia m n ∧
      ∀ i j, i < m → j < n → 0 ≤ x.mapper.core.ia.pO.get i j ∧ 0 ≤ x.mapper.core.ia.mO.get i j := by
  have H := runs_binCur hok hb hdo hrd hr
  have h0 : 0 ≤ ε := (abs_nonneg _).trans (hg 0)
  have key : ∀ i j w, i < m → j < n → lastWrite h i j = some w →
      (|x.mapper.core.ia.p.get i j - nominal cfg i (encP cfg w 0)| ≤ ε ∧ 0 ≤ x.mapper.core.ia.pO.get i j) ∧
      |x.mapper.core.ia.m.get i j - nominal cfg i (encM cfg w 0)| ≤ ε ∧ 0 ≤ x.mapper.core.ia.mO.get i j := by
    intro i j w hi hj hw
    have hw' : LegalW cfg w := by
      obtain ⟨v, e, hv⟩ := hl i j hi hj
      rw [hw] at e
      cases e
      exact hv
    have he := enc_bin hb hw' 0
    rw [H.eqP, H.eqM]
    constructor
    · have := H.p i j
      simp only [rowOf_bin hb, hw] at this
      unfold BinCell at this
      rw [cellCurrent_exact hE hb i] at this
      have := noisy_near hE hg (nominal_nonneg hb h1 h2 he.1 i) this
      exact ⟨this.1, this.2.1⟩
    · by_cases hm : cfg.mode = .bnn3 ∨ cfg.mode = .bnn4
      · rw [H.m' hm]
        have e : encM cfg w 0 = 0 := by
          unfold encM
          rcases hm with hm | hm <;> rw [hm]
        rw [e, nominal_zero, sub_self, abs_zero]
        exact ⟨h0, h1⟩
      · rw [not_or] at hm
        have := H.m hm i j
        simp only [rowOf_bin hb, hw] at this
        unfold BinCell at this
        rw [cellCurrent_exact hE hb i] at this
        have := noisy_near hE hg (nominal_nonneg hb h1 h2 he.2 i) this
        exact ⟨this.1, this.2.1⟩
  refine ⟨fun i j w hi hj hw => ⟨(key i j w hi hj hw).1.1, (key i j w hi hj hw).2.1⟩, fun i j hi hj => ?_⟩
  have := key i j _ hi hj (hl.val hi hj).2
  exact ⟨this.1.2, this.2.2⟩

theorem addC2C_total {mp : Mapper K} (hok : CfgOk cfg) (hc : CoreShape E cfg mp.core) (hd : Accepted cfg m n)
    (hg : ∀ i j, i < m → j < n → (mp.core.gd.p.get i j = 0 ∨ mp.core.gd.p.get i j = 1) ∧
      (mp.core.gd.m.get i j = 0 ∨ mp.core.gd.m.get i j = 1)) : ∃ mp', addC2C E cfg mp m n = .ok mp' := by
  have hfit := Fits.row hok hd
  have key : Sat (fun _ => False) (addC2C E cfg mp m n) fun _ => True := by
    unfold addC2C
    refine Sat.bind (P := fun r => IaShape cfg r.1) ?_ fun r hr => trivial
    refine Sat.loop2 (I := fun r : Ia K × Nat => IaShape cfg r.1) hc.ia fun i j hi hj st hia => ?_
    have hb : ¬False → i < cfg.R ∧ j < cfg.N := fun _ => by have := hd.2.1; omega
    refine Sat.bind (Sat.mrdIs hia.pO hb) fun _ _ => ?_
    refine Sat.bind (Sat.mrd fun hn => by rw [hc.gd.p.1, hc.gd.p.2]; exact hb hn) fun gp hgp => ?_
    refine Sat.bind (sat_addNoise fun _ => by rw [hgp]; exact (hg i j hi hj).1) fun _ _ => ?_
    refine Sat.bind (Sat.mwrIs hia.p hb) fun p hp => Sat.bind (Sat.mrdIs hia.mO hb) fun _ _ => ?_
    refine Sat.bind (Sat.mrd fun hn => by rw [hc.gd.m.1, hc.gd.m.2]; exact hb hn) fun gm hgm => ?_
    refine Sat.bind (sat_addNoise fun _ => by rw [hgm]; exact (hg i j hi hj).2) fun _ _ => ?_
    exact Sat.bind (Sat.mwrIs hia.m hb) fun q hq => ⟨hp, hq, hia.pO, hia.mO⟩
  rcases key.elim with ⟨mp', e, _⟩ | ⟨_, _, h⟩
  · exact ⟨mp', e⟩
  · exact h.elim

theorem removeC2C_total {mp : Mapper K} (hok : CfgOk cfg) (hc : CoreShape E cfg mp.core) (hd : Accepted cfg m n) :
    ∃ mp', removeC2C mp m n = .ok mp' := by
  have hfit := Fits.row hok hd
  have := sat_removeC2C (F := fun _ => False) (m := m) (n := n) hc
    (fun _ => ⟨hd.1, hd.2.1, hfit.1, hfit.2⟩)
  rcases this.elim with ⟨mp', e, _⟩ | ⟨_, _, h⟩
  · exact ⟨mp', e⟩
  · exact h.elim

/-! ## Crossbars -/

theorem xMvm_aMvm (hdo : cfg.digitalOnly = false) (hc2 : cfg.c2c = false)
    (h : xMvm E cfg x res vec mat m n l = .ok (x', r)) :
    ∃ a', aMvm E cfg x.mapper.core x.mapper.aux res vec m n l = .ok (a', r) := by
  unfold xMvm at h
  simp only [hdo, hc2, Bool.false_eq_true, if_false, ok_bind] at h
  rw [bind_eq_ok] at h
  obtain ⟨y, h1, h⟩ := h
  rw [bind_eq_ok] at h
  obtain ⟨z, _, h⟩ := h
  rw [ok_inj] at h
  cases h
  exact ⟨y.1, h1⟩

/-- A multiplication without cycle-to-cycle variation; read disturb may follow. -/
theorem mvm_of_aMvm {G : Vec Int → Prop} (hdo : cfg.digitalOnly = false) (hc2 : cfg.c2c = false)
    (hm : ∃ a' r, aMvm E cfg x.mapper.core x.mapper.aux res vec m n l = .ok (a', r) ∧ G r) :
    (∀ x' r, xMvm E cfg x res vec mat m n l = .ok (x', r) → G r) ∧
    (cfg.readDisturb = false → ∃ x' r, xMvm E cfg x res vec mat m n l = .ok (x', r)) := by
  obtain ⟨a', r, e, hA⟩ := hm
  refine ⟨fun x' r' h' => ?_, fun hrd => ?_⟩
  · obtain ⟨a'', e'⟩ := xMvm_aMvm hdo hc2 h'
    rw [e] at e'
    cases e'
    exact hA
  · refine ⟨{ x with mvms := x.mvms + 1, consec := x.consec + 1, mapper := { x.mapper with aux := a' } }, r, ?_⟩
    unfold xMvm
    simp only [hdo, hc2, hrd, Bool.false_eq_true, if_false, ok_bind, e]

/-- Deviating cells without cycle-to-cycle variation; read disturb may follow. -/
theorem mvm_dev (hE : ExactArith E) (hok : CfgOk cfg) (hI : Imperfect cfg) (hc2 : cfg.c2c = false)
    (hr : Runs E cfg h x) (hl : Legal cfg (lastWrite h) m n) (hd : Accepted cfg m n) (h0 : 0 ≤ ε)
    (hw : NearNominal cfg ε (lastWrite h) x.mapper.core.ia m n) (hv : n ≤ vec.size) (hres : m ≤ res.size)
    (hx : LegalVec cfg vec n)
    (hs : keepsRowSums cfg.mode → ∀ i, i < m →
      x.mapper.core.gd.sumW.get i = ∑ j ∈ range n, val (lastWrite h) i j)
    (hR : NoiseRoom cfg ε res m n) :
    (∀ x' r, xMvm E cfg x res vec mat m n l = .ok (x', r) →
      AddsWithin (noiseBound cfg ε n) r res (stored h) vec m n) ∧
    (cfg.readDisturb = false → ∃ x' r, xMvm E cfg x res vec mat m n l = .ok (x', r)) := by
  have hsh := runs_shape hr
  exact mvm_of_aMvm hI.analog hc2 (aMvm_within hE hok hI hsh.core hsh.aux (runs_cells hok hr) hl hd h0 hw hv
    hres hx hs hR)

theorem spread_nonneg (h : 0 ≤ ε) : 0 ≤ spread cfg ε := by
  unfold spread
  split <;> linarith

/-- A multiplication with variation whose samples are bounded. -/
theorem mvm_spread {G : Vec Int → Prop} (hE : ExactArith E) (hok : CfgOk cfg) (hI : Binary cfg)
    (hrd : cfg.readDisturb = false) (h1 : 0 ≤ cfg.hrs) (h2 : 0 ≤ cfg.lrs) (hg : ∀ k, |E.gauss k| ≤ ε)
    (hr : Runs E cfg h x) (hl : Legal cfg (lastWrite h) m n) (hd : Accepted cfg m n)
    (hm : ∀ (c : Core K) (a : Aux K), CoreShape E cfg c → AuxShape cfg a → c.gd = x.mapper.core.gd →
      NearNominal cfg (spread cfg ε) (lastWrite h) c.ia m n →
      ∃ a' r, aMvm E cfg c a res vec m n l = .ok (a', r) ∧ G r) :
    ∃ x' r, xMvm E cfg x res vec mat m n l = .ok (x', r) ∧ G r := by
  have h0 : 0 ≤ ε := (abs_nonneg _).trans (hg 0)
  have hsh := runs_shape hr
  obtain ⟨hw, hpos⟩ := runs_near hE hok hI.bin hI.analog hrd h1 h2 hg hr hl
  cases hc2 : cfg.c2c
  · have e : spread cfg ε = ε := by unfold spread; rw [hc2]; rfl
    rw [e] at hm
    obtain ⟨h3, h4⟩ := mvm_of_aMvm (mat := mat) hI.analog hc2 (hm _ _ hsh.core hsh.aux rfl hw)
    obtain ⟨x', r, h5⟩ := h4 hrd
    exact ⟨x', r, h5, h3 _ _ h5⟩
  · have e : spread cfg ε = 2 * ε := by unfold spread; rw [hc2]; rfl
    have hL := runs_cells hok hr
    have hcur := runs_binCur hok hI.bin hI.analog hrd hr
    obtain ⟨mp, e1⟩ := addC2C_total (E := E) (mp := x.mapper) hok hsh.core hd fun i j hi hj => by
      rw [stateP hI.bin hL hl hi hj, stateM hI.bin hL hl hi hj]
      exact enc_bin hI.bin (hl.val hi hj).1 0
    obtain ⟨_, _, _, h3⟩ := addC2C_cont e1 hsh.core.ia
    obtain ⟨f1, _, _, f2⟩ := addC2C_frame e1
    have hcs : CoreShape E cfg mp.core := ((sat_addC2C lax_true hsh.core fun h => absurd trivial h).of_ok e1).1
    have has : AuxShape cfg mp.aux := by
      rw [f2]
      have := hsh.aux
      exact ⟨this.vdP, this.vdM, this.vdSlice, this.tmpInt, this.tmpFp, this.tmp, this.tmpP, this.tmpM, this.tmpLsb,
        this.tmpMsb, this.resFp⟩
    have hw' : NearNominal cfg (spread cfg ε) (lastWrite h) mp.core.ia m n := fun i j w hi hj hL' => by
      have k1 := h3 i j
      rw [if_pos ⟨hi, hj⟩] at k1
      have k2 := hw i j w hi hj hL'
      rw [hcur.eqP, hcur.eqM] at k2
      have k3 := (noisy_near hE hg (hpos i j hi hj).1 k1.1).1
      have k4 := (noisy_near hE hg (hpos i j hi hj).2 k1.2).1
      rw [e]
      constructor
      · have := abs_sub_le (mp.core.ia.p.get i j) (x.mapper.core.ia.pO.get i j) (nominal cfg i (encP cfg w 0))
        linarith [k2.1]
      · have := abs_sub_le (mp.core.ia.m.get i j) (x.mapper.core.ia.mO.get i j) (nominal cfg i (encM cfg w 0))
        linarith [k2.2]
    obtain ⟨a', r, e2, hA⟩ := hm _ _ hcs has f1 hw'
    obtain ⟨mp2, e3⟩ := removeC2C_total (mp := { mp with aux := a' }) hok hcs hd
    refine ⟨{ x with mvms := x.mvms + 1, consec := x.consec + 1, mapper := mp2 }, r, ?_, hA⟩
    unfold xMvm
    simp only [hI.analog, hc2, hrd, Bool.false_eq_true, if_false, if_true, ok_bind, e1, e2, e3]

theorem mvm_vary (hE : ExactArith E) (hok : CfgOk cfg) (hI : Imperfect cfg) (hrd : cfg.readDisturb = false)
    (h1 : 0 ≤ cfg.hrs) (h2 : 0 ≤ cfg.lrs) (hg : ∀ k, |E.gauss k| ≤ ε)
    (hr : Runs E cfg h x) (hl : Legal cfg (lastWrite h) m n) (hd : Accepted cfg m n)
    (hv : n ≤ vec.size) (hres : m ≤ res.size) (hx : LegalVec cfg vec n)
    (hs : keepsRowSums cfg.mode → ∀ i, i < m →
      x.mapper.core.gd.sumW.get i = ∑ j ∈ range n, val (lastWrite h) i j)
    (hR : NoiseRoom cfg (spread cfg ε) res m n) :
    ∃ x' r, xMvm E cfg x res vec mat m n l = .ok (x', r) ∧
      AddsWithin (noiseBound cfg (spread cfg ε) n) r res (stored h) vec m n :=
  mvm_spread hE hok (binary_of hI) hrd h1 h2 hg hr hl hd fun c a hc ha hgd hw =>
    aMvm_within hE hok hI hc ha (by rw [hgd]; exact runs_cells hok hr) hl hd
      (spread_nonneg ((abs_nonneg _).trans (hg 0))) hw hv hres hx (by rw [hgd]; exact hs) hR

/-! ## Sessions -/

theorem legal_of (hh : HistOk cfg w h) (k1 : LegalMvm cfg w h res vec m n) : Legal cfg (lastWrite h) m n :=
  fun i j hi hj => by
    obtain ⟨v, hv⟩ := Option.isSome_iff_exists.1 (k1.written i j hi hj)
    exact ⟨v, hv, hh.vals i j v hv⟩

theorem sums_of (hr : Runs E cfg h x) (hh : HistOk cfg w h) (k1 : LegalMvm cfg w h res vec m n)
    (hk : keepsRowSums cfg.mode) (i : Nat) : x.mapper.core.gd.sumW.get i = ∑ j ∈ range n, val (lastWrite h) i j := by
  have hw := k1.width hk
  subst hw
  exact runs_sums hr (hasSums_of_keeps hk) (hh.width hk) i

/-- Legal calls, if every multiplication with `P` answers with `G`. -/
theorem exec_by {P : List Op → Vec Int → Vec Int → Nat → Nat → String → Prop}
    {G : List Op → Vec Int → Vec Int → Nat → Nat → String → Vec Int → Prop} (hok : CfgOk cfg) (hI : Binary cfg)
    (step : ∀ {h : List Op} {x : Xbar K} {res vec mat : Vec Int} {m n : Nat} {l : String}, Runs E cfg h x →
      HistOk cfg w h → LegalMvm cfg w h res vec m n → P h res vec m n l →
      ∃ x' r, xMvm E cfg x res vec mat m n l = .ok (x', r) ∧ G h res vec m n l r)
    {ops : List Op} (hr : Runs E cfg h x) (hh : HistOk cfg w h) (hl : LegalOps cfg w h ops)
    (hP : EveryMvm P h ops) : ∃ x' rs, exec E cfg x ops = .ok (x', rs) ∧ AnswersBy G h ops rs := by
  induction ops generalizing h x with
  | nil => exact ⟨x, [], rfl, .nil⟩
  | cons op ops ih =>
    cases op with
    | write mat m n =>
      obtain ⟨k1, k2⟩ := hl
      obtain ⟨x1, hx1⟩ := xWrite_total_a hok (runs_shape hr) (runs_cells hok hr) hI.par k1.dims k1.buf k1.vals k1.sums
        fun hi => by rw [hI.bin] at hi; cases hi
      obtain ⟨x', rs, h3, h4⟩ := ih (.write hr hx1) (hh.write k1) k2 hP
      exact ⟨x', rs, by rw [exec, hx1, ok_bind, h3], .write h4⟩
    | mvm res vec mat m n l =>
      obtain ⟨k1, k2⟩ := hl
      obtain ⟨x1, r, hx1, ha⟩ := step (mat := mat) hr hh k1 hP.1
      obtain ⟨x', rs, h3, h4⟩ := ih (.mvm hr hx1) hh.mvm k2 hP.2
      refine ⟨x', r :: rs, ?_, .mvm ha h4⟩
      rw [exec, hx1, ok_bind]
      dsimp only
      rw [h3, ok_bind]

theorem answersWithin_of {e : Nat → K} {ops : List Op} {rs : List (Vec Int)}
    (ha : AnswersBy (fun h res vec m n _ r => AddsWithin (e n) r res (stored h) vec m n) h ops rs) :
    AnswersWithin e h ops rs := by
  induction ha with
  | nil => exact .nil
  | write _ ih => exact .write ih
  | mvm a _ ih => exact .mvm a ih

theorem answers_of {ops : List Op} {rs : List (Vec Int)}
    (ha : AnswersBy (fun h res vec m n _ r => Adds r res (stored h) vec m n) h ops rs) : Answers h ops rs := by
  induction ha with
  | nil => exact .nil
  | write _ ih => exact .write ih
  | mvm a _ ih => exact .mvm a ih

theorem everyMvm_rooms {ops : List Op} (hR : NoiseRooms cfg ε ops) (h : List Op) :
    EveryMvm (fun _ res _ m n _ => NoiseRoom cfg ε res m n) h ops := by
  induction ops generalizing h with
  | nil => trivial
  | cons op ops ih =>
    have hR' : NoiseRooms cfg ε ops := fun op ho => hR op (List.mem_cons_of_mem _ ho)
    cases op with
    | write mat m n => exact ih hR' _
    | mvm res vec mat m n l => exact ⟨hR (.mvm res vec mat m n l) List.mem_cons_self, ih hR' _⟩

theorem EveryMvm.and {P Q : List Op → Vec Int → Vec Int → Nat → Nat → String → Prop} {ops : List Op}
    (h1 : EveryMvm P h ops) (h2 : EveryMvm Q h ops) : EveryMvm (fun h res vec m n l => P h res vec m n l ∧
      Q h res vec m n l) h ops := by
  induction ops generalizing h with
  | nil => trivial
  | cons op ops ih =>
    cases op with
    | write mat m n => exact ih h1 h2
    | mvm res vec mat m n l => exact ⟨⟨h1.1, h2.1⟩, ih h1.2 h2.2⟩

/-- Legal calls on a crossbar with variation. -/
theorem exec_within (hE : ExactArith E) (hok : CfgOk cfg) (hI : Imperfect cfg) (hrd : cfg.readDisturb = false)
    (h1 : 0 ≤ cfg.hrs) (h2 : 0 ≤ cfg.lrs) (hg : ∀ k, |E.gauss k| ≤ ε) {ops : List Op} (hr : Runs E cfg h x)
    (hh : HistOk cfg w h) (hl : LegalOps cfg w h ops) (hR : NoiseRooms cfg (spread cfg ε) ops) :
    ∃ x' rs, exec E cfg x ops = .ok (x', rs) ∧
      AnswersWithin (noiseBound cfg (spread cfg ε)) h ops rs := by
  obtain ⟨x', rs, h3, h4⟩ := exec_by (w := w)
    (P := fun _ res _ m n _ => NoiseRoom cfg (spread cfg ε) res m n)
    (G := fun h res vec m n _ r => AddsWithin (noiseBound cfg (spread cfg ε) n) r res (stored h) vec m n)
    hok (binary_of hI) (fun hr hh k1 hR0 => mvm_vary hE hok hI hrd h1 h2 hg hr (legal_of hh k1) k1.dims
      k1.vecBuf k1.resBuf k1.vals (fun hk i _ => sums_of hr hh k1 hk i) hR0) hr hh hl (everyMvm_rooms hR h)
  exact ⟨x', rs, h3, answersWithin_of h4⟩

end

end Acs
