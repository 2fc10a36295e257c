import Verif.Lemmas.Thick
import Verif.Props.Widen

/-!
# C119: more weight bits than necessary
-/

set_option linter.unusedSectionVars false

namespace Acs.Props

open Finset Spec

section
variable {K : Type} [Field K] [LinearOrder K] [IsStrictOrderedRing K] [FloorRing K]
variable {E : Env K} {cfg : Cfg K} {mat mat' vec vec' res : Vec Int} {m n c : Nat} {l : String}
variable {x y : Xbar K} {h h' : List Op} {lo hi : K}

theorem thick_ideal (hid : Ideal cfg) (hc : 1 ≤ c) : Ideal (withTopSlice cfg c) :=
  ⟨hid.1, hid.2, hid.3, hid.4, hid.5, hid.6, hid.7, fun hm s hs => by
    rcases List.mem_cons.1 hs with rfl | hs
    · exact hc
    · exact hid.8 hm s hs⟩

/-- C119.  If the weights fit into `W_BIT` bits, a crossbar with one more slice on top returns the same result, in exact
arithmetic, through any real converter that has the level zero, also if currents leave its range.  Missing: `I_UINT_W_OFFS`,
for which this is false (`C119_iff`); the other mappings do not allow further slices. -/
theorem C119_thick_partial (hm : twoCells cfg.mode) (hc : 1 ≤ c) (hE : ExactArith E) (hok : CfgOk cfg)
    (hok' : CfgOk (withTopSlice cfg c)) (hid : Ideal cfg) (hg : cfg.mode = .iOffsWDiff → E.strict = false) (hr : Runs E cfg h x)
    (hr' : Runs E (withTopSlice cfg c) h' y) (hl : Legal cfg (lastWrite h) m n) (hl' : Legal cfg (lastWrite h') m n)
    (hwid : keepsRowSums cfg.mode → WidthIs n h ∧ WidthIs n h') (hd : Accepted cfg m n)
    (hv : n ≤ vec.size) (hres : m ≤ res.size) (hx : LegalVec cfg vec n) (hA : AdcOk cfg l lo hi) (hz : HasZero cfg lo hi)
    (hroom : ReadRoom cfg lo hi (stored h) res vec m n)
    (hroom' : ReadRoom (withTopSlice cfg c) lo hi (stored h') res vec m n) (hp : SameBlock (stored h) (stored h') m n) :
    ∃ x' y' r r', xMvm E cfg x res vec mat m n l = .ok (x', r) ∧
      xMvm E (withTopSlice cfg c) y res vec mat' m n l = .ok (y', r') ∧ r'.size = r.size ∧ ∀ i, r'.get i = r.get i := by
  have hW : ∀ i, i < m → ∀ j, j < n → LegalW cfg (stored h i j) := fun i hi j hj => by
    obtain ⟨v, hv, hv'⟩ := hl i j hi hj
    rw [stored, hv]
    exact hv'
  obtain ⟨x', r, h1, h2⟩ := C91_reads (mat := mat) hE hok hid hg hr hl (fun hk => (hwid hk).1) hd hv hres hx hA hroom
  obtain ⟨y', r', h3, h4⟩ := C91_reads (cfg := withTopSlice cfg c) (mat := mat') (l := l) (lo := lo) (hi := hi) (res := res) hE
    hok' (thick_ideal hid hc) hg hr' (fun i j hi hj => (hl' i j hi hj).imp fun _ h => ⟨h.1, legalW_thick hm h.2⟩)
    (fun hk => (hwid hk).2) hd hv hres hx ⟨hA.1, hA.2, hA.3, hA.4, hA.5⟩ hroom'
  refine ⟨x', y', r, r', h1, h3, h4.size.trans h2.size.symm, fun i => ?_⟩
  rcases lt_or_ge i m with hi' | hi'
  · rw [h2.head i hi', h4.head i hi', rowResult_sameBlock hp hi', rowResult_thick hm hok hA hz (hW i hi')]
  · rw [h2.tail i hi', h4.tail i hi']

/-- C119.  Digital crossbars with any arithmetic: in every integer mapping. -/
theorem C119_digital (hok : CfgOk cfg) (hok' : CfgOk (withTopSlice cfg c)) (hdo : cfg.digitalOnly = true)
    (hgcc : shiftsSigned cfg.mode → E.strict = false) (hr : Runs E cfg h x) (hr' : Runs E (withTopSlice cfg c) h' y)
    (hd : Accepted cfg m n) (hbuf : m * n ≤ mat.size) (hW : LegalMat cfg (entry mat n) m n)
    (hW' : LegalMat (withTopSlice cfg c) (entry mat n) m n) (hsum : SumRoom (withTopSlice cfg c) m n)
    (hv : n ≤ vec.size) (hx : LegalVec cfg vec n) (hres : m ≤ res.size) (hroom : Room (withTopSlice cfg c) res m n) :
    ∃ x1 x2 y1 y2 r r', xWrite E cfg x mat m n = .ok x1 ∧ xMvm E cfg x1 res vec mat m n l = .ok (x2, r) ∧
      xWrite E (withTopSlice cfg c) y mat m n = .ok y1 ∧ xMvm E (withTopSlice cfg c) y1 res vec mat m n l = .ok (y2, r') ∧
      r'.size = r.size ∧ ∀ i, r'.get i = r.get i := by
  have hp : (2 : Int) ^ cfg.wBit ≤ 2 ^ (cfg.wBit + c) := pow_le_pow_right₀ (by norm_num) (by omega)
  have hp' : (2 : Int) ^ (cfg.wBit + cfg.iBit) ≤ 2 ^ (cfg.wBit + c + cfg.iBit) := pow_le_pow_right₀ (by norm_num) (by omega)
  have hpk : peak cfg n ≤ peak (withTopSlice cfg c) n := by
    unfold peak
    cases hm : cfg.mode <;> simp only [hm, withTopSlice] <;>
      first | exact le_rfl | exact mul_le_mul_of_nonneg_left hp' (Int.natCast_nonneg n)
  obtain ⟨x1, x2, r, h1, h2, h3⟩ := write_mvm (mat' := mat) (l := l) hok hgcc hdo hr hd hbuf hW
    (fun hi hm => (mul_le_mul_of_nonneg_left hp (Int.natCast_nonneg n)).trans (hsum hi hm)) le_rfl le_rfl
    (fun _ => rfl) hv hx hres (fun i hi => (Int.add_le_add_left hpk _).trans (hroom i hi))
  obtain ⟨y1, y2, r', h4, h5, h6⟩ := write_mvm (cfg := withTopSlice cfg c) (mat' := mat) (l := l) hok' hgcc hdo
    hr' hd hbuf hW' hsum le_rfl le_rfl (fun _ => rfl) hv hx hres hroom
  refine ⟨x1, x2, y1, y2, r, r', h1, h2, h4, h5, h6.size.trans h3.size.symm, fun i => ?_⟩
  rcases lt_or_ge i m with hi | hi
  · rw [h6.head i hi, h3.head i hi]
  · rw [h6.tail i hi, h3.tail i hi]

end

/-- The claim for one mapping, with the converter that the configuration allows for it and the range of the `MAX` calibration. -/
def ThickClaim (md : Mode) : Prop :=
  ∀ (cfg : Cfg ℚ) (c : Nat) (h h' : List Op) (x y x' y' : Xbar ℚ) (mat mat' vec res r r' : Vec Int) (m n : Nat) (lo hi : ℚ),
    cfg.mode = md → 1 ≤ c → CfgOk cfg → CfgOk (withTopSlice cfg c) →
    Ideal cfg → 0 ≤ cfg.hrs → cfg.hrs < cfg.lrs → cfg.calibMode = .max → adcFits cfg → Runs Ex.env cfg h x →
    Runs Ex.env (withTopSlice cfg c) h' y →
    Legal cfg (lastWrite h) m n → Legal cfg (lastWrite h') m n → WidthIs n h → WidthIs n h' → Accepted cfg m n →
    n ≤ vec.size → m ≤ res.size → LegalVec cfg vec n → AdcOk cfg "" lo hi →
    ReadRoom cfg lo hi (stored h) res vec m n → ReadRoom (withTopSlice cfg c) lo hi (stored h') res vec m n →
    SameBlock (stored h) (stored h') m n →
    xMvm Ex.env cfg x res vec mat m n "" = .ok (x', r) →
    xMvm Ex.env (withTopSlice cfg c) y res vec mat' m n "" = .ok (y', r') → ∀ i, r'.get i = r.get i

/-- C119.  I_UINT_W_OFFS gives another result, already with ideal cells and the converter meant for it: the offset of the
weights grows with their number of bits. -/
theorem C119_offset : ¬ThickClaim .iUintWOffs := fun hc => by
  let cfg := Ex'.threeBit .iUintWOffs
  obtain ⟨x, x', r, r1, r2, r3⟩ := Ex.multiplied (E := Ex.env) (c := cfg) (mat := Ex'.signPair 1 1) (m := 1) (n := 2)
    (m' := 1) (n' := 2) (res := Ex.res) (vec := Ex'.signPair 1 1) (mat' := Ex'.signPair 1 1) (l := "")
    (p := fun _ r => decide (r.get 0 = 14)) (by decide +kernel)
  obtain ⟨y, y', r', s1, s2, s3⟩ := Ex.multiplied (E := Ex.env) (c := withTopSlice cfg 1) (mat := Ex'.signPair 1 1) (m := 1) (n := 2)
    (m' := 1) (n' := 2) (res := Ex.res) (vec := Ex'.signPair 1 1) (mat' := Ex'.signPair 1 1) (l := "")
    (p := fun _ r => decide (r.get 0 = 20)) (by decide +kernel)
  have w1 : ∀ {M : Vec Int}, WidthIs 2 [.write M 1 2] := fun op hop => by obtain rfl := List.mem_singleton.1 hop; rfl
  have hW : LegalW cfg 1 := show -2 ^ 2 ≤ (1 : Int) ∧ (1 : Int) < 2 ^ 2 by decide
  have hX : LegalX cfg 1 := show 0 ≤ (1 : Int) ∧ (1 : Int) < 2 ^ 3 by decide
  have := hc cfg 1 _ _ x y x' y' (Ex'.signPair 1 1) (Ex'.signPair 1 1) (Ex'.signPair 1 1) Ex.res r r' 1 2 _ _ rfl
    le_rfl (Ex'.twoBit_ok .iUintWOffs)
    (show 1 ≤ 4 ∧ 4 ≤ 31 ∧ [1, 2, 1].sum = 4 ∧ (∀ s ∈ [1, 2, 1], s ≤ 30) ∧ 1 ≤ 3 ∧ 3 ≤ 31 by decide)
    (Ex'.threeBit_ideal .iUintWOffs) (by show (0 : ℚ) ≤ 5; norm_num)
    (by show (5 : ℚ) < 10; norm_num) rfl (Ex'.twoBit_fits .iUintWOffs) r1 s1
    (Ex'.signPair_legal hW hW) (Ex'.signPair_legal hW hW) w1 w1 ⟨show 1 ≤ 2 by decide, show 2 ≤ 4 by decide, by decide⟩ (le_refl 2)
    (by decide) (Ex'.signPair_all hX hX) (Ex'.threeBit_adc .iUintWOffs)
    ⟨Ex'.zero_only (by decide +kernel), fun _ => Ex'.zero_only (by decide +kernel)⟩
    ⟨Ex'.zero_only (by decide +kernel), fun _ => Ex'.zero_only (by decide +kernel)⟩ (fun _ _ _ _ => rfl) r2 s2 0
  rw [of_decide_eq_true r3, of_decide_eq_true s3] at this
  exact absurd this (by decide)

/-- C119.  So among the integer mappings the claim holds exactly for those with two cells per slice. -/
theorem C119_iff (md : Mode) (hi : md.isInt = true) : ThickClaim md ↔ twoCells md := by
  refine ⟨fun hc => by_contra fun hm => ?_, fun hm => ?_⟩
  · cases md <;> first | exact hm trivial | exact C119_offset hc | cases hi
  intro cfg c h h' x y x' y' mat mat' vec res r r' m n lo hi hmd hc hok hok' hid _ _ hcal _ hr hr' hl hl' hw hw' hd hv hres hx hA
    hroom hroom' hp hx1 hy1
  obtain ⟨x2, y2, r2, r3, h1, h2, _, h3⟩ := C119_thick_partial (mat := mat) (mat' := mat') (by rw [hmd]; exact hm) hc Ex.env_exact
    hok hok' hid (fun _ => rfl) hr hr' hl hl' (fun _ => ⟨hw, hw'⟩) hd hv hres hx hA (C118_max_zero hcal hA) hroom hroom' hp
  rw [hx1] at h1
  rw [hy1] at h2
  obtain ⟨-, rfl⟩ := Prod.mk.inj (Except.ok.inj h1)
  obtain ⟨-, rfl⟩ := Prod.mk.inj (Except.ok.inj h2)
  exact h3

/-- The hypotheses of `C119_thick_partial`, with three and five weight bits and a converter of three bits. -/
example : ∃ x y x' y' r r', Runs Ex.env (Ex'.threeBit .iTcWDiff) [.write (Ex'.signPair 5 (-6)) 1 2] x ∧
    Runs Ex.env (withTopSlice (Ex'.threeBit .iTcWDiff) 2) [.write (Ex'.signPair 5 (-6)) 1 2] y ∧
    xMvm Ex.env (Ex'.threeBit .iTcWDiff) x Ex.res (Ex'.signPair (-4) 3) (Ex'.signPair 5 (-6)) 1 2 "" = .ok (x', r) ∧
    xMvm Ex.env (withTopSlice (Ex'.threeBit .iTcWDiff) 2) y Ex.res (Ex'.signPair (-4) 3) (Ex'.signPair 5 (-6)) 1 2 "" = .ok (y', r') ∧
    r'.size = r.size ∧ ∀ i, r'.get i = r.get i := by
  obtain ⟨x, hr, -⟩ := Ex.wrote (E := Ex.env) (c := Ex'.threeBit .iTcWDiff) (mat := Ex'.signPair 5 (-6)) (m := 1) (n := 2)
    (fun _ => true) (by decide +kernel)
  obtain ⟨y, hr', -⟩ := Ex.wrote (E := Ex.env) (c := withTopSlice (Ex'.threeBit .iTcWDiff) 2) (mat := Ex'.signPair 5 (-6)) (m := 1)
    (n := 2) (fun _ => true) (by decide +kernel)
  have hw : |(5 : Int)| < 2 ^ 3 ∧ |(-6 : Int)| < 2 ^ 3 := by decide
  have hy : (-2 ^ 2 ≤ (-4 : Int) ∧ (-4 : Int) < 2 ^ 2) ∧ -2 ^ 2 ≤ (3 : Int) ∧ (3 : Int) < 2 ^ 2 := by decide
  have hA := Ex'.threeBit_adc .iTcWDiff
  obtain ⟨x', y', r, r', h⟩ := C119_thick_partial (cfg := Ex'.threeBit .iTcWDiff) (c := 2) (mat := Ex'.signPair 5 (-6))
    (mat' := Ex'.signPair 5 (-6)) (l := "") (vec := Ex'.signPair (-4) 3) (res := Ex.res) trivial (by decide)
    Ex.env_exact (Ex'.twoBit_ok .iTcWDiff)
    (show 1 ≤ 5 ∧ 5 ≤ 31 ∧ [2, 2, 1].sum = 5 ∧ (∀ s ∈ [2, 2, 1], s ≤ 30) ∧ 1 ≤ 3 ∧ 3 ≤ 31 by decide)
    (Ex'.threeBit_ideal _) (fun h => by cases h) hr hr' (Ex'.signPair_legal hw.1 hw.2) (Ex'.signPair_legal hw.1 hw.2)
    (fun h => h.elim) ⟨show 1 ≤ 2 by decide, show 2 ≤ 4 by decide, by decide⟩ (le_refl 2) (by decide)
    (Ex'.signPair_all hy.1 hy.2) hA (C118_max_zero rfl hA)
    ⟨Ex'.zero_only (by decide +kernel), fun h => by cases h⟩ ⟨Ex'.zero_only (by decide +kernel), fun h => by cases h⟩
    (fun _ _ _ _ => rfl)
  exact ⟨x, y, x', y', r, r', hr, hr', h⟩

/-- The hypotheses of `C119_digital`, in the offset mapping. -/
example : ∃ x y x1 x2 y1 y2 r r', Runs Ex.env (Ex.cfg .iUintWOffs) [] x ∧ Runs Ex.env (withTopSlice (Ex.cfg .iUintWOffs) 2) [] y ∧
    xWrite Ex.env (Ex.cfg .iUintWOffs) x (Ex'.signPair 3 (-4)) 1 2 = .ok x1 ∧
    xMvm Ex.env (Ex.cfg .iUintWOffs) x1 Ex.res (Ex'.signPair 7 2) (Ex'.signPair 3 (-4)) 1 2 "" = .ok (x2, r) ∧
    xWrite Ex.env (withTopSlice (Ex.cfg .iUintWOffs) 2) y (Ex'.signPair 3 (-4)) 1 2 = .ok y1 ∧
    xMvm Ex.env (withTopSlice (Ex.cfg .iUintWOffs) 2) y1 Ex.res (Ex'.signPair 7 2) (Ex'.signPair 3 (-4)) 1 2 "" = .ok (y2, r') ∧
    r'.size = r.size ∧ ∀ i, r'.get i = r.get i := by
  obtain ⟨x, hx, -⟩ := Ex.built (E := Ex.env) (c := Ex.cfg .iUintWOffs) (fun _ => true) (by decide +kernel)
  obtain ⟨y, hy, -⟩ := Ex.built (E := Ex.env) (c := withTopSlice (Ex.cfg .iUintWOffs) 2) (fun _ => true) (by decide +kernel)
  have hw : (-2 ^ 2 ≤ (3 : Int) ∧ (3 : Int) < 2 ^ 2) ∧ -2 ^ 2 ≤ (-4 : Int) ∧ (-4 : Int) < 2 ^ 2 := by decide
  have hw' : (-2 ^ 4 ≤ (3 : Int) ∧ (3 : Int) < 2 ^ 4) ∧ -2 ^ 4 ≤ (-4 : Int) ∧ (-4 : Int) < 2 ^ 4 := by decide
  have hv : (0 ≤ (7 : Int) ∧ (7 : Int) < 2 ^ 3) ∧ 0 ≤ (2 : Int) ∧ (2 : Int) < 2 ^ 3 := by decide
  have hm : ∀ {cfg : Cfg ℚ}, LegalW cfg 3 → LegalW cfg (-4) → LegalMat cfg (entry (Ex'.signPair 3 (-4)) 2) 1 2 :=
    fun h3 h4 i j hi hj => by
      obtain rfl : i = 0 := by omega
      have := Ex'.signPair_all h3 h4 j hj
      simpa [entry] using this
  obtain ⟨x1, x2, y1, y2, r, r', h⟩ := C119_digital (l := "") (m := 1) (n := 2) (c := 2) (vec := Ex'.signPair 7 2)
    (res := Ex.res) (mat := Ex'.signPair 3 (-4)) (Ex.cfg_ok .iUintWOffs)
    (show 1 ≤ 5 ∧ 5 ≤ 31 ∧ [2, 2, 1].sum = 5 ∧ (∀ s ∈ [2, 2, 1], s ≤ 30) ∧ 1 ≤ 3 ∧ 3 ≤ 31 by decide) rfl
    (fun _ => rfl) hx hy ⟨by decide, by decide, by decide⟩ (by decide) (hm hw.1 hw.2) (hm hw'.1 hw'.2) (fun _ _ => by decide)
    (by decide) (Ex'.signPair_all hv.1 hv.2) (by decide)
    (fun i hi => (show ∀ i : Fin 1, |Ex.res.get i| + (2 : Nat) * 2 ^ (5 + 3) ≤ 2147483647 by decide) ⟨i, hi⟩)
  exact ⟨x, y, x1, x2, y1, y2, r, r', hx, hy, h⟩

end Acs.Props
