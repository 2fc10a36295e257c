import Verif.Lemmas.Widen
import Verif.Props.Flip
import Verif.Props.Odd

/-!
# C118: more input bits than necessary
-/

set_option linter.unusedSectionVars false

namespace Acs.Props

open Finset Spec

section
variable {K : Type} [Field K] [LinearOrder K] [IsStrictOrderedRing K] [FloorRing K]
variable {E : Env K} {cfg : Cfg K} {mat mat' vec vec' res : Vec Int} {m n b : Nat} {l : String}
variable {x y : Xbar K} {h h' : List Op} {lo hi : K}

theorem widen_cfg (hb : cfg.iBit ≤ b) (hb' : b ≤ 31) (hok : CfgOk cfg) : CfgOk (withInputBits cfg b) := by
  unfold CfgOk at hok ⊢
  cases hm : cfg.mode <;> simp only [hm, withInputBits] at hok ⊢ <;>
    first | exact hok | exact ⟨hok.1, hok.2.1, hok.2.2.1, hok.2.2.2.1, by omega, hb'⟩

/-- C118.  If the inputs fit into `I_BIT` bits, a crossbar with more input bits returns the same result, in exact arithmetic,
through any real converter that has the level zero, also if currents leave its range.  Missing: `I_OFFS_W_DIFF` and
`I_TC_W_DIFF`, for which this is false (`C118_iff`). -/
theorem C118_widen_partial (hm : widenFree cfg.mode) (hb : cfg.iBit ≤ b) (hb' : b ≤ 31) (hE : ExactArith E) (hok : CfgOk cfg)
    (hid : Ideal cfg) (hr : Runs E cfg h x) (hr' : Runs E (withInputBits cfg b) h' y) (hl : Legal cfg (lastWrite h) m n)
    (hl' : Legal cfg (lastWrite h') m n) (hwid : keepsRowSums cfg.mode → WidthIs n h ∧ WidthIs n h') (hd : Accepted cfg m n)
    (hv : n ≤ vec.size) (hres : m ≤ res.size) (hx : LegalVec cfg vec n) (hA : AdcOk cfg l lo hi) (hz : HasZero cfg lo hi)
    (hroom : ReadRoom cfg lo hi (stored h) res vec m n)
    (hroom' : ReadRoom (withInputBits cfg b) lo hi (stored h') res vec m n) (hp : SameBlock (stored h) (stored h') m n) :
    ∃ x' y' r r', xMvm E cfg x res vec mat m n l = .ok (x', r) ∧
      xMvm E (withInputBits cfg b) y res vec mat' m n l = .ok (y', r') ∧ r'.size = r.size ∧ ∀ i, r'.get i = r.get i := by
  have hg : cfg.mode = .iOffsWDiff → E.strict = false := fun h => by rw [h] at hm; exact hm.elim
  obtain ⟨x', r, h1, h2⟩ := C91_reads (mat := mat) hE hok hid hg hr hl (fun hk => (hwid hk).1) hd hv hres hx hA hroom
  obtain ⟨y', r', h3, h4⟩ := C91_reads (cfg := withInputBits cfg b) (mat := mat') (l := l) (lo := lo) (hi := hi) (res := res) hE
    (widen_cfg hb hb' hok) ⟨hid.1, hid.2, hid.3, hid.4, hid.5, hid.6, hid.7, hid.8⟩ hg hr' hl' (fun hk => (hwid hk).2) hd hv hres
    (fun j hj => legalX_widen hb (hx j hj)) ⟨hA.1, hA.2, hA.3, hA.4, hA.5⟩ hroom'
  refine ⟨x', y', r, r', h1, h3, h4.size.trans h2.size.symm, fun i => ?_⟩
  rcases lt_or_ge i m with hi' | hi'
  · rw [h2.head i hi', h4.head i hi', rowResult_sameBlock hp hi', rowResult_widen hm hok hb hA hz hx]
  · rw [h2.tail i hi', h4.tail i hi']

/-- C118.  Digital crossbars with any arithmetic: in every mapping. -/
theorem C118_digital (hok : CfgOk cfg) (hb : cfg.iBit ≤ b) (hb' : b ≤ 31) (hdo : cfg.digitalOnly = true)
    (hgcc : shiftsSigned cfg.mode → E.strict = false) (hr : Runs E cfg h x) (hr' : Runs E (withInputBits cfg b) h' y)
    (hd : Accepted cfg m n) (hbuf : m * n ≤ mat.size) (hW : LegalMat cfg (entry mat n) m n) (hsum : SumRoom cfg m n)
    (hv : n ≤ vec.size) (hx : LegalVec cfg vec n) (hres : m ≤ res.size) (hroom : Room cfg res m n)
    (hroom' : Room (withInputBits cfg b) res m n) :
    ∃ x1 x2 y1 y2 r r', xWrite E cfg x mat m n = .ok x1 ∧ xMvm E cfg x1 res vec mat m n l = .ok (x2, r) ∧
      xWrite E (withInputBits cfg b) y mat m n = .ok y1 ∧ xMvm E (withInputBits cfg b) y1 res vec mat m n l = .ok (y2, r') ∧
      r'.size = r.size ∧ ∀ i, r'.get i = r.get i := by
  obtain ⟨x1, x2, r, h1, h2, h3⟩ := write_mvm (mat' := mat) (l := l) hok hgcc hdo hr hd hbuf hW hsum le_rfl le_rfl
    (fun _ => rfl) hv hx hres hroom
  obtain ⟨y1, y2, r', h4, h5, h6⟩ := write_mvm (cfg := withInputBits cfg b) (mat' := mat) (l := l) (widen_cfg hb hb' hok) hgcc hdo
    hr' hd hbuf hW hsum le_rfl le_rfl (fun _ => rfl) hv (fun j hj => legalX_widen hb (hx j hj)) hres hroom'
  refine ⟨x1, x2, y1, y2, r, r', h1, h2, h4, h5, h6.size.trans h3.size.symm, fun i => ?_⟩
  rcases lt_or_ge i m with hi | hi
  · rw [h6.head i hi, h3.head i hi]
  · rw [h6.tail i hi, h3.tail i hi]

/-- C118.  The ranges of the `MAX` calibration have the level zero. -/
theorem C118_max_zero (hc : cfg.calibMode = .max) (hA : AdcOk cfg l lo hi) : HasZero cfg lo hi := by
  cases ht : cfg.adcType
  case sym => exact .inl (C111_max_centred ht hc hA)
  case pos =>
    have h := hA.range
    simp only [adcRange, ht, hc, Option.some.injEq, Prod.mk.injEq] at h
    exact .inr h.1.symm
  case inf => exact absurd ht hA.real

end

/-- The claim for one mapping, with the converter that the configuration allows for it and the range of the `MAX` calibration. -/
def WidenClaim (md : Mode) : Prop :=
  ∀ (cfg : Cfg ℚ) (b : Nat) (h h' : List Op) (x y x' y' : Xbar ℚ) (mat mat' vec res r r' : Vec Int) (m n : Nat) (lo hi : ℚ),
    cfg.mode = md → cfg.iBit ≤ b → b ≤ 31 → CfgOk cfg →
    Ideal cfg → 0 ≤ cfg.hrs → cfg.hrs < cfg.lrs → cfg.calibMode = .max → adcFits cfg → Runs Ex.env cfg h x →
    Runs Ex.env (withInputBits cfg b) h' y →
    Legal cfg (lastWrite h) m n → Legal cfg (lastWrite h') m n → WidthIs n h → WidthIs n h' → Accepted cfg m n →
    n ≤ vec.size → m ≤ res.size → LegalVec cfg vec n → AdcOk cfg "" lo hi →
    ReadRoom cfg lo hi (stored h) res vec m n → ReadRoom (withInputBits cfg b) lo hi (stored h') res vec m n →
    SameBlock (stored h) (stored h') m n →
    xMvm Ex.env cfg x res vec mat m n "" = .ok (x', r) →
    xMvm Ex.env (withInputBits cfg b) y res vec mat' m n "" = .ok (y', r') → ∀ i, r'.get i = r.get i

namespace Ex'

/-- A converter with three bits. -/
def threeBit (md : Mode) : Cfg ℚ := { twoBit md with resolution := 3 }

theorem threeBit_adc (md : Mode) : AdcOk (threeBit md) "" (twoBitRange md).1 (twoBitRange md).2 := by
  cases md <;> exact ⟨by decide, by decide, by show (3 : Int) ≤ 30; decide, by decide +kernel, by decide +kernel⟩

theorem threeBit_ideal (md : Mode) : Ideal (threeBit md) :=
  ⟨rfl, rfl, rfl, rfl, rfl, fun _ => ⟨le_refl 0, le_refl 0⟩, by show (5 : ℚ) ≠ 10; norm_num, by cases md <;> decide⟩

/-- One run of each refutes the claim. -/
theorem widen_false {md : Mode} (hW : LegalW (threeBit md) 1) (hX : LegalX (threeBit md) (-1))
    (h1 : ReadRoom (threeBit md) (twoBitRange md).1 (twoBitRange md).2 (stored [.write (signPair 1 1) 1 2]) Ex.res
      (signPair (-1) (-1)) 1 2)
    (h2 : ReadRoom (withInputBits (threeBit md) 4) (twoBitRange md).1 (twoBitRange md).2 (stored [.write (signPair 1 1) 1 2]) Ex.res
      (signPair (-1) (-1)) 1 2) (v v' : Int) (hne : v' ≠ v)
    (hrun : Ex.okAnd (mkXbar Ex.env (threeBit md) 0 []) (fun x => Ex.okAnd (xWrite Ex.env (threeBit md) x (signPair 1 1) 1 2) fun y =>
      Ex.okAnd (xMvm Ex.env (threeBit md) y Ex.res (signPair (-1) (-1)) (signPair 1 1) 1 2 "") fun q => decide (q.2.get 0 = v)) = true)
    (hrun' : Ex.okAnd (mkXbar Ex.env (withInputBits (threeBit md) 4) 0 []) (fun x =>
      Ex.okAnd (xWrite Ex.env (withInputBits (threeBit md) 4) x (signPair 1 1) 1 2) fun y =>
        Ex.okAnd (xMvm Ex.env (withInputBits (threeBit md) 4) y Ex.res (signPair (-1) (-1)) (signPair 1 1) 1 2 "") fun q =>
          decide (q.2.get 0 = v')) = true) : ¬WidenClaim md := fun hc => by
  obtain ⟨x, x', r, r1, r2, r3⟩ := Ex.multiplied (p := fun _ r => decide (r.get 0 = v)) hrun
  obtain ⟨y, y', r', s1, s2, s3⟩ := Ex.multiplied (p := fun _ r => decide (r.get 0 = v')) hrun'
  have w1 : ∀ {M : Vec Int}, WidthIs 2 [.write M 1 2] := fun op hop => by obtain rfl := List.mem_singleton.1 hop; rfl
  have := hc (threeBit md) 4 _ _ x y x' y' (signPair 1 1) (signPair 1 1) (signPair (-1) (-1)) Ex.res r r' 1 2 _ _ rfl
    (show 3 ≤ 4 by decide) (by decide) (twoBit_ok md) (threeBit_ideal md) (by show (0 : ℚ) ≤ 5; norm_num)
    (by show (5 : ℚ) < 10; norm_num) rfl (twoBit_fits md) r1 s1
    (signPair_legal hW hW) (signPair_legal hW hW) w1 w1 ⟨show 1 ≤ 2 by decide, show 2 ≤ 4 by decide, by decide⟩ (le_refl 2)
    (by decide) (signPair_all hX hX) (threeBit_adc md) h1 h2 (fun _ _ _ _ => rfl) r2 s2 0
  rw [of_decide_eq_true r3, of_decide_eq_true s3] at this
  exact hne this

end Ex'

/-- C118.  The other two mappings give another result, already with ideal cells and the converter meant for them: the offset
grows with the number of bits, and the sign is repeated in all further bits. -/
theorem C118_others (md : Mode) (hmd : ¬widenFree md) : ¬WidenClaim md := by
  cases md <;> first | exact absurd trivial hmd | skip
  case iOffsWDiff =>
    exact Ex'.widen_false (show |(1 : Int)| < 2 ^ 3 by decide) (show -2 ^ 2 ≤ (-1 : Int) ∧ (-1 : Int) < 2 ^ 2 by decide)
      ⟨Ex'.zero_only (by decide +kernel), fun h => by cases h⟩ ⟨Ex'.zero_only (by decide +kernel), fun h => by cases h⟩
      10 13 (by decide) (by decide +kernel) (by decide +kernel)
  case iTcWDiff =>
    exact Ex'.widen_false (show |(1 : Int)| < 2 ^ 3 by decide) (show -2 ^ 2 ≤ (-1 : Int) ∧ (-1 : Int) < 2 ^ 2 by decide)
      ⟨Ex'.zero_only (by decide +kernel), fun h => by cases h⟩ ⟨Ex'.zero_only (by decide +kernel), fun h => by cases h⟩
      7 8 (by decide) (by decide +kernel) (by decide +kernel)

/-- C118.  So the claim holds exactly for the mappings that are `widenFree`. -/
theorem C118_iff (md : Mode) : WidenClaim md ↔ widenFree md := by
  refine ⟨fun hc => by_contra fun hm => C118_others md hm hc, fun hm => ?_⟩
  intro cfg b h h' x y x' y' mat mat' vec res r r' m n lo hi hmd hb hb' hok hid _ _ hcal _ hr hr' hl hl' hw hw' hd hv hres hx hA
    hroom hroom' hp hx1 hy1
  obtain ⟨x2, y2, r2, r3, h1, h2, _, h3⟩ := C118_widen_partial (mat := mat) (mat' := mat') (by rw [hmd]; exact hm) hb hb' Ex.env_exact
    hok hid hr hr' hl hl' (fun _ => ⟨hw, hw'⟩) hd hv hres hx hA (C118_max_zero hcal hA) hroom hroom' hp
  rw [hx1] at h1
  rw [hy1] at h2
  obtain ⟨-, rfl⟩ := Prod.mk.inj (Except.ok.inj h1)
  obtain ⟨-, rfl⟩ := Prod.mk.inj (Except.ok.inj h2)
  exact h3

/-- The hypotheses of `C118_widen_partial` and `C118_max_zero`, with three and seven input bits and a converter of three bits. -/
example : ∃ x y x' y' r r', Runs Ex.env (Ex'.threeBit .iDiffWDiff2) [.write (Ex'.signPair 5 (-6)) 1 2] x ∧
    Runs Ex.env (withInputBits (Ex'.threeBit .iDiffWDiff2) 7) [.write (Ex'.signPair 5 (-6)) 1 2] y ∧
    xMvm Ex.env (Ex'.threeBit .iDiffWDiff2) x Ex.res (Ex'.signPair (-4) 3) (Ex'.signPair 5 (-6)) 1 2 "" = .ok (x', r) ∧
    xMvm Ex.env (withInputBits (Ex'.threeBit .iDiffWDiff2) 7) y Ex.res (Ex'.signPair (-4) 3) (Ex'.signPair 5 (-6)) 1 2 "" = .ok (y', r') ∧
    r'.size = r.size ∧ ∀ i, r'.get i = r.get i := by
  obtain ⟨x, hr, -⟩ := Ex.wrote (E := Ex.env) (c := Ex'.threeBit .iDiffWDiff2) (mat := Ex'.signPair 5 (-6)) (m := 1) (n := 2)
    (fun _ => true) (by decide +kernel)
  obtain ⟨y, hr', -⟩ := Ex.wrote (E := Ex.env) (c := withInputBits (Ex'.threeBit .iDiffWDiff2) 7) (mat := Ex'.signPair 5 (-6)) (m := 1)
    (n := 2) (fun _ => true) (by decide +kernel)
  have hw : |(5 : Int)| < 2 ^ 3 ∧ |(-6 : Int)| < 2 ^ 3 := by decide
  have hy : (-2 ^ 2 ≤ (-4 : Int) ∧ (-4 : Int) < 2 ^ 2) ∧ -2 ^ 2 ≤ (3 : Int) ∧ (3 : Int) < 2 ^ 2 := by decide
  have hA := Ex'.threeBit_adc .iDiffWDiff2
  obtain ⟨x', y', r, r', h⟩ := C118_widen_partial (cfg := Ex'.threeBit .iDiffWDiff2) (b := 7) (mat := Ex'.signPair 5 (-6))
    (mat' := Ex'.signPair 5 (-6)) (l := "") (vec := Ex'.signPair (-4) 3) (res := Ex.res) trivial (show 3 ≤ 7 by decide) (by decide)
    Ex.env_exact (Ex'.twoBit_ok .iDiffWDiff2) (Ex'.threeBit_ideal _) hr hr' (Ex'.signPair_legal hw.1 hw.2) (Ex'.signPair_legal hw.1 hw.2)
    (fun h => h.elim) ⟨show 1 ≤ 2 by decide, show 2 ≤ 4 by decide, by decide⟩ (le_refl 2) (by decide)
    (Ex'.signPair_all hy.1 hy.2) hA (C118_max_zero rfl hA)
    ⟨Ex'.zero_only (by decide +kernel), fun h => by cases h⟩ ⟨Ex'.zero_only (by decide +kernel), fun h => by cases h⟩
    (fun _ _ _ _ => rfl)
  exact ⟨x, y, x', y', r, r', hr, hr', h⟩

/-- The hypotheses of `C118_digital`, in a mapping that is not `widenFree`. -/
example : ∃ x y x1 x2 y1 y2 r r', Runs Ex.env (Ex.cfg .iTcWDiff) [] x ∧ Runs Ex.env (withInputBits (Ex.cfg .iTcWDiff) 5) [] y ∧
    xWrite Ex.env (Ex.cfg .iTcWDiff) x (Ex'.signPair 5 (-6)) 1 2 = .ok x1 ∧
    xMvm Ex.env (Ex.cfg .iTcWDiff) x1 Ex.res (Ex'.signPair (-4) 3) (Ex'.signPair 5 (-6)) 1 2 "" = .ok (x2, r) ∧
    xWrite Ex.env (withInputBits (Ex.cfg .iTcWDiff) 5) y (Ex'.signPair 5 (-6)) 1 2 = .ok y1 ∧
    xMvm Ex.env (withInputBits (Ex.cfg .iTcWDiff) 5) y1 Ex.res (Ex'.signPair (-4) 3) (Ex'.signPair 5 (-6)) 1 2 "" = .ok (y2, r') ∧
    r'.size = r.size ∧ ∀ i, r'.get i = r.get i := by
  obtain ⟨x, hx, -⟩ := Ex.built (E := Ex.env) (c := Ex.cfg .iTcWDiff) (fun _ => true) (by decide +kernel)
  obtain ⟨y, hy, -⟩ := Ex.built (E := Ex.env) (c := withInputBits (Ex.cfg .iTcWDiff) 5) (fun _ => true) (by decide +kernel)
  have hw : |(5 : Int)| < 2 ^ 3 ∧ |(-6 : Int)| < 2 ^ 3 := by decide
  have hv : (-2 ^ 2 ≤ (-4 : Int) ∧ (-4 : Int) < 2 ^ 2) ∧ -2 ^ 2 ≤ (3 : Int) ∧ (3 : Int) < 2 ^ 2 := by decide
  have hm : LegalMat (Ex.cfg .iTcWDiff) (entry (Ex'.signPair 5 (-6)) 2) 1 2 := fun i j hi hj => by
    obtain rfl : i = 0 := by omega
    have := Ex'.signPair_all (P := LegalW (Ex.cfg .iTcWDiff)) hw.1 hw.2 j hj
    simpa [entry] using this
  obtain ⟨x1, x2, y1, y2, r, r', h⟩ := C118_digital (l := "") (m := 1) (n := 2) (b := 5) (vec := Ex'.signPair (-4) 3)
    (res := Ex.res) (mat := Ex'.signPair 5 (-6)) (Ex.cfg_ok .iTcWDiff) (show 3 ≤ 5 by decide) (by decide) rfl
    (fun _ => rfl) hx hy ⟨by decide, by decide, by decide⟩ (by decide) hm (fun _ _ => by decide)
    (by decide) (Ex'.signPair_all hv.1 hv.2) (by decide)
    (fun i hi => (show ∀ i : Fin 1, |Ex.res.get i| + (2 : Nat) * 2 ^ (3 + 3) ≤ 2147483647 by decide) ⟨i, hi⟩)
    (fun i hi => (show ∀ i : Fin 1, |Ex.res.get i| + (2 : Nat) * 2 ^ (3 + 5) ≤ 2147483647 by decide) ⟨i, hi⟩)
  exact ⟨x, y, x1, x2, y1, y2, r, r', hx, hy, h⟩

end Acs.Props
