import Verif.Lemmas.Pad
import Verif.Lemmas.Tiles
import Verif.Props.Reading
import Verif.Props.Digital

/-!
# C114: columns with the input zero
-/

set_option linter.unusedSectionVars false

namespace Acs.Props

open Finset Spec

section
variable {K : Type} [Field K] [LinearOrder K] [IsStrictOrderedRing K] [FloorRing K]
variable {E : Env K} {cfg : Cfg K} {mat mat' vec vec' res : Vec Int} {m n n' : Nat} {l : String}
variable {x y : Xbar K} {h h' : List Op} {lo hi : K}

/-- C114.  In exact arithmetic more columns with the input zero change nothing, through any real converter, also if currents
leave its range.  Missing: `I_OFFS_W_DIFF` and `TNN_III` with weights other than zero in the added columns, where
this is false (`C114_iff`). -/
theorem C114_padding_partial (hE : ExactArith E) (hok : CfgOk cfg) (hid : Ideal cfg) (hgcc : cfg.mode = .iOffsWDiff → E.strict = false)
    (hr : Runs E cfg h x) (hr' : Runs E cfg h' y) (hl : Legal cfg (lastWrite h) m n) (hl' : Legal cfg (lastWrite h') m n')
    (hwid : keepsRowSums cfg.mode → WidthIs n h ∧ WidthIs n' h') (hd : Accepted cfg m n')
    (hv : n ≤ vec.size) (hv' : n' ≤ vec'.size) (hres : m ≤ res.size) (hx : LegalVec cfg vec' n') (hA : AdcOk cfg l lo hi)
    (hroom : ReadRoom cfg lo hi (stored h') res vec' m n') (hp : Padded (stored h) (stored h') vec vec' m n n')
    (hz : drivesZero cfg.mode → ZeroPad (stored h') m n n') :
    ∃ x' y' r r', xMvm E cfg x res vec mat m n l = .ok (x', r) ∧ xMvm E cfg y res vec' mat' m n' l = .ok (y', r') ∧
      r'.size = r.size ∧ ∀ i, r'.get i = r.get i := by
  have h0 : n < n' → LegalX cfg 0 := fun hlt => by rw [← hp.zero n le_rfl hlt]; exact hx n hlt
  have hle := hp.le
  have hpk : peak cfg n ≤ peak cfg n' := by
    rw [peak_mul n, peak_mul n']
    exact mul_le_mul_of_nonneg_right (by exact_mod_cast hle) peak_one_nonneg
  have hro : ReadRoom cfg lo hi (stored h) res vec m n :=
    ⟨fun i hi' => by
      rw [← conversions_pad hp h0 hz hi']
      refine le_trans (add_le_add_left ?_ _) (hroom.parts i hi')
      exact Int.cast_le.2 (by omega),
      fun hm i hi' => by rw [← rowResult_pad hp h0 hz hi']; exact hroom.whole hm i hi'⟩
  obtain ⟨x', r, h1, h2⟩ := C91_reads (mat := mat) hE hok hid hgcc hr hl (fun hk => (hwid hk).1)
    ⟨hd.1, by have := hd.2.1; omega, by have := hd.2.2; omega⟩ hv hres
    (fun j hj => by rw [← hp.vec j hj]; exact hx j (by omega)) hA hro
  obtain ⟨y', r', h3, h4⟩ := C91_reads (mat := mat') hE hok hid hgcc hr' hl' (fun hk => (hwid hk).2) hd hv' hres hx hA hroom
  refine ⟨x', y', r, r', h1, h3, h4.size.trans h2.size.symm, fun i => ?_⟩
  rcases lt_or_ge i m with hi' | hi'
  · rw [h2.head i hi', h4.head i hi', rowResult_pad hp h0 hz hi']
  · rw [h2.tail i hi', h4.tail i hi']

/-- C114.  Digital crossbars with any arithmetic: in every mapping. -/
theorem C114_digital (hok : CfgOk cfg) (hdo : cfg.digitalOnly = true) (hgcc : shiftsSigned cfg.mode → E.strict = false)
    (hr : Runs E cfg h x) (hr' : Runs E cfg h' y) (hd : Accepted cfg m n') (hbuf : m * n ≤ mat.size) (hbuf' : m * n' ≤ mat'.size)
    (hW : LegalMat cfg (entry mat' n') m n') (hsum : SumRoom cfg m n') (hv : n ≤ vec.size) (hv' : n' ≤ vec'.size)
    (hx : LegalVec cfg vec' n') (hres : m ≤ res.size) (hroom : Room cfg res m n')
    (hp : Padded (entry mat n) (entry mat' n') vec vec' m n n') :
    ∃ x1 x2 y1 y2 r r', xWrite E cfg x mat m n = .ok x1 ∧ xMvm E cfg x1 res vec mat m n l = .ok (x2, r) ∧
      xWrite E cfg y mat' m n' = .ok y1 ∧ xMvm E cfg y1 res vec' mat' m n' l = .ok (y2, r') ∧
      r'.size = r.size ∧ ∀ i, r'.get i = r.get i := by
  have hle := hp.le
  have hpk : peak cfg n ≤ peak cfg n' := by
    rw [peak_mul n, peak_mul n']
    exact mul_le_mul_of_nonneg_right (by exact_mod_cast hle) peak_one_nonneg
  obtain ⟨x1, x2, r, h1, h2, h3⟩ := write_mvm (mat' := mat) (l := l) (vec := vec) hok hgcc hdo hr
    ⟨hd.1, by have := hd.2.1; omega, by have := hd.2.2; omega⟩ hbuf
    (fun i j hi hj => by rw [← hp.mat i j hi hj]; exact hW i j hi (by omega))
    (fun a b => le_trans (mul_le_mul_of_nonneg_right (by exact_mod_cast hle) (by positivity)) (hsum a b)) le_rfl le_rfl
    (fun _ => rfl) hv (fun j hj => by rw [← hp.vec j hj]; exact hx j (by omega)) hres
    (fun i hi => by have := hroom i hi; omega)
  obtain ⟨y1, y2, r', h4, h5, h6⟩ := write_mvm (mat' := mat') (l := l) hok hgcc hdo hr' hd hbuf' hW hsum le_rfl le_rfl
    (fun _ => rfl) hv' hx hres hroom
  refine ⟨x1, x2, y1, y2, r, r', h1, h2, h4, h5, h6.size.trans h3.size.symm, fun i => ?_⟩
  rcases lt_or_ge i m with hi | hi
  · rw [h6.head i hi, h3.head i hi]
    congr 1
    exact sum_pad hp hi (fun w z => w * z) fun j _ _ => mul_zero _
  · rw [h6.tail i hi, h3.tail i hi]

end

/-- The claim for one mapping, whatever the added columns contain. -/
def PadClaim (md : Mode) : Prop :=
  ∀ (cfg : Cfg ℚ) (x y : Xbar ℚ) (h h' : List Op) (mat mat' vec vec' res : Vec Int) (m n n' : Nat) (lo hi : ℚ),
    cfg.mode = md → CfgOk cfg → Ideal cfg → Runs Ex.env cfg h x → Runs Ex.env cfg h' y → Legal cfg (lastWrite h) m n →
    Legal cfg (lastWrite h') m n' → WidthIs n h → WidthIs n' h' → Accepted cfg m n' → n ≤ vec.size → n' ≤ vec'.size →
    m ≤ res.size → LegalVec cfg vec' n' → AdcOk cfg "" lo hi → ReadRoom cfg lo hi (stored h) res vec m n →
    ReadRoom cfg lo hi (stored h') res vec' m n' → Padded (stored h) (stored h') vec vec' m n n' →
    ∃ x' y' r r', xMvm Ex.env cfg x res vec mat m n "" = .ok (x', r) ∧ xMvm Ex.env cfg y res vec' mat' m n' "" = .ok (y', r') ∧
      ∀ i, r'.get i = r.get i

namespace Ex'

/-- A converter for the currents from -4 to 4. -/
def padCfg (md : Mode) : Cfg ℚ := { Ex.symCfg md with calibMode := .calib, calibDict := [("", (-4, 4))] }

theorem padCfg_ideal (md : Mode) : Ideal (padCfg md) :=
  ⟨rfl, rfl, rfl, rfl, rfl, fun _ => ⟨le_refl 0, le_refl 0⟩, by show (5 : ℚ) ≠ 10; norm_num, by cases md <;> decide⟩

theorem padCfg_ok (md : Mode) : AdcOk (padCfg md) "" (-4) 4 :=
  ⟨(Ex.sym_ok md "").real, by cases md <;> decide, by show (4 : Int) ≤ 30; decide, rfl, by norm_num⟩

/-- Three equal weights. -/
def padWt (w : Int) : Vec Int := Vec.ofList [w, w, w]
/-- The input 1 in front of zeros. -/
def padIn : Vec Int := Vec.ofList [1, 0, 0]

theorem padWt_padded (w : Int) :
    Padded (stored [.write (padWt w) 1 1]) (stored [.write (padWt w) 1 3]) padIn padIn 1 1 3 := by
  refine ⟨by decide, fun i j hi hj => ?_, fun _ _ => rfl, fun j h1 h2 => ?_⟩
  · obtain rfl : i = 0 := by omega
    obtain rfl : j = 0 := by omega
    rfl
  · obtain rfl | rfl : j = 1 ∨ j = 2 := by omega
    · rfl
    · rfl

theorem padWt_stored {w : Int} {n : Nat} (hn : n ≤ 3) {cfg : Cfg ℚ} (hw : LegalW cfg w) :
    Legal cfg (lastWrite [.write (padWt w) 1 n]) 1 n := fun i j hi hj => by
  obtain rfl : i = 0 := by omega
  refine ⟨w, ?_, hw⟩
  obtain rfl | rfl | rfl : j = 0 ∨ j = 1 ∨ j = 2 := by omega
  all_goals simp [lastWrite, hj, entry, padWt, Vec.ofList]

end Ex'

/-- A single counterexample suffices. -/
theorem pad_false {md : Mode} {w : Int} (hok : CfgOk (Ex'.padCfg md)) (hm : (Ex'.padCfg md).mode = md)
    (hW : LegalW (Ex'.padCfg md) w) (hX : LegalVec (Ex'.padCfg md) Ex'.padIn 3) (hd : Accepted (Ex'.padCfg md) 1 3)
    {x y : Xbar ℚ} (hr : Runs Ex.env (Ex'.padCfg md) [.write (Ex'.padWt w) 1 1] x)
    (hr' : Runs Ex.env (Ex'.padCfg md) [.write (Ex'.padWt w) 1 3] y)
    (h1 : ReadRoom (Ex'.padCfg md) (-4) 4 (stored [.write (Ex'.padWt w) 1 1]) Ex.res Ex'.padIn 1 1)
    (h2 : ReadRoom (Ex'.padCfg md) (-4) 4 (stored [.write (Ex'.padWt w) 1 3]) Ex.res Ex'.padIn 1 3)
    (hne : rowResult (Ex'.padCfg md) (-4) 4 (stored [.write (Ex'.padWt w) 1 1]) Ex'.padIn 1 0
      ≠ rowResult (Ex'.padCfg md) (-4) 4 (stored [.write (Ex'.padWt w) 1 3]) Ex'.padIn 3 0) : ¬PadClaim md := by
  intro hc
  have w1 : ∀ {n : Nat}, WidthIs n [.write (Ex'.padWt w) 1 n] := fun op hop => by obtain rfl := List.mem_singleton.1 hop; rfl
  obtain ⟨x', y', r, r', a1, a2, a3⟩ := hc (Ex'.padCfg md) x y _ _ (Ex'.padWt w) (Ex'.padWt w) Ex'.padIn Ex'.padIn Ex.res 1 1 3
    (-4) 4 hm hok (Ex'.padCfg_ideal md) hr hr' (Ex'.padWt_stored (by decide) hW) (Ex'.padWt_stored (by decide) hW) w1 w1 hd
    (by decide) (by decide) (by decide) hX (Ex'.padCfg_ok md) h1 h2 (Ex'.padWt_padded w)
  obtain ⟨x2, r2, b1, b2⟩ := C91_reads (mat := Ex'.padWt w) Ex.env_exact hok (Ex'.padCfg_ideal md) (fun _ => rfl) hr
    (Ex'.padWt_stored (by decide) hW) (fun _ => w1) ⟨hd.1, by have := hd.2.1; omega, by decide⟩ (by decide) (by decide)
    (fun j hj => hX j (by omega)) (Ex'.padCfg_ok md) h1
  obtain ⟨y2, r3, c1, c2⟩ := C91_reads (mat := Ex'.padWt w) Ex.env_exact hok (Ex'.padCfg_ideal md) (fun _ => rfl) hr'
    (Ex'.padWt_stored (by decide) hW) (fun _ => w1) hd (by decide) (by decide) hX (Ex'.padCfg_ok md) h2
  rw [a1] at b1
  rw [a2] at c1
  obtain ⟨-, rfl⟩ := Prod.mk.inj (Except.ok.inj b1)
  obtain ⟨-, rfl⟩ := Prod.mk.inj (Except.ok.inj c1)
  have := a3 0
  rw [b2.head 0 (by decide), c2.head 0 (by decide)] at this
  omega

/-- C114.  The mappings in which the added columns may contain anything are exactly the ones that apply no voltage for the
input zero. -/
theorem C114_iff (md : Mode) : PadClaim md ↔ ¬drivesZero md := by
  constructor
  · intro hc hm
    revert hc
    cases md <;> first | exact hm.elim | skip
    · obtain ⟨x, hr, -⟩ := Ex.wrote (E := Ex.env) (c := Ex'.padCfg .iOffsWDiff) (mat := Ex'.padWt 7) (m := 1) (n := 1)
        (fun _ => true) (by decide +kernel)
      obtain ⟨y, hr', -⟩ := Ex.wrote (E := Ex.env) (c := Ex'.padCfg .iOffsWDiff) (mat := Ex'.padWt 7) (m := 1) (n := 3)
        (fun _ => true) (by decide +kernel)
      refine pad_false (Ex.acfg_ok .iOffsWDiff) rfl (show |(7 : Int)| < 2 ^ 3 by decide) (fun j hj => ?_)
        ⟨by decide, by decide, by decide⟩ hr hr' ⟨fun i hi => ?_, fun h => by cases h⟩ ⟨fun i hi => ?_, fun h => by cases h⟩
        (by decide +kernel)
      · exact (show ∀ j : Fin 3, -2 ^ 2 ≤ Ex'.padIn.get j ∧ Ex'.padIn.get j < 2 ^ 2 by decide) ⟨j, hj⟩
      · obtain rfl : i = 0 := by omega
        decide +kernel
      · obtain rfl : i = 0 := by omega
        decide +kernel
    · obtain ⟨x, hr, -⟩ := Ex.wrote (E := Ex.env) (c := Ex'.padCfg .tnn3) (mat := Ex'.padWt 1) (m := 1) (n := 1)
        (fun _ => true) (by decide +kernel)
      obtain ⟨y, hr', -⟩ := Ex.wrote (E := Ex.env) (c := Ex'.padCfg .tnn3) (mat := Ex'.padWt 1) (m := 1) (n := 3)
        (fun _ => true) (by decide +kernel)
      refine pad_false (Ex.acfg_ok .tnn3) rfl (Or.inl rfl) (fun j hj => ?_)
        ⟨by decide, by decide, by decide⟩ hr hr' ⟨fun i hi => ?_, fun h => by cases h⟩ ⟨fun i hi => ?_, fun h => by cases h⟩
        (by decide +kernel)
      · exact (show ∀ j : Fin 3, Ex'.padIn.get j = 1 ∨ Ex'.padIn.get j = -1 ∨ Ex'.padIn.get j = 0 by decide) ⟨j, hj⟩
      · obtain rfl : i = 0 := by omega
        decide +kernel
      · obtain rfl : i = 0 := by omega
        decide +kernel
  · intro hm cfg x y h h' mat mat' vec vec' res m n n' lo hi hmd hok hid hr hr' hl hl' hw hw' hd hv hv' hres hx hA _ hroom hp
    obtain ⟨x', y', r, r', h1, h2, _, h3⟩ := C114_padding_partial (mat := mat) (mat' := mat') Ex.env_exact hok hid (fun _ => rfl) hr hr' hl hl'
      (fun _ => ⟨hw, hw'⟩) hd hv hv' hres hx hA hroom hp (fun h => (hm (hmd ▸ h)).elim)
    exact ⟨x', y', r, r', h1, h2, h3⟩

/-- The hypotheses of `C114_padding_partial`: two more columns with weights other than zero, and currents outside of the range. -/
example : (∃ x y x' y' r r', Runs Ex.env (Ex'.padCfg .tnn1) [.write (Ex'.padWt 1) 1 1] x ∧
      Runs Ex.env (Ex'.padCfg .tnn1) [.write (Ex'.padWt 1) 1 3] y ∧
      xMvm Ex.env (Ex'.padCfg .tnn1) x Ex.res Ex'.padIn (Ex'.padWt 1) 1 1 "" = .ok (x', r) ∧
      xMvm Ex.env (Ex'.padCfg .tnn1) y Ex.res Ex'.padIn (Ex'.padWt 1) 1 3 "" = .ok (y', r') ∧ r'.size = r.size ∧
      ∀ i, r'.get i = r.get i) ∧
    (conversions (Ex'.padCfg .tnn1) (stored [.write (Ex'.padWt 1) 1 3]) Ex'.padIn 3 0).head?.map (·.1) = some 5 := by
  refine ⟨?_, by decide +kernel⟩
  have w1 : ∀ {n : Nat}, WidthIs n [.write (Ex'.padWt 1) 1 n] := fun op hop => by obtain rfl := List.mem_singleton.1 hop; rfl
  obtain ⟨x, hr, -⟩ := Ex.wrote (E := Ex.env) (c := Ex'.padCfg .tnn1) (mat := Ex'.padWt 1) (m := 1) (n := 1)
    (fun _ => true) (by decide +kernel)
  obtain ⟨y, hr', -⟩ := Ex.wrote (E := Ex.env) (c := Ex'.padCfg .tnn1) (mat := Ex'.padWt 1) (m := 1) (n := 3)
    (fun _ => true) (by decide +kernel)
  obtain ⟨x', y', r, r', h⟩ := C114_padding_partial (cfg := Ex'.padCfg .tnn1) (mat := Ex'.padWt 1) (mat' := Ex'.padWt 1) (l := "")
    (res := Ex.res) Ex.env_exact (Ex.acfg_ok .tnn1) (Ex'.padCfg_ideal _) (fun h => by cases h) hr hr'
    (Ex'.padWt_stored (by decide) (Or.inl rfl)) (Ex'.padWt_stored (by decide) (Or.inl rfl)) (fun _ => ⟨w1, w1⟩)
    ⟨by decide, by decide, by decide⟩ (by decide) (by decide) (by decide)
    (fun j hj => (show ∀ j : Fin 3, Ex'.padIn.get j = 1 ∨ Ex'.padIn.get j = -1 ∨ Ex'.padIn.get j = 0 by decide) ⟨j, hj⟩)
    (Ex'.padCfg_ok .tnn1) ⟨fun i hi => by
      obtain rfl : i = 0 := by omega
      decide +kernel, fun h => by cases h⟩ (Ex'.padWt_padded 1) (fun h => h.elim)
  exact ⟨x, y, x', y', r, r', hr, hr', h⟩

/-- The hypotheses of `C114_digital`, in a mapping that applies a voltage for the input zero. -/
example : ∃ x x1 x2 y1 y2 r r', Runs Ex.env (Ex.cfg .iOffsWDiff) [] x ∧
    xWrite Ex.env (Ex.cfg .iOffsWDiff) x (Ex'.padWt 7) 1 1 = .ok x1 ∧
    xMvm Ex.env (Ex.cfg .iOffsWDiff) x1 Ex.res Ex'.padIn (Ex'.padWt 7) 1 1 "" = .ok (x2, r) ∧
    xWrite Ex.env (Ex.cfg .iOffsWDiff) x (Ex'.padWt 7) 1 3 = .ok y1 ∧
    xMvm Ex.env (Ex.cfg .iOffsWDiff) y1 Ex.res Ex'.padIn (Ex'.padWt 7) 1 3 "" = .ok (y2, r') ∧ r'.size = r.size ∧
    ∀ i, r'.get i = r.get i := by
  obtain ⟨x, hx, -⟩ := Ex.built (E := Ex.env) (c := Ex.cfg .iOffsWDiff) (fun _ => true) (by decide +kernel)
  obtain ⟨x1, x2, y1, y2, r, r', h⟩ := C114_digital (l := "") (m := 1) (n := 1) (n' := 3) (vec := Ex'.padIn) (vec' := Ex'.padIn)
    (res := Ex.res) (mat := Ex'.padWt 7) (mat' := Ex'.padWt 7) (Ex.cfg_ok .iOffsWDiff) rfl (fun _ => rfl) hx hx
    ⟨by decide, by decide, by decide⟩ (by decide) (by decide)
    (fun i j hi hj => (show ∀ i : Fin 1, ∀ j : Fin 3, |entry (Ex'.padWt 7) 3 i j| < 2 ^ 3 by decide) ⟨i, hi⟩ ⟨j, hj⟩)
    (fun _ _ => by decide) (by decide) (by decide)
    (fun j hj => (show ∀ j : Fin 3, -2 ^ 2 ≤ Ex'.padIn.get j ∧ Ex'.padIn.get j < 2 ^ 2 by decide) ⟨j, hj⟩) (by decide)
    (fun i hi => (show ∀ i : Fin 1, |Ex.res.get i| + (3 : Nat) * 2 ^ (3 + 3) ≤ 2147483647 by decide) ⟨i, hi⟩)
    ⟨by decide, fun i j hi hj => by
      obtain rfl : i = 0 := by omega
      obtain rfl : j = 0 := by omega
      rfl, fun _ _ => rfl, fun j h1 h2 => by
      obtain rfl | rfl : j = 1 ∨ j = 2 := by omega
      · rfl
      · rfl⟩
  exact ⟨x, x1, x2, y1, y2, r, r', hx, h⟩

end Acs.Props
