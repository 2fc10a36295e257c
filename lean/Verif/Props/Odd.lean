import Verif.Lemmas.Odd
import Verif.Props.Rank

/-!
# C111: inputs of the opposite sign
-/

set_option linter.unusedSectionVars false

namespace Acs.Props

open Finset Spec

section
variable {K : Type} [Field K] [LinearOrder K] [IsStrictOrderedRing K] [FloorRing K]
variable {E : Env K} {cfg : Cfg K} {mat mat' vec vec' res : Vec Int} {m n : Nat} {l : String}
variable {x : Xbar K} {h : List Op} {lo hi : K}

/-- The claim without a condition on the currents. -/
def OppositeClaim (md : Mode) : Prop :=
  ∀ (cfg : Cfg ℚ) (h : List Op) (x x' x'' : Xbar ℚ) (vec vec' res r r' mat : Vec Int) (m n : Nat) (lo hi : ℚ), cfg.mode = md →
    CfgOk cfg → Ideal cfg → 0 ≤ cfg.hrs → cfg.hrs < cfg.lrs → cfg.calibMode = .max → Runs Ex.env cfg h x →
    Legal cfg (lastWrite h) m n → Accepted cfg m n → n ≤ vec.size → n ≤ vec'.size → m ≤ res.size → LegalVec cfg vec n →
    LegalVec cfg vec' n → Opposite vec vec' n → AdcOk cfg "" lo hi → Centred cfg lo hi →
    ReadRoom cfg lo hi (stored h) res vec m n → ReadRoom cfg lo hi (stored h) res vec' m n →
    xMvm Ex.env cfg x res vec mat m n "" = .ok (x', r) → xMvm Ex.env cfg x res vec' mat m n "" = .ok (x'', r') →
    AddsOpposite r r' res m

/-- C111.  BNN_VI and TNN_I: the opposite input adds the opposite number, unless a current is halfway between two levels. -/
theorem C111_opposite_partial (hm : cfg.mode = .bnn6 ∨ cfg.mode = .tnn1) (hE : ExactArith E) (hok : CfgOk cfg) (hid : Ideal cfg)
    (hr : Runs E cfg h x) (hl : Legal cfg (lastWrite h) m n) (hd : Accepted cfg m n) (hv : n ≤ vec.size) (hv' : n ≤ vec'.size)
    (hres : m ≤ res.size) (hx : LegalVec cfg vec n) (hx' : LegalVec cfg vec' n) (ho : Opposite vec vec' n)
    (hA : AdcOk cfg l lo hi) (hc : Centred cfg lo hi) (hroom : ReadRoom cfg lo hi (stored h) res vec m n)
    (hroom' : ReadRoom cfg lo hi (stored h) res vec' m n)
    (hh : ∀ i, i < m → ¬Halfway cfg lo hi ((cfg.lrs - cfg.hrs) * (prod (stored h) vec n i : Int))) :
    ∃ x' x'' r r', xMvm E cfg x res vec mat m n l = .ok (x', r) ∧ xMvm E cfg x res vec' mat' m n l = .ok (x'', r') ∧
      AddsOpposite r r' res m := by
  have h0 : cfg.mode = .iOffsWDiff → E.strict = false := fun e => by rcases hm with hm | hm <;> rw [hm] at e <;> cases e
  have h1 : keepsRowSums cfg.mode → WidthIs n h := fun e => by rcases hm with hm | hm <;> rw [hm] at e <;> exact e.elim
  obtain ⟨x', r, h2, h3⟩ := C91_reads (mat := mat) hE hok hid h0 hr hl h1 hd hv hres hx hA hroom
  obtain ⟨x'', r', h4, h5⟩ := C91_reads (mat := mat') hE hok hid h0 hr hl h1 hd hv' hres hx' hA hroom'
  refine ⟨x', x'', r, r', h2, h4, fun i hi' => ?_⟩
  rw [h3.head i hi', h5.head i hi', add_sub_cancel_left, add_sub_cancel_left]
  refine rowResult_opp_bin hm hA hc (fun j hj => ?_) hx hx' ho (hh i hi')
  obtain ⟨w, e, hw⟩ := hl i j hi' hj
  rw [stored, e]
  exact hw

/-- C111.  I_DIFF_W_DIFF_1XB and I_DIFF_W_DIFF_2XB: the opposite input always adds the opposite number. -/
theorem C111_differential (hm : cfg.mode = .iDiffWDiff1 ∨ cfg.mode = .iDiffWDiff2) (hE : ExactArith E) (hok : CfgOk cfg)
    (hid : Ideal cfg) (hr : Runs E cfg h x) (hl : Legal cfg (lastWrite h) m n) (hd : Accepted cfg m n) (hv : n ≤ vec.size)
    (hv' : n ≤ vec'.size) (hres : m ≤ res.size) (hx : LegalVec cfg vec n) (hx' : LegalVec cfg vec' n) (ho : Opposite vec vec' n)
    (hA : AdcOk cfg l lo hi) (hc : Centred cfg lo hi) (hroom : ReadRoom cfg lo hi (stored h) res vec m n)
    (hroom' : ReadRoom cfg lo hi (stored h) res vec' m n) :
    ∃ x' x'' r r', xMvm E cfg x res vec mat m n l = .ok (x', r) ∧ xMvm E cfg x res vec' mat' m n l = .ok (x'', r') ∧
      AddsOpposite r r' res m := by
  have h0 : cfg.mode = .iOffsWDiff → E.strict = false := fun e => by rcases hm with hm | hm <;> rw [hm] at e <;> cases e
  have h1 : keepsRowSums cfg.mode → WidthIs n h := fun e => by rcases hm with hm | hm <;> rw [hm] at e <;> exact e.elim
  have hb : 1 ≤ cfg.iBit := by
    rcases hm with hm | hm <;> simp only [CfgOk, hm] at hok <;> exact hok.2.2.2.2.1
  obtain ⟨x', r, h2, h3⟩ := C91_reads (mat := mat) hE hok hid h0 hr hl h1 hd hv hres hx hA hroom
  obtain ⟨x'', r', h4, h5⟩ := C91_reads (mat := mat') hE hok hid h0 hr hl h1 hd hv' hres hx' hA hroom'
  refine ⟨x', x'', r, r', h2, h4, fun i hi' => ?_⟩
  rw [h3.head i hi', h5.head i hi', add_sub_cancel_left, add_sub_cancel_left]
  exact rowResult_opp_int hm hb hA hc hx hx' ho

/-- C111.  The ranges of the `MAX` calibration are centred. -/
theorem C111_max_centred (hs : cfg.adcType = .sym) (hc : cfg.calibMode = .max) (hA : AdcOk cfg l lo hi) : Centred cfg lo hi := by
  have h := hA.range
  simp only [adcRange, hs, hc, Option.some.injEq, Prod.mk.injEq] at h
  exact ⟨hs, by rw [← h.1, ← h.2]⟩

end

/-- C111.  The claim holds for the differential mappings. -/
theorem C111_claim (md : Mode) (hmd : md = .iDiffWDiff1 ∨ md = .iDiffWDiff2) : OppositeClaim md := by
  rintro cfg h x x' x'' vec vec' res r r' mat m n lo hi rfl hok hid - - - hr hl hd hv hv' hres hx hx' ho hA hc hroom hroom' h1 h2
  obtain ⟨y, z, s, s', h3, h4, h5⟩ := C111_differential (mat := mat) (mat' := mat) hmd Ex.env_exact hok hid hr hl hd hv hv' hres hx
    hx' ho hA hc hroom hroom'
  rw [h1] at h3
  rw [h2] at h4
  rw [(Prod.mk.inj (ok_inj.1 h3)).2, (Prod.mk.inj (ok_inj.1 h4)).2]
  exact h5

namespace Ex'

def both : Vec Int := Vec.ofList [1, 1]
def neither : Vec Int := Vec.ofList [-1, -1]

theorem pm_two {md : Mode} {v : Vec Int} (hmd : md = .bnn6 ∨ md = .tnn1) (hv : ∀ j : Fin 2, v.get j = 1 ∨ v.get j = -1) :
    LegalVec (twoBit md) v 2 := fun j hj => by
  rcases hmd with rfl | rfl
  · exact hv ⟨j, hj⟩
  · exact (hv ⟨j, hj⟩).imp_right .inl

end Ex'

/-- C111.  A current halfway between two levels is read as the upper one for both signs.  For the products `2` and `-2` the numbers `4`
and `0` are added. -/
theorem C111_false (md : Mode) (hmd : md = .bnn6 ∨ md = .tnn1) : ¬OppositeClaim md := fun hc => by
  obtain ⟨x, h1, h2⟩ := Ex.wrote (E := Ex.env) (c := Ex'.twoBit md) (mat := Ex'.both) (m := 1) (n := 2)
    (fun x => Ex.okAnd (xMvm Ex.env (Ex'.twoBit md) x (Ex.single 0) Ex'.both Ex'.both 1 2 "") (fun q => decide (q.2.get 0 = 4)) &&
      Ex.okAnd (xMvm Ex.env (Ex'.twoBit md) x (Ex.single 0) Ex'.neither Ex'.both 1 2 "") (fun q => decide (q.2.get 0 = 0)))
    (by rcases hmd with rfl | rfl <;> decide +kernel)
  rw [Bool.and_eq_true] at h2
  obtain ⟨p, h3, h4⟩ := Ex.okAnd_spec h2.1
  obtain ⟨q, h5, h6⟩ := Ex.okAnd_spec h2.2
  have := hc (Ex'.twoBit md) _ x p.1 q.1 Ex'.both Ex'.neither (Ex.single 0) p.2 q.2 Ex'.both 1 2 (-20) 20 rfl (Ex'.twoBit_ok md)
    (Ex'.twoBit_ideal md) (by show (0 : ℚ) ≤ 5; norm_num) (by show (5 : ℚ) < 10; norm_num) rfl h1
    (fun i j hi hj => ⟨1, by
      obtain rfl : i = 0 := by omega
      simp only [lastWrite, hj, and_true, if_pos (show 0 < 1 by decide)]
      exact Ex'.forall_lt (P := fun j => some (entry Ex'.both 2 0 j) = some 1) (by decide) j hj, Ex.legalW_one md⟩)
    ⟨by show 1 ≤ 2; decide, by show 2 ≤ 4; decide, by decide⟩ (by decide) (by decide) (by decide) (Ex'.pm_two hmd (by decide))
    (Ex'.pm_two hmd (by decide)) (Ex'.forall_lt (by decide))
    (by rcases hmd with rfl | rfl <;> exact Ex'.twoBit_adc _)
    (by rcases hmd with rfl | rfl <;> exact ⟨rfl, by norm_num⟩)
    ⟨Ex'.forall_lt (by rcases hmd with rfl | rfl <;> decide +kernel), fun h => by rcases hmd with rfl | rfl <;> cases h⟩
    ⟨Ex'.forall_lt (by rcases hmd with rfl | rfl <;> decide +kernel), fun h => by rcases hmd with rfl | rfl <;> cases h⟩ h3 h5
    0 (by decide)
  rw [of_decide_eq_true h4, of_decide_eq_true h6] at this
  exact absurd this (by decide)

/-! ## Instances -/

namespace Ex'

def negVec : Vec Int := Vec.ofList [-1, -1, 1]

theorem negVec_opp : Opposite Ex.vec negVec 3 := Ex.three (by decide) (by decide) (by decide)

theorem negVec_legal (md : Mode) (h : md = .iDiffWDiff1 ∨ md = .tnn1) : LegalVec (twoBit md) negVec 3 := fun j hj => by
  rcases h with rfl | rfl
  · exact Ex.three (P := fun j => -2 ^ 2 ≤ negVec.get j ∧ negVec.get j < 2 ^ 2) (by decide) (by decide) (by decide) j hj
  · exact Ex.three (P := fun j => negVec.get j = 1 ∨ negVec.get j = -1 ∨ negVec.get j = 0) (by decide) (by decide) (by decide) j hj

/-- The currents `-5` and `-15` are not halfway between `-20`, `0` and `20`. -/
theorem not_halfway : ∀ i, i < 2 →
    ¬Halfway (twoBit .tnn1) (-20) 20 (((twoBit .tnn1).lrs - (twoBit .tnn1).hrs) * (prod (stored [.write Ex.mat 2 3]) Ex.vec 3 i : Int)) := by
  have hq : adcStep (twoBit .tnn1) (-20) 20 = 20 := by decide +kernel
  refine Ex.two ?_ ?_ <;> rintro ⟨z, hz⟩ <;> rw [hq] at hz
  · rw [show max (-20) (min 20 (((twoBit .tnn1).lrs - (twoBit .tnn1).hrs)
      * (prod (stored [.write Ex.mat 2 3]) Ex.vec 3 0 : Int))) = (-5 : ℚ) by decide +kernel] at hz
    have : ((4 * z : Int) : ℚ) = 1 := by push_cast; linarith
    have : 4 * z = 1 := by exact_mod_cast this
    omega
  · rw [show max (-20) (min 20 (((twoBit .tnn1).lrs - (twoBit .tnn1).hrs)
      * (prod (stored [.write Ex.mat 2 3]) Ex.vec 3 1 : Int))) = (-15 : ℚ) by decide +kernel] at hz
    have : ((4 * z : Int) : ℚ) = -1 := by push_cast; linarith
    have : 4 * z = -1 := by exact_mod_cast this
    omega

end Ex'

/-- The hypotheses of `C111_opposite_partial`. -/
example : ∃ x x' x'' r r', Runs Ex.env (Ex'.twoBit .tnn1) [.write Ex.mat 2 3] x ∧
    xMvm Ex.env (Ex'.twoBit .tnn1) x Ex.res Ex.vec Ex.mat 2 3 "" = .ok (x', r) ∧
    xMvm Ex.env (Ex'.twoBit .tnn1) x Ex.res Ex'.negVec Ex.mat 2 3 "" = .ok (x'', r') ∧ AddsOpposite r r' Ex.res 2 := by
  obtain ⟨x, h1, _⟩ := Ex.wrote (E := Ex.env) (c := Ex'.twoBit .tnn1) (mat := Ex.mat) (m := 2) (n := 3) (fun _ => true)
    (by decide +kernel)
  obtain ⟨x', x'', r, r', h⟩ := C111_opposite_partial (cfg := Ex'.twoBit .tnn1) (mat := Ex.mat) (mat' := Ex.mat) (l := "")
    (vec := Ex.vec) (vec' := Ex'.negVec) (res := Ex.res) (lo := -20) (hi := 20) (.inr rfl) Ex.env_exact (Ex'.twoBit_ok .tnn1)
    (Ex'.twoBit_ideal .tnn1) h1 (fun i j hi hj => ⟨_, by simp [lastWrite, hi, hj], Ex.legal_mat .tnn1 i j hi hj⟩)
    (Ex'.twoBit_accepted (by decide)) (by decide) (by decide) (by decide) (Ex.legal_vec .tnn1 (by decide)) (Ex'.negVec_legal _ (.inr rfl))
    Ex'.negVec_opp (Ex'.twoBit_adc .tnn1) (C111_max_centred rfl rfl (Ex'.twoBit_adc .tnn1))
    ⟨Ex.two (by decide +kernel) (by decide +kernel), fun h => by cases h⟩
    ⟨Ex.two (by decide +kernel) (by decide +kernel), fun h => by cases h⟩ Ex'.not_halfway
  exact ⟨x, x', x'', r, r', h1, h⟩

/-- The hypotheses of `C111_differential`. -/
example : ∃ x x' x'' r r', Runs Ex.env (Ex'.twoBit .iDiffWDiff1) [.write Ex.mat 2 3] x ∧
    xMvm Ex.env (Ex'.twoBit .iDiffWDiff1) x Ex.res Ex.vec Ex.mat 2 3 "" = .ok (x', r) ∧
    xMvm Ex.env (Ex'.twoBit .iDiffWDiff1) x Ex.res Ex'.negVec Ex.mat 2 3 "" = .ok (x'', r') ∧ AddsOpposite r r' Ex.res 2 := by
  obtain ⟨x, h1, _⟩ := Ex.wrote (E := Ex.env) (c := Ex'.twoBit .iDiffWDiff1) (mat := Ex.mat) (m := 2) (n := 3) (fun _ => true)
    (by decide +kernel)
  obtain ⟨x', x'', r, r', h⟩ := C111_differential (cfg := Ex'.twoBit .iDiffWDiff1) (mat := Ex.mat) (mat' := Ex.mat) (l := "")
    (vec := Ex.vec) (vec' := Ex'.negVec) (res := Ex.res) (lo := -20) (hi := 20) (.inl rfl) Ex.env_exact (Ex'.twoBit_ok _)
    (Ex'.twoBit_ideal _) h1 (fun i j hi hj => ⟨_, by simp [lastWrite, hi, hj], Ex.legal_mat .iDiffWDiff1 i j hi hj⟩)
    (Ex'.twoBit_accepted (by decide)) (by decide) (by decide) (by decide) (Ex.legal_vec .iDiffWDiff1 (by decide))
    (Ex'.negVec_legal _ (.inl rfl)) Ex'.negVec_opp (Ex'.twoBit_adc _) (C111_max_centred rfl rfl (Ex'.twoBit_adc _))
    ⟨Ex.two (by decide +kernel) (by decide +kernel), fun h => by cases h⟩
    ⟨Ex.two (by decide +kernel) (by decide +kernel), fun h => by cases h⟩
  exact ⟨x, x', x'', r, r', h1, h⟩

end Acs.Props
