import Verif.Lemmas.Blank
import Verif.Props.Widen

/-!
# C120: rows of zeros
-/

set_option linter.unusedSectionVars false

namespace Acs.Props

open Finset Spec

section
variable {K : Type} [Field K] [LinearOrder K] [IsStrictOrderedRing K] [FloorRing K]
variable {E : Env K} {cfg : Cfg K} {mat mat' vec res : Vec Int} {m n : Nat} {l : String}
variable {x : Xbar K} {h : List Op} {lo hi : K}

/-- C120.  In the mappings that treat both cells of a weight alike, a row of zeros adds nothing, in exact arithmetic, through any
real converter that has the level zero.  Missing: `I_UINT_W_OFFS`, `TNN_IV` and `TNN_V`, for which this is false
(`C120_iff`). -/
theorem C120_blank_partial (hm : balanced cfg.mode) (hE : ExactArith E) (hok : CfgOk cfg) (hid : Ideal cfg)
    (hg : cfg.mode = .iOffsWDiff → E.strict = false) (hr : Runs E cfg h x) (hl : Legal cfg (lastWrite h) m n)
    (hwid : keepsRowSums cfg.mode → WidthIs n h) (hd : Accepted cfg m n) (hv : n ≤ vec.size)
    (hres : m ≤ res.size) (hx : LegalVec cfg vec n) (hA : AdcOk cfg l lo hi) (hz : HasZero cfg lo hi)
    (hroom : ReadRoom cfg lo hi (stored h) res vec m n) :
    ∃ x' r, xMvm E cfg x res vec mat m n l = .ok (x', r) ∧
      ∀ i, i < m → BlankRow (stored h) n i → r.get i = res.get i := by
  obtain ⟨x', r, h1, h2⟩ := C91_reads (mat := mat) hE hok hid hg hr hl hwid hd hv hres hx hA hroom
  refine ⟨x', r, h1, fun i hi' hb => ?_⟩
  rw [h2.head i hi', rowResult_blank hm hA hz hb, add_zero]

/-- C120.  Digital crossbars with any arithmetic: in every mapping. -/
theorem C120_digital (hok : CfgOk cfg) (hdo : cfg.digitalOnly = true) (hgcc : shiftsSigned cfg.mode → E.strict = false)
    (hr : Runs E cfg h x) (hd : Accepted cfg m n) (hbuf : m * n ≤ mat.size)
    (hW : LegalMat cfg (entry mat n) m n) (hsum : SumRoom cfg m n) (hv : n ≤ vec.size)
    (hx : LegalVec cfg vec n) (hres : m ≤ res.size) (hroom : Room cfg res m n) :
    ∃ x1 x2 r, xWrite E cfg x mat m n = .ok x1 ∧ xMvm E cfg x1 res vec mat m n l = .ok (x2, r) ∧
      ∀ i, i < m → BlankRow (entry mat n) n i → r.get i = res.get i := by
  obtain ⟨x1, x2, r, h1, h2, h3⟩ := write_mvm (mat' := mat) (l := l) hok hgcc hdo hr hd hbuf hW hsum le_rfl le_rfl
    (fun _ => rfl) hv hx hres hroom
  refine ⟨x1, x2, r, h1, h2, fun i hi hb => ?_⟩
  rw [h3.head i hi, prod, sum_eq_zero fun j hj => by rw [hb j (mem_range.1 hj), zero_mul], add_zero]

end

/-- The claim for one mapping, with the converter that the configuration allows for it and the range of the `MAX` calibration. -/
def BlankClaim (md : Mode) : Prop :=
  ∀ (cfg : Cfg ℚ) (h : List Op) (x x' : Xbar ℚ) (mat vec res r : Vec Int) (m n : Nat) (lo hi : ℚ),
    cfg.mode = md → CfgOk cfg → Ideal cfg → 0 ≤ cfg.hrs → cfg.hrs < cfg.lrs → cfg.calibMode = .max → adcFits cfg →
    Runs Ex.env cfg h x → Legal cfg (lastWrite h) m n → WidthIs n h → Accepted cfg m n →
    n ≤ vec.size → m ≤ res.size → LegalVec cfg vec n → AdcOk cfg "" lo hi → ReadRoom cfg lo hi (stored h) res vec m n →
    xMvm Ex.env cfg x res vec mat m n "" = .ok (x', r) → ∀ i, i < m → BlankRow (stored h) n i → r.get i = res.get i

namespace Ex'

/-- One run refutes the claim; the buffer holds `10` before. -/
theorem blank_false {md : Mode} (hW : LegalW (twoBit md) 0) (hX : LegalX (twoBit md) 1)
    (h1 : ReadRoom (twoBit md) (twoBitRange md).1 (twoBitRange md).2 (stored [.write (signPair 0 0) 1 2]) Ex.res (signPair 1 1) 1 2)
    (hrun : Ex.okAnd (mkXbar Ex.env (twoBit md) 0 []) (fun x => Ex.okAnd (xWrite Ex.env (twoBit md) x (signPair 0 0) 1 2) fun y =>
      Ex.okAnd (xMvm Ex.env (twoBit md) y Ex.res (signPair 1 1) (signPair 0 0) 1 2 "") fun q => decide (q.2.get 0 ≠ 10)) = true) :
    ¬BlankClaim md := fun hc => by
  obtain ⟨x, x', r, r1, r2, r3⟩ := Ex.multiplied (p := fun _ r => decide (r.get 0 ≠ 10)) hrun
  refine of_decide_eq_true r3 (hc (twoBit md) _ x x' (signPair 0 0) (signPair 1 1) Ex.res r 1 2 _ _ rfl
    (twoBit_ok md) (twoBit_ideal md) (by show (0 : ℚ) ≤ 5; norm_num) (by show (5 : ℚ) < 10; norm_num) rfl (twoBit_fits md) r1
    (signPair_legal hW hW) (fun op hop => by obtain rfl := List.mem_singleton.1 hop; rfl)
    ⟨show 1 ≤ 2 by decide, show 2 ≤ 4 by decide, by decide⟩ (le_refl 2)
    (by decide) (signPair_all hX hX) (twoBit_adc md) h1 r2 0 (by decide) fun j hj => ?_)
  obtain rfl | rfl : j = 0 ∨ j = 1 := by omega
  · rfl
  · rfl

end Ex'

/-- C120.  The other mappings with the weight zero add something, already with ideal cells and the converter meant for them. -/
theorem C120_others (md : Mode) (hmd : md = .iUintWOffs ∨ md = .tnn4 ∨ md = .tnn5) : ¬BlankClaim md := by
  rcases hmd with rfl | rfl | rfl
  · exact Ex'.blank_false (show -2 ^ 2 ≤ (0 : Int) ∧ (0 : Int) < 2 ^ 2 by decide) (show 0 ≤ (1 : Int) ∧ (1 : Int) < 2 ^ 3 by decide)
      ⟨Ex'.zero_only (by decide +kernel), fun _ => Ex'.zero_only (by decide +kernel)⟩ (by decide +kernel)
  · exact Ex'.blank_false (Or.inr (Or.inr rfl)) (Or.inl rfl)
      ⟨Ex'.zero_only (by decide +kernel), fun h => by cases h⟩ (by decide +kernel)
  · exact Ex'.blank_false (Or.inr (Or.inr rfl)) (Or.inl rfl)
      ⟨Ex'.zero_only (by decide +kernel), fun h => by cases h⟩ (by decide +kernel)

/-- C120.  So among the mappings with the weight zero the claim holds exactly for those that are `balanced`. -/
theorem C120_iff (md : Mode) (h0 : LegalW (Ex'.twoBit md) 0) : BlankClaim md ↔ balanced md := by
  refine ⟨fun hc => by_contra fun hm => ?_, fun hm => ?_⟩
  · cases md <;> first
      | exact hm trivial
      | exact C120_others _ (.inl rfl) hc
      | exact C120_others _ (.inr (.inl rfl)) hc
      | exact C120_others _ (.inr (.inr rfl)) hc
      | exact absurd h0 (show ¬((0 : Int) = 1 ∨ (0 : Int) = -1) by decide)
  intro cfg h x x' mat vec res r m n lo hi hmd hok hid _ _ hcal _ hr hl hw hd hv hres hx hA hroom hx1
  obtain ⟨x2, r2, h1, h3⟩ := C120_blank_partial (mat := mat) (by rw [hmd]; exact hm) Ex.env_exact
    hok hid (fun _ => rfl) hr hl (fun _ => hw) hd hv hres hx hA (C118_max_zero hcal hA) hroom
  rw [hx1] at h1
  obtain ⟨-, rfl⟩ := Prod.mk.inj (Except.ok.inj h1)
  exact h3

namespace Ex'

/-- A row of zeros below another row. -/
def blankMat : Vec Int := Vec.ofList [1, -1, 0, 0]

theorem blankMat_legal (md : Mode) (h : md = .tnn3 ∨ md = .tnn5) (i j : Nat) (hi : i < 2) (hj : j < 2) :
    LegalW (twoBit md) (entry blankMat 2 i j) ∧ LegalW (Ex.cfg md) (entry blankMat 2 i j) := by
  have := forall_block (P := fun i j => entry blankMat 2 i j = 1 ∨ entry blankMat 2 i j = -1 ∨ entry blankMat 2 i j = 0)
    (m := 2) (n := 2) (by decide) i j hi hj
  rcases h with rfl | rfl <;> exact ⟨this, this⟩

end Ex'

/-- The hypotheses of `C120_blank_partial`, with a converter of two bits; the second row is blank. -/
example : ∃ x x' r, Runs Ex.env (Ex'.twoBit .tnn3) [.write Ex'.blankMat 2 2] x ∧
    xMvm Ex.env (Ex'.twoBit .tnn3) x Ex.res (Ex'.signPair 1 0) Ex'.blankMat 2 2 "" = .ok (x', r) ∧ r.get 1 = Ex.res.get 1 := by
  obtain ⟨x, hr, -⟩ := Ex.wrote (E := Ex.env) (c := Ex'.twoBit .tnn3) (mat := Ex'.blankMat) (m := 2) (n := 2)
    (fun _ => true) (by decide +kernel)
  have hA := Ex'.twoBit_adc .tnn3
  obtain ⟨x', r, h1, h2⟩ := C120_blank_partial (cfg := Ex'.twoBit .tnn3) (mat := Ex'.blankMat) (l := "")
    (vec := Ex'.signPair 1 0) (res := Ex.res) trivial Ex.env_exact (Ex'.twoBit_ok _) (Ex'.twoBit_ideal _)
    (fun h => by cases h) hr
    (fun i j hi hj => ⟨_, by simp [lastWrite, hi, hj], (Ex'.blankMat_legal _ (.inl rfl) i j hi hj).1⟩)
    (fun _ op hop => by obtain rfl := List.mem_singleton.1 hop; rfl) (Ex'.twoBit_accepted (by decide)) (le_refl 2) (by decide)
    (Ex'.signPair_all (Or.inl rfl) (Or.inr (Or.inr rfl))) hA (C118_max_zero rfl hA)
    ⟨Ex.two (by decide +kernel) (by decide +kernel), fun h => by cases h⟩
  exact ⟨x, x', r, hr, h1, h2 1 (by decide) (Ex'.forall_lt (by decide))⟩

/-- The hypotheses of `C120_digital`, in a mapping that is not `balanced`. -/
example : ∃ x x1 x2 r, Runs Ex.env (Ex.cfg .tnn5) [] x ∧ xWrite Ex.env (Ex.cfg .tnn5) x Ex'.blankMat 2 2 = .ok x1 ∧
    xMvm Ex.env (Ex.cfg .tnn5) x1 Ex.res (Ex'.signPair 1 0) Ex'.blankMat 2 2 "" = .ok (x2, r) ∧ r.get 1 = Ex.res.get 1 := by
  obtain ⟨x, hx, -⟩ := Ex.built (E := Ex.env) (c := Ex.cfg .tnn5) (fun _ => true) (by decide +kernel)
  obtain ⟨x1, x2, r, h1, h2, h3⟩ := C120_digital (l := "") (m := 2) (n := 2) (vec := Ex'.signPair 1 0)
    (res := Ex.res) (mat := Ex'.blankMat) (Ex.cfg_ok .tnn5) rfl (fun _ => rfl) hx ⟨by decide, by decide, by decide⟩ (by decide)
    (fun i j hi hj => (Ex'.blankMat_legal _ (.inr rfl) i j hi hj).2) (fun h => by cases h)
    (by decide) (Ex'.signPair_all (Or.inl rfl) (Or.inr (Or.inr rfl))) (by decide)
    (fun i hi => (show ∀ i : Fin 2, |Ex.res.get i| + 3 * (2 : Nat) ≤ 2147483647 by decide) ⟨i, hi⟩)
  exact ⟨x, x1, x2, r, hx, h1, h2, h3 1 (by decide) (Ex'.forall_lt (by decide))⟩

end Acs.Props
