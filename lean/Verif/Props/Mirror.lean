import Verif.Lemmas.Mirror
import Verif.Props.Flip
import Verif.Props.Odd

/-!
# C117: matrices of the opposite sign
-/

set_option linter.unusedSectionVars false

namespace Acs.Props

open Finset Spec

section
variable {K : Type} [Field K] [LinearOrder K] [IsStrictOrderedRing K] [FloorRing K]
variable {E : Env K} {cfg : Cfg K} {mat mat' vec vec' res : Vec Int} {m n : Nat} {l : String}
variable {x y : Xbar K} {h h' : List Op} {lo hi : K}

/-- C117.  In the mappings that treat both cells of a weight alike the opposite matrix adds the opposite numbers, in exact
arithmetic, through any converter with a symmetric range, unless a current is halfway between two levels.  Missing: currents
halfway between two levels and the other mappings; without these conditions it is false for every mapping (`C117_never`). -/
theorem C117_mirror_partial (hm : balanced cfg.mode) (hE : ExactArith E) (hok : CfgOk cfg) (hid : Ideal cfg)
    (hg : cfg.mode = .iOffsWDiff → E.strict = false) (hr : Runs E cfg h x) (hr' : Runs E cfg h' y)
    (hl : Legal cfg (lastWrite h) m n) (hl' : Legal cfg (lastWrite h') m n)
    (hwid : keepsRowSums cfg.mode → WidthIs n h ∧ WidthIs n h') (hd : Accepted cfg m n) (hv : n ≤ vec.size)
    (hres : m ≤ res.size) (hx : LegalVec cfg vec n) (hA : AdcOk cfg l lo hi) (hc : Centred cfg lo hi)
    (hroom : ReadRoom cfg lo hi (stored h) res vec m n) (hroom' : ReadRoom cfg lo hi (stored h') res vec m n)
    (hp : Mirrored (stored h) (stored h') m n) (hh : NoneHalfway cfg lo hi (stored h) vec m n) :
    ∃ x' y' r r', xMvm E cfg x res vec mat m n l = .ok (x', r) ∧ xMvm E cfg y res vec mat' m n l = .ok (y', r') ∧
      AddsOpposite r r' res m := by
  obtain ⟨x', r, h1, h2⟩ := C91_reads (mat := mat) hE hok hid hg hr hl (fun hk => (hwid hk).1) hd hv hres hx hA hroom
  obtain ⟨y', r', h3, h4⟩ := C91_reads (mat := mat') hE hok hid hg hr' hl' (fun hk => (hwid hk).2) hd hv hres hx hA hroom'
  refine ⟨x', y', r, r', h1, h3, fun i hi' => ?_⟩
  rw [h2.head i hi', h4.head i hi', add_sub_cancel_left, add_sub_cancel_left]
  exact rowResult_mirrored hm hA hc hp hi' (hh i hi')

/-- C117.  Digital crossbars with any arithmetic: in every mapping. -/
theorem C117_digital (hok : CfgOk cfg) (hdo : cfg.digitalOnly = true) (hgcc : shiftsSigned cfg.mode → E.strict = false)
    (hr : Runs E cfg h x) (hr' : Runs E cfg h' y) (hd : Accepted cfg m n) (hbuf : m * n ≤ mat.size) (hbuf' : m * n ≤ mat'.size)
    (hW : LegalMat cfg (entry mat n) m n) (hW' : LegalMat cfg (entry mat' n) m n) (hsum : SumRoom cfg m n) (hv : n ≤ vec.size)
    (hx : LegalVec cfg vec n) (hres : m ≤ res.size) (hroom : Room cfg res m n)
    (hp : Mirrored (entry mat n) (entry mat' n) m n) :
    ∃ x1 x2 y1 y2 r r', xWrite E cfg x mat m n = .ok x1 ∧ xMvm E cfg x1 res vec mat m n l = .ok (x2, r) ∧
      xWrite E cfg y mat' m n = .ok y1 ∧ xMvm E cfg y1 res vec mat' m n l = .ok (y2, r') ∧ AddsOpposite r r' res m := by
  obtain ⟨x1, x2, r, h1, h2, h3⟩ := write_mvm (mat' := mat) (l := l) hok hgcc hdo hr hd hbuf hW hsum le_rfl le_rfl
    (fun _ => rfl) hv hx hres hroom
  obtain ⟨y1, y2, r', h4, h5, h6⟩ := write_mvm (mat' := mat') (l := l) hok hgcc hdo hr' hd hbuf' hW' hsum le_rfl le_rfl
    (fun _ => rfl) hv hx hres hroom
  refine ⟨x1, x2, y1, y2, r, r', h1, h2, h4, h5, fun i hi => ?_⟩
  rw [h6.head i hi, h3.head i hi, add_sub_cancel_left, add_sub_cancel_left]
  unfold prod
  rw [← sum_neg_distrib]
  exact sum_congr rfl fun j hj => by rw [hp i j hi (mem_range.1 hj), neg_mul]

end

/-- The claim for one mapping, with the converter that the configuration allows for it and the range of the `MAX` calibration. -/
def MirrorClaim (md : Mode) : Prop :=
  ∀ (cfg : Cfg ℚ) (h h' : List Op) (x y x' y' : Xbar ℚ) (mat mat' vec res r r' : Vec Int) (m n : Nat) (lo hi : ℚ),
    cfg.mode = md → CfgOk cfg →
    Ideal cfg → 0 ≤ cfg.hrs → cfg.hrs < cfg.lrs → cfg.calibMode = .max → adcFits cfg → Runs Ex.env cfg h x → Runs Ex.env cfg h' y →
    Legal cfg (lastWrite h) m n → Legal cfg (lastWrite h') m n → WidthIs n h → WidthIs n h' → Accepted cfg m n →
    n ≤ vec.size → m ≤ res.size → LegalVec cfg vec n → AdcOk cfg "" lo hi →
    ReadRoom cfg lo hi (stored h) res vec m n → ReadRoom cfg lo hi (stored h') res vec m n →
    Mirrored (stored h) (stored h') m n →
    xMvm Ex.env cfg x res vec mat m n "" = .ok (x', r) → xMvm Ex.env cfg y res vec mat' m n "" = .ok (y', r') →
    AddsOpposite r r' res m

namespace Ex'

theorem signPair_mirrored (a c : Int) : Mirrored (stored [.write (signPair a c) 1 2])
    (stored [.write (signPair (-a) (-c)) 1 2]) 1 2 := fun i j hi hj => by
  obtain rfl : i = 0 := by omega
  obtain rfl | rfl : j = 0 ∨ j = 1 := by omega
  · rfl
  · rfl

/-- One run of each refutes the claim; the buffer holds `10` before. -/
theorem mirror_false {md : Mode} {a c : Int} (hW : LegalW (twoBit md) a) (hW' : LegalW (twoBit md) (-a)) (hX : LegalX (twoBit md) c)
    (h1 : ReadRoom (twoBit md) (twoBitRange md).1 (twoBitRange md).2 (stored [.write (signPair a a) 1 2]) Ex.res (signPair c c) 1 2)
    (h2 : ReadRoom (twoBit md) (twoBitRange md).1 (twoBitRange md).2 (stored [.write (signPair (-a) (-a)) 1 2]) Ex.res
      (signPair c c) 1 2) (v v' : Int) (hne : v + v' ≠ 20)
    (hrun : Ex.okAnd (mkXbar Ex.env (twoBit md) 0 []) (fun x => Ex.okAnd (xWrite Ex.env (twoBit md) x (signPair a a) 1 2) fun y =>
      Ex.okAnd (xMvm Ex.env (twoBit md) y Ex.res (signPair c c) (signPair a a) 1 2 "") fun q => decide (q.2.get 0 = v)) = true)
    (hrun' : Ex.okAnd (mkXbar Ex.env (twoBit md) 0 []) (fun x =>
      Ex.okAnd (xWrite Ex.env (twoBit md) x (signPair (-a) (-a)) 1 2) fun y =>
        Ex.okAnd (xMvm Ex.env (twoBit md) y Ex.res (signPair c c) (signPair (-a) (-a)) 1 2 "") fun q =>
          decide (q.2.get 0 = v')) = true) : ¬MirrorClaim md := fun hc => by
  obtain ⟨x, x', r, r1, r2, r3⟩ := Ex.multiplied (p := fun _ r => decide (r.get 0 = v)) hrun
  obtain ⟨y, y', r', s1, s2, s3⟩ := Ex.multiplied (p := fun _ r => decide (r.get 0 = v')) hrun'
  have w1 : ∀ {M : Vec Int}, WidthIs 2 [.write M 1 2] := fun op hop => by obtain rfl := List.mem_singleton.1 hop; rfl
  have := hc (twoBit md) _ _ x y x' y' (signPair a a) (signPair (-a) (-a)) (signPair c c) Ex.res r r' 1 2 _ _ rfl
    (twoBit_ok md) (twoBit_ideal md) (by show (0 : ℚ) ≤ 5; norm_num) (by show (5 : ℚ) < 10; norm_num) rfl (twoBit_fits md) r1 s1
    (signPair_legal hW hW) (signPair_legal hW' hW') w1 w1 ⟨show 1 ≤ 2 by decide, show 2 ≤ 4 by decide, by decide⟩ (le_refl 2)
    (by decide) (signPair_all hX hX) (twoBit_adc md) h1 h2 (signPair_mirrored a a) r2 s2 0 (by decide)
  rw [of_decide_eq_true r3, of_decide_eq_true s3, show Ex.res.get 0 = 10 by decide] at this
  omega

end Ex'

/-- C117.  Without the conditions on the currents each mapping has a matrix whose opposite does not add the opposite number,
already with ideal cells and the converter meant for the mapping. -/
theorem C117_never (md : Mode) : ¬MirrorClaim md := by
  cases md
  case iDiffWDiff1 =>
    exact Ex'.mirror_false (a := 3) (c := 3) (show |(3 : Int)| < 2 ^ 3 by decide) (show |(-3 : Int)| < 2 ^ 3 by decide)
      (show -2 ^ 2 ≤ (3 : Int) ∧ (3 : Int) < 2 ^ 2 by decide)
      ⟨Ex'.zero_only (by decide +kernel), fun h => by cases h⟩ ⟨Ex'.zero_only (by decide +kernel), fun h => by cases h⟩
      22 10 (by decide) (by decide +kernel) (by decide +kernel)
  case iDiffWDiff2 =>
    exact Ex'.mirror_false (a := 3) (c := 3) (show |(3 : Int)| < 2 ^ 3 by decide) (show |(-3 : Int)| < 2 ^ 3 by decide)
      (show -2 ^ 2 ≤ (3 : Int) ∧ (3 : Int) < 2 ^ 2 by decide)
      ⟨Ex'.zero_only (by decide +kernel), fun h => by cases h⟩ ⟨Ex'.zero_only (by decide +kernel), fun h => by cases h⟩
      22 10 (by decide) (by decide +kernel) (by decide +kernel)
  case iOffsWDiff =>
    exact Ex'.mirror_false (a := 3) (c := 3) (show |(3 : Int)| < 2 ^ 3 by decide) (show |(-3 : Int)| < 2 ^ 3 by decide)
      (show -2 ^ 2 ≤ (3 : Int) ∧ (3 : Int) < 2 ^ 2 by decide)
      ⟨Ex'.zero_only (by decide +kernel), fun h => by cases h⟩ ⟨Ex'.zero_only (by decide +kernel), fun h => by cases h⟩
      14 34 (by decide) (by decide +kernel) (by decide +kernel)
  case iTcWDiff =>
    exact Ex'.mirror_false (a := 3) (c := 3) (show |(3 : Int)| < 2 ^ 3 by decide) (show |(-3 : Int)| < 2 ^ 3 by decide)
      (show -2 ^ 2 ≤ (3 : Int) ∧ (3 : Int) < 2 ^ 2 by decide)
      ⟨Ex'.zero_only (by decide +kernel), fun h => by cases h⟩ ⟨Ex'.zero_only (by decide +kernel), fun h => by cases h⟩
      22 10 (by decide) (by decide +kernel) (by decide +kernel)
  case iUintWDiff =>
    exact Ex'.mirror_false (a := 3) (c := 3) (show |(3 : Int)| < 2 ^ 3 by decide) (show |(-3 : Int)| < 2 ^ 3 by decide)
      (show 0 ≤ (3 : Int) ∧ (3 : Int) < 2 ^ 3 by decide)
      ⟨Ex'.zero_only (by decide +kernel), fun h => by cases h⟩ ⟨Ex'.zero_only (by decide +kernel), fun h => by cases h⟩
      22 10 (by decide) (by decide +kernel) (by decide +kernel)
  case iUintWOffs =>
    exact Ex'.mirror_false (a := 3) (c := 3) (show -2 ^ 2 ≤ (3 : Int) ∧ (3 : Int) < 2 ^ 2 by decide)
      (show -2 ^ 2 ≤ (-3 : Int) ∧ (-3 : Int) < 2 ^ 2 by decide)
      (show 0 ≤ (3 : Int) ∧ (3 : Int) < 2 ^ 3 by decide)
      ⟨Ex'.zero_only (by decide +kernel), fun _ => Ex'.zero_only (by decide +kernel)⟩
      ⟨Ex'.zero_only (by decide +kernel), fun _ => Ex'.zero_only (by decide +kernel)⟩
      56 8 (by decide) (by decide +kernel) (by decide +kernel)
  case bnn1 =>
    exact Ex'.mirror_false (a := 1) (c := 1) (Or.inl rfl) (Or.inr rfl) (Or.inl rfl)
      ⟨Ex'.zero_only (by decide +kernel), fun h => by cases h⟩ ⟨Ex'.zero_only (by decide +kernel), fun h => by cases h⟩
      16 12 (by decide) (by decide +kernel) (by decide +kernel)
  case bnn2 =>
    exact Ex'.mirror_false (a := 1) (c := -1) (Or.inl rfl) (Or.inr rfl) (Or.inr rfl)
      ⟨Ex'.zero_only (by decide +kernel), fun h => by cases h⟩ ⟨Ex'.zero_only (by decide +kernel), fun h => by cases h⟩
      12 16 (by decide) (by decide +kernel) (by decide +kernel)
  case bnn3 =>
    exact Ex'.mirror_false (a := 1) (c := 1) (Or.inl rfl) (Or.inr rfl) (Or.inl rfl)
      ⟨Ex'.zero_only (by decide +kernel), fun h => by cases h⟩ ⟨Ex'.zero_only (by decide +kernel), fun h => by cases h⟩
      13 8 (by decide) (by decide +kernel) (by decide +kernel)
  case bnn4 =>
    exact Ex'.mirror_false (a := 1) (c := 1) (Or.inl rfl) (Or.inr rfl) (Or.inl rfl)
      ⟨Ex'.zero_only (by decide +kernel), fun h => by cases h⟩ ⟨Ex'.zero_only (by decide +kernel), fun h => by cases h⟩
      12 7 (by decide) (by decide +kernel) (by decide +kernel)
  case bnn5 =>
    exact Ex'.mirror_false (a := 1) (c := 1) (Or.inl rfl) (Or.inr rfl) (Or.inl rfl)
      ⟨Ex'.zero_only (by decide +kernel), fun h => by cases h⟩ ⟨Ex'.zero_only (by decide +kernel), fun h => by cases h⟩
      13 8 (by decide) (by decide +kernel) (by decide +kernel)
  case bnn6 =>
    exact Ex'.mirror_false (a := 1) (c := 1) (Or.inl rfl) (Or.inr rfl) (Or.inl rfl)
      ⟨Ex'.zero_only (by decide +kernel), fun h => by cases h⟩ ⟨Ex'.zero_only (by decide +kernel), fun h => by cases h⟩
      14 10 (by decide) (by decide +kernel) (by decide +kernel)
  case tnn1 =>
    exact Ex'.mirror_false (a := 1) (c := 1) (Or.inl rfl) (Or.inr (Or.inl rfl)) (Or.inl rfl)
      ⟨Ex'.zero_only (by decide +kernel), fun h => by cases h⟩ ⟨Ex'.zero_only (by decide +kernel), fun h => by cases h⟩
      14 10 (by decide) (by decide +kernel) (by decide +kernel)
  case tnn2 =>
    exact Ex'.mirror_false (a := 1) (c := 1) (Or.inl rfl) (Or.inr (Or.inl rfl)) (Or.inl rfl)
      ⟨Ex'.zero_only (by decide +kernel), fun h => by cases h⟩ ⟨Ex'.zero_only (by decide +kernel), fun h => by cases h⟩
      14 10 (by decide) (by decide +kernel) (by decide +kernel)
  case tnn3 =>
    exact Ex'.mirror_false (a := 1) (c := 1) (Or.inl rfl) (Or.inr (Or.inl rfl)) (Or.inl rfl)
      ⟨Ex'.zero_only (by decide +kernel), fun h => by cases h⟩ ⟨Ex'.zero_only (by decide +kernel), fun h => by cases h⟩
      16 12 (by decide) (by decide +kernel) (by decide +kernel)
  case tnn4 =>
    exact Ex'.mirror_false (a := 1) (c := 1) (Or.inl rfl) (Or.inr (Or.inl rfl)) (Or.inl rfl)
      ⟨Ex'.zero_only (by decide +kernel), fun h => by cases h⟩ ⟨Ex'.zero_only (by decide +kernel), fun h => by cases h⟩
      10 4 (by decide) (by decide +kernel) (by decide +kernel)
  case tnn5 =>
    exact Ex'.mirror_false (a := 1) (c := 1) (Or.inl rfl) (Or.inr (Or.inl rfl)) (Or.inl rfl)
      ⟨Ex'.zero_only (by decide +kernel), fun h => by cases h⟩ ⟨Ex'.zero_only (by decide +kernel), fun h => by cases h⟩
      17 11 (by decide) (by decide +kernel) (by decide +kernel)

/-! ## Instances -/

namespace Ex'

/-- The current `5` is not halfway between `-20`, `0` and `20`. -/
theorem single_not_halfway : NoneHalfway (twoBit .tnn2) (-20) 20 (stored [.write (signPair 1 0) 1 2]) (signPair 1 1) 1 2 := by
  have hq : adcStep (twoBit .tnn2) (-20) 20 = 20 := by decide +kernel
  refine zero_only fun c hc => ?_
  have e : conversions (twoBit .tnn2) (stored [.write (signPair 1 0) 1 2]) (signPair 1 1) 2 0 = [(5, 1 / 5), (0, 2 / 5)] := by
    decide +kernel
  rw [e] at hc
  rintro ⟨z, hz⟩
  rw [hq] at hz
  rcases List.mem_cons.1 hc with rfl | hc
  · rw [show max (-20) (min 20 (5 : ℚ)) = 5 by norm_num] at hz
    have : ((4 * z : Int) : ℚ) = 3 := by push_cast; linarith
    have : 4 * z = 3 := by exact_mod_cast this
    omega
  · obtain rfl := List.mem_singleton.1 hc
    rw [show max (-20) (min 20 (0 : ℚ)) = 0 by norm_num] at hz
    have : ((2 * z : Int) : ℚ) = 1 := by push_cast; linarith
    have : 2 * z = 1 := by exact_mod_cast this
    omega

end Ex'

/-- The hypotheses of `C117_mirror_partial`, with a converter of two bits. -/
example : ∃ x y x' y' r r', Runs Ex.env (Ex'.twoBit .tnn2) [.write (Ex'.signPair 1 0) 1 2] x ∧
    Runs Ex.env (Ex'.twoBit .tnn2) [.write (Ex'.signPair (-1) (-0)) 1 2] y ∧
    xMvm Ex.env (Ex'.twoBit .tnn2) x Ex.res (Ex'.signPair 1 1) (Ex'.signPair 1 0) 1 2 "" = .ok (x', r) ∧
    xMvm Ex.env (Ex'.twoBit .tnn2) y Ex.res (Ex'.signPair 1 1) (Ex'.signPair (-1) 0) 1 2 "" = .ok (y', r') ∧
    AddsOpposite r r' Ex.res 1 := by
  obtain ⟨x, hr, -⟩ := Ex.wrote (E := Ex.env) (c := Ex'.twoBit .tnn2) (mat := Ex'.signPair 1 0) (m := 1) (n := 2)
    (fun _ => true) (by decide +kernel)
  obtain ⟨y, hr', -⟩ := Ex.wrote (E := Ex.env) (c := Ex'.twoBit .tnn2) (mat := Ex'.signPair (-1) (-0)) (m := 1) (n := 2)
    (fun _ => true) (by decide +kernel)
  obtain ⟨x', y', r, r', h⟩ := C117_mirror_partial (cfg := Ex'.twoBit .tnn2) (mat := Ex'.signPair 1 0) (mat' := Ex'.signPair (-1) 0)
    (l := "") (vec := Ex'.signPair 1 1) (res := Ex.res) (lo := -20) (hi := 20) trivial Ex.env_exact (Ex'.twoBit_ok _)
    (Ex'.twoBit_ideal _) (fun h => by cases h) hr hr' (Ex'.signPair_legal (Or.inl rfl) (Or.inr (Or.inr rfl)))
    (Ex'.signPair_legal (Or.inr (Or.inl rfl)) (Or.inr (Or.inr rfl))) (fun h => h.elim)
    ⟨show 1 ≤ 2 by decide, show 2 ≤ 4 by decide, by decide⟩ (le_refl 2) (by decide)
    (Ex'.signPair_all (Or.inl rfl) (Or.inl rfl)) (Ex'.twoBit_adc _) (C111_max_centred rfl rfl (Ex'.twoBit_adc .tnn2))
    ⟨Ex'.zero_only (by decide +kernel), fun h => by cases h⟩ ⟨Ex'.zero_only (by decide +kernel), fun h => by cases h⟩
    (Ex'.signPair_mirrored 1 0) Ex'.single_not_halfway
  exact ⟨x, y, x', y', r, r', hr, hr', h⟩

/-- The hypotheses of `C117_digital`, in a mapping that is not `balanced`. -/
example : ∃ x x1 x2 y1 y2 r r', Runs Ex.env (Ex.cfg .iUintWOffs) [] x ∧
    xWrite Ex.env (Ex.cfg .iUintWOffs) x (Ex'.signPair 3 3) 1 2 = .ok x1 ∧
    xMvm Ex.env (Ex.cfg .iUintWOffs) x1 Ex.res (Ex'.signPair 3 3) (Ex'.signPair 3 3) 1 2 "" = .ok (x2, r) ∧
    xWrite Ex.env (Ex.cfg .iUintWOffs) x (Ex'.signPair (-3) (-3)) 1 2 = .ok y1 ∧
    xMvm Ex.env (Ex.cfg .iUintWOffs) y1 Ex.res (Ex'.signPair 3 3) (Ex'.signPair (-3) (-3)) 1 2 "" = .ok (y2, r') ∧
    AddsOpposite r r' Ex.res 1 := by
  obtain ⟨x, hx, -⟩ := Ex.built (E := Ex.env) (c := Ex.cfg .iUintWOffs) (fun _ => true) (by decide +kernel)
  have hf := Ex'.signPair_mirrored 3 3
  have hm : ∀ {a : Int}, (-2 ^ 2 ≤ a ∧ a < 2 ^ 2) → LegalMat (Ex.cfg .iUintWOffs) (entry (Ex'.signPair a a) 2) 1 2 :=
    fun ha i j hi hj => by
      obtain rfl : i = 0 := by omega
      have := Ex'.signPair_all (P := LegalW (Ex.cfg .iUintWOffs)) ha ha j hj
      simpa [entry] using this
  have hy : 0 ≤ (3 : Int) ∧ (3 : Int) < 2 ^ 3 := by decide
  obtain ⟨x1, x2, y1, y2, r, r', h⟩ := C117_digital (l := "") (m := 1) (n := 2) (vec := Ex'.signPair 3 3)
    (res := Ex.res) (mat := Ex'.signPair 3 3) (mat' := Ex'.signPair (-3) (-3)) (Ex.cfg_ok .iUintWOffs) rfl
    (fun _ => rfl) hx hx ⟨by decide, by decide, by decide⟩ (by decide) (by decide) (hm (by decide)) (hm (by decide))
    (fun _ _ => by decide) (by decide) (Ex'.signPair_all hy hy) (by decide)
    (fun i hi => (show ∀ i : Fin 1, |Ex.res.get i| + (2 : Nat) * 2 ^ (3 + 3) ≤ 2147483647 by decide) ⟨i, hi⟩)
    (fun i j hi hj => by
      have := hf i j hi hj
      simpa [stored, lastWrite, hi, hj] using this)
  exact ⟨x, x1, x2, y1, y2, r, r', hx, h⟩

end Acs.Props
