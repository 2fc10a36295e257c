import Verif.Lemmas.Flip
import Verif.Props.Rank
import Verif.Props.Reading
import Verif.Props.Digital

/-!
# C115: opposite signs in some columns
-/

set_option linter.unusedSectionVars false

namespace Acs.Props

open Finset Spec

section
variable {K : Type} [Field K] [LinearOrder K] [IsStrictOrderedRing K] [FloorRing K]
variable {E : Env K} {cfg : Cfg K} {mat mat' vec vec' res : Vec Int} {m n : Nat} {l : String}
variable {x y : Xbar K} {h h' : List Op} {lo hi : K} {b : Nat → Bool}

/-- C115.  In exact arithmetic the signs of the weights of a column and of its input can be changed together, through any real
converter, also if currents leave its range.  Missing: the mappings that are not `flipFree`, for each of which this is
false (`C115_iff`). -/
theorem C115_flip_partial (hm : flipFree cfg.mode) (hE : ExactArith E) (hok : CfgOk cfg) (hid : Ideal cfg)
    (hr : Runs E cfg h x) (hr' : Runs E cfg h' y) (hl : Legal cfg (lastWrite h) m n) (hl' : Legal cfg (lastWrite h') m n)
    (hd : Accepted cfg m n) (hv : n ≤ vec.size) (hv' : n ≤ vec'.size) (hres : m ≤ res.size) (hx : LegalVec cfg vec n)
    (hx' : LegalVec cfg vec' n) (hA : AdcOk cfg l lo hi) (hroom : ReadRoom cfg lo hi (stored h) res vec m n)
    (hp : Flipped b (stored h) (stored h') vec vec' m n) :
    ∃ x' y' r r', xMvm E cfg x res vec mat m n l = .ok (x', r) ∧ xMvm E cfg y res vec' mat' m n l = .ok (y', r') ∧
      r'.size = r.size ∧ ∀ i, r'.get i = r.get i := by
  have hg : cfg.mode = .iOffsWDiff → E.strict = false := fun h => by rw [h] at hm; exact hm.elim
  have hk : ¬keepsRowSums cfg.mode := fun hk => by
    cases hc : cfg.mode <;> simp only [hc, flipFree, keepsRowSums] at hm hk
  have hro : ReadRoom cfg lo hi (stored h') res vec' m n :=
    ⟨fun i hi' => by rw [conversions_flip hm hp hx hx' hi']; exact hroom.parts i hi',
      fun hu i hi' => by rw [rowResult_flip hm hp hx hx' hi']; exact hroom.whole hu i hi'⟩
  obtain ⟨x', r, h1, h2⟩ := C91_reads (mat := mat) hE hok hid hg hr hl (fun h => (hk h).elim) hd hv hres hx hA hroom
  obtain ⟨y', r', h3, h4⟩ := C91_reads (mat := mat') hE hok hid hg hr' hl' (fun h => (hk h).elim) hd hv' hres hx' hA hro
  refine ⟨x', y', r, r', h1, h3, h4.size.trans h2.size.symm, fun i => ?_⟩
  rcases lt_or_ge i m with hi' | hi'
  · rw [h2.head i hi', h4.head i hi', rowResult_flip hm hp hx hx' hi']
  · rw [h2.tail i hi', h4.tail i hi']

/-- C115.  Digital crossbars with any arithmetic: in every mapping. -/
theorem C115_digital (hok : CfgOk cfg) (hdo : cfg.digitalOnly = true) (hgcc : shiftsSigned cfg.mode → E.strict = false)
    (hr : Runs E cfg h x) (hr' : Runs E cfg h' y) (hd : Accepted cfg m n) (hbuf : m * n ≤ mat.size) (hbuf' : m * n ≤ mat'.size)
    (hW : LegalMat cfg (entry mat n) m n) (hW' : LegalMat cfg (entry mat' n) m n) (hsum : SumRoom cfg m n) (hv : n ≤ vec.size)
    (hv' : n ≤ vec'.size) (hx : LegalVec cfg vec n) (hx' : LegalVec cfg vec' n) (hres : m ≤ res.size) (hroom : Room cfg res m n)
    (hp : Flipped b (entry mat n) (entry mat' n) vec vec' m n) :
    ∃ x1 x2 y1 y2 r r', xWrite E cfg x mat m n = .ok x1 ∧ xMvm E cfg x1 res vec mat m n l = .ok (x2, r) ∧
      xWrite E cfg y mat' m n = .ok y1 ∧ xMvm E cfg y1 res vec' mat' m n l = .ok (y2, r') ∧
      r'.size = r.size ∧ ∀ i, r'.get i = r.get i := by
  obtain ⟨x1, x2, r, h1, h2, h3⟩ := write_mvm (mat' := mat) (l := l) hok hgcc hdo hr hd hbuf hW hsum le_rfl le_rfl
    (fun _ => rfl) hv hx hres hroom
  obtain ⟨y1, y2, r', h4, h5, h6⟩ := write_mvm (mat' := mat') (l := l) hok hgcc hdo hr' hd hbuf' hW' hsum le_rfl le_rfl
    (fun _ => rfl) hv' hx' hres hroom
  refine ⟨x1, x2, y1, y2, r, r', h1, h2, h4, h5, h6.size.trans h3.size.symm, fun i => ?_⟩
  rcases lt_or_ge i m with hi | hi
  · rw [h6.head i hi, h3.head i hi, prod_flip hp hi]
  · rw [h6.tail i hi, h3.tail i hi]

end

/-- The claim for one mapping, with the converter that the configuration allows for it and the range of the `MAX` calibration. -/
def FlipClaim (md : Mode) : Prop :=
  ∀ (cfg : Cfg ℚ) (h h' : List Op) (x y x' y' : Xbar ℚ) (mat mat' vec vec' res r r' : Vec Int) (m n : Nat) (lo hi : ℚ)
    (b : Nat → Bool), cfg.mode = md → CfgOk cfg →
    Ideal cfg → 0 ≤ cfg.hrs → cfg.hrs < cfg.lrs → cfg.calibMode = .max → adcFits cfg → Runs Ex.env cfg h x → Runs Ex.env cfg h' y →
    Legal cfg (lastWrite h) m n → Legal cfg (lastWrite h') m n → WidthIs n h → WidthIs n h' → Accepted cfg m n →
    n ≤ vec.size → n ≤ vec'.size → m ≤ res.size → LegalVec cfg vec n → LegalVec cfg vec' n →
    AdcOk cfg "" lo hi → ReadRoom cfg lo hi (stored h) res vec m n → ReadRoom cfg lo hi (stored h') res vec' m n →
    Flipped b (stored h) (stored h') vec vec' m n →
    xMvm Ex.env cfg x res vec mat m n "" = .ok (x', r) → xMvm Ex.env cfg y res vec' mat' m n "" = .ok (y', r') →
    ∀ i, r'.get i = r.get i

namespace Ex'

/-- Two numbers. -/
def signPair (a c : Int) : Vec Int := Vec.ofList [a, c]

theorem signPair_all {P : Int → Prop} {a c : Int} (ha : P a) (hc : P c) (j : Nat) (hj : j < 2) : P ((signPair a c).get j) := by
  obtain rfl | rfl : j = 0 ∨ j = 1 := by omega
  · exact ha
  · exact hc

theorem signPair_legal {cfg : Cfg ℚ} {a c : Int} (ha : LegalW cfg a) (hc : LegalW cfg c) :
    Legal cfg (lastWrite [.write (signPair a c) 1 2]) 1 2 := fun i j hi hj => by
  obtain rfl : i = 0 := by omega
  refine ⟨(signPair a c).get j, ?_, signPair_all ha hc j hj⟩
  simp [lastWrite, hj, entry]

theorem signPair_flipped (a : Int) : Flipped (fun j => j == 0) (stored [.write (signPair a a) 1 2])
    (stored [.write (signPair (-a) a) 1 2]) (signPair a a) (signPair (-a) a) 1 2 := by
  refine ⟨fun i j hi hj => ?_, fun j hj => ?_⟩
  · obtain rfl : i = 0 := by omega
    obtain rfl | rfl : j = 0 ∨ j = 1 := by omega
    · rfl
    · rfl
  · obtain rfl | rfl : j = 0 ∨ j = 1 := by omega
    · rfl
    · rfl

/-- One run of each refutes the claim. -/
theorem flip_false {md : Mode} {a : Int} (hW : LegalW (twoBit md) a) (hW' : LegalW (twoBit md) (-a)) (hX : LegalX (twoBit md) a)
    (hX' : LegalX (twoBit md) (-a))
    (h1 : ReadRoom (twoBit md) (twoBitRange md).1 (twoBitRange md).2 (stored [.write (signPair a a) 1 2]) Ex.res (signPair a a) 1 2)
    (h2 : ReadRoom (twoBit md) (twoBitRange md).1 (twoBitRange md).2 (stored [.write (signPair (-a) a) 1 2]) Ex.res
      (signPair (-a) a) 1 2) (v : Int)
    (hrun : Ex.okAnd (mkXbar Ex.env (twoBit md) 0 []) (fun x => Ex.okAnd (xWrite Ex.env (twoBit md) x (signPair a a) 1 2) fun y =>
      Ex.okAnd (xMvm Ex.env (twoBit md) y Ex.res (signPair a a) (signPair a a) 1 2 "") fun q => decide (q.2.get 0 = v)) = true)
    (hrun' : Ex.okAnd (mkXbar Ex.env (twoBit md) 0 []) (fun x =>
      Ex.okAnd (xWrite Ex.env (twoBit md) x (signPair (-a) a) 1 2) fun y =>
        Ex.okAnd (xMvm Ex.env (twoBit md) y Ex.res (signPair (-a) a) (signPair (-a) a) 1 2 "") fun q =>
          decide (q.2.get 0 ≠ v)) = true) : ¬FlipClaim md := fun hc => by
  obtain ⟨x, x', r, r1, r2, r3⟩ := Ex.multiplied (p := fun _ r => decide (r.get 0 = v)) hrun
  obtain ⟨y, y', r', s1, s2, s3⟩ := Ex.multiplied (p := fun _ r => decide (r.get 0 ≠ v)) hrun'
  have w1 : ∀ {M : Vec Int}, WidthIs 2 [.write M 1 2] := fun op hop => by obtain rfl := List.mem_singleton.1 hop; rfl
  have := hc (twoBit md) _ _ x y x' y' (signPair a a) (signPair (-a) a) (signPair a a) (signPair (-a) a) Ex.res r r' 1 2 _ _ _ rfl
    (twoBit_ok md) (twoBit_ideal md) (by show (0 : ℚ) ≤ 5; norm_num) (by show (5 : ℚ) < 10; norm_num) rfl (twoBit_fits md) r1 s1
    (signPair_legal hW hW) (signPair_legal hW' hW) w1 w1 ⟨show 1 ≤ 2 by decide, show 2 ≤ 4 by decide, by decide⟩ (le_refl 2) (le_refl 2)
    (by decide) (signPair_all hX hX) (signPair_all hX' hX) (twoBit_adc md) h1 h2 (signPair_flipped a) r2 s2 0
  rw [of_decide_eq_true r3] at this
  exact of_decide_eq_true s3 this

theorem zero_only {P : Nat → Prop} (h : P 0) (i : Nat) (hi : i < 1) : P i := by
  obtain rfl : i = 0 := by omega
  exact h

end Ex'

/-- C115.  Every other mapping tells the two apart, already with ideal cells and the converter meant for it. -/
theorem C115_others (md : Mode) (hmd : ¬flipFree md) : ¬FlipClaim md := by
  cases md <;> first | exact absurd trivial hmd | skip
  case iDiffWDiff1 =>
    exact Ex'.flip_false (a := 3) (show |(3 : Int)| < 2 ^ 3 by decide) (show |(-3 : Int)| < 2 ^ 3 by decide)
      (show -2 ^ 2 ≤ (3 : Int) ∧ (3 : Int) < 2 ^ 2 by decide) (show -2 ^ 2 ≤ (-3 : Int) ∧ (-3 : Int) < 2 ^ 2 by decide)
      ⟨Ex'.zero_only (by decide +kernel), fun h => by cases h⟩ ⟨Ex'.zero_only (by decide +kernel), fun h => by cases h⟩
      22 (by decide +kernel) (by decide +kernel)
  case iDiffWDiff2 =>
    exact Ex'.flip_false (a := 3) (show |(3 : Int)| < 2 ^ 3 by decide) (show |(-3 : Int)| < 2 ^ 3 by decide)
      (show -2 ^ 2 ≤ (3 : Int) ∧ (3 : Int) < 2 ^ 2 by decide) (show -2 ^ 2 ≤ (-3 : Int) ∧ (-3 : Int) < 2 ^ 2 by decide)
      ⟨Ex'.zero_only (by decide +kernel), fun h => by cases h⟩ ⟨Ex'.zero_only (by decide +kernel), fun h => by cases h⟩
      22 (by decide +kernel) (by decide +kernel)
  case iOffsWDiff =>
    exact Ex'.flip_false (a := 3) (show |(3 : Int)| < 2 ^ 3 by decide) (show |(-3 : Int)| < 2 ^ 3 by decide)
      (show -2 ^ 2 ≤ (3 : Int) ∧ (3 : Int) < 2 ^ 2 by decide) (show -2 ^ 2 ≤ (-3 : Int) ∧ (-3 : Int) < 2 ^ 2 by decide)
      ⟨Ex'.zero_only (by decide +kernel), fun h => by cases h⟩ ⟨Ex'.zero_only (by decide +kernel), fun h => by cases h⟩
      14 (by decide +kernel) (by decide +kernel)
  case iTcWDiff =>
    exact Ex'.flip_false (a := 3) (show |(3 : Int)| < 2 ^ 3 by decide) (show |(-3 : Int)| < 2 ^ 3 by decide)
      (show -2 ^ 2 ≤ (3 : Int) ∧ (3 : Int) < 2 ^ 2 by decide) (show -2 ^ 2 ≤ (-3 : Int) ∧ (-3 : Int) < 2 ^ 2 by decide)
      ⟨Ex'.zero_only (by decide +kernel), fun h => by cases h⟩ ⟨Ex'.zero_only (by decide +kernel), fun h => by cases h⟩
      22 (by decide +kernel) (by decide +kernel)
  case bnn1 =>
    exact Ex'.flip_false (a := 1) (Or.inl rfl) (Or.inr rfl) (Or.inl rfl) (Or.inr rfl)
      ⟨Ex'.zero_only (by decide +kernel), fun h => by cases h⟩ ⟨Ex'.zero_only (by decide +kernel), fun h => by cases h⟩
      16 (by decide +kernel) (by decide +kernel)
  case bnn2 =>
    exact Ex'.flip_false (a := 1) (Or.inl rfl) (Or.inr rfl) (Or.inl rfl) (Or.inr rfl)
      ⟨Ex'.zero_only (by decide +kernel), fun h => by cases h⟩ ⟨Ex'.zero_only (by decide +kernel), fun h => by cases h⟩
      12 (by decide +kernel) (by decide +kernel)
  case bnn3 =>
    exact Ex'.flip_false (a := 1) (Or.inl rfl) (Or.inr rfl) (Or.inl rfl) (Or.inr rfl)
      ⟨Ex'.zero_only (by decide +kernel), fun h => by cases h⟩ ⟨Ex'.zero_only (by decide +kernel), fun h => by cases h⟩
      13 (by decide +kernel) (by decide +kernel)
  case bnn4 =>
    exact Ex'.flip_false (a := 1) (Or.inl rfl) (Or.inr rfl) (Or.inl rfl) (Or.inr rfl)
      ⟨Ex'.zero_only (by decide +kernel), fun h => by cases h⟩ ⟨Ex'.zero_only (by decide +kernel), fun h => by cases h⟩
      12 (by decide +kernel) (by decide +kernel)
  case tnn2 =>
    exact Ex'.flip_false (a := 1) (Or.inl rfl) (Or.inr (Or.inl rfl)) (Or.inl rfl) (Or.inr (Or.inl rfl))
      ⟨Ex'.zero_only (by decide +kernel), fun h => by cases h⟩ ⟨Ex'.zero_only (by decide +kernel), fun h => by cases h⟩
      14 (by decide +kernel) (by decide +kernel)
  case tnn3 =>
    exact Ex'.flip_false (a := 1) (Or.inl rfl) (Or.inr (Or.inl rfl)) (Or.inl rfl) (Or.inr (Or.inl rfl))
      ⟨Ex'.zero_only (by decide +kernel), fun h => by cases h⟩ ⟨Ex'.zero_only (by decide +kernel), fun h => by cases h⟩
      16 (by decide +kernel) (by decide +kernel)
  case tnn4 =>
    exact Ex'.flip_false (a := 1) (Or.inl rfl) (Or.inr (Or.inl rfl)) (Or.inl rfl) (Or.inr (Or.inl rfl))
      ⟨Ex'.zero_only (by decide +kernel), fun h => by cases h⟩ ⟨Ex'.zero_only (by decide +kernel), fun h => by cases h⟩
      10 (by decide +kernel) (by decide +kernel)
  case tnn5 =>
    exact Ex'.flip_false (a := 1) (Or.inl rfl) (Or.inr (Or.inl rfl)) (Or.inl rfl) (Or.inr (Or.inl rfl))
      ⟨Ex'.zero_only (by decide +kernel), fun h => by cases h⟩ ⟨Ex'.zero_only (by decide +kernel), fun h => by cases h⟩
      17 (by decide +kernel) (by decide +kernel)

/-- C115.  So the claim holds exactly for the mappings that are `flipFree`. -/
theorem C115_iff (md : Mode) : FlipClaim md ↔ flipFree md := by
  refine ⟨fun hc => by_contra fun hm => C115_others md hm hc, fun hm => ?_⟩
  intro cfg h h' x y x' y' mat mat' vec vec' res r r' m n lo hi b hmd hok hid _ _ _ _ hr hr' hl hl' _ _ hd hv hv' hres hx hx' hA hroom
    _ hp hx1 hy1
  obtain ⟨x2, y2, r2, r3, h1, h2, _, h3⟩ := C115_flip_partial (mat := mat) (mat' := mat') (by rw [hmd]; exact hm) Ex.env_exact hok hid
    hr hr' hl hl' hd hv hv' hres hx hx' hA hroom hp
  rw [hx1] at h1
  rw [hy1] at h2
  obtain ⟨-, rfl⟩ := Prod.mk.inj (Except.ok.inj h1)
  obtain ⟨-, rfl⟩ := Prod.mk.inj (Except.ok.inj h2)
  exact h3

/-- The hypotheses of `C115_flip_partial`, with a converter of two bits. -/
example : ∃ x y x' y' r r', Runs Ex.env (Ex'.twoBit .bnn5) [.write (Ex'.signPair 1 1) 1 2] x ∧
    Runs Ex.env (Ex'.twoBit .bnn5) [.write (Ex'.signPair (-1) 1) 1 2] y ∧
    xMvm Ex.env (Ex'.twoBit .bnn5) x Ex.res (Ex'.signPair 1 1) (Ex'.signPair 1 1) 1 2 "" = .ok (x', r) ∧
    xMvm Ex.env (Ex'.twoBit .bnn5) y Ex.res (Ex'.signPair (-1) 1) (Ex'.signPair (-1) 1) 1 2 "" = .ok (y', r') ∧
    r'.size = r.size ∧ ∀ i, r'.get i = r.get i := by
  obtain ⟨x, hr, -⟩ := Ex.wrote (E := Ex.env) (c := Ex'.twoBit .bnn5) (mat := Ex'.signPair 1 1) (m := 1) (n := 2)
    (fun _ => true) (by decide +kernel)
  obtain ⟨y, hr', -⟩ := Ex.wrote (E := Ex.env) (c := Ex'.twoBit .bnn5) (mat := Ex'.signPair (-1) 1) (m := 1) (n := 2)
    (fun _ => true) (by decide +kernel)
  obtain ⟨x', y', r, r', h⟩ := C115_flip_partial (cfg := Ex'.twoBit .bnn5) (mat := Ex'.signPair 1 1) (mat' := Ex'.signPair (-1) 1)
    (l := "") (res := Ex.res) trivial Ex.env_exact (Ex'.twoBit_ok _) (Ex'.twoBit_ideal _) hr hr'
    (Ex'.signPair_legal (Or.inl rfl) (Or.inl rfl)) (Ex'.signPair_legal (Or.inr rfl) (Or.inl rfl))
    ⟨show 1 ≤ 2 by decide, show 2 ≤ 4 by decide, by decide⟩ (le_refl 2) (le_refl 2) (by decide)
    (Ex'.signPair_all (Or.inl rfl) (Or.inl rfl)) (Ex'.signPair_all (Or.inr rfl) (Or.inl rfl)) (Ex'.twoBit_adc _)
    ⟨Ex'.zero_only (by decide +kernel), fun h => by cases h⟩ (Ex'.signPair_flipped 1)
  exact ⟨x, y, x', y', r, r', hr, hr', h⟩

/-- The hypotheses of `C115_digital`, in a mapping that is not `flipFree`. -/
example : ∃ x x1 x2 y1 y2 r r', Runs Ex.env (Ex.cfg .iTcWDiff) [] x ∧
    xWrite Ex.env (Ex.cfg .iTcWDiff) x (Ex'.signPair 3 3) 1 2 = .ok x1 ∧
    xMvm Ex.env (Ex.cfg .iTcWDiff) x1 Ex.res (Ex'.signPair 3 3) (Ex'.signPair 3 3) 1 2 "" = .ok (x2, r) ∧
    xWrite Ex.env (Ex.cfg .iTcWDiff) x (Ex'.signPair (-3) 3) 1 2 = .ok y1 ∧
    xMvm Ex.env (Ex.cfg .iTcWDiff) y1 Ex.res (Ex'.signPair (-3) 3) (Ex'.signPair (-3) 3) 1 2 "" = .ok (y2, r') ∧
    r'.size = r.size ∧ ∀ i, r'.get i = r.get i := by
  obtain ⟨x, hx, -⟩ := Ex.built (E := Ex.env) (c := Ex.cfg .iTcWDiff) (fun _ => true) (by decide +kernel)
  have hf := Ex'.signPair_flipped 3
  have hw : |(3 : Int)| < 2 ^ 3 ∧ |(-3 : Int)| < 2 ^ 3 := by decide
  have hy : (-2 ^ 2 ≤ (3 : Int) ∧ (3 : Int) < 2 ^ 2) ∧ -2 ^ 2 ≤ (-3 : Int) ∧ (-3 : Int) < 2 ^ 2 := by decide
  have hm : ∀ {a : Int}, |a| < 2 ^ 3 → LegalMat (Ex.cfg .iTcWDiff) (entry (Ex'.signPair a 3) 2) 1 2 := fun ha i j hi hj => by
    obtain rfl : i = 0 := by omega
    have := Ex'.signPair_all (P := LegalW (Ex.cfg .iTcWDiff)) ha hw.1 j hj
    simpa [entry] using this
  obtain ⟨x1, x2, y1, y2, r, r', h⟩ := C115_digital (l := "") (m := 1) (n := 2) (b := fun j => j == 0) (vec := Ex'.signPair 3 3)
    (vec' := Ex'.signPair (-3) 3) (res := Ex.res) (mat := Ex'.signPair 3 3) (mat' := Ex'.signPair (-3) 3) (Ex.cfg_ok .iTcWDiff) rfl
    (fun _ => rfl) hx hx ⟨by decide, by decide, by decide⟩ (by decide) (by decide) (hm hw.1) (hm hw.2) (fun _ _ => by decide)
    (by decide) (by decide) (Ex'.signPair_all hy.1 hy.1) (Ex'.signPair_all hy.2 hy.1) (by decide)
    (fun i hi => (show ∀ i : Fin 1, |Ex.res.get i| + (2 : Nat) * 2 ^ (3 + 3) ≤ 2147483647 by decide) ⟨i, hi⟩)
    ⟨fun i j hi hj => by
      have := hf.mat i j hi hj
      simpa [stored, lastWrite, hi, hj] using this, hf.vec⟩
  exact ⟨x, x1, x2, y1, y2, r, r', hx, h⟩

end Acs.Props
