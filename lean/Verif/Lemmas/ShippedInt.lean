import Verif.Lemmas.Shipped
import Verif.Lemmas.FlIntExec
import Verif.Lemmas.FlIntIeee

/-!
# The analog files of the integer mappings
-/

namespace Acs

open Spec Finset

theorem answersBy_imp {G G' : List Op → Vec Int → Vec Int → Nat → Nat → String → Vec Int → Prop}
    {P : List Op → Vec Int → Vec Int → Nat → Nat → String → Prop} {h ops : List Op} {rs : List (Vec Int)}
    (hG : ∀ h res vec m n l r, P h res vec m n l → G h res vec m n l r → G' h res vec m n l r)
    (hP : EveryMvm P h ops) (ha : AnswersBy G h ops rs) : AnswersBy G' h ops rs := by
  induction ha with
  | nil => exact .nil
  | write _ ih => exact .write (ih hP)
  | mvm a _ ih => exact .mvm (hG _ _ _ _ _ _ _ hP.1 a) (ih hP.2)

/-- Errors of integers are integers. -/
theorem AddsUpTo.floor {e : Nat → ℚ} {B : Nat} {r res vec : Vec Int} {W : Nat → Nat → Int} {m n : Nat}
    (h : AddsUpTo e r res W vec m n) (he : ∀ i, i < m → e i < B + 1) : AddsUpTo (fun _ => (B : ℚ)) r res W vec m n := by
  refine ⟨h.size, fun i hi => ?_, h.tail⟩
  have := (h.head i hi).trans_lt (he i hi)
  rw [← Int.cast_sub, ← Int.cast_abs] at this ⊢
  have h2 : |r.get i - (res.get i + prod W vec n i)| < (B : Int) + 1 := by exact_mod_cast this
  exact_mod_cast (show |r.get i - (res.get i + prod W vec n i)| ≤ (B : Int) by omega)

/-- Bits of the inputs. -/
def shippedBits : Mode → List Nat
  | .iDiffWDiff1 | .iDiffWDiff2 => List.range 7 ++ List.range 8
  | .iOffsWDiff => List.range 9
  | _ => List.range 8

/-- Factors of the conversions of a row. -/
def shippedFactors (md : Mode) : List ℚ :=
  (shippedBits md).flatMap fun b => [2 ^ (7 + b) / 25, 2 ^ (4 + b) * 7 / 25, 2 ^ b * 15 / 25]

variable {E : Env ℚ} {c : Cfg ℚ} {md : Mode} {W : Nat → Nat → Int} {vec : Vec Int} {n i : Nat}

theorem AnalogShipped.factors (h : AnalogShipped md c) (hf : md.family = .int) :
    (conversions c W vec n i).map (fun k => |k.2|) = shippedFactors md := by
  obtain ⟨h1, h2, h3⟩ := h.int hf
  have e0 : shiftOf [1, 3, 4] 0 = 7 := rfl
  have e1 : shiftOf [1, 3, 4] 1 = 4 := rfl
  have e2 : shiftOf [1, 3, 4] 2 = 0 := rfl
  have key : ∀ (f : Nat → ℚ) (sg : ℚ), |sg| = 1 → ∀ b,
      ((List.range [1, 3, 4].length).map fun s => (f s, sg * (2 ^ (shiftOf [1, 3, 4] s + b) * (2 ^ [1, 3, 4].getD s 0 - 1)) / (30 - 5))).map
        (fun k : ℚ × ℚ => |k.2|) = [2 ^ (7 + b) / 25, 2 ^ (4 + b) * 7 / 25, 2 ^ b * 15 / 25] := by
    intro f sg hsg b
    rw [show List.range [1, 3, 4].length = [0, 1, 2] from rfl]
    simp only [List.map_cons, List.map_nil, e0, e1, e2, abs_div, abs_mul, hsg, one_mul, abs_pow, List.getD_cons_zero,
      List.getD_cons_succ, zero_add]
    norm_num
  unfold conversions shippedFactors
  rw [h.mode, h2, h3, h.hrs, h.lrs]
  cases md <;> first | cases hf | skip
  all_goals
    simp only [List.map_append, List.map_flatMap, shippedBits, List.flatMap_append, key _ 1 (by norm_num),
      key _ (-1) (by norm_num)]

theorem absorb_mono {a b : ℚ} (h : a ≤ b) : absorb a ≤ absorb b := by
  unfold absorb
  split <;> split <;> linarith

variable {lo hi ε κ ν ω A : ℚ} {q : Prec ℚ} {B : Nat}

/-- Error of a conversion, relative to its factor. -/
def relError (c : Cfg ℚ) (lo hi ε : ℚ) (q : Prec ℚ) (n : Nat) : ℚ :=
  (1 + q.θ) * ((1 + q.u) * sliceDev c ε q n + adcStep c lo hi / 2 + 7 * adcRound c lo hi q)
    + (q.θ + 5 * q.u) * max |lo| |hi|

/-- Bound for the error of a conversion with factor `a`. -/
def stepBound (md : Mode) (κ ν a : ℚ) : ℚ :=
  if md = .iUintWOffs then a * κ + 1 / 2 ^ 150 + 1 / 2 + ν else absorb (a * κ + 1 / 2 ^ 150)

/-- Bound for the error of a row. -/
def rowBound (md : Mode) (κ ν ω : ℚ) : ℚ :=
  if md = .iUintWOffs then absorb (((shippedFactors md).map (stepBound md κ ν)).sum + ω)
  else ((shippedFactors md).map (stepBound md κ ν)).sum

theorem stepError_le (h : AnalogShipped md c) (hf : md.family = .int) (hη : q.η ≤ 1 / 2 ^ 150)
    (hκ : relError c lo hi ε q n ≤ κ) (hν : md = .iUintWOffs → q.u * A + q.η ≤ ν) (s : ℚ) :
    stepError c lo hi ε q A n s ≤ stepBound md κ ν |s| := by
  have hr := shippedAdc_real md
  have e : levelError c lo hi ε q n s = |s| * relError c lo hi ε q n + q.η := rfl
  have le : levelError c lo hi ε q n s ≤ |s| * κ + 1 / 2 ^ 150 := by
    rw [e]
    exact add_le_add (mul_le_mul_of_nonneg_left hκ (abs_nonneg s)) hη
  have ha := h.adc
  unfold stepError stepBound
  rw [h.mode]
  cases hm : c.adcType
  · rw [hm] at ha
    exact absurd ha.symm hr
  all_goals
    cases md <;> first | cases hf | skip
    any_goals
      rw [if_neg (by decide)]
      exact absorb_mono le
    rw [if_pos rfl]
    have := hν rfl
    linarith

theorem AnalogShipped.sum_le (h : AnalogShipped md c) (hf : md.family = .int) {f : ℚ × ℚ → ℚ} {g : ℚ → ℚ}
    (hg : ∀ k ∈ conversions c W vec n i, f k ≤ g |k.2|) :
    ((conversions c W vec n i).map f).sum ≤ ((shippedFactors md).map g).sum := by
  rw [← h.factors hf (W := W) (vec := vec) (n := n) (i := i), List.map_map]
  exact List.sum_le_sum hg

theorem intError_le (h : AnalogShipped md c) (hf : md.family = .int) (hη : q.η ≤ 1 / 2 ^ 150)
    (hκ : relError c lo hi ε q n ≤ κ) (hν : md = .iUintWOffs → q.u * A + q.η ≤ ν)
    (hω : md = .iUintWOffs → offsetRound c q A n ≤ ω) : intError c lo hi ε q A W vec n i ≤ rowBound md κ ν ω := by
  have k := h.sum_le hf (W := W) (vec := vec) (n := n) (i := i) fun k _ => stepError_le h hf hη hκ hν k.2
  unfold intError rowBound
  rw [h.mode]
  split
  · next hm => exact absorb_mono (add_le_add k (hω hm))
  · exact k

/-- The integer mappings, for a bound `κ` of the error of a conversion. -/
theorem shipped_int (h : AnalogShipped md c) (hf : md.family = .int) (hq : Rounds E q) (hsc : IntScale E c q)
    (h0 : 0 ≤ ε) (hc : CellsRound c ε q) (hgcc : c.mode = .iOffsWDiff → E.strict = false)
    (hu : q.u ≤ 1 / 2 ^ 24) (hη0 : 0 ≤ q.η) (hη : q.η ≤ 1 / 2 ^ 150) (hε : ε ≤ 30 / 2 ^ 19)
    (hκ : ∀ n, n ≤ 32 → relError c (shippedRange md).1 (shippedRange md).2 ε q n ≤ κ)
    (hν : md = .iUintWOffs → q.u * A + q.η ≤ ν) (hω : md = .iUintWOffs → ∀ n, n ≤ 32 → offsetRound c q A n ≤ ω)
    (hA0 : 0 ≤ A) (hA : A ≤ 2 ^ 24) (hR : ((shippedFactors md).map fun a => 960 * a + stepBound md κ ν a).sum + 2 ^ 20 ≤ A)
    (hB : rowBound md κ ν ω < B + 1) (hB' : B ≤ 1000)
    {x : Xbar ℚ} {w : Nat} {hist ops : List Op} (hr : Runs E c hist x) (hh : HistOk c w hist)
    (hl : LegalOps c w hist ops) (hb : SmallBuffers (2 ^ 20) hist ops) :
    ∃ x' rs, exec E c x ops = .ok (x', rs) ∧ AnswersUpTo (fun _ _ _ => (B : ℚ)) hist ops rs := by
  obtain ⟨f1, f2, f3⟩ := h.int hf
  have hi : c.mode.isInt = true := by
    rw [h.mode]
    cases md <;> first | rfl | cases hf
  have h45 : md ≠ .tnn4 ∧ md ≠ .tnn5 := ⟨(by rintro rfl; cases hf), (by rintro rfl; cases hf)⟩
  have hid : Ideal c := ⟨h.digital, h.par, h.c2c, h.rd, h.prof, fun e => (Bool.noConfusion (hi.symm.trans e)),
    by rw [h.hrs, h.lrs]; norm_num, fun _ => by rw [f3]; decide⟩
  have key := EveryMvm.and (legal_everyMvm hh hl) hb
  have hst := h.step
  have hmax : max |(shippedRange (K := ℚ) md).1| |(shippedRange (K := ℚ) md).2| ≤ 960 := by
    unfold shippedRange
    split <;> norm_num
  have hmax0 : (0 : ℚ) ≤ max |(shippedRange (K := ℚ) md).1| |(shippedRange (K := ℚ) md).2| :=
    (abs_nonneg _).trans (le_max_left _ _)
  have htop : topCurrent c ε = 30 + ε := by
    unfold topCurrent
    rw [h.hrs, h.lrs]
    norm_num
  have hu0 := hq.pos
  have err : ∀ {W vec n i}, n ≤ 32 → intError c (shippedRange md).1 (shippedRange md).2 ε q A W vec n i < B + 1 :=
    fun hn => (intError_le h (hf) hη (hκ _ hn) hν (hω · _ hn)).trans_lt hB
  suffices hP : AllIntRounds c (fun _ => shippedRange md) ε q A hist ops by
    obtain ⟨x', rs, k1, k2⟩ := exec_int hq hsc h0 hc (h.ok (h.mode ▸ hf)) hid hi hgcc hr hh hl hP
    exact ⟨x', rs, k1, answersBy_imp (fun g res vec m n l r k a =>
      AddsUpTo.floor a fun i _ => err (h.N ▸ k.1.2.dims.2.1)) key k2⟩
  refine everyMvm_imp (fun g res vec m n l k => ?_) key
  have hn : n ≤ 32 := h.N ▸ k.1.2.dims.2.1
  have hn' : (n : ℚ) ≤ 32 := by exact_mod_cast hn
  have hin : ∀ i, i < m → ∀ k ∈ conversions c (stored g) vec n i,
      (shippedRange md).1 ≤ k.1 ∧ k.1 ≤ (shippedRange md).2 := fun i hi =>
    h.inRange h45 k.1.2.dims.2.1 (fun i j hi hj => ((legal_of k.1.1 k.1.2).val hi hj).1) k.1.2.vals hi
  have hres : ∀ i, i < m → |(res.get i : ℚ)| ≤ 2 ^ 20 := fun i hi => by
    rw [← Int.cast_abs]
    exact_mod_cast k.2 i hi
  refine ⟨hu.trans (by norm_num), ?_, hA0, hA, fun _ => ?_, fun _ => ⟨h.adcOk l, ⟨hu.trans (by norm_num),
    hη.trans (by norm_num), by rw [h.res]; decide, by rw [h.N]; decide, ?_, ?_⟩, hin⟩, fun i hi => ?_, fun i hi => ?_⟩
  · unfold columnError cellRound colRound
    rw [htop]
    have h1 : q.u * (5 * (30 + ε)) ≤ 1 / 10000 := by nlinarith
    have h2 : q.u * (4 * (n + 1) * (30 + ε)) ≤ 1 / 2 ^ 24 * (4 * (32 + 1) * (30 + 1)) := by
      have : ε ≤ 1 := hε.trans (by norm_num)
      gcongr
    have h3 : q.η ≤ 1 / 10000 := hη.trans (by norm_num)
    norm_num at h2
    nlinarith
  · rw [f2]
    have : (n : Int) ≤ 32 := by exact_mod_cast hn
    omega
  · have h1 : adcRound c (shippedRange md).1 (shippedRange md).2 q ≤ 1 / 2 ^ 24 * (4 * 960) + 1 / 2 ^ 150 * (3 * 960 + 2 * 32 + 2) := by
      unfold adcRound
      rw [h.N]
      push_cast
      gcongr
    have h2 : (960 : ℚ) ≤ (shippedRange md).2 - (shippedRange md).1 := by
      unfold shippedRange
      split <;> norm_num
    norm_num at h1
    linarith
  · have h1 : q.η ≤ 1 / 10000 := hη.trans (by norm_num)
    rw [hst]
    split <;> linarith
  · have h1 := h.sum_le hf (W := stored g) (vec := vec) (n := n) (i := i)
      (f := fun k => |k.1 * k.2| + stepError c (shippedRange md).1 (shippedRange md).2 ε q A n k.2)
      (g := fun a => 960 * a + stepBound md κ ν a) fun k hk => by
        refine add_le_add ?_ (stepError_le h hf hη (hκ _ hn) hν _)
        rw [abs_mul]
        have := hin i hi k hk
        exact mul_le_mul_of_nonneg_right ((abs_le_max_abs_abs this.1 this.2).trans hmax) (abs_nonneg _)
    have h2 := hres i hi
    linarith
  · have h1 := err (W := stored g) (vec := vec) (i := i) hn
    have h2 := hres i hi
    have h3 : (B : ℚ) ≤ 1000 := by exact_mod_cast hB'
    have h4 : (peak c n : ℚ) ≤ 32 * 2 ^ 16 := by
      have : peak c n = n * 2 ^ 16 := by
        unfold peak
        rw [h.mode, f1, f2]
        cases md <;> first | rfl | cases hf
      rw [this]
      push_cast
      linarith
    push_cast
    linarith

theorem shipped_single (hE : Ieee E) (h : AnalogShipped md c) (hf : md.family = .int)
    (hgcc : c.mode = .iOffsWDiff → E.strict = false)
    {x : Xbar ℚ} {w : Nat} {hist ops : List Op} (hr : Runs E c hist x) (hh : HistOk c w hist)
    (hl : LegalOps c w hist ops) (hb : SmallBuffers (2 ^ 20) hist ops) :
    ∃ x' rs, exec E c x ops = .ok (x', rs) ∧ AnswersUpTo (fun _ _ _ => (singleUnits md : ℚ)) hist ops rs := by
  obtain ⟨f1, f2, f3⟩ := h.int hf
  have hi : c.mode.isInt = true := by
    rw [h.mode]
    cases md <;> first | rfl | cases hf
  have hd : |c.lrs - c.hrs| = 25 := by
    rw [h.hrs, h.lrs]
    norm_num
  have hε : max |c.hrs| |c.lrs| * 2 ^ (-19 : ℤ) = 30 / 2 ^ 19 := by
    rw [h.hrs, h.lrs]
    norm_num
  have hsc := intScale32 hE (by rw [hd]; norm_num) (by rw [hd]; norm_num) (h.ok (h.mode ▸ hf)) hi (by rw [f3]; decide)
    (by rw [f1]; decide)
  have hc := cellsRound32 (cfg := c) (by rw [hd]; norm_num)
  unfold eps32 at hc
  rw [hε] at hc
  refine shipped_int (κ := 168 / 10000) (ν := 1 / 4 + 1 / 10000) (ω := 3 / 4) (A := if md = .iUintWOffs then 2 ^ 22 else 2 ^ 23) h hf
    (ieee_rounds hE) hsc (by norm_num) hc hgcc (by norm_num [prec32]) (by norm_num [prec32]) (by norm_num [prec32]) le_rfl
    (fun n hn => ?_) (fun hm => ?_) (fun hm n hn => ?_) (by split <;> norm_num) (by split <;> norm_num) ?_ ?_ ?_ hr hh hl hb
  · have y0 : (0 : ℚ) ≤ n := Nat.cast_nonneg n
    have y1 : (n : ℚ) ≤ 32 := by exact_mod_cast hn
    have y2 : (n : ℚ) * n ≤ 1024 := by nlinarith
    have htop : topCurrent c (30 / 2 ^ 19) = 30 + 30 / 2 ^ 19 := by
      unfold topCurrent
      rw [h.hrs, h.lrs]
      norm_num
    have dev : sliceDev c (30 / 2 ^ 19) prec32 n ≤ 13927 / 1000000 := by
      unfold sliceDev columnError cellRound colRound
      rw [htop]
      simp only [prec32]
      norm_num
      nlinarith
    have hR : adcRound c (shippedRange md).1 (shippedRange md).2 prec32 ≤
        if shippedAdc md = .sym then 191 / 1000000 else 229 / 1000000 := by
      unfold adcRound shippedRange
      rw [h.N]
      simp only [prec32]
      split <;> norm_num
    unfold relError
    rw [h.step]
    have hmax : max |(shippedRange (K := ℚ) md).1| |(shippedRange (K := ℚ) md).2| =
        if shippedAdc md = .sym then 800 else 960 := by
      unfold shippedRange
      split <;> norm_num
    rw [hmax]
    generalize sliceDev c (30 / 2 ^ 19) prec32 n = d at dev
    generalize adcRound c (shippedRange md).1 (shippedRange md).2 prec32 = r at hR
    simp only [prec32]
    split at hR <;> norm_num [*] <;> linarith
  · rw [if_pos hm]
    norm_num [prec32]
  · have y0 : (0 : ℚ) ≤ n := Nat.cast_nonneg n
    have y1 : (n : ℚ) ≤ 32 := by exact_mod_cast hn
    rw [if_pos hm]
    unfold offsetRound offsetMax offsetError inputMax weightOffset
    rw [h.hrs, h.lrs, f1, f2]
    simp only [prec32]
    norm_num
    linarith
  · cases md <;> first | exact absurd hf (by decide) | decide +kernel
  · cases md <;> first | exact absurd hf (by decide) | decide +kernel
  · cases md <;> first | exact absurd hf (by decide) | decide

theorem shipped_exact (hE : ExactArith E) (h : AnalogShipped md c) (hf : md.family = .int)
    (hsc : IntScale E c ⟨0, 0, 0⟩) (hc : CellsRound c 0 ⟨0, 0, 0⟩) (hq : Rounds E ⟨0, 0, 0⟩)
    (hgcc : c.mode = .iOffsWDiff → E.strict = false)
    {x : Xbar ℚ} {w : Nat} {hist ops : List Op} (hr : Runs E c hist x) (hh : HistOk c w hist)
    (hl : LegalOps c w hist ops) (hb : SmallBuffers (2 ^ 20) hist ops) :
    ∃ x' rs, exec E c x ops = .ok (x', rs) ∧ AnswersUpTo (fun _ _ _ => (exactUnits md : ℚ)) hist ops rs := by
  refine shipped_int (κ := if md = .iUintWOffs then 480 / 1048575 else 800 / 1048574) (ν := 0) (ω := 0)
    (A := if md = .iUintWOffs then 2 ^ 22 else 2 ^ 23) h hf
    hq hsc le_rfl hc hgcc (by norm_num) le_rfl (by norm_num) (by norm_num)
    (fun n hn => ?_) (fun hm => ?_) (fun hm n hn => ?_) (by split <;> norm_num) (by split <;> norm_num) ?_ ?_ ?_ hr hh hl hb
  · unfold relError sliceDev columnError cellRound colRound adcRound
    rw [h.step]
    cases md <;> first | exact absurd hf (by decide) | norm_num [shippedAdc]
    all_goals rw [if_neg (by decide)]
    norm_num
  · norm_num
  · unfold offsetRound offsetMax offsetError
    norm_num
  · cases md <;> first | exact absurd hf (by decide) | decide +kernel
  · cases md <;> first | exact absurd hf (by decide) | decide +kernel
  · cases md <;> first | exact absurd hf (by decide) | decide

end Acs
