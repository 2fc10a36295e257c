import Verif.Lemmas.AMvmAny
import Verif.Props.Analog
import Verif.Props.IntRange

/-! # C78: inputs that do not fit their width, digital and analog -/

namespace Acs.Props

open Acs.Spec Finset

variable {K : Type} [Field K] [LinearOrder K] [IsStrictOrderedRing K] [FloorRing K]
variable {E : Env K} {cfg : Cfg K} {x x' y y' : Xbar K} {h : List Op} {res vec mat r q : Vec Int} {m n : Nat} {l : String}

/-- C78, as stated: an ideal analog crossbar returns the result of the digital one, whatever the inputs. -/
def SameAnyInputClaim : Prop := ∀ (E : Env ℚ) (cfg : Cfg ℚ) (h : List Op) (x x' y y' : Xbar ℚ)
  (res vec mat r q : Vec Int) (m n : Nat) (l : String), ExactArith E → cfg.mode.family = .int → CfgOk cfg →
  cfg.digitalOnly = true → Ideal { cfg with digitalOnly := false } → cfg.adcType = .inf →
  Runs E cfg h x → Runs E { cfg with digitalOnly := false } h y →
  Accepted cfg m n → LegalMat cfg (stored h) m n →
  xMvm E cfg x res vec mat m n l = .ok (x', r) →
  xMvm E { cfg with digitalOnly := false } y res vec mat m n l = .ok (y', q) → r = q

/-- It is false: with `I_BIT = 3` the input 9 counts 9 digitally and 1 in the analog crossbar. -/
theorem C78_false : ¬SameAnyInputClaim := by
  intro hc
  have hd : Ex.okAnd (do
      let x ← mkXbar Ex.env (Ex.acfg .iUintWDiff) 0 []
      let x ← xWrite Ex.env (Ex.acfg .iUintWDiff) x (Vec.ofList [1]) 1 1
      xMvm Ex.env (Ex.acfg .iUintWDiff) x (Vec.ofList [0]) (Vec.ofList [9]) (Vec.ofList [1]) 1 1 "")
      (fun r => decide (r.2.get 0 = 1)) = true := by decide +kernel
  obtain ⟨⟨y', q⟩, h1, h2⟩ := Ex.okAnd_spec hd
  simp only [bind_eq_ok] at h1
  obtain ⟨y0, e0, y1, e1, e2⟩ := h1
  have := hc Ex.env (Ex.cfg .iUintWDiff) [.write (Vec.ofList [1]) 1 1] _ _ y1 y' (Vec.ofList [0]) (Vec.ofList [9])
    (Vec.ofList [1]) _ q 1 1 "" Ex.env_exact rfl (Ex.cfg_ok _) rfl (Ex.ideal _) rfl
    (.write (.init (rng := 0) (hists := []) rfl) rfl) (.write (.init e0) e1)
    ⟨by decide, by decide, by decide⟩ (fun i j hi hj => by
      obtain rfl : i = 0 := by omega
      obtain rfl : j = 0 := by omega
      show |(1 : Int)| < 2 ^ 3
      decide) rfl e2
  have h3 : q.get 0 = 1 := by simpa using h2
  rw [← this] at h3
  exact absurd h3 (by decide)

/-- C78, what an ideal analog crossbar does with inputs of any size: the mappings with pairs of cells multiply exactly
with the bits that are applied.
Missing: the agreement with the digital crossbar, which holds where both use the same number (`C78_agree_partial`). -/
theorem C78_read_partial (hE : ExactArith E) (hfam : cfg.mode.family = .int) (hm : cfg.mode ≠ .iUintWOffs)
    (hok : CfgOk cfg) (hid : Ideal cfg) (hinf : cfg.adcType = .inf) (hgcc : cfg.mode = .iOffsWDiff → E.strict = false)
    (hr : Runs E cfg h x) (hd : Accepted cfg m n) (hw : ∀ i j, i < m → j < n → ∃ w, lastWrite h i j = some w ∧ LegalW cfg w)
    (hs : cfg.mode = .iOffsWDiff → WidthIs n h) (hv : n ≤ vec.size) (hres : m ≤ res.size)
    (hx : ∀ j, j < n → Codes cfg (vec.get j))
    (hroom : ∀ i, i < m → |res.get i| + n * 2 ^ (cfg.wBit + cfg.iBit + 1) ≤ 2147483647) :
    ∃ x' r, xMvm E cfg x res vec mat m n l = .ok (x', r) ∧
      Adds r res (stored h) ⟨vec.size, fun j => readX cfg (vec.get j)⟩ m n := by
  obtain ⟨a', e⟩ := aMvm_any (l := l) hE hfam hm hok hid hinf hgcc hr hd hw hs hv hres hx hroom
  exact ⟨_, _, xMvm_analog hid e, rfl, fun i hi => Vec.over_lt hi, fun i hi => Vec.over_ge hi⟩

/-- The offset mapping applies one bit more than `I_BIT = 3`: 9 counts 9, but -20 counts -4. -/
example : ∃ x x' r, Runs Ex.env (Ex.acfg .iOffsWDiff) [.write (Vec.ofList [3, -5]) 1 2] x ∧
    xMvm Ex.env (Ex.acfg .iOffsWDiff) x (Vec.ofList [1]) (Vec.ofList [9, -20]) (Vec.ofList [3, -5]) 1 2 "" = .ok (x', r) ∧
    r.get 0 = 1 + (3 * 9 + -5 * -4) := by
  have hd : Ex.okAnd (do
      let x ← mkXbar Ex.env (Ex.acfg .iOffsWDiff) 0 []
      xWrite Ex.env (Ex.acfg .iOffsWDiff) x (Vec.ofList [3, -5]) 1 2) (fun _ => true) = true := by decide +kernel
  obtain ⟨x, e, -⟩ := Ex.okAnd_spec hd
  simp only [bind_eq_ok] at e
  obtain ⟨x0, e0, e1⟩ := e
  have hr : Runs Ex.env (Ex.acfg .iOffsWDiff) [.write (Vec.ofList [3, -5]) 1 2] x := .write (.init e0) e1
  obtain ⟨x', r, h1, h2⟩ := C78_read_partial (cfg := Ex.acfg .iOffsWDiff) (res := Vec.ofList [1])
    (vec := Vec.ofList [9, -20]) (mat := Vec.ofList [3, -5]) (l := "") (m := 1) (n := 2) Ex.env_exact rfl (by decide)
    (Ex.acfg_ok _) (Ex.ideal _) rfl (fun _ => rfl) hr ⟨by decide, by decide, by decide⟩
    (fun i j hi hj => by
      obtain rfl : i = 0 := by omega
      obtain rfl | rfl : j = 0 ∨ j = 1 := by omega
      · exact ⟨3, rfl, by show |(3 : Int)| < 2 ^ 3; decide⟩
      · exact ⟨-5, rfl, by show |(-5 : Int)| < 2 ^ 3; decide⟩)
    (fun _ op hop => by rw [List.mem_singleton.1 hop]) (by decide) (by decide)
    (Ex.two ⟨by decide, by show InI32 (2 ^ 2 + 9); decide⟩ ⟨by decide, by show InI32 (2 ^ 2 + -20); decide⟩)
    (fun i hi => by
      obtain rfl : i = 0 := by omega
      show |(1 : Int)| + 2 * 2 ^ (3 + 3 + 1) ≤ 2147483647
      decide)
  exact ⟨x, x', r, hr, h1, (h2.head 0 (by decide)).trans (by decide)⟩

/-- C78, the offset mapping: the error is the offset of the weights times what the inputs lose. -/
theorem C78_read_offset_partial (hE : ExactArith E) (hm : cfg.mode = .iUintWOffs)
    (hok : CfgOk cfg) (hid : Ideal cfg) (hinf : cfg.adcType = .inf)
    (hr : Runs E cfg h x) (hd : Accepted cfg m n) (hw : ∀ i j, i < m → j < n → ∃ w, lastWrite h i j = some w ∧ LegalW cfg w)
    (hv : n ≤ vec.size) (hres : m ≤ res.size) (hx : ∀ j, j < n → InI32 (vec.get j))
    (hroom : ∀ i, i < m → ((|res.get i| + n * 2 ^ (cfg.wBit + cfg.iBit) : Int) : K) + |lostOffset cfg vec.get n|
      ≤ 2147483646) :
    ∃ x' r, xMvm E cfg x res vec mat m n l = .ok (x', r) ∧ r.size = res.size ∧
      (∀ i, m ≤ i → r.get i = res.get i) ∧
      ∀ i, i < m → |(r.get i : K) - (((res.get i + ∑ j ∈ range n, stored h i j * readX cfg (vec.get j) : Int) : K)
        + lostOffset cfg vec.get n)| ≤ 1 / 2 := by
  obtain ⟨a', r, e, hn⟩ := aMvm_anyV (l := l) hE hm hok hid hinf hr hd hw hv hres hx hroom
  refine ⟨_, _, xMvm_analog hid e, rfl, fun i hi => Vec.over_ge hi, fun i hi => ?_⟩
  rw [Vec.over_lt hi]
  have := hn i hi
  refine le_of_eq_of_le ?_ this
  congr 1
  push_cast
  simp only [stored, val]
  ring

/-- With `I_BIT = 3` the input 9 of the offset mapping loses 8; the offset of the weights is 4 and the current of the
high resistance state counts 7 for each, so that the result is 88 too low. -/
example : ∃ x x' r, Runs Ex.env (Ex.acfg .iUintWOffs) [.write (Vec.ofList [3]) 1 1] x ∧
    xMvm Ex.env (Ex.acfg .iUintWOffs) x (Vec.ofList [0]) (Vec.ofList [9]) (Vec.ofList [3]) 1 1 "" = .ok (x', r) ∧
    |(r.get 0 : ℚ) - (-85)| ≤ 1 / 2 := by
  have hd : Ex.okAnd (do
      let x ← mkXbar Ex.env (Ex.acfg .iUintWOffs) 0 []
      xWrite Ex.env (Ex.acfg .iUintWOffs) x (Vec.ofList [3]) 1 1) (fun _ => true) = true := by decide +kernel
  obtain ⟨x, e, -⟩ := Ex.okAnd_spec hd
  simp only [bind_eq_ok] at e
  obtain ⟨x0, e0, e1⟩ := e
  have hr : Runs Ex.env (Ex.acfg .iUintWOffs) [.write (Vec.ofList [3]) 1 1] x := .write (.init e0) e1
  have hl : lostOffset (Ex.acfg .iUintWOffs) (Vec.ofList [9]).get 1 = -88 := by decide +kernel
  obtain ⟨x', r, h1, -, -, h2⟩ := C78_read_offset_partial (cfg := Ex.acfg .iUintWOffs) (res := Vec.ofList [0])
    (vec := Vec.ofList [9]) (mat := Vec.ofList [3]) (l := "") (m := 1) (n := 1) Ex.env_exact rfl
    (Ex.acfg_ok _) (Ex.ideal _) rfl hr ⟨by decide, by decide, by decide⟩
    (fun i j hi hj => by
      obtain rfl : i = 0 := by omega
      obtain rfl : j = 0 := by omega
      exact ⟨3, rfl, by show -(2 : Int) ^ 2 ≤ 3 ∧ (3 : Int) < 2 ^ 2; decide⟩) (by decide) (by decide)
    (fun j hj => by
      obtain rfl : j = 0 := by omega
      decide)
    (fun i hi => by
      obtain rfl : i = 0 := by omega
      rw [hl]
      decide +kernel)
  refine ⟨x, x', r, hr, h1, le_of_eq_of_le ?_ (h2 0 (by decide))⟩
  rw [hl]
  congr 2
  decide +kernel

omit [Field K] [LinearOrder K] [IsStrictOrderedRing K] [FloorRing K] in
/-- Both crossbars use `I_BIT` bits of the inputs in `I_TC_W_DIFF`. -/
theorem C78_two_complement (hm : cfg.mode = .iTcWDiff) (z : Int) : usedX cfg z = readX cfg z := by
  simp only [usedX, readX, hm, if_true]

/-- Inputs that fit are used as they are. -/
theorem C78_fitting (hok : CfgOk cfg) (hfam : cfg.mode.family = .int) {z : Int} (hz : LegalX cfg z) :
    usedX cfg z = readX cfg z ∧ readX cfg z = z := by
  have hio := intOk hok (by simp [Mode.isInt, hfam])
  have i1 := hio.i1
  have hp : (2 : Int) ^ cfg.iBit = 2 * 2 ^ (cfg.iBit - 1) := by rw [← pow_succ']; congr 1; omega
  have hp' : (2 : Int) ^ (cfg.iBit + 1) = 4 * 2 ^ (cfg.iBit - 1) := by rw [pow_succ, hp]; ring
  have hp2 : (0 : Int) < 2 ^ (cfg.iBit - 1) := by positivity
  have : readX cfg z = z := by
    unfold readX
    unfold LegalX at hz
    cases hm : cfg.mode <;> simp only [hm, Mode.family, reduceCtorEq] at hfam hz ⊢
    case iOffsWDiff => rw [Int.emod_eq_of_lt (by linarith [hz.1]) (by linarith [hz.2])]; ring
    case iTcWDiff => rw [Int.emod_eq_of_lt (by linarith [hz.1]) (by linarith [hz.2])]; ring
    case iUintWDiff => exact Int.emod_eq_of_lt hz.1 hz.2
    case iUintWOffs => exact Int.emod_eq_of_lt hz.1 hz.2
    all_goals
      split
      · rw [Int.emod_eq_of_lt (by assumption) hz.2]
      · rw [Int.emod_eq_of_lt (by linarith) (by linarith [hz.1])]; ring
  refine ⟨?_, this⟩
  rw [this]
  unfold usedX
  split
  · rename_i hm
    rw [← this]
    simp only [readX, hm] at this ⊢
    rw [this]
    exact this
  · rfl

/-- C78, where it holds: the digital and the ideal analog crossbar agree on inputs that both use as the same number.
In `I_TC_W_DIFF` these are all inputs (`C78_two_complement`), in the other mappings they include all that fit. -/
theorem C78_agree_partial (hE : ExactArith E) (hfam : cfg.mode.family = .int) (hok : CfgOk cfg)
    (hdo : cfg.digitalOnly = true) (hid : Ideal { cfg with digitalOnly := false }) (hinf : cfg.adcType = .inf)
    (hgcc : cfg.mode = .iOffsWDiff → E.strict = false) (hr : Runs E cfg h x)
    (hr' : Runs E { cfg with digitalOnly := false } h y) (hd : Accepted cfg m n)
    (hw : ∀ i j, i < m → j < n → ∃ w, lastWrite h i j = some w ∧ LegalW cfg w)
    (hs : cfg.mode = .iOffsWDiff → WidthIs n h) (hv : n ≤ vec.size) (hres : m ≤ res.size)
    (hx : ∀ j, j < n → Codes cfg (vec.get j))
    (hroom : ∀ i, i < m → |res.get i| + n * 2 ^ (cfg.wBit + cfg.iBit + 1) ≤ 2147483646)
    (hsame : ∀ j, j < n → usedX cfg (vec.get j) = readX cfg (vec.get j))
    (hx' : xMvm E cfg x res vec mat m n l = .ok (x', r)) :
    ∃ y', xMvm E { cfg with digitalOnly := false } y res vec mat m n l = .ok (y', r) := by
  have hi : cfg.mode.isInt = true := by simp [Mode.isInt, hfam]
  have hio := intOk hok hi
  have hok' : CfgOk { cfg with digitalOnly := false } := hok
  have hst : ∀ i j, i < m → j < n → lastWrite h i j = some (stored h i j) := fun i j h1 h2 => by
    obtain ⟨w, h3, _⟩ := hw i j h1 h2
    rw [stored, h3]; rfl
  have hleg : ∀ i j, i < m → j < n → LegalW cfg (stored h i j) := fun i j h1 h2 => by
    obtain ⟨w, h3, h4⟩ := hw i j h1 h2
    rw [stored, h3]; exact h4
  obtain ⟨d1, d2, d3⟩ := C14_computed hfam hok hdo hr hd hst hs hx'
  have ew : ∀ i j, i < m → j < n → wrapW cfg (stored h i j) = stored h i j := fun i j h1 h2 =>
    wrapW_legal hok hfam (hleg i j h1 h2)
  have e1 : ∀ i, i < m → ∑ j ∈ range n, wrapW cfg (stored h i j) * usedX cfg (vec.get j)
      = ∑ j ∈ range n, stored h i j * readX cfg (vec.get j) := fun i h1 =>
    sum_congr rfl fun j hj => by rw [ew i j h1 (mem_range.1 hj), hsame j (mem_range.1 hj)]
  have e2 : ∀ i, i < m → cutError cfg (stored h i) n = 0 := fun i h1 => by
    unfold cutError
    split
    · rw [sum_eq_zero fun j hj => by rw [ew i j h1 (mem_range.1 hj), sub_self], mul_zero]
    · rfl
  have habs : ∀ i j, i < m → j < n → |stored h i j| ≤ 2 ^ cfg.wBit := fun i j h1 h2 => by
    have h3 := hleg i j h1 h2
    have h4 : (2 : Int) ^ (cfg.wBit - 1) ≤ 2 ^ cfg.wBit := pow_le_pow_right₀ (by norm_num) (by omega)
    unfold LegalW at h3
    cases hmd : cfg.mode <;> simp only [hmd, Mode.family, reduceCtorEq] at hfam h3 <;> first
      | exact h3.le
      | (rw [abs_le]; constructor <;> linarith [h3.1, h3.2])
  have hlim : ∀ i, i < m → |res.get i + ∑ j ∈ range n, stored h i j * readX cfg (vec.get j)| ≤ 2147483646 := fun i h1 => by
    have k1 : |∑ j ∈ range n, stored h i j * readX cfg (vec.get j)| ≤ n * (2 ^ cfg.wBit * 2 ^ (cfg.iBit + 1)) := by
      refine (abs_sum_le_sum_abs _ _).trans ?_
      simp only [abs_mul]
      exact sum_abs_mul_le (W := stored h) (fun j hj => habs i j h1 hj)
        (fun j _ => ⟨abs_nonneg _, readX_le cfg hfam hio.i1 _⟩) (by positivity)
    rw [← pow_add, ← Nat.add_assoc] at k1
    have k2 := hroom i h1
    exact (abs_add_le _ _).trans (by linarith)
  have hdig : ∀ i, i < m → r.get i = res.get i + ∑ j ∈ range n, stored h i j * readX cfg (vec.get j) := fun i h1 => by
    obtain ⟨k1, k2⟩ := d3 i h1
    rw [e1 i h1, e2 i h1, add_zero] at k2
    have k3 := hlim i h1
    rw [abs_le] at k3
    unfold InI32 at k1
    unfold Int.ModEq at k2
    omega
  by_cases hm : cfg.mode = .iUintWOffs
  · have hus : ∀ z, usedX cfg z = z := fun z => if_neg (by rw [hm]; decide)
    have hl0 : lostOffset { cfg with digitalOnly := false } vec.get n = (0 : K) := by
      unfold lostOffset
      rw [sum_eq_zero fun j hj => by
        have := hsame j (mem_range.1 hj)
        rw [hus] at this
        rw [show readX { cfg with digitalOnly := false } (vec.get j) = readX cfg (vec.get j) from rfl, ← this, sub_self]]
      simp
    obtain ⟨y', q, k1, k2, k3, k4⟩ := C78_read_offset_partial (mat := mat) (l := l) hE
      (cfg := { cfg with digitalOnly := false }) hm hok' hid hinf hr' hd hw hv hres (fun j hj => (hx j hj).1)
      (fun i h1 => by
        rw [hl0, abs_zero, add_zero]
        have k2 := hroom i h1
        rw [pow_succ] at k2
        have k3 : (0 : Int) ≤ n * 2 ^ (cfg.wBit + cfg.iBit) := by positivity
        have k4 : (|res.get i| + n * 2 ^ (cfg.wBit + cfg.iBit) : Int) ≤ 2147483646 := by linarith
        exact_mod_cast (Int.cast_le (R := K)).2 k4)
    refine ⟨y', ?_⟩
    rw [k1]
    congr 2
    refine Vec.ext' (k2.trans d1.symm) fun i => ?_
    rcases Nat.lt_or_ge i m with h1 | h1
    · have k5 := k4 i h1
      rw [hl0, add_zero, ← Int.cast_sub, ← Int.cast_abs] at k5
      have k6 : ((|q.get i - (res.get i + ∑ j ∈ range n, stored h i j * readX cfg (vec.get j))| : Int) : K) < ((1 : Int) : K) := by
        refine lt_of_le_of_lt k5 ?_
        norm_num
      have k7 := Int.cast_lt.1 k6
      rw [Int.abs_lt_one_iff] at k7
      rw [hdig i h1]
      linarith
    · rw [k3 i h1, d2 i h1]
  · obtain ⟨y', q, k1, k2⟩ := C78_read_partial (mat := mat) (l := l) hE (cfg := { cfg with digitalOnly := false })
      hfam hm hok' hid hinf hgcc hr' hd hw hs hv hres hx (fun i h1 => by have := hroom i h1; simp only; omega)
    refine ⟨y', ?_⟩
    rw [k1]
    congr 2
    refine Vec.ext' (k2.size.trans d1.symm) fun i => ?_
    rcases Nat.lt_or_ge i m with h1 | h1
    · rw [k2.head i h1, hdig i h1]; rfl
    · rw [k2.tail i h1, d2 i h1]

/-- 14 and -9 of three bits in two's complement. -/
example : ∃ x y x' y' r, Runs Ex.env (Ex.cfg .iTcWDiff) [.write (Vec.ofList [3, -5]) 1 2] x ∧
    Runs Ex.env (Ex.acfg .iTcWDiff) [.write (Vec.ofList [3, -5]) 1 2] y ∧
    xMvm Ex.env (Ex.cfg .iTcWDiff) x (Vec.ofList [1]) (Vec.ofList [14, -9]) (Vec.ofList [3, -5]) 1 2 "" = .ok (x', r) ∧
    xMvm Ex.env (Ex.acfg .iTcWDiff) y (Vec.ofList [1]) (Vec.ofList [14, -9]) (Vec.ofList [3, -5]) 1 2 "" = .ok (y', r) := by
  have hd : Ex.okAnd (do
      let x ← mkXbar Ex.env (Ex.acfg .iTcWDiff) 0 []
      xWrite Ex.env (Ex.acfg .iTcWDiff) x (Vec.ofList [3, -5]) 1 2) (fun _ => true) = true := by decide +kernel
  obtain ⟨y, e, -⟩ := Ex.okAnd_spec hd
  simp only [bind_eq_ok] at e
  obtain ⟨y0, e0, e1⟩ := e
  have hr' : Runs Ex.env (Ex.acfg .iTcWDiff) [.write (Vec.ofList [3, -5]) 1 2] y := .write (.init e0) e1
  have hr : Runs Ex.env (Ex.cfg .iTcWDiff) [.write (Vec.ofList [3, -5]) 1 2] _ :=
    .write (.init (rng := 0) (hists := []) rfl) rfl
  obtain ⟨y', h1⟩ := C78_agree_partial (cfg := Ex.cfg .iTcWDiff) (res := Vec.ofList [1])
    (vec := Vec.ofList [14, -9]) (mat := Vec.ofList [3, -5]) (l := "") (m := 1) (n := 2) Ex.env_exact rfl
    (Ex.cfg_ok _) rfl (Ex.ideal _) rfl (fun h => absurd h (by decide)) hr hr' ⟨by decide, by decide, by decide⟩
    (fun i j hi hj => by
      obtain rfl : i = 0 := by omega
      obtain rfl | rfl : j = 0 ∨ j = 1 := by omega
      · exact ⟨3, rfl, by show |(3 : Int)| < 2 ^ 3; decide⟩
      · exact ⟨-5, rfl, by show |(-5 : Int)| < 2 ^ 3; decide⟩)
    (fun h => absurd h (by decide)) (by decide) (by decide) (Ex.two ⟨by decide, trivial⟩ ⟨by decide, trivial⟩)
    (fun i hi => by
      obtain rfl : i = 0 := by omega
      show |(1 : Int)| + 2 * 2 ^ (3 + 3 + 1) ≤ 2147483646
      decide)
    (fun j _ => C78_two_complement rfl _) rfl
  exact ⟨_, y, _, y', _, hr, hr', rfl, h1⟩

end Acs.Props
