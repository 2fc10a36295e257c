import Verif.Lemmas.WriteIff
import Verif.Lemmas.MvmIff
import Verif.Props.Shipped

/-! # Which writes return (C99) -/

set_option linter.unusedSectionVars false

namespace Acs.Props

open Spec Finset

section
variable {K : Type} [Field K] [LinearOrder K] [IsStrictOrderedRing K] [FloorRing K]
variable {E : Env K} {w w' : World K} {hs : List Op} {mat : Vec Int} {m n : Nat}

/-- C99.  A write to a digital crossbar is carried out exactly when the matrix fits, its buffer holds all weights, and the
mapping can process them without an abort or an overflow. -/
theorem C99_write (h : Session E hs w) (hok : CfgOk w.cfg) (hdo : w.cfg.digitalOnly = true)
    (hm : m < 2147483648 ∧ n < 2147483648) (h32 : Int32s mat) :
    (∃ w', cpyMtrx E mat m n w = .ok (w', 0)) ↔
      Accepted w.cfg m n ∧ m * n ≤ mat.size ∧ Writable w.cfg (entry mat n) m n := by
  obtain ⟨_, x, hx⟩ := session_inv h
  constructor
  · rintro ⟨w', h1⟩
    rcases cpyMtrx_inv h1 with ⟨_, h2, _⟩ | ⟨y, y', h2, h3, _, h4, _⟩
    · cases h2
    have hd : Accepted w.cfg m n := by
      unfold tooBig at h3
      rw [toU32_cast hm.1, toU32_cast hm.2] at h3
      exact ⟨by omega, by omega, by omega⟩
    rw [hx.xbar] at h2
    cases h2
    rw [toSize_cast hm.1, toSize_cast hm.2] at h4
    exact ⟨hd, (xWrite_iff hok (hx.shape hdo) hdo hd h32).1 ⟨_, h4⟩⟩
  · rintro ⟨hd, h1⟩
    obtain ⟨x', h2⟩ := (xWrite_iff hok (hx.shape hdo) hdo hd h32).2 h1
    refine ⟨{ w with xbar := some x' }, ?_⟩
    unfold cpyMtrx
    rw [hx.xbar]
    simp only
    rw [if_neg (not_tooBig hd hm), toSize_cast hm.1, toSize_cast hm.2, h2]
    rfl

/-- C99.  It is rejected exactly when the matrix does not fit, whatever the buffer holds. -/
theorem C99_rejected (h : Session E hs w) (hm : m < 2147483648 ∧ n < 2147483648) :
    (∃ w', cpyMtrx E mat m n w = .ok (w', -1)) ↔ ¬(m ≤ w.cfg.M ∧ n ≤ w.cfg.N) := by
  obtain ⟨_, x, hx⟩ := session_inv h
  constructor
  · rintro ⟨w', h1⟩
    rcases cpyMtrx_inv h1 with ⟨_, _, h2 | h2⟩ | ⟨y, y', _, _, h2, _⟩
    · rw [hx.xbar] at h2
      cases h2
    · unfold tooBig at h2
      rw [toU32_cast hm.1, toU32_cast hm.2] at h2
      omega
    · cases h2
  · intro h1
    refine ⟨w, ?_⟩
    unfold cpyMtrx
    rw [hx.xbar]
    simp only
    rw [if_pos]
    unfold tooBig
    rw [toU32_cast hm.1, toU32_cast hm.2]
    omega

/-- C99.  In every other case the call does not return: the program is aborted or its behaviour undefined. -/
theorem C99_lost (h : Session E hs w) (hok : CfgOk w.cfg) (hdo : w.cfg.digitalOnly = true)
    (hm : m < 2147483648 ∧ n < 2147483648) (h32 : Int32s mat) (hd : Accepted w.cfg m n)
    (hb : ¬(m * n ≤ mat.size ∧ Writable w.cfg (entry mat n) m n)) : ∃ f, cpyMtrx E mat m n w = .error f := by
  cases e : cpyMtrx E mat m n w with
  | error f => exact ⟨f, rfl⟩
  | ok r =>
    exfalso
    obtain ⟨w', z⟩ := r
    rcases cpyMtrx_inv e with ⟨_, h2, _⟩ | ⟨_, _, _, _, h2, _⟩
    · subst h2
      exact (C99_rejected h hm).1 ⟨_, e⟩ ⟨hd.1, hd.2.1⟩
    · subst h2
      exact hb ((C99_write h hok hdo hm h32).1 ⟨_, e⟩).2

/-- C99.  A multiplication on a digital crossbar in a mapping that looks at its inputs is carried out exactly when the
dimensions fit, both buffers are large enough and all inputs are legal. -/
theorem C99_mvm (h : Session E hs w) (hok : CfgOk w.cfg) (hgcc : shiftsSigned w.cfg.mode → E.strict = false)
    (hdo : w.cfg.digitalOnly = true) (hx : checksX w.cfg.mode) (hm : m < 2147483648 ∧ n < 2147483648) (hn : 0 < n)
    (hv : ∀ i j v, lastWrite hs i j = some v → LegalW w.cfg v)
    (hw : ∀ i j, i < m → j < n → (lastWrite hs i j).isSome) {res vec : Vec Int} {l : String} (hr : Room w.cfg res m n) :
    (∃ w' r, exeMvm E res vec mat m n l w = .ok (w', r, 0)) ↔
      Accepted w.cfg m n ∧ n ≤ vec.size ∧ m ≤ res.size ∧ LegalVec w.cfg vec n := by
  have hk : ¬keepsRowSums w.cfg.mode := by
    cases e : w.cfg.mode <;> rw [e] at hx <;> first | exact hx.elim | exact fun h => h
  constructor
  · rintro ⟨w', r, h1⟩
    obtain ⟨_, x, hxb⟩ := session_inv h
    rcases exeMvm_inv h1 with ⟨_, _, h2, _⟩ | ⟨y, y', h2, h3, _, h4, _⟩
    · cases h2
    have hd : Accepted w.cfg m n := by
      unfold tooBig at h3
      rw [toU32_cast hm.1, toU32_cast hm.2] at h3
      exact ⟨by omega, by omega, by omega⟩
    rw [hxb.xbar] at h2
    cases h2
    rw [toSize_cast hm.1, toSize_cast hm.2] at h4
    unfold xMvm at h4
    simp only [if_pos hdo, bind_eq_ok] at h4
    obtain ⟨q, h5, _⟩ := h4
    exact ⟨hd, dMvm_reads hx (hxb.shape hdo).core.mode hn h5⟩
  · rintro ⟨h1, h2, h3, h4⟩
    obtain ⟨w', r, h5, _⟩ := session_mvm (k := n) h hok hgcc hdo ⟨hv, fun e => absurd e hk⟩
      ⟨h1, h3, h2, h4, hr, hw, fun _ => rfl⟩ hm (mat := mat) (l := l)
    exact ⟨w', r, h5⟩

end

namespace Ex'

/-- A matrix none of whose weights fits into 8 bits, and one with the weight that has no absolute value. -/
def bigMat : Vec Int := Vec.ofList [100000, -100000]
def minMat : Vec Int := Vec.ofList [0, -2147483648]
def zeroMat : Vec Int := Vec.ofList [1, 0]

theorem int32s_ofList {l : List Int} (h : ∀ x ∈ l, -2147483648 ≤ x ∧ x ≤ 2147483647) : Int32s (Vec.ofList l) := by
  intro k
  show -2147483648 ≤ l.getD k 0 ∧ l.getD k 0 ≤ 2147483647
  by_cases hk : k < l.length
  · rw [List.getD_eq_getElem l 0 hk]
    exact h _ (List.getElem_mem hk)
  · rw [List.getD_eq_default l 0 (by omega)]
    decide

theorem return_loaded (md : Mode) : ∃ w, setConfig Ex.env (.good (digitalFile md)) world0 = .ok w ∧
    w.cfg.mode = md ∧ w.cfg.digitalOnly = true ∧ w.cfg.M = 32 ∧ w.cfg.N = 32 := by
  obtain ⟨w, h⟩ := C85_digital_accepted (E := Ex.env) (w := world0) (md := md) (.inl rfl) (by decide)
    (fun h => by cases h) (fun _ => rfl)
  have D := digital_shipped (C76_loaded h)
  exact ⟨w, h, D.mode, D.digital, D.M, D.N⟩

end Ex'

/-- Weights that do not fit are processed (and cut), the weight -2147483648 is not. -/
example : ∃ w, setConfig Ex.env (.good (digitalFile .iDiffWDiff1)) world0 = .ok w ∧
    (∃ w', cpyMtrx Ex.env Ex'.bigMat (1 : Nat) (2 : Nat) w = .ok (w', 0)) ∧
    (∃ f, cpyMtrx Ex.env Ex'.minMat (1 : Nat) (2 : Nat) w = .error f) ∧
    ∃ w', cpyMtrx Ex.env Ex'.minMat (33 : Nat) (2 : Nat) w = .ok (w', -1) := by
  obtain ⟨w, h, h1, h2, h3, h4⟩ := Ex'.return_loaded .iDiffWDiff1
  have hs : Session Ex.env [] w := .load h
  have hok : CfgOk w.cfg := (digital_shipped (C76_loaded h)).ok (by rw [h1]; rfl)
  have hd : Accepted w.cfg 1 2 := ⟨by omega, by omega, by decide⟩
  refine ⟨w, h, (C99_write hs hok h2 (by decide) (Ex'.int32s_ofList (by decide))).2 ⟨hd, by decide, ?_⟩,
    C99_lost hs hok h2 (by decide) (Ex'.int32s_ofList (by decide)) hd ?_, (C99_rejected hs (by decide)).2 (by omega)⟩
  · unfold Writable
    rw [h1]
    have k : ∀ i < 1, (∀ j < 2, entry Ex'.bigMat 2 i j ≠ -2147483648) ∧ ∀ k < 3,
        -2147483648 ≤ ∑ j ∈ range k, entry Ex'.bigMat 2 i j ∧ ∑ j ∈ range k, entry Ex'.bigMat 2 i j ≤ 2147483647 := by
      decide
    exact fun i hi => ⟨(k i hi).1, fun j hj => (k i hi).2 j (by omega)⟩
  · rintro ⟨_, k⟩
    unfold Writable at k
    rw [h1] at k
    exact (k 0 (by decide)).1 1 (by decide) rfl

/-- In a ternary mapping that looks at its inputs, 0 is let through, 2 is not. -/
example : ∃ w w₁, setConfig Ex.env (.good (digitalFile .tnn1)) world0 = .ok w ∧
    cpyMtrx Ex.env Ex'.zeroMat (1 : Nat) (2 : Nat) w = .ok (w₁, 0) ∧
    (∃ w' r, exeMvm Ex.env (Vec.ofList [7]) (Vec.ofList [1, 0]) Ex'.zeroMat (1 : Nat) (2 : Nat) "" w₁ = .ok (w', r, 0)) ∧
    ¬∃ w' r, exeMvm Ex.env (Vec.ofList [7]) (Vec.ofList [1, 2]) Ex'.zeroMat (1 : Nat) (2 : Nat) "" w₁ = .ok (w', r, 0) := by
  obtain ⟨w, h, h1, h2, h3, h4⟩ := Ex'.return_loaded .tnn1
  have hs : Session Ex.env [] w := .load h
  have hok : CfgOk w.cfg := by
    have hb : BitsOk w.cfg := by
      rcases (session_inv hs).1.loaded with ⟨e, _⟩ | ⟨c, e⟩
      · rw [e] at h1; cases h1
      · exact (applyConfig_ok e).2.2.1
    unfold CfgOk
    rw [h1]
    refine hb.2.2 ?_ ?_ ?_ <;> rw [h1] <;> decide
  have hd : Accepted w.cfg 1 2 := ⟨by omega, by omega, by decide⟩
  obtain ⟨w₁, k⟩ := (C99_write (mat := Ex'.zeroMat) (m := 1) (n := 2) hs hok h2 (by decide) (Ex'.int32s_ofList (by decide))).2
    ⟨hd, by decide, by
      unfold Writable
      rw [h1]
      have k : ∀ i < 1, ∀ j < 2, entry Ex'.zeroMat 2 i j = 1 ∨ entry Ex'.zeroMat 2 i j = -1 ∨ entry Ex'.zeroMat 2 i j = 0 := by
        decide
      exact fun i j hi hj => k i hi j hj⟩
  have hs₁ : Session Ex.env [.write Ex'.zeroMat 1 2] w₁ := .write hs (by decide) k
  have e : w₁.cfg = w.cfg := by
    rcases cpyMtrx_inv k with ⟨_, h2, _⟩ | ⟨_, _, _, _, _, _, rfl⟩
    · cases h2
    · rfl
  rw [← e] at h1 h2 hok hd
  have hv : ∀ i j v, lastWrite [.write Ex'.zeroMat 1 2] i j = some v → LegalW w₁.cfg v := by
    intro i j v hl
    unfold LegalW
    rw [h1]
    have k : ∀ i < 1, ∀ j < 2, entry Ex'.zeroMat 2 i j = 1 ∨ entry Ex'.zeroMat 2 i j = -1 ∨ entry Ex'.zeroMat 2 i j = 0 := by
      decide
    unfold lastWrite at hl
    split at hl
    · next hij =>
      cases hl
      exact k i hij.1 j hij.2
    · cases hl
  have hw : ∀ i j, i < 1 → j < 2 → (lastWrite [.write Ex'.zeroMat 1 2] i j).isSome := by
    have k : ∀ i < 1, ∀ j < 2, (lastWrite [.write Ex'.zeroMat 1 2] i j).isSome := by decide
    exact fun i j hi hj => k i hi j hj
  have hr : Room w₁.cfg (Vec.ofList [7]) 1 2 := by
    intro i hi
    obtain rfl : i = 0 := by omega
    unfold peak
    rw [h1]
    show |(7 : Int)| + 3 * 2 ≤ 2147483647
    decide
  have G := fun vec => C99_mvm (mat := Ex'.zeroMat) (vec := vec) (l := "") hs₁ hok (fun _ => rfl) h2 (by rw [h1]; trivial)
    (by decide) (by decide) hv hw hr
  refine ⟨w, w₁, h, k, (G _).2 ⟨hd, by decide, by decide, ?_⟩, fun g => ?_⟩
  · have k : ∀ j < 2, (Vec.ofList [(1 : Int), 0]).get j = 1 ∨ (Vec.ofList [(1 : Int), 0]).get j = -1 ∨
        (Vec.ofList [(1 : Int), 0]).get j = 0 := by decide
    intro j hj
    unfold LegalX
    rw [h1]
    exact k j hj
  · have := ((G _).1 g).2.2.2 1 (by decide)
    unfold LegalX at this
    rw [h1] at this
    exact absurd this (show ¬((2 : Int) = 1 ∨ (2 : Int) = -1 ∨ (2 : Int) = 0) by decide)

end Acs.Props
