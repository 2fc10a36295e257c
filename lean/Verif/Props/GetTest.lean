import Verif.Lemmas.GetTest
import Verif.Props.Getters
import Verif.Props.Shipped

/-! # The tests of the getters for all matrices (C98) -/

set_option linter.unusedSectionVars false

namespace Acs.Props

open Spec Finset

section
variable {K : Type} [Field K] [LinearOrder K] [IsStrictOrderedRing K] [FloorRing K]
variable {E : Env K} {w w' : World K} {hs : List Op} {md : Mode}

theorem twoState_ok (h : Session E hs w) (hm : twoState w.cfg.mode) : CfgOk w.cfg ∧ w.cfg.split = [0] := by
  have hb : BitsOk w.cfg := by
    rcases (session_inv h).1.loaded with ⟨e, _⟩ | ⟨c, e⟩
    · rw [e] at hm
      exact hm.elim
    · exact (applyConfig_ok e).2.2.1
  have hs : w.cfg.split = [0] := by
    refine hb.2.2 ?_ ?_ ?_ <;> cases e : w.cfg.mode <;> first | (rw [e] at hm; exact hm.elim) | decide
  refine ⟨?_, hs⟩
  unfold CfgOk
  cases e : w.cfg.mode <;> first | (rw [e] at hm; exact hm.elim) | exact hs

/-- C98.  In the mappings with cells that are off or on, the arrays of cell states show 1 at the cells that the weights
written last switch on and 0 everywhere else. -/
theorem C98_states (h : Session E hs w) (hm : twoState w.cfg.mode)
    (hv : ∀ i j v, lastWrite hs i j = some v → LegalW w.cfg v) (fresh fresh' : Nat → Nat → Nat) :
    ∃ P M, getGdPPb fresh w = .ok P ∧ getGdMPb fresh' w = .ok M ∧
      Shows P w.cfg.M w.cfg.N (fun i j => if litP w.cfg.mode hs i j = true then 1 else 0) ∧
      Shows M w.cfg.M w.cfg.N (fun i j => if litM w.cfg.mode hs i j = true then 1 else 0) := by
  obtain ⟨hok, hs1⟩ := twoState_ok h hm
  obtain ⟨P, M, h1, h2, ⟨h3, h4, h5⟩, h6, h7, h8⟩ := C71_states h hok hv fresh fresh'
  have hR : w.cfg.M * w.cfg.split.length = w.cfg.M := by rw [hs1]; exact Nat.mul_one _
  refine ⟨P, M, h1, h2, ⟨h3.trans hR, h4, fun i j hi hj => ?_⟩, h6.trans hR, h7, fun i j hi hj => ?_⟩
  · have := h5 i j (by omega) (by omega)
    rw [(held_on hm hv i j).1] at this
    split at this
    · next e => simp only [e, if_true]; omega
    · next e => simp only [e]; exact_mod_cast this
  · have := h8 i j (by omega) (by omega)
    rw [(held_on hm hv i j).2] at this
    split at this
    · next e => simp only [e, if_true]; omega
    · next e => simp only [e]; exact_mod_cast this

/-- C98.  An analog crossbar without variation and read disturb shows `LRS` at the cells that are on and `HRS` at the
others, without any rounding error if `HRS`, `LRS` and their difference are numbers of the floating-point format. -/
theorem C98_currents (h : Settled E hs w) (hs' : Session E hs w) (hm : twoState w.cfg.mode)
    (hv : ∀ i j v, lastWrite hs i j = some v → LegalW w.cfg v) (hdo : w.cfg.digitalOnly = false)
    (hc2 : w.cfg.c2c = false) (hrd : w.cfg.readDisturb = false) (hq : w.cfg.hrsNoise ≤ 0 ∧ w.cfg.lrsNoise ≤ 0)
    (h01 : E.f32 0 = 0 ∧ E.f32 1 = 1) (hx : E.f32 w.cfg.hrs = w.cfg.hrs ∧ E.f32 w.cfg.lrs = w.cfg.lrs)
    (hd : E.f32 (w.cfg.lrs - w.cfg.hrs) = w.cfg.lrs - w.cfg.hrs) (fresh fresh' : Nat → Nat → K) :
    ∃ P M, getIaPPb fresh w = .ok P ∧ getIaMPb fresh' w = .ok M ∧
      Shows P w.cfg.M w.cfg.N (fun i j => if litP w.cfg.mode hs i j = true then w.cfg.lrs else w.cfg.hrs) ∧
      Shows M w.cfg.M w.cfg.N (fun i j => if litM w.cfg.mode hs i j = true then w.cfg.lrs else w.cfg.hrs) := by
  obtain ⟨hok, hs1⟩ := twoState_ok hs' hm
  have hi : w.cfg.mode.isInt = false := by
    cases e : w.cfg.mode <;> first | (rw [e] at hm; exact hm.elim) | rfl
  have hR : w.cfg.M * w.cfg.split.length = w.cfg.M := by rw [hs1]; exact Nat.mul_one _
  have hce : CurExact E w.cfg := by
    unfold CurExact
    rw [if_neg (by simp [hi])]
    unfold cellCurrent Env.fadd Env.fmul Env.fsub Env.ofInt
    rintro g (rfl | rfl)
    · simp [hd, h01.1, hx.1]
    · simp [hd, h01.2, hx.2]
  obtain ⟨x, P, M, hx, h1, h2, ⟨h3, h4, h5⟩, h6, h7, h8⟩ := C71_currents hs' hok fresh fresh'
  obtain ⟨x', hx', hr⟩ := C58_session_is_run h
  rw [hx] at hx'
  cases hx'
  have hc := C05_cells_are_last_write hok hr
  have hn := runs_nominal hce hok hdo hc2 hrd (fun _ => hq) hr
  have top : ∀ i (b : Bool), nominal w.cfg i (if b = true then 1 else 0) = if b = true then w.cfg.lrs else w.cfg.hrs := by
    intro i b
    rw [nominal_bin hi]
    cases b <;> simp
  rw [hR] at h3 h5 h6 h8
  refine ⟨P, M, h1, h2, ⟨h3, h4, fun i j hr' hj => ?_⟩, h6, h7, fun i j hr' hj => ?_⟩
  · have e := (held_on hm hv i j).1
    rw [h5 i j hr' hj, (hn i j).1.1, (hc i j).1]
    exact (congrArg (nominal w.cfg i) e).trans (top i _)
  · have e := (held_on hm hv i j).2
    rw [h8 i j hr' hj, (hn i j).2.1, (hc i j).2]
    exact (congrArg (nominal w.cfg i) e).trans (top i _)

/-- C98.  The counts of the tests: an array that shows `a` at the cells that are on and `b` elsewhere has as many
entries `a` as cells are on, and `b` everywhere else. -/
theorem C98_counts {α : Type} [DecidableEq α] {A : Mat α} {r c : Nat} {p : Nat → Nat → Bool} {a b : α} (hab : a ≠ b)
    (h : Shows A r c fun i j => if p i j = true then a else b) :
    countOf A a = places r c p ∧ countOf A b + places r c p = r * c := count_on hab h

theorem lit_one {mat : Vec Int} {m n : Nat} (i j : Nat) :
    litP md [.write mat m n] i j = holds mat m n (onP md) i j ∧
      litM md [.write mat m n] i j = (onM md).any fun v => holds mat m n v i j := by
  have key : ∀ v : Int, (lastWrite [.write mat m n] i j == some v) = holds mat m n v i j := by
    intro v
    unfold holds lastWrite lastWrite
    by_cases h : i < m ∧ j < n
    · simp [h, beq_eq_decide]
    · rw [if_neg h]
      rw [decide_eq_false (fun k => h ⟨k.1, k.2.1⟩)]
      rfl
  refine ⟨key _, ?_⟩
  unfold litM
  cases onM md with
  | none => rfl
  | some v => exact key v

theorem one_write {mat : Vec Int} {m n : Nat} {w₁ : World K} {rs : List (Vec Int)}
    (h : serve E w [.write mat m n] = .ok (w₁, rs, [0])) : cpyMtrx E mat m n w = .ok (w₁, 0) := by
  rw [serve, rbind_ok] at h
  obtain ⟨⟨w2, z⟩, h1, h2⟩ := h
  rw [serve, rbind_ok] at h2
  obtain ⟨q, h3, h4⟩ := h2
  rw [rok_inj] at h3 h4
  subst h3
  simp only [Prod.mk.injEq, List.cons.injEq] at h4
  obtain ⟨e1, -, e2, -⟩ := h4
  rw [h1, e1, e2]

/-- C98.  `test_get_gd` for every binary mapping, TNN_I, TNN_II and TNN_III, every previous state and every legal matrix:
after `set_config` with the digital file and `cpy`, the arrays are the indicators of the weights. -/
theorem C98_test_gd (h : setConfig E (.good (digitalFile md)) w = .ok w') (hm : twoState md)
    (hgcc : shiftsSigned md → E.strict = false) {mat : Vec Int} {m n : Nat}
    (hmn : m ≤ 32 ∧ n ≤ 32) (hb : m * n ≤ mat.size) (hv : ∀ i j, i < m → j < n → LegalW w'.cfg (entry mat n i j)) :
    ∃ w₁, cpyMtrx E mat m n w' = .ok (w₁, 0) ∧ ∀ fresh fresh' : Nat → Nat → Nat, ∃ P M,
      getGdPPb fresh w₁ = .ok P ∧ getGdMPb fresh' w₁ = .ok M ∧
      Shows P 32 32 (fun i j => if holds mat m n (onP md) i j = true then 1 else 0) ∧
      Shows M 32 32 (fun i j => if (onM md).any (fun v => holds mat m n v i j) = true then 1 else 0) := by
  have D := digital_shipped (C76_loaded h)
  have hi : w'.cfg.mode.isInt = false := by
    rw [D.mode]
    cases md <;> first | exact hm.elim | rfl
  obtain ⟨w₁, rs, h1, -⟩ := C85_digital (k := n) (ops := [.write mat m n]) h
    hgcc ⟨⟨⟨by rw [D.M]; exact hmn.1, by rw [D.N]; exact hmn.2, by omega⟩, hb, hv,
      fun e => absurd (hi.symm.trans e) (by decide), fun _ => rfl⟩, trivial⟩
  have hc := one_write h1
  have S : Session E [.write mat m n] w₁ := .write (.load h) ⟨by omega, by omega⟩ hc
  have ec : w₁.cfg = w'.cfg := by
    rcases cpyMtrx_inv hc with ⟨_, h2, _⟩ | ⟨_, _, _, _, _, _, e⟩
    · cases h2
    · rw [e]
  refine ⟨w₁, hc, fun fresh fresh' => ?_⟩
  obtain ⟨P, M, p1, p2, p3, p4⟩ := C98_states S (by rw [ec, D.mode]; exact hm) (fun i j v hl => by
    rw [ec]
    simp only [lastWrite] at hl
    split at hl
    · next k => cases hl; exact hv i j k.1 k.2
    · cases hl) fresh fresh'
  rw [ec, D.M, D.N, D.mode] at p3 p4
  simp only [(lit_one _ _).1] at p3
  simp only [(lit_one _ _).2] at p4
  exact ⟨P, M, p1, p2, p3, p4⟩

/-- C98.  In a binary mapping with cells in pairs, exactly one cell of every pair is on. -/
theorem C98_pairs {mat : Vec Int} {m n : Nat} {P M : Mat Nat} (hmn : m ≤ 32 ∧ n ≤ 32)
    (hv : ∀ i j, i < m → j < n → entry mat n i j = 1 ∨ entry mat n i j = -1)
    (hP : Shows P 32 32 (fun i j => if holds mat m n 1 i j = true then 1 else 0))
    (hM : Shows M 32 32 (fun i j => if holds mat m n (-1) i j = true then 1 else 0)) :
    countOf P 1 + countOf M 1 = m * n ∧ countOf P 0 + countOf M 0 = 2 * 1024 - m * n := by
  obtain ⟨p1, p2⟩ := C98_counts (by decide) hP
  obtain ⟨m1, m2⟩ := C98_counts (by decide) hM
  have hb : ∀ v i j, holds mat m n v i j = true → i < m ∧ j < n := fun v i j h => by
    have := of_decide_eq_true h
    exact ⟨this.1, this.2.1⟩
  rw [places_block hmn.1 hmn.2 (hb _)] at p1 p2 m1 m2
  have hs : places m n (holds mat m n 1) + places m n (holds mat m n (-1)) = m * n := by
    refine places_add fun i j hi hj => ?_
    unfold holds
    rcases hv i j hi hj with e | e <;> simp [hi, hj, e]
  omega

end

section
variable {E : Env ℚ} {w w' : World ℚ} {md : Mode}

/-- C98.  `test_get_ia` for every binary mapping, TNN_I, TNN_II and TNN_III, every previous state and every legal matrix:
after `set_config` with the analog file and `cpy`, in single precision, the currents are exactly 30 at the cells that
are on and exactly 5 elsewhere. -/
theorem C98_test_ia (hE : Ieee E) (hg : E.strict = false) (h : setConfig E (.good (analogFile md)) w = .ok w')
    (hm : twoState md) {mat : Vec Int} {m n : Nat} (hmn : m ≤ 32 ∧ n ≤ 32) (hb : m * n ≤ mat.size)
    (hv : ∀ i j, i < m → j < n → LegalW w'.cfg (entry mat n i j)) :
    ∃ w₁, cpyMtrx E mat m n w' = .ok (w₁, 0) ∧ ∀ fresh fresh' : Nat → Nat → ℚ, ∃ P M,
      getIaPPb fresh w₁ = .ok P ∧ getIaMPb fresh' w₁ = .ok M ∧
      Shows P 32 32 (fun i j => if holds mat m n (onP md) i j = true then 30 else 5) ∧
      Shows M 32 32 (fun i j => if (onM md).any (fun v => holds mat m n v i j) = true then 30 else 5) := by
  have A := ieee_shipped hE h
  have hi : w'.cfg.mode.isInt = false := by
    rw [A.mode]
    cases md <;> first | exact hm.elim | rfl
  have hsh : sharp md := by cases md <;> first | exact hm.elim | trivial
  obtain ⟨w₁, rs, h1, -⟩ := C85_sharp hsh E w w' n [.write mat m n] hE hg h
    ⟨⟨⟨by rw [A.M]; exact hmn.1, by rw [A.N]; exact hmn.2, by omega⟩, hb, hv,
      fun e => absurd (hi.symm.trans e) (by decide), fun _ => rfl⟩, trivial⟩ trivial
  have hc := one_write h1
  have S : Session E [.write mat m n] w₁ := .write (.load h) ⟨by omega, by omega⟩ hc
  have T : Settled E [.write mat m n] w₁ := .write (.load h) ⟨by omega, by omega⟩ hc
  have ec : w₁.cfg = w'.cfg := by
    rcases cpyMtrx_inv hc with ⟨_, h2, _⟩ | ⟨_, _, _, _, _, _, e⟩
    · cases h2
    · rw [e]
  have f : ∀ z : Int, |z| ≤ 2 ^ 24 → E.f32 (z : ℚ) = z := fun z hz => by rw [hE.f32]; exact rnd32_int hz
  refine ⟨w₁, hc, fun fresh fresh' => ?_⟩
  obtain ⟨P, M, p1, p2, p3, p4⟩ := C98_currents T S (by rw [ec, A.mode]; exact hm) (fun i j v hl => by
    rw [ec]
    simp only [lastWrite] at hl
    split at hl
    · next k => cases hl; exact hv i j k.1 k.2
    · cases hl) (by rw [ec]; exact A.digital) (by rw [ec]; exact A.c2c) (by rw [ec]; exact A.rd)
    (by rw [ec]; exact ⟨A.hrsNoise.le, A.lrsNoise.le⟩) ⟨by exact_mod_cast f 0 (by decide), by exact_mod_cast f 1 (by decide)⟩
    (by rw [ec, A.hrs, A.lrs]; exact ⟨by exact_mod_cast f 5 (by decide), by exact_mod_cast f 30 (by decide)⟩)
    (by rw [ec, A.hrs, A.lrs]; norm_num; exact_mod_cast f 25 (by decide)) fresh fresh'
  rw [ec, A.M, A.N, A.mode, A.hrs, A.lrs] at p3 p4
  simp only [(lit_one _ _).1] at p3
  simp only [(lit_one _ _).2] at p4
  exact ⟨P, M, p1, p2, p3, p4⟩

end

namespace Ex'

/-- The matrix of the two tests. -/
def getMat : Vec Int := Vec.ofList [1, 1, -1, -1, 1, -1]

theorem getMat_vals : ∀ i j, i < 3 → j < 2 → entry getMat 2 i j = 1 ∨ entry getMat 2 i j = -1 := by
  have : ∀ i < 3, ∀ j < 2, entry getMat 2 i j = 1 ∨ entry getMat 2 i j = -1 := by decide
  exact fun i j hi hj => this i hi j hj

end Ex'

/-- `test_get_gd` as it stands: three cells are on in each array, at the places the test names. -/
example : ∃ w w₁ P M, setConfig Ex.env (.good (digitalFile .bnn1)) world0 = .ok w ∧
    cpyMtrx Ex.env Ex'.getMat (3 : Nat) (2 : Nat) w = .ok (w₁, 0) ∧ getGdPPb (fun _ _ => 7) w₁ = .ok P ∧
    getGdMPb (fun _ _ => 7) w₁ = .ok M ∧ countOf P 0 = 32 * 32 - 3 * 2 + 3 ∧ countOf M 0 = 32 * 32 - 3 * 2 + 3 ∧
    P.get 0 0 = 1 ∧ P.get 0 1 = 1 ∧ P.get 2 0 = 1 ∧ M.get 1 0 = 1 ∧ M.get 1 1 = 1 ∧ M.get 2 1 = 1 := by
  obtain ⟨w, h⟩ := C85_digital_accepted (E := Ex.env) (w := world0) (md := .bnn1) (.inl rfl) (by decide)
    (fun h => by cases h) (fun _ => rfl)
  have D := digital_shipped (C76_loaded h)
  obtain ⟨w₁, h1, h2⟩ := C98_test_gd (mat := Ex'.getMat) (m := 3) (n := 2) h trivial (fun _ => rfl) (by decide) (by decide)
    (fun i j hi hj => by rw [LegalW, D.mode]; exact Ex'.getMat_vals i j hi hj)
  obtain ⟨P, M, h3, h4, h5, h6⟩ := h2 (fun _ _ => 7) fun _ _ => 7
  have c1 := (C98_counts (by decide) h5).2
  have c2 := (C98_counts (by decide) h6).2
  have e1 : places 32 32 (holds Ex'.getMat 3 2 1) = 3 := by decide +kernel
  have e2 : places 32 32 (holds Ex'.getMat 3 2 (-1)) = 3 := by decide +kernel
  refine ⟨w, w₁, P, M, h, h1, h3, h4, ?_, ?_, ?_⟩
  · exact Nat.add_right_cancel (c1.trans (by rw [show onP .bnn1 = 1 from rfl, e1]))
  · exact Nat.add_right_cancel (c2.trans (by rw [show (fun i j => (onM .bnn1).any fun v => holds Ex'.getMat 3 2 v i j) = holds Ex'.getMat 3 2 (-1) from rfl, e2]))
  · refine ⟨(h5.2.2 0 0 ?_ ?_).trans rfl, (h5.2.2 0 1 ?_ ?_).trans rfl, (h5.2.2 2 0 ?_ ?_).trans rfl,
      (h6.2.2 1 0 ?_ ?_).trans rfl, (h6.2.2 1 1 ?_ ?_).trans rfl, (h6.2.2 2 1 ?_ ?_).trans rfl⟩ <;> decide

/-- `test_get_ia` as it stands. -/
example : ∃ w w₁ P M, setConfig Ex.fenv (.good (analogFile .bnn1)) world0 = .ok w ∧
    cpyMtrx Ex.fenv Ex'.getMat (3 : Nat) (2 : Nat) w = .ok (w₁, 0) ∧ getIaPPb (fun _ _ => 7) w₁ = .ok P ∧
    getIaMPb (fun _ _ => 7) w₁ = .ok M ∧ countOf P 5 = 32 * 32 - 3 ∧ countOf P 30 = 3 ∧
    P.get 0 0 = 30 ∧ P.get 1 0 = 5 ∧ M.get 0 0 = 5 ∧ M.get 1 0 = 30 := by
  obtain ⟨w, h⟩ := C85_analog_accepted (E := Ex.fenv) (w := world0) (md := .bnn1) (by decide +kernel) (by decide +kernel)
    (by decide +kernel) (.inl rfl) (by decide)
  have A := ieee_shipped Ex.fenv_ieee h
  obtain ⟨w₁, h1, h2⟩ := C98_test_ia (mat := Ex'.getMat) (m := 3) (n := 2) Ex.fenv_ieee rfl h trivial (by decide) (by decide)
    (fun i j hi hj => by rw [LegalW, A.mode]; exact Ex'.getMat_vals i j hi hj)
  obtain ⟨P, M, h3, h4, h5, h6⟩ := h2 (fun _ _ => 7) fun _ _ => 7
  obtain ⟨c1, c2⟩ := C98_counts (by decide) h5
  have e1 : places 32 32 (holds Ex'.getMat 3 2 1) = 3 := by decide +kernel
  refine ⟨w, w₁, P, M, h, h1, h3, h4, ?_, c1.trans e1, ?_⟩
  · exact Nat.add_right_cancel (c2.trans (by rw [show onP .bnn1 = 1 from rfl, e1]))
  · refine ⟨(h5.2.2 0 0 ?_ ?_).trans rfl, (h5.2.2 1 0 ?_ ?_).trans rfl,
      (h6.2.2 0 0 ?_ ?_).trans rfl, (h6.2.2 1 0 ?_ ?_).trans rfl⟩ <;> decide

end Acs.Props
