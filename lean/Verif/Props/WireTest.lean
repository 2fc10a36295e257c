import Verif.Lemmas.WireTest
import Verif.Props.Wires
import Verif.Props.WiresInt
import Verif.Props.Saturate

/-!
# C95: the claims of the tests of the wires

cpp/test/lib/parasitics_tests.cpp loads the analog file of a mapping, switches the wires on with an update, writes a
matrix and multiplies.  The theorems are about all values of the update, all matrices and all sequences of calls.
-/

set_option linter.unusedSectionVars false

namespace Acs.Props

open Spec

section
variable {K : Type} [Field K] [LinearOrder K] [IsStrictOrderedRing K] [FloorRing K]
variable {E : Env K} {md : Mode} {v r : Json K} {V R : K} {w w₁ w₂ : World K} {ops : List Op} {k : Nat} {z : Int}

/-- After the file is loaded, the update is accepted for all mappings but I_TC_W_DIFF. -/
theorem C95_accepted (h0 : E.f32 0 = 0) (h5 : E.f32 5 = 5) (h30 : E.f32 30 = 30) (hv : NumIs E v V) (hr : NumIs E r R)
    (hV : V < 0) (hR : 0 < R) (h : setConfig E (.good (analogFile md)) w = .ok w₁) (hm : md ≠ .iTcWDiff) :
    ∃ w₂, updateConfig E (.good (wireUpdate v r)) w₁ = .ok (w₂, 0) := by
  obtain ⟨_, x, hx, _, hj⟩ := setConfig_inv h
  rcases hj with ⟨hj, _⟩ | ⟨j, hj, hdat, ha⟩
  · cases hj
  cases hj
  have hx' : w₁.xbar ≠ none := by rw [hx]; exact Option.some_ne_none x
  have A := analog_shipped h0 h5 h30 (loaded_of ha)
  obtain ⟨⟨w₂, z⟩, h2⟩ := (updateConfig_iff wire_distinct hx'
    (by rw [hdat]; exact wire_patched hv hr : Patched E w₁.data (wireUpdate v r) (wiredFile md v r))).2 fun _ =>
      ⟨.inr (by rw [hdat]; cases md <;> exact ⟨_, rfl⟩), wiredCfg md V R, wired_fromDoc h0 h5 h30 hv hr hV hR.ne',
        wired_admissible hV hR, fun _ _ => by rw [A.res]; decide, fun _ => ⟨wired_buildable hm, .inl rfl⟩⟩
  obtain rfl := update_code h2 hx'
  exact ⟨w₂, h2⟩

/-- With I_TC_W_DIFF the update fails. -/
theorem C95_tc (h0 : E.f32 0 = 0) (h5 : E.f32 5 = 5) (h30 : E.f32 30 = 30) (hv : NumIs E v V) (hr : NumIs E r R)
    (hR : R ≠ 0) (h : setConfig E (.good (analogFile .iTcWDiff)) w = .ok w₁) (z : World K × Int) :
    updateConfig E (.good (wireUpdate v r)) w₁ ≠ .ok z := by
  intro h2
  obtain ⟨_, x, hx, _, hj⟩ := setConfig_inv h
  rcases hj with ⟨hj, _⟩ | ⟨j, hj, hdat, ha⟩
  · cases hj
  cases hj
  have hx' : w₁.xbar ≠ none := by rw [hx]; exact Option.some_ne_none x
  have hch : Changes E w₁.data (wireUpdate v r) "parasitics" := by rw [hdat]; exact (wire_changes hv hr).2 (.inr (.inl rfl))
  obtain ⟨_, c, hc, _, _, hb⟩ := (updateConfig_iff wire_distinct hx'
    (by rw [hdat]; exact wire_patched hv hr : Patched E w₁.data (wireUpdate v r) (wiredFile .iTcWDiff v r))).1 ⟨z, h2⟩ ⟨_, hch⟩
  have D := wired_set h0 h5 h30 hv hr hR hc
  exact (hb ⟨_, by simp [structural], hch⟩).1.wires D.base.digital D.par D.mode

/-- Binary and ternary mappings other than TNN_IV and TNN_V: all results are exact, if the wires take no more than
`lossLimit` from the current of the columns of a multiplication. -/
theorem C95_sharp (hE : ExactArith E) (hv : NumIs E v V) (hr : NumIs E r R) (hV : V < 0) (hR : 0 < R) (hs : sharp md)
    (h : setConfig E (.good (analogFile md)) w = .ok w₁) (h2 : updateConfig E (.good (wireUpdate v r)) w₁ = .ok (w₂, z))
    (hl : LegalOps w₂.cfg k [] ops) (hP : AllPlaced w₂.cfg [] ops) (hB : SmallBuffers (2 ^ 20) [] ops)
    (hS : AllShort md V R [] ops) :
    ∃ w' rs, serve E w₂ ops = .ok (w', rs, ops.map fun _ => 0) ∧ Answers [] ops rs := by
  obtain ⟨-, hw, hd, -⟩ := wired_update hv hr h h2
  have D := wired_set (hE.f32 0) (hE.f32 5) (hE.f32 30) hv hr hR.ne' hd
  have hi : md.isInt = false := by cases md <;> first | rfl | exact hs.elim
  have h45 : md ≠ .tnn4 ∧ md ≠ .tnn5 := ⟨(by rintro rfl; exact hs), (by rintro rfl; exact hs)⟩
  have key := EveryMvm.and (legal_everyMvm .nil hl) hB
  obtain ⟨w', rs, h3, -, h4⟩ := C75_interface (rg := fun _ => shippedRange md) (ε := 0) hE hw (D.resistive hi hV hR)
    (by rw [D.M]; decide) (by rw [D.N]; decide) D.base.rd
    ⟨le_refl 0, fun hn => by
      rcases hn with hn | hn
      · exact absurd hn (not_lt.2 (show w₂.cfg.hrsNoise ≤ 0 from D.base.hrsNoise.le))
      · exact absurd hn (not_lt.2 (show w₂.cfg.lrsNoise ≤ 0 from D.base.lrsNoise.le))⟩
    hl (legal_heights (by rw [D.M]; decide) hl) hP
    (everyMvm_imp (fun g res vec m n l q => ⟨D.adcOk l, D.converts hi h45 q.1.2.dims.2.1
      (fun i j hi hj => ((legal_of q.1.1 q.1.2).val hi hj).1) q.1.2.vals q.2⟩) key)
  exact ⟨w', rs, h3, h4 (everyMvm_imp (fun _ _ _ _ _ _ q => D.absorbed hs hV hR q) hS)⟩

end

section
variable {E : Env ℚ} {md : Mode} {v r : Json ℚ} {V R : ℚ} {w w₁ w₂ : World ℚ} {ops : List Op} {k : Nat} {z : Int}

/-- With the values of the tests, 1 Ohm and -0.4 V: up to 9 columns, for BNN_III and BNN_IV up to 4. -/
theorem C95_columns (n : Nat) : testLoss (-2 / 5) 1 n ≤ (lossLimit md : ℚ) ↔ n ≤ if md = .bnn3 ∨ md = .bnn4 then 4 else 9 := by
  have e : testLoss (-2 / 5 : ℚ) 1 n = 9 / 125 * (n : ℚ) ^ 2 := by
    unfold testLoss
    ring
  have key : ∀ a : ℚ, ∀ b : Nat, 9 / 125 * (b : ℚ) ^ 2 ≤ a → a < 9 / 125 * ((b + 1 : Nat) : ℚ) ^ 2 →
      (9 / 125 * (n : ℚ) ^ 2 ≤ a ↔ n ≤ b) := by
    intro a b h1 h2
    constructor
    · intro h
      by_contra hn
      have h3 : ((b + 1 : Nat) : ℚ) ≤ n := by exact_mod_cast (by omega : b + 1 ≤ n)
      have := pow_le_pow_left₀ (Nat.cast_nonneg _) h3 2
      linarith
    · intro h
      have h3 : (n : ℚ) ≤ b := by exact_mod_cast h
      have := pow_le_pow_left₀ (Nat.cast_nonneg _) h3 2
      linarith
  rw [e]
  split
  · next hm =>
    rw [show (lossLimit md : ℚ) = 6 / 5 by rcases hm with rfl | rfl <;> rfl]
    exact key _ 4 (by norm_num) (by norm_num)
  · next hm =>
    rw [show (lossLimit md : ℚ) = 6 by cases md <;> first | rfl | exact absurd (by decide) hm]
    exact key _ 9 (by norm_num) (by norm_num)

/-- Integer mappings: every result is exact up to `lossError`, if the wires take at most one milliampere. -/
theorem C95_int (hE : ExactArith E) (hv : NumIs E v V) (hr : NumIs E r R) (hV : V < 0) (hR : 0 < R)
    (hi : md.family = .int) (hgcc : md = .iOffsWDiff → E.strict = false)
    (h : setConfig E (.good (analogFile md)) w = .ok w₁) (h2 : updateConfig E (.good (wireUpdate v r)) w₁ = .ok (w₂, z))
    (hl : LegalOps w₂.cfg k [] ops) (hP : AllPlacedInt w₂.cfg [] ops) (hB : SmallBuffers (2 ^ 20) [] ops)
    (hS : EveryMvm (fun _ _ _ _ n _ => testLoss V R n ≤ 1000) [] ops) :
    ∃ w' rs, serve E w₂ ops = .ok (w', rs, ops.map fun _ => 0) ∧ AnswersUpTo (fun _ _ n => lossError md V R n) [] ops rs := by
  obtain ⟨-, hw, hd, -⟩ := wired_update hv hr h h2
  have D := wired_set (hE.f32 0) (hE.f32 5) (hE.f32 30) hv hr hR.ne' hd
  have key := EveryMvm.and (EveryMvm.and (legal_everyMvm .nil hl) hB) hS
  obtain ⟨w', rs, h3, h4, -⟩ := C86_interface (rg := fun _ => shippedRange md) hE hw
    (D.base.ok (by rw [D.base.mode]; exact hi)) (D.resistiveInt hi hV hR) (by rw [D.M]; decide) (by rw [D.N]; decide)
    (fun hm => hgcc (D.mode ▸ hm)) hl (legal_heights (by rw [D.M]; decide) hl) hP
    (everyMvm_imp (fun g res vec m n l q => D.room hi hV hR q.1.1.2.dims.2.1
      (fun i j hi hj => ((legal_of q.1.1.1 q.1.1.2).val hi hj).1) q.1.1.2.vals q.1.2 q.2 l) key)
  refine ⟨w', rs, h3, answersBy_mono (fun h res vec m n l r a => ?_) h4⟩
  exact ⟨a.size, fun i hi' => (a.head i hi').trans (D.rowInt hi hV hR), a.tail⟩

end

/-! ## Instances -/

namespace Ex'

theorem number (x : ℚ) : NumIs Ex.env (.num x) x := (rfl : x = Ex.env.f32 x)

/-- The crossbar of a file with wires of `R` Ohm. -/
theorem wiredWorld {md : Mode} {R : ℚ} (hR : 0 < R) (hm : md ≠ .iTcWDiff) : ∃ w₁ w₂ : World ℚ,
    setConfig Ex.env (.good (analogFile md)) world0 = .ok w₁ ∧
    updateConfig Ex.env (.good (wireUpdate (.num (-2 / 5)) (.num R))) w₁ = .ok (w₂, 0) ∧ WiredSet md (-2 / 5) R w₂.cfg := by
  obtain ⟨w₁, h1⟩ := C85_analog_accepted (E := Ex.env) (w := world0) (md := md) rfl rfl rfl (.inl rfl) (by decide)
  obtain ⟨w₂, h2⟩ := C95_accepted (v := .num (-2 / 5)) (r := .num R) (V := -2 / 5) (R := R) rfl rfl rfl (number _) (number _) (by norm_num)
    hR h1 hm
  obtain ⟨-, -, h3, -⟩ := wired_update (V := -2 / 5) (R := R) (number _) (number _) h1 h2
  exact ⟨w₁, w₂, h1, h2, wired_set rfl rfl rfl (number _) (number _) hR.ne' h3⟩

end Ex'

/-- The hypotheses of `C95_sharp`: BNN_I with nine columns. -/
example : ∃ w₁ w₂ w' : World ℚ, ∃ rs, setConfig Ex.env (.good (analogFile .bnn1)) world0 = .ok w₁ ∧
    updateConfig Ex.env (.good (wireUpdate (.num (-2 / 5)) (.num 1))) w₁ = .ok (w₂, 0) ∧
    serve Ex.env w₂ (Ex'.row 9 1 1) = .ok (w', rs, [0, 0]) ∧ Answers [] (Ex'.row 9 1 1) rs := by
  obtain ⟨w₁, w₂, h1, h2, D⟩ := Ex'.wiredWorld (md := .bnn1) (R := 1) (by norm_num) (by decide)
  obtain ⟨w', rs, h3, h4⟩ := C95_sharp (md := .bnn1) (ops := Ex'.row 9 1 1) (V := -2 / 5) (R := 1) Ex.env_exact (Ex'.number _) (Ex'.number _) (by norm_num)
    (by norm_num) trivial h1 h2
    (Ex'.row_legal D.M D.N (by decide) (by simp only [LegalW, D.mode]; decide) (by simp only [LegalX, D.mode]; decide)
      fun h => by rw [D.mode] at h; cases h)
    ⟨⟨⟨⟨(1, 9), rfl, le_refl 1, le_refl 9, by rw [D.M]; decide, by rw [D.N, D.mode]; decide⟩, by
      unfold taps slices
      rw [D.mode, D.M]
      exact (by decide : 1 * 1 ≤ 32)⟩, trivial⟩, fun mat m n ho => by
      simp only [Ex'.row, List.mem_cons, Op.write.injEq, reduceCtorEq, List.not_mem_nil, or_false] at ho
      rw [ho.2.2, D.N, D.mode]
      decide⟩
    Ex'.row_small ⟨(C95_columns 9).2 (by decide), trivial⟩
  exact ⟨w₁, w₂, w', rs, h1, h2, h3, h4⟩

/-- The hypotheses of `C95_int`: I_UINT_W_OFFS with wires of one milliohm. -/
example : ∃ w₁ w₂ w' : World ℚ, ∃ rs, setConfig Ex.env (.good (analogFile .iUintWOffs)) world0 = .ok w₁ ∧
    updateConfig Ex.env (.good (wireUpdate (.num (-2 / 5)) (.num (1 / 1000)))) w₁ = .ok (w₂, 0) ∧
    serve Ex.env w₂ (Ex'.row 2 100 120) = .ok (w', rs, [0, 0]) ∧
    AnswersUpTo (fun _ _ n => lossError .iUintWOffs (-2 / 5) (1 / 1000) n) [] (Ex'.row 2 100 120) rs := by
  obtain ⟨w₁, w₂, h1, h2, D⟩ := Ex'.wiredWorld (md := .iUintWOffs) (R := 1 / 1000) (by norm_num) (by decide)
  obtain ⟨b1, b2, b3⟩ := D.bits rfl
  obtain ⟨w', rs, h3, h4⟩ := C95_int (ops := Ex'.row 2 100 120) (V := -2 / 5) (R := 1 / 1000) Ex.env_exact (Ex'.number _) (Ex'.number _)
    (by norm_num) (by norm_num) rfl (fun h => by cases h) h1 h2
    (Ex'.row_legal D.M D.N (by decide) (by simp only [LegalW, D.mode, b1]; decide) (by simp only [LegalX, D.mode, b2]; decide)
      fun _ => ⟨b1, b2⟩)
    ⟨⟨⟨(1, 2), rfl, le_refl 1, le_refl 2, by rw [D.M, b3]; decide, by rw [D.N]; decide⟩, trivial⟩, fun mat m n ho => by
      simp only [Ex'.row, List.mem_cons, Op.write.injEq, reduceCtorEq, List.not_mem_nil, or_false] at ho
      rw [ho.2.1, D.M, b3]
      decide⟩
    Ex'.row_small ⟨by norm_num [testLoss], trivial⟩
  exact ⟨w₁, w₂, w', rs, h1, h2, h3, h4⟩

/-- For two columns and the resistance of the tests of I_UINT_W_OFFS this is less than 16. -/
example : lossError .iUintWOffs (-2 / 5) (1 / 1000) 2 < 16 := by norm_num [lossError, lossUnits, testLoss]

/-- The hypotheses of `C95_tc`. -/
example : ∃ w₁ : World ℚ, setConfig Ex.env (.good (analogFile .iTcWDiff)) world0 = .ok w₁ :=
  C85_analog_accepted rfl rfl rfl (.inl rfl) (by decide)

/-- Some bound on the columns is necessary: with 16 columns the result of BNN_I is 15. -/
theorem C95_false : ∃ w₁ w₂ w' : World ℚ, ∃ rs, setConfig Ex.env (.good (analogFile .bnn1)) world0 = .ok w₁ ∧
    updateConfig Ex.env (.good (wireUpdate (.num (-2 / 5)) (.num 1))) w₁ = .ok (w₂, 0) ∧
    serve Ex.env w₂ (Ex'.row 16 1 1) = .ok (w', rs, [0, 0]) ∧ rs.map (·.get 0) = [15] ∧
    ¬Answers [] (Ex'.row 16 1 1) rs := by
  have h : Ex.goes (setConfig Ex.env (.good (analogFile .bnn1)) world0) (fun w =>
      Ex.goes (updateConfig Ex.env (.good (wireUpdate (.num (-2 / 5)) (.num 1))) w) fun q => decide (q.2 = 0) &&
      Ex.goes (serve Ex.env q.1 (Ex'.row 16 1 1)) fun p => decide (p.2.2 = [0, 0] ∧ p.2.1.map (·.get 0) = [15])) = true := by
    decide +kernel
  obtain ⟨w₁, h1, h⟩ := Ex.goes_spec h
  obtain ⟨⟨w₂, z⟩, h2, h⟩ := Ex.goes_spec h
  rw [Bool.and_eq_true, decide_eq_true_iff] at h
  obtain ⟨rfl, h⟩ := h
  obtain ⟨⟨w', rs, cs⟩, h3, h⟩ := Ex.goes_spec h
  obtain ⟨rfl, h⟩ := of_decide_eq_true h
  refine ⟨w₁, w₂, w', rs, h1, h2, h3, h, fun ha => ?_⟩
  cases ha with
  | write ha =>
    cases ha with
    | mvm a ha =>
      cases ha
      have := a.head 0 (by decide)
      simp only [List.map_cons, List.map_nil, List.cons.injEq, and_true] at h
      rw [h] at this
      exact absurd this (by decide)

end Acs.Props
