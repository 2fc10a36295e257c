import Verif.Lemmas.AdcQuant

/-! # Multiplications without calibration data -/

set_option linter.unusedSectionVars false

namespace Acs

/-- The computation does not return normally. -/
def Never {α : Type} (x : C α) : Prop := ∀ a, x ≠ .ok a

section
variable {α β σ : Type}

theorem Never.err (e : Fault) : Never (.error e : C α) := fun _ h => by cases h

theorem Never.bind_left {x : C α} {f : α → C β} (h : Never x) : Never (x >>= f) := by
  intro b hb
  rw [bind_eq_ok] at hb
  obtain ⟨a, h1, _⟩ := hb
  exact h a h1

theorem Never.bind {x : C α} {f : α → C β} (h : ∀ a, Never (f a)) : Never (x >>= f) := by
  intro b hb
  rw [bind_eq_ok] at hb
  obtain ⟨a, _, h2⟩ := hb
  exact h a b h2

theorem Never.ite {p : Prop} [Decidable p] {x y : C α} (h : p → Never x) (h' : ¬p → Never y) :
    Never (if p then x else y) := by
  split
  · next hp => exact h hp
  · next hp => exact h' hp

theorem Never.loop {n : Nat} {f : Nat → σ → C σ} {s : σ} (hn : 0 < n) (h : ∀ i s, Never (f i s)) :
    Never (Acs.loop n f s) := by
  obtain ⟨k, rfl⟩ : ∃ k, n = k + 1 := ⟨n - 1, by omega⟩
  exact Never.bind fun s => h k s

theorem Never.updG {n : Nat} {f : Nat → α → C α} {v : Vec α} (hn : 0 < n)
    (h : ∀ i a, Never (f i a)) : Never (Acs.updG n f v) :=
  Never.loop hn fun i _ => Never.bind fun a => Never.bind_left (h i a)

theorem Never.accG {add : α → β → C α} {T N : Nat} {term : Nat → Nat → C β} {v : Vec α} (hT : 0 < T)
    (hN : 0 < N) (h : ∀ t n, Never (term t n)) : Never (Acs.accG add T N term v) :=
  Never.loop hT fun t _ => Never.loop hN fun n _ => Never.bind_left (h t n)

end

section
variable {K : Type} [Field K] [LinearOrder K] [IsStrictOrderedRing K] [FloorRing K]
variable {E : Env K} {cfg : Cfg K} {adc : Adc} {c : Core K} {a : Aux K} {m n : Nat} {l : String}
variable {vec res : Vec Int}

theorem never_conv1 (hk : adc.kind ≠ .inf) (hc : cfg.calibMode = .calib)
    (hl : cfg.calibDict.lookup l = none) (cur scale off : K) :
    Never (conv1 E cfg adc cur scale off l) := by
  have hq : Never (convQuant E cfg adc cur scale off l) := by
    unfold convQuant
    refine Never.bind_left ?_
    unfold getCurrents
    rw [hc, hl]
    exact Never.err _
  unfold conv1
  cases h : adc.kind
  · exact absurd h hk
  · exact hq
  · exact hq

theorem never_convVec (hk : ∀ x s o : K, Never (conv1 E cfg adc x s o l)) (hm : 0 < m)
    {hs : List (String × Hist K)} {v : Vec K} {s o : K} : Never (convVec E cfg adc hs v m s o l) := by
  unfold convVec
  refine Never.ite (fun _ => Never.err _) fun _ => Never.bind fun _ => Never.bind_left ?_
  exact Never.updG hm fun _ x => hk x s o

theorem never_intConv (hk : ∀ x s o : K, Never (conv1 E cfg c.adc x s o l)) {tmp : Vec K} {sg : K}
    {bit i s : Nat} : Never (intConv E cfg c tmp sg bit l i s) := by
  unfold intConv
  exact Never.bind fun _ => Never.bind fun _ => Never.bind fun _ => Never.bind fun _ =>
    Never.bind fun _ => hk _ _ _

theorem never_intBit (hk : ∀ x s o : K, Never (conv1 E cfg c.adc x s o l)) (hm : 0 < m)
    (hS : 0 < cfg.S) {v : Vec Int} {sg : K} {bit : Nat} {st : Vec Int × Vec K × Vec Int} :
    Never (intBit E cfg c v sg m n l bit st) := by
  unfold intBit
  exact Never.bind fun _ => Never.bind fun _ => Never.bind_left
    (Never.accG hm hS fun _ _ => never_intConv hk)

/-- Without calibration data no multiplication of a real converter returns. -/
theorem never_aMvm (hk : ∀ x s o : K, Never (conv1 E cfg c.adc x s o l)) (hm : 0 < m)
    (hS : c.mode.isInt = true → 0 < cfg.S ∧ 0 < cfg.iBit ∧ cfg.iBit + 1 < 4294967296) :
    Never (aMvm E cfg c a res vec m n l) := by
  unfold aMvm
  cases hmd : c.mode <;> simp only [hmd, Mode.isInt, Mode.family, beq_self_eq_true, reduceCtorEq,
    forall_const] at hS ⊢
  case iDiffWDiff1 | iDiffWDiff2 =>
    unfold aMvmIntI
    exact Never.bind fun _ => Never.bind fun _ => Never.bind_left
      (Never.loop hS.2.1 fun _ _ => never_intBit hk hm hS.1)
  case iOffsWDiff =>
    unfold aMvmIntII
    refine Never.bind fun _ => Never.bind_left (Never.loop ?_ fun _ _ => never_intBit hk hm hS.1)
    unfold u32succ
    omega
  case iTcWDiff =>
    unfold aMvmIntIII
    exact Never.bind fun _ => Never.bind fun _ => Never.bind fun _ => Never.bind fun _ =>
      Never.bind_left (Never.accG hm hS.1 fun _ _ => never_intConv hk)
  case iUintWDiff =>
    unfold aMvmIntIV
    exact Never.bind fun _ => Never.bind_left
      (Never.loop hS.2.1 fun _ _ => never_intBit hk hm hS.1)
  case iUintWOffs =>
    unfold aMvmIntV
    refine Never.bind fun _ => Never.bind fun _ => Never.bind_left (Never.loop hS.2.1 fun _ _ => ?_)
    unfold intBitV
    exact Never.bind fun _ => Never.bind fun _ => Never.bind_left
      (Never.accG hm hS.1 fun _ _ => never_intConv hk)
  case bnn1 =>
    unfold aMvmBnnI
    exact Never.bind fun _ => Never.bind fun _ => Never.bind fun _ => Never.bind_left (never_convVec hk hm)
  case bnn2 =>
    unfold aMvmBnnII
    exact Never.bind fun _ => Never.bind fun _ => Never.bind fun _ => Never.bind_left (never_convVec hk hm)
  case bnn3 =>
    unfold aMvmBnnIII bnn34Currents
    refine Never.bind_left ?_
    exact Never.bind fun _ => Never.bind fun _ => Never.bind fun _ => Never.bind fun _ =>
      Never.bind fun _ => Never.bind_left (never_convVec hk hm)
  case bnn4 =>
    unfold aMvmBnnIV bnn34Currents
    refine Never.bind_left ?_
    exact Never.bind fun _ => Never.bind fun _ => Never.bind fun _ => Never.bind fun _ =>
      Never.bind fun _ => Never.bind_left (never_convVec hk hm)
  case bnn5 =>
    unfold aMvmBnnV
    exact Never.bind fun _ => Never.bind fun _ => Never.bind fun _ => Never.bind fun _ =>
      Never.bind_left (never_convVec hk hm)
  case bnn6 =>
    unfold aMvmBnnVI
    exact Never.bind fun _ => Never.bind fun _ => Never.bind fun _ => Never.bind_left (never_convVec hk hm)
  case tnn1 =>
    unfold aMvmTnnI
    exact Never.bind fun _ => Never.bind fun _ => Never.bind fun _ => Never.bind_left (never_convVec hk hm)
  case tnn2 =>
    unfold aMvmTnnII
    exact Never.bind fun _ => Never.bind fun _ => Never.bind fun _ => Never.bind_left (never_convVec hk hm)
  case tnn3 =>
    unfold aMvmTnnIII
    exact Never.bind fun _ => Never.bind fun _ => Never.bind fun _ => Never.bind_left (never_convVec hk hm)
  case tnn4 =>
    unfold aMvmTnnIV tcSolve tcStep
    refine Never.ite (fun _ => Never.err _) fun _ => ?_
    refine Never.bind fun _ => Never.bind fun _ => Never.bind fun _ => Never.bind fun _ =>
      Never.bind fun _ => Never.bind fun _ => Never.ite (fun _ => Never.bind_left ?_)
        fun _ => Never.bind_left ?_
    · cases c.par
      · exact Never.err _
      · exact Never.bind fun _ => Never.bind fun _ => Never.bind fun _ =>
          Never.bind_left (never_convVec hk hm)
    · exact Never.bind fun _ => never_convVec hk hm
  case tnn5 =>
    unfold aMvmTnnV tcSolve tcStep
    refine Never.ite (fun _ => Never.err _) fun _ => ?_
    refine Never.bind fun _ => Never.bind fun _ => Never.bind fun _ => Never.bind fun _ =>
      Never.bind fun _ => Never.ite (fun _ => Never.bind_left ?_) fun _ => Never.bind_left ?_
    · cases c.par
      · exact Never.err _
      · exact Never.bind fun _ => Never.bind fun _ => Never.bind fun _ =>
          Never.bind_left (never_convVec hk hm)
    · exact Never.bind fun _ => never_convVec hk hm

theorem addC2C_core {mp mp' : Mapper K} (h : addC2C E cfg mp m n = .ok mp') :
    mp'.core.mode = mp.core.mode ∧ mp'.core.adc = mp.core.adc := by
  unfold addC2C at h
  rw [bind_eq_ok] at h
  obtain ⟨r, _, h⟩ := h
  rw [← (Except.ok.injEq _ _).mp h]
  exact ⟨rfl, rfl⟩

end

end Acs
